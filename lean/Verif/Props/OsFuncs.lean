import Verif.Lemmas.OsFuncs

/-!
C83: the functions on files.
-/

namespace Verif.Props
open Verif Verif.Text Verif.OsFuncs Verif.Lemmas Verif.Spec

/-- Whether the folder is made, or is not needed. -/
theorem save_folder (d : Disk) (cwd : Place) (file : Text) :
    ∀ d1, makeFolder d cwd (dirName file) = .ok d1 → d1 = d ∨ ∃ q, d q = none ∧ d1 = put d q (.dir 0o777) := by
  intro d1 h
  unfold makeFolder at h
  split at h
  · unfold mkdir at h
    split at h
    · cases h
    · rename_i q _
      split at h
      · cases h
      · rename_i hq
        injection h with h
        exact .inr ⟨q, hq, h.symm⟩
  · injection h with h
    exact .inl h.symm

theorem writeFile_ok {d d2 : Disk} {cwd : Place} {p : Text} {c : List UInt8} (h : writeFile d cwd p c = .ok d2) :
    ∃ q, locate d cwd p = .ok q ∧ ¬ IsFolder d q ∧ d2 = put d q (written d q c) := by
  unfold writeFile at h
  split at h
  · cases h
  · rename_i q hq
    refine ⟨q, hq, ?_⟩
    unfold written
    split at h
    · cases h
    · rename_i m _ hd
      injection h with h
      refine ⟨?_, ?_⟩
      · rintro ⟨m', hm⟩; rw [hd] at hm; cases hm
      · rw [hd]; exact h.symm
    · rename_i hd
      injection h with h
      refine ⟨?_, ?_⟩
      · rintro ⟨m', hm⟩; rw [hd] at hm; cases hm
      · rw [hd]; exact h.symm

/-- The forms that the end of `save` can have. -/
theorem save_cases (ff : Rat → Text) (d : Disk) (cwd : Place) (file : Text) (object : GoVal) :
    ((save ff d cwd file object).2 ≠ .ok ∧ ((save ff d cwd file object).1 = d ∨ ∃ q, d q = none ∧ (save ff d cwd file object).1 = put d q (.dir 0o777))) ∨
    ∃ d1 c q, (d1 = d ∨ ∃ q, d q = none ∧ d1 = put d q (.dir 0o777)) ∧ toSave ff object = some c ∧ locate d1 cwd file = .ok q ∧ ¬ IsFolder d1 q ∧
      save ff d cwd file object = (put d1 q (written d1 q c), .ok) := by
  have hf := save_folder d cwd file
  unfold save
  generalize makeFolder d cwd (dirName file) = r at hf ⊢
  cases r with
  | error e => exact .inl ⟨by simp, .inl rfl⟩
  | ok d1 =>
    have h1 := hf d1 rfl
    simp only
    cases hs : toSave ff object with
    | none => exact .inl ⟨by simp, h1⟩
    | some c =>
      simp only
      cases hw : writeFile d1 cwd file c with
      | error e => exact .inl ⟨by simp, h1⟩
      | ok d2 =>
        obtain ⟨q, h2, h3, h4⟩ := writeFile_ok hw
        exact .inr ⟨d1, c, q, h1, rfl, h2, h3, by rw [h4]⟩

/-- **C83**: what is saved can be loaded again, whatever the disk, the name and the object. -/
theorem C83_load (ff : Rat → Text) (d : Disk) (cwd : Place) (file : Text) (object : GoVal) (binary : List Bool) (hb : binary.length ≤ 1)
    (h : (save ff d cwd file object).2 = .ok) : ∃ c, toSave ff object = some c ∧ load (save ff d cwd file object).1 cwd file binary = some (.ok c) := by
  rcases save_cases ff d cwd file object with ⟨h1, _⟩ | ⟨d1, c, q, _, h2, h3, h4, h5⟩
  · exact absurd h h1
  · refine ⟨c, h2, ?_⟩
    unfold load readFile stat
    rw [if_pos hb, h5]
    simp only [locate_put h4 _ h3]
    have : put d1 q (written d1 q c) q = some (written d1 q c) := if_pos rfl
    rw [this]
    unfold written
    cases d1 q with
    | none => rfl
    | some i => cases i <;> rfl

/-- **C83**: whatever happens, only the file that is named changes; otherwise at most one folder is new, and it is empty. -/
theorem C83_frame (ff : Rat → Text) (d : Disk) (cwd : Place) (file : Text) (object : GoVal) :
    ∃ folder : Place, ∀ x,
      (save ff d cwd file object).1 x = d x ∨
      (x = folder ∧ d x = none ∧ (save ff d cwd file object).1 x = some (.dir 0o777)) ∨
      ((save ff d cwd file object).2 = .ok ∧ locate (save ff d cwd file object).1 cwd file = .ok x ∧ ¬ IsFolder d x) := by
  have made : ∀ d1 : Disk, (d1 = d ∨ ∃ q, d q = none ∧ d1 = put d q (.dir 0o777)) → ∃ folder : Place, ∀ x, d1 x = d x ∨ (x = folder ∧ d x = none ∧ d1 x = some (.dir 0o777)) := by
    rintro d1 (h | ⟨q, hq, h⟩)
    · exact ⟨[], fun x => .inl (by rw [h])⟩
    · refine ⟨q, fun x => ?_⟩
      by_cases hx : x = q
      · right
        subst hx
        exact ⟨rfl, hq, by rw [h]; exact if_pos rfl⟩
      · left
        rw [h]
        exact if_neg hx
  rcases save_cases ff d cwd file object with ⟨_, h1⟩ | ⟨d1, c, q, h1, _, h3, h4, h5⟩
  · obtain ⟨folder, hf⟩ := made _ h1
    exact ⟨folder, fun x => (hf x).elim .inl (fun h => .inr (.inl h))⟩
  · obtain ⟨folder, hf⟩ := made _ h1
    refine ⟨folder, fun x => ?_⟩
    rw [h5]
    by_cases hx : x = q
    · subst hx
      refine .inr (.inr ⟨rfl, locate_put h4 _ h3, ?_⟩)
      rintro ⟨m, hm⟩
      rcases hf x with h | ⟨_, h, _⟩
      · exact h4 ⟨m, h.trans hm⟩
      · rw [hm] at h; cases h
    · have : put d1 q (written d1 q c) x = d1 x := if_neg hx
      simp only [this]
      exact (hf x).elim .inl (fun h => .inr (.inl h))

/-- **C83**: an ordinary path is saved exactly if its folder exists, or can be made in a folder that exists, and the path is not a folder; the disk has then the new file, and the new folder if it is made; otherwise nothing changes. -/
theorem C83_save (ff : Rat → Text) (d : Disk) (hd : DiskOk d) (cwd : Place) (hc : IsFolder d cwd) (abs : Bool) (names : List Text) (name : Text) (hn : Names (names ++ [name]))
    (object : GoVal) (content : List UInt8) (ho : toSave ff object = some content) :
    let folder := (if abs then [] else cwd) ++ names
    let place := folder ++ [name]
    let r := save ff d cwd (ordinary abs (names ++ [name])) object
    let good := ¬ IsFolder d place ∧ (IsFolder d folder ∨ d folder = none ∧ names ≠ [] ∧ IsFolder d folder.dropLast)
    (r.2 = .ok ↔ good) ∧ (good → ∀ x, r.1 x = if x = place then some (written d place content) else if x = folder ∧ d x = none then some (.dir 0o777) else d x) ∧ (¬ good → r.1 = d) ∧ DiskOk r.1 := by
  intro folder place r good
  have hnames : Names names := fun x hx => hn x (by simp [hx])
  have hbase : IsFolder d (base cwd abs) := by unfold base; split; exact hd.1; exact hc
  have hl1 : ∀ d' : Disk, DiskOk d' → locate d' cwd (ordinary abs (names ++ [name])) = walk d' (base cwd abs) (names ++ [name]) := fun d' h' => locate_ordinary h' cwd abs (by simp) hn
  have hl2 : locate d cwd (dirName (ordinary abs (names ++ [name]))) = walk d (base cwd abs) names := locate_folder hd cwd hc abs hn
  have hbf : base cwd abs ++ names = folder := rfl
  -- writing in a folder that exists
  have write : ∀ d' : Disk, DiskOk d' → IsFolder d' folder →
      writeFile d' cwd (ordinary abs (names ++ [name])) content = if (d' place).any Item.isDir then .error .isDir else .ok (put d' place (written d' place content)) := by
    intro d' h' hf'
    unfold writeFile written
    have hwk : walk d' (base cwd abs) (names ++ [name]) = .ok place := walk_in h' hn hf'
    rw [hl1 d' h', hwk]
    simp only
    cases d' place with
    | none => rfl
    | some i => cases i <;> rfl
  have anyDir : ∀ d' : Disk, ∀ q, (d' q).any Item.isDir = true ↔ IsFolder d' q := by
    intro d' q
    unfold IsFolder
    cases d' q with
    | none => simp
    | some i => cases i <;> simp [Item.isDir]
  -- no folder, no file
  have nowrite : ¬ IsFolder d folder → ∃ e, writeFile d cwd (ordinary abs (names ++ [name])) content = .error e := by
    intro h
    obtain ⟨e, he⟩ := walk_out (n := name) hnames (hbf ▸ h)
    exact ⟨e, by unfold writeFile; rw [hl1 d hd, he]⟩
  have err : ∀ d1 e, r = (d1, .error e) → r.2 ≠ .ok := by intro d1 e h; rw [h]; simp
  have hr : r = save ff d cwd (ordinary abs (names ++ [name])) object := rfl
  unfold save makeFolder at hr
  cases hfo : d folder with
  | some i =>
    have hst : stat d cwd (dirName (ordinary abs (names ++ [name]))) = .ok i := by
      unfold stat
      rw [hl2, walk_exists hd hnames (by rw [hbf, hfo]; simp), hbf]
      simp only [hfo]
    rw [hst] at hr
    simp only [ho] at hr
    cases i with
    | file m c =>
      have hnf : ¬ IsFolder d folder := by rintro ⟨m, hm⟩; rw [hfo] at hm; cases hm
      obtain ⟨e, he⟩ := nowrite hnf
      rw [he] at hr
      have hg : ¬ good := by
        rintro ⟨_, h | ⟨h, _⟩⟩
        · exact hnf h
        · rw [hfo] at h; cases h
      exact ⟨⟨fun h => absurd h (err _ _ hr), fun h => absurd h hg⟩, fun h => absurd h hg, fun _ => by rw [hr], by rw [hr]; exact hd⟩
    | dir m =>
      have hif : IsFolder d folder := ⟨m, hfo⟩
      rw [write d hd hif] at hr
      by_cases hp : IsFolder d place
      · rw [if_pos ((anyDir d place).2 hp)] at hr
        have hg : ¬ good := fun h => h.1 hp
        exact ⟨⟨fun h => absurd h (err _ _ hr), fun h => absurd h hg⟩, fun h => absurd h hg, fun _ => by rw [hr], by rw [hr]; exact hd⟩
      · rw [if_neg (fun h => hp ((anyDir d place).1 h))] at hr
        have hg : good := ⟨hp, .inl hif⟩
        refine ⟨⟨fun _ => hg, fun _ => by rw [hr]⟩, fun _ x => ?_, fun h => absurd hg h, by rw [hr]; exact diskOk_put hd hif (fun m hm => hp ⟨m, hm⟩) _⟩
        rw [hr]
        show (if x = place then _ else d x) = _
        by_cases hx : x = place
        · rw [if_pos hx, if_pos hx]
        · rw [if_neg hx, if_neg hx, if_neg]
          rintro ⟨e, h⟩
          rw [e, hfo] at h; cases h
  | none =>
    have hnf : ¬ IsFolder d folder := by rintro ⟨m, hm⟩; rw [hfo] at hm; cases hm
    have hne : names ≠ [] := by
      intro h
      apply hnf
      have : folder = base cwd abs := by rw [← hbf, h, List.append_nil]
      rw [this]; exact hbase
    obtain ⟨gs, g, hgs⟩ : ∃ gs g, names = gs ++ [g] := ⟨_, _, (List.dropLast_concat_getLast hne).symm⟩
    have hdrop : folder.dropLast = base cwd abs ++ gs := by
      rw [← hbf, hgs, ← List.append_assoc, List.dropLast_concat]
    by_cases hpar : IsFolder d folder.dropLast
    · have hw : walk d (base cwd abs) names = .ok folder := by
        rw [hgs, walk_in hd (hgs ▸ hnames) (hdrop ▸ hpar), ← hbf, hgs, List.append_assoc]
      have hst : stat d cwd (dirName (ordinary abs (names ++ [name]))) = .error .missing := by
        unfold stat
        rw [hl2, hw]
        simp only [hfo]
      have hmk : mkdir d cwd (dirName (ordinary abs (names ++ [name]))) = .ok (put d folder (.dir 0o777)) := by
        unfold mkdir
        rw [hl2, hw]
        simp only [hfo]
      rw [hst] at hr
      simp only [hmk, ho] at hr
      have hfe : folder = folder.dropLast ++ [g] := by rw [hdrop, ← hbf, hgs, List.append_assoc]
      have hd1 : DiskOk (put d folder (.dir 0o777)) := by
        have := diskOk_put hd hpar (e := g) (by rw [← hfe, hfo]; simp) (.dir 0o777)
        rwa [← hfe] at this
      have hif1 : IsFolder (put d folder (.dir 0o777)) folder := ⟨_, if_pos rfl⟩
      rw [write _ hd1 hif1] at hr
      have hpn : d place = none := by
        cases h : d place with
        | none => rfl
        | some i => exact absurd (hd.2 folder name (by rw [show folder ++ [name] = place from rfl, h]; simp)) hnf
      have hpf : place ≠ folder := by
        intro h
        have := congrArg List.length h
        simp [place] at this
      have hpn1 : put d folder (.dir 0o777) place = none := by
        unfold put
        rw [if_neg hpf, hpn]
      have hnp : ¬ IsFolder (put d folder (.dir 0o777)) place := by rintro ⟨m, hm⟩; rw [hpn1] at hm; cases hm
      rw [if_neg (fun h => hnp ((anyDir _ place).1 h))] at hr
      have hg : good := ⟨(by rintro ⟨m, hm⟩; rw [hpn] at hm; cases hm), .inr ⟨hfo, hne, hpar⟩⟩
      refine ⟨⟨fun _ => hg, fun _ => by rw [hr]⟩, fun _ x => ?_, fun h => absurd hg h, by rw [hr]; exact diskOk_put hd1 hif1 (fun m hm => hnp ⟨m, hm⟩) _⟩
      rw [hr]
      show (if x = place then some (written (put d folder (.dir 0o777)) place content) else if x = folder then _ else d x) = _
      by_cases hx : x = place
      · rw [if_pos hx, if_pos hx]
        unfold written
        rw [hpn1, hpn]
      · rw [if_neg hx, if_neg hx]
        by_cases hx2 : x = folder
        · rw [if_pos hx2, if_pos ⟨hx2, hx2 ▸ hfo⟩]
        · rw [if_neg hx2, if_neg (fun h => hx2 h.1)]
    · have hg : ¬ good := by
        rintro ⟨_, h | ⟨_, _, h⟩⟩
        · exact hnf h
        · exact hpar h
      obtain ⟨e, he⟩ := walk_out (n := g) (fun x hx => hnames x (by rw [hgs]; simp [hx])) (hdrop ▸ hpar)
      rw [← hgs] at he
      have hfail : ∃ e, r = (d, .error e) := by
        have hst : stat d cwd (dirName (ordinary abs (names ++ [name]))) = .error e := by
          unfold stat
          rw [hl2, he]
        have hmk : mkdir d cwd (dirName (ordinary abs (names ++ [name]))) = .error e := by
          unfold mkdir
          rw [hl2, he]
        obtain ⟨e', he'⟩ := nowrite hnf
        rw [hst] at hr
        cases e <;> simp only [hmk, ho, he'] at hr <;> exact ⟨_, hr⟩
      obtain ⟨e2, hr2⟩ := hfail
      exact ⟨⟨fun h => absurd h (err _ _ hr2), fun h => absurd h hg⟩, fun h => absurd h hg, fun _ => by rw [hr2], by rw [hr2]; exact hd⟩

/-- The bytes of a text give the text. -/
theorem bytes_inj {a b : Text} (h : bytes a = bytes b) : a = b := by
  have e : ∀ l : Text, l.utf8Encode = (bytes l).toByteArray := fun l => rfl
  have : a.utf8Encode = b.utf8Encode := by rw [e, e, h]
  have h2 := congrArg ByteArray.utf8Decode? this
  rw [List.utf8Decode?_utf8Encode, List.utf8Decode?_utf8Encode] at h2
  injection h2 with h2
  exact congrArg Array.toList h2

theorem convertElems_bytes (l : List UInt8) : GoVal.convertElems (l.map fun b => .uint .u8 b.toNat) = some (l.map fun b => .uint .u8 b.toNat) := by
  induction l with
  | nil => rfl
  | cons b l ih => simp only [List.map_cons, GoVal.convertElems, GoVal.convert, ih, GoVal.consM]

theorem allBytes_bytes (l : List UInt8) : allBytes (l.map fun b => .uint .u8 b.toNat) = some l := by
  induction l with
  | nil => rfl
  | cons b l ih => simp [allBytes, ih]

/-- **C83**: a text is saved as it is, a list of bytes as these bytes, and another value that is no list as it is printed. -/
theorem C83_content (ff : Rat → Text) :
    (∀ named s, toSave ff (.str named s) = some (bytes s)) ∧
    (∀ ty (l : List UInt8), toSave ff (.slice ty (l.map fun b => .uint .u8 b.toNat)) = some l) ∧
    (∀ v, v ≠ .nil → v ≠ .nilptr → (∀ o, v ≠ .ptr o) → (∀ ty es, v ≠ .slice ty es) → toSave ff v = some (bytes (v.print ff))) := by
  refine ⟨fun _ _ => rfl, fun ty l => ?_, fun v h1 h2 h3 h4 => ?_⟩
  · have : GoVal.convert (.slice ty (l.map fun b => .uint .u8 b.toNat)) = some (.slice .coll (l.map fun b => .uint .u8 b.toNat)) := by
      simp only [GoVal.convert, GoVal.convertSlice, convertElems_bytes, Option.map_some]
      split <;> rfl
    simp only [toSave, tryAsList, this, asElems, allBytes_bytes, Option.getD_some]
  · cases v <;> first
      | rfl
      | exact absurd rfl h1
      | exact absurd rfl h2
      | exact absurd rfl (h3 _)
      | exact absurd rfl (h4 _ _)

/-- **C83**: a list with an element that is a scalar and not a byte is saved as it is printed. -/
theorem C83_list (ff : Rat → Text) (ty : NodeTy) (es : List GoVal) (es' : List GoVal) (hc : GoVal.convert (.slice ty es) = some (.slice .coll es')) (h : ∃ v ∈ es', ∀ n, v ≠ .uint .u8 n) :
    toSave ff (.slice ty es) = some (bytes (GoVal.print ff (.slice ty es))) := by
  have key : allBytes es' = none := by
    obtain ⟨v, hv, hb⟩ := h
    clear hc
    induction es' with
    | nil => cases hv
    | cons w es' ih =>
      rcases List.mem_cons.1 hv with e | hv
      · subst e
        unfold allBytes
        split
        · rename_i e; cases e
        · rename_i n _ e
          injection e with e _
          exact absurd e (hb n)
        · rfl
      · unfold allBytes
        split
        · rename_i e; cases e
        · rename_i n _ e
          injection e with _ e
          rw [← e, ih hv]; rfl
        · rfl
  simp only [toSave, tryAsList, hc, asElems, key, Option.getD_none]

/-- **C83**: the tests agree with each other. For what is there, one of `isDir` and `isFile` is true and what can be executed is a file; for what is missing `exists` is false and the others are errors. -/
theorem C83_tests (d : Disk) (cwd : Place) (file : Text) :
    (∀ i, stat d cwd file = .ok i → fileExists d cwd file = .ok true ∧ (∃ b, isDir d cwd file = .ok b ∧ isFile d cwd file = .ok (!b)) ∧
      (isExecutable d cwd file = .ok true → isFile d cwd file = .ok true)) ∧
    (stat d cwd file = .error .missing → fileExists d cwd file = .ok false ∧ isDir d cwd file = .error .missing ∧ isFile d cwd file = .error .missing ∧
      isReadable d cwd file = .error .missing ∧ isWriteable d cwd file = .error .missing ∧ isExecutable d cwd file = .error .missing) := by
  refine ⟨fun i h => ?_, fun h => ?_⟩
  · unfold fileExists isFile isExecutable isDir
    rw [h]
    refine ⟨rfl, ⟨i.isDir, rfl, rfl⟩, fun hx => ?_⟩
    simp only [Except.map, Except.ok.injEq, Bool.and_eq_true] at hx ⊢
    exact hx.2
  · unfold fileExists isFile isExecutable isReadable isWriteable isDir
    rw [h]
    exact ⟨rfl, rfl, rfl, rfl, rfl, rfl⟩

theorem and_bit (n k : Nat) : (n &&& 2 ^ k != 0) = (n / 2 ^ k % 2 == 1) := by
  have h1 : n.testBit k = (n / 2 ^ k % 2 == 1) := by
    rw [Nat.testBit_eq_decide_div_mod_eq]
    rfl
  rw [← h1]
  cases hb : n.testBit k with
  | true =>
    have : n &&& 2 ^ k ≠ 0 := by
      intro h
      have h2 : (n &&& 2 ^ k).testBit k = false := by rw [h]; exact Nat.zero_testBit k
      rw [Nat.testBit_and, hb, Nat.testBit_two_pow_self] at h2
      cases h2
    simp [this]
  | false =>
    have : n &&& 2 ^ k = 0 := by
      apply Nat.eq_of_testBit_eq
      intro i
      rw [Nat.testBit_and, Nat.zero_testBit, Nat.testBit_two_pow]
      by_cases hi : k = i
      · subst hi; rw [hb]; rfl
      · simp [hi]
    rw [this]
    rfl

/-- **C83**: the tests of permissions look at the permissions of the owner (reading is 256, writing 128, execution 64), and a folder cannot be executed. -/
theorem C83_permissions (d : Disk) (cwd : Place) (file : Text) :
    (∀ m c, stat d cwd file = .ok (.file m c) → isReadable d cwd file = .ok (m / 256 % 2 == 1) ∧ isWriteable d cwd file = .ok (m / 128 % 2 == 1) ∧
      isExecutable d cwd file = .ok (m / 64 % 2 == 1)) ∧
    (∀ m, stat d cwd file = .ok (.dir m) → isReadable d cwd file = .ok (m / 256 % 2 == 1) ∧ isWriteable d cwd file = .ok (m / 128 % 2 == 1) ∧
      isExecutable d cwd file = .ok false) := by
  refine ⟨fun m c h => ?_, fun m h => ?_⟩
  · unfold isReadable isWriteable isExecutable
    rw [h]
    refine ⟨congrArg _ (and_bit m 8), congrArg _ (and_bit m 7), ?_⟩
    simp only [Except.map, Item.mode, Item.isDir, Bool.not_false, Bool.and_true]
    exact congrArg _ (and_bit m 6)
  · unfold isReadable isWriteable isExecutable
    rw [h]
    refine ⟨congrArg _ (and_bit m 8), congrArg _ (and_bit m 7), ?_⟩
    simp only [Except.map, Item.isDir, Bool.not_true, Bool.and_false]

/-- **C83**: going into a folder and back with two dots leads to the same place. -/
theorem C83_back (d : Disk) (cwd : Place) (e p : Text) (he : FileName e) (h1 : IsFolder d cwd) (h2 : IsFolder d (cwd ++ [e])) (hp : p ≠ [])
    (ha : Path.isAbs p = false) : stat d cwd (e ++ T "/../" ++ p) = stat d cwd p := by
  obtain ⟨m1, h1⟩ := h1
  obtain ⟨m2, h2⟩ := h2
  obtain ⟨n1, n2, n3, n4⟩ := he
  have hloc : locate d cwd (e ++ T "/../" ++ p) = locate d cwd p := by
    have hs : splitC '/' (e ++ T "/../" ++ p) = e :: ['.', '.'] :: splitC '/' p := by
      have e1 : e ++ T "/../" ++ p = e ++ '/' :: (['.', '.'] ++ '/' :: p) := by simp [T]
      rw [e1, splitC_cut, splitC_of_not_mem n4, splitC_cut, splitC_of_not_mem (by decide)]; rfl
    have ha' : Path.isAbs (e ++ T "/../" ++ p) = false := by
      cases e with
      | nil => exact absurd rfl n1
      | cons c e =>
        have : c ≠ '/' := fun h => n4 (by simp [h])
        simp [Path.isAbs, hasPrefix, dropPrefix?, this.symm]
    unfold locate
    rw [if_neg (by simp [T]), if_neg hp, hs, ha, ha']
    have hn : next cwd e = cwd ++ [e] := by
      unfold next
      rw [if_neg (by rintro (h | h); exact n1 h; exact n2 h), if_neg (show ¬ e = ['.', '.'] from n3)]
    have hb : next (cwd ++ [e]) ['.', '.'] = cwd := by
      unfold next
      rw [if_neg (by decide), if_pos rfl, List.dropLast_concat]
    simp only [walk, h1, hn, h2, hb, Bool.false_eq_true, if_false]
  unfold stat
  rw [hloc]

/-- **C83**: for an ordinary path, `exists` tells whether there is something at the place, unless a file is on the way. -/
theorem C83_exists (d : Disk) (hd : DiskOk d) (cwd : Place) (abs : Bool) (names : List Text) (hn : Names names) (h0 : names ≠ []) :
    let place := (if abs then [] else cwd) ++ names
    (d place ≠ none → fileExists d cwd (ordinary abs names) = .ok true) ∧
    (fileExists d cwd (ordinary abs names) = .ok true → d place ≠ none) ∧
    (∀ e, fileExists d cwd (ordinary abs names) = .error e → e = .notDir) := by
  intro place
  have hl := locate_ordinary hd cwd abs h0 hn
  have hp : base cwd abs ++ names = place := rfl
  refine ⟨fun h => ?_, fun h => ?_, fun e h => ?_⟩
  · unfold fileExists stat
    rw [hl, walk_exists hd hn (hp ▸ h), hp]
    cases hx : d place with
    | none => exact absurd hx h
    | some i => simp only [hx]
  · unfold fileExists stat at h
    rw [hl] at h
    cases hw : walk d (base cwd abs) names with
    | error e => rw [hw] at h; cases e <;> cases h
    | ok q =>
      rw [hw, walk_place hn hw, hp] at h
      intro hx
      simp only [hx] at h
      cases h
  · have errs : ∀ (es : List Text) cur e, walk d cur es = .error e → e = .missing ∨ e = .notDir := by
      intro es
      induction es with
      | nil => intro cur e h; cases h
      | cons x es ih =>
        intro cur e h
        simp only [walk] at h
        cases hd : d cur with
        | none => rw [hd] at h; injection h with h; exact .inl h.symm
        | some i =>
          rw [hd] at h
          cases i with
          | file => injection h with h; exact .inr h.symm
          | dir m => exact ih _ _ h
    unfold fileExists stat at h
    rw [hl] at h
    cases hw : walk d (base cwd abs) names with
    | error e' =>
      rw [hw] at h
      rcases errs _ _ _ hw with e1 | e1
      · rw [e1] at h; cases h
      · rw [e1] at h; injection h with h; exact h.symm
    | ok q =>
      rw [hw] at h
      cases hx : d q with
      | none => simp only [hx] at h; cases h
      | some i => simp only [hx] at h; cases h

/-- The disk of the examples: a root and a file. -/
def small : Disk := fun q => if q = [] then some (.dir 0o755) else if q = [T "f"] then some (.file 0o600 [1]) else none

theorem small_ok : DiskOk small := by
  refine ⟨⟨_, rfl⟩, fun q e h => ?_⟩
  unfold small at h
  rw [if_neg (by simp)] at h
  by_cases hq : q ++ [e] = [T "f"]
  · have : q = [] := (List.append_inj' (s₁ := q) (s₂ := []) hq rfl).1
    rw [this]
    exact ⟨_, rfl⟩
  · rw [if_neg hq] at h
    exact absurd rfl h

/-- **C83**, not what is printed: nil and the empty list are saved as nothing. -/
theorem C83_not_printed (ff : Rat → Text) (ty : NodeTy) :
    toSave ff .nil = some [] ∧ GoVal.print ff .nil = T "<nil>" ∧ toSave ff (.slice ty []) = some [] ∧ GoVal.print ff (.slice ty []) = T "[]" := by
  refine ⟨rfl, rfl, ?_, rfl⟩
  cases ty <;> rfl

/-- **C83**: `load` gives the bytes of a file; a folder, and what does not exist, is an error. -/
theorem C83_load_cases (d : Disk) (cwd : Place) (file : Text) (binary : List Bool) (hb : binary.length ≤ 1) :
    (∀ m c, stat d cwd file = .ok (.file m c) → load d cwd file binary = some (.ok c)) ∧
    (∀ m, stat d cwd file = .ok (.dir m) → load d cwd file binary = some (.error .isDir)) ∧
    (∀ e, stat d cwd file = .error e → load d cwd file binary = some (.error e)) := by
  unfold load readFile
  rw [if_pos hb]
  refine ⟨fun m c h => ?_, fun m h => ?_, fun e h => ?_⟩ <;> rw [h]

/-- **C83**, not every value: `save` panics on a pointer that is nil (a missing folder is made before that). -/
theorem C83_not_nil_pointer (ff : Rat → Text) : toSave ff .nilptr = none := rfl

/-- **C83**, not deep: a file is not saved when two folders are missing. -/
theorem C83_not_deep (ff : Rat → Text) (object : GoVal) : save ff small [] (T "a/b/c") object = (small, .error .missing) := rfl

/-- **C83**, not undone: a path that ends with a slash is an error, and the folder is made. -/
theorem C83_not_undone (ff : Rat → Text) : (save ff small [] (T "a/") (.str false (T "x"))).2 = .error .isDir ∧
    (save ff small [] (T "a/") (.str false (T "x"))).1 [T "a"] = some (.dir 0o777) := ⟨rfl, rfl⟩

/-- **C83**, not a test: below a file, `exists` is an error. -/
theorem C83_not_false : fileExists small [] (T "f/x") = .error .notDir := rfl

example : Names [T "a", T "b"] ∧ DiskOk small ∧ IsFolder small [] := by
  refine ⟨?_, small_ok, ⟨_, rfl⟩⟩
  intro e he
  simp only [List.mem_cons, List.not_mem_nil, or_false] at he
  rcases he with rfl | rfl <;> refine ⟨?_, ?_, ?_, ?_⟩ <;> decide
example (ff : Rat → Text) : (save ff small [] (T "a/b") (.str false (T "x"))).2 = .ok := rfl
example (ff : Rat → Text) : load (save ff small [] (T "a/b") (.str false (T "x"))).1 [] (T "a/b") [] = some (.ok [120]) := rfl

example (ff : Rat → Text) : toSave ff (.slice .any [.uint .u8 1, .int .int 2]) = some (bytes (GoVal.print ff (.slice .any [.uint .u8 1, .int .int 2]))) :=
  C83_list ff .any _ _ rfl ⟨.int .int 2, by simp, by simp⟩

/-- A folder with a folder and a file in it. -/
private def nested : Disk := fun q =>
  if q = [] then some (.dir 0o755) else if q = [T "sub"] then some (.dir 0o755) else if q = [T "f"] then some (.file 0o600 [1]) else none

example : stat nested [] (T "sub" ++ T "/../" ++ T "f") = stat nested [] (T "f") ∧ stat nested [] (T "f") = .ok (.file 0o600 [1]) :=
  ⟨C83_back nested [] (T "sub") (T "f") (by refine ⟨?_, ?_, ?_, ?_⟩ <;> decide) ⟨_, rfl⟩ ⟨_, rfl⟩ (by decide) rfl, rfl⟩


end Verif.Props
