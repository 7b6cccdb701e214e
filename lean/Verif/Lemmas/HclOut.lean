import Verif.Lemmas.HclRead
import Verif.Lemmas.HclMark
/-!
# Lemmas on the HCL output
-/

namespace Verif
namespace Lemmas
open Spec Text HclOut

theorem renderElems_map (pr : Char → Bool) (full : Bool) (indent : Text) (l : List Value) :
    renderElems pr full indent l = l.map (render pr full indent) := by
  induction l with
  | nil => rfl
  | cons v l ih => simp [renderElems, ih]

theorem renderEntries_map (pr : Char → Bool) (full : Bool) (indent : Text) (d : List (Text × Value)) :
    renderEntries pr full indent d = d.map (fun e => (e.1, e.2, render pr full indent e.2)) := by
  induction d with
  | nil => rfl
  | cons e d ih => obtain ⟨k, v⟩ := e; simp [renderEntries, ih]

theorem dataElems_map (l : List Value) : dataElems l = l.map dataOf := by
  induction l with
  | nil => rfl
  | cons v l ih => simp [dataElems, ih]

theorem dataEntries_map (d : List (Text × Value)) : dataEntries d = d.map (fun e => (e.1, dataOf e.2)) := by
  induction d with
  | nil => rfl
  | cons e d ih => obtain ⟨k, v⟩ := e; simp [dataEntries, ih]

theorem canonElems_map (l : List HData) : HData.canonElems l = l.map HData.canon := by
  induction l with
  | nil => rfl
  | cons v l ih => simp [HData.canonElems, ih]

theorem canonEntries_map (d : List (Text × HData)) : HData.canonEntries d = d.map (fun e => (e.1, e.2.canon)) := by
  induction d with
  | nil => rfl
  | cons e d ih => obtain ⟨k, v⟩ := e; simp [HData.canonEntries, ih]

/-! ## Entries -/

theorem lexes_key_eq {pr : Char → Bool} {k x y r : Text} {ts} (hk : QuotedKey k) (hx : ∀ c ∈ x, HWhite c) (hy : ∀ c ∈ y, HWhite c) (hr : Lexes r ts) :
    Lexes (Hcl.id pr k ++ (x ++ '=' :: (y ++ r))) (keyTok k :: .punct '=' :: ts) := by
  refine lexes_append (ta := [keyTok k]) (lexes_id pr hk) ?_ ?_
  · exact lexes_whites hx (lexes_punct (by decide) (lexes_whites hy hr))
  · cases x with
    | nil => exact cut_cons (by decide)
    | cons c x => exact cut_cons (white_cut (hx c (by simp)))

theorem lexes_key_tail {pr : Char → Bool} {k x r : Text} {ts} (hk : QuotedKey k) (hx : ∀ c ∈ x, HWhite c) (hc : x ≠ [] ∨ Cut r) (hr : Lexes r ts) :
    Lexes (Hcl.id pr k ++ (x ++ r)) (keyTok k :: ts) := by
  refine lexes_append (ta := [keyTok k]) (lexes_id pr hk) (lexes_whites hx hr) ?_
  cases x with
  | nil => exact hc.elim (fun h => absurd rfl h) id
  | cons c x => exact cut_cons (white_cut (hx c (by simp)))

/-- What is known of a rendered value. -/
structure Good (full lined : Bool) (v : Value) (r : Text) : Prop where
  val : ¬ (full = true ∧ Labelled v) → ∃ ts d, Lexes r ts ∧ PVal ts d ∧ d.canon = (dataOf v).canon
  tail : ∀ dd, v = .dict dd → ∃ ts d, Lexes r ts ∧ PBlock ts d ∧ d.canon = (dataOf v).canon
  mark : HclUnmarked r
  null : v = .nil → r = T "null"
  line : lined = true → (∃ dd, v = .dict dd) → ¬ EmptyBlock v → '\n' ∈ r

theorem contains_newline {r : Text} : contains (T "\n") r = true ↔ '\n' ∈ r := by
  rw [contains_iff]
  constructor
  · intro h; exact h.subset (by decide)
  · intro h
    obtain ⟨a, b, rfl⟩ := List.append_of_mem h
    exact ⟨a, b, by simp [T]⟩

theorem blanks_white (n : Nat) : ∀ c ∈ List.replicate n ' ', HWhite c := fun c hc => by
  rw [List.mem_replicate] at hc; exact .inl hc.2

theorem length_le_byteLen (t : Text) : t.length ≤ byteLen t := by
  induction t with
  | nil => simp
  | cons c t ih => simp only [List.length_cons, byteLen]; have := Char.utf8Size_pos c; omega

/-- The text of an entry is a key and what follows it. -/
theorem entry_reads {pr : Char → Bool} {full : Bool} {indent k r : Text} {v : Value} (w : Nat) (hk : QuotedKey k)
    (hg : Good full (decide (indent ≠ [])) v r) (hb : full = true → BlockEntry (decide (indent ≠ [])) v) :
    ∃ tail d, Lexes (entryText pr indent (equalSign full (contains (T "\n") r) indent v) k r w) (keyTok k :: tail) ∧ PTail tail d ∧
      d.canon = (dataOf v).canon ∧ HclUnmarked (entryText pr indent (equalSign full (contains (T "\n") r) indent v) k r w) := by
  have hm : contains marker r = false := by
    rw [Bool.eq_false_iff]; intro h; exact hg.mark (contains_iff.1 h)
  generalize hw : entryWidth pr indent (equalSign full (contains (T "\n") r) indent v) k r w = w'
  -- an equal sign
  have eqCase : ∀ x y : Text, (∀ c ∈ x, HWhite c) → (∀ c ∈ y, HWhite c) → ¬ (full = true ∧ Labelled v) →
      equalSign full (contains (T "\n") r) indent v = x ++ '=' :: y →
      ∃ tail d, Lexes (entryText pr indent (equalSign full (contains (T "\n") r) indent v) k r w) (keyTok k :: tail) ∧ PTail tail d ∧
        d.canon = (dataOf v).canon ∧ HclUnmarked (entryText pr indent (equalSign full (contains (T "\n") r) indent v) k r w) := by
    intro x y hx hy hl he
    obtain ⟨ts, d, h1, h2, h3⟩ := hg.val hl
    have hte : entryText pr indent (equalSign full (contains (T "\n") r) indent v) k r w =
        Hcl.id pr k ++ ((List.replicate (w' - (Hcl.id pr k).length) ' ' ++ x) ++ '=' :: (y ++ r)) := by
      unfold entryText padRight
      rw [hm, hw, he]
      simp
    have hx' : ∀ c ∈ List.replicate (w' - (Hcl.id pr k).length) ' ' ++ x, HWhite c := fun c hc =>
      (List.mem_append.1 hc).elim (blanks_white _ c) (hx c)
    refine ⟨.punct '=' :: ts, d, ?_, pTail_eq h2, h3, ?_⟩
    · rw [hte]; exact lexes_key_eq hk hx' hy h1
    · rw [hte]
      have hmw : ∀ {c}, HWhite c → c ∉ marker := by rintro c (rfl | rfl | rfl) <;> decide
      have hr : HclUnmarked ('=' :: (y ++ r)) := noMark_cons (by decide) (noMark_append_left (fun c hc => hmw (hy c hc)) hg.mark)
      generalize hX : List.replicate (w' - (Hcl.id pr k).length) ' ' ++ x = X at hx'
      cases X with
      | nil => exact noMark_glue (by decide) (noMark_id pr hk) (noMark_append_left (fun c hc => hmw (hy c hc)) hg.mark)
      | cons c X =>
        refine noMark_glue (hmw (hx' c (by simp))) (noMark_id pr hk) (noMark_append_left (fun c hc => hmw (hx' c (List.mem_cons_of_mem _ hc))) hr)
  have tailCase : ∀ dd, v = .dict dd → (∀ c ∈ equalSign full (contains (T "\n") r) indent v, HWhite c) →
      (equalSign full (contains (T "\n") r) indent v = [] → indent = []) →
      ∃ tail d, Lexes (entryText pr indent (equalSign full (contains (T "\n") r) indent v) k r w) (keyTok k :: tail) ∧ PTail tail d ∧
        d.canon = (dataOf v).canon ∧ HclUnmarked (entryText pr indent (equalSign full (contains (T "\n") r) indent v) k r w) := by
    intro dd hd he hi
    obtain ⟨ts, d, h1, h2, h3⟩ := hg.tail dd hd
    generalize hE : equalSign full (contains (T "\n") r) indent v = E at *
    have hte : entryText pr indent E k r w =
        Hcl.id pr k ++ ((List.replicate (w' - (Hcl.id pr k).length) ' ' ++ E) ++ r) := by
      unfold entryText padRight
      rw [hm, hw]
      simp
    have hx' : ∀ c ∈ List.replicate (w' - (Hcl.id pr k).length) ' ' ++ E, HWhite c := fun c hc =>
      (List.mem_append.1 hc).elim (blanks_white _ c) (he c)
    have hne : (List.replicate (w' - (Hcl.id pr k).length) ' ' ++ E) = [] → ∃ t, r = '{' :: t := by
      intro h
      rw [List.append_eq_nil_iff] at h
      have hi' := hi h.2
      have hlen := length_le_byteLen (Hcl.id pr k)
      by_cases hp : hasPrefix (T "{") r = true
      · obtain ⟨t, ht⟩ := hasPrefix_iff.1 hp
        exact ⟨t, ht.symm⟩
      · exfalso
        rw [entryWidth, if_pos hi', if_pos ⟨h.2, hp⟩] at hw
        have h0 := congrArg List.length h.1
        simp only [List.length_replicate, List.length_nil] at h0
        omega
    refine ⟨ts, d, ?_, pTail_block h2, h3, ?_⟩
    · rw [hte]
      refine lexes_key_tail hk hx' ?_ h1
      by_cases h : (List.replicate (w' - (Hcl.id pr k).length) ' ' ++ E) = []
      · obtain ⟨t, rfl⟩ := hne h
        exact .inr (cut_cons (by decide))
      · exact .inl h
    · rw [hte]
      have hmw : ∀ {c}, HWhite c → c ∉ marker := by rintro c (rfl | rfl | rfl) <;> decide
      generalize hX : List.replicate (w' - (Hcl.id pr k).length) ' ' ++ E = X at hx' hne
      cases X with
      | nil =>
        obtain ⟨t, rfl⟩ := hne rfl
        exact noMark_glue (by decide) (noMark_id pr hk) (noMark_infix ⟨['{'], [], by simp⟩ hg.mark)
      | cons c X =>
        exact noMark_glue (hmw (hx' c (by simp))) (noMark_id pr hk) (noMark_append_left (fun c hc => hmw (hx' c (List.mem_cons_of_mem _ hc))) hg.mark)
  by_cases hf : full = true
  · obtain ⟨hb1, hb2⟩ := hb hf
    by_cases hi : indent = []
    · -- compact
      by_cases hd : ∃ dd, v = .dict dd
      · obtain ⟨dd, rfl⟩ := hd
        refine tailCase dd rfl ?_ (fun _ => hi)
        unfold equalSign
        simp only [dictLike, hf, Bool.and_self, if_true, hi]
        split
        · decide
        · simp
      · have hnl : ¬ Labelled v := fun h => hd (hb2 h).1
        have hdl : dictLike v = false := by
          cases v with
          | nil => simpa [hi] using hb1 rfl
          | dict dd => exact absurd ⟨dd, rfl⟩ hd
          | _ => rfl
        refine eqCase [] [] (by simp) (by simp) (fun h => hnl h.2) ?_
        unfold equalSign
        simp [hdl, hi, T]
    · have hl : decide (indent ≠ []) = true := by simpa using hi
      by_cases hd : ∃ dd, v = .dict dd
      · by_cases hn : contains (T "\n") r = true
        · obtain ⟨dd, rfl⟩ := hd
          have he : equalSign full (contains (T "\n") r) indent (.dict dd) = T " " := by
            unfold equalSign; simp [dictLike, hf, hn]
          refine tailCase dd rfl ?_ ?_
          · rw [he]; decide
          · rw [he]; intro h; cases h
        · refine eqCase [' '] [' '] (by decide) (by decide) ?_ ?_
          · rintro ⟨_, h⟩
            refine hn (contains_newline.2 (hg.line hl hd ((hb2 h).2 hl)))
          · obtain ⟨dd, rfl⟩ := hd
            rw [Bool.eq_false_iff.2 hn]
            unfold equalSign
            simp [dictLike, hf, hi, T]
      · have hnl : ¬ Labelled v := fun h => hd (hb2 h).1
        refine eqCase [' '] [' '] (by decide) (by decide) (fun h => hnl h.2) ?_
        cases v with
        | nil =>
          have : contains (T "\n") (T "null") = false := by decide
          rw [hg.null rfl, this]
          unfold equalSign
          simp [dictLike, hf, hi, T]
        | dict dd => exact absurd ⟨dd, rfl⟩ hd
        | _ => unfold equalSign; simp [dictLike, hi, T]
  · have hf' : full = false := by simpa using hf
    by_cases hi : indent = []
    · refine eqCase [] [] (by simp) (by simp) (fun h => hf h.1) ?_
      unfold equalSign; simp [hf', hi, T]
    · refine eqCase [' '] [' '] (by decide) (by decide) (fun h => hf h.1) ?_
      unfold equalSign; simp [hf', hi, T]

/-! ## Items -/

/-- Items are read as the entries of some pairs. -/
def GoodItems (items : List Text) (done : List (Text × Value)) : Prop :=
  (∃ ts es, (∀ c, HWhite c → Lexes (join [c] items) ts) ∧ PItems ts es ∧ PBody ts es ∧
    HData.canonEntries es = HData.canonEntries (dataEntries done)) ∧ ∀ x ∈ items, HclUnmarked x

theorem goodItems_nil : GoodItems [] [] :=
  ⟨⟨[], [], fun _ _ => lexes_nil, pItems_nil, pBody_nil, rfl⟩, by simp⟩

theorem lexes_snoc {c : Char} {x : Text} {l : List Text} {ts tx} (hc : HWhite c) (hl : Lexes (join [c] l) ts) (hx : Lexes x tx) :
    Lexes (join [c] (l ++ [x])) (ts ++ tx) := by
  by_cases h : l = []
  · subst h
    rw [lexes_nil_eq hl]
    simpa [join] using hx
  · rw [join_snoc _ _ h]
    exact lexes_append hl (lexes_white hc hx) (cut_cons (white_cut hc))

/-- A blank item. -/
theorem goodItems_blank {items done} (h : GoodItems items done) : GoodItems (items ++ [[]]) done := by
  obtain ⟨⟨ts, es, h1, h2, h3, h4⟩, h5⟩ := h
  refine ⟨⟨ts, es, fun c hc => ?_, h2, h3, h4⟩, ?_⟩
  · have := lexes_snoc hc (h1 c hc) lexes_nil
    simpa using this
  · intro x hx
    rcases List.mem_append.1 hx with hx | hx
    · exact h5 x hx
    · rw [List.mem_singleton.1 hx]; exact noMark_nil

theorem canonEntries_append (a b : List (Text × HData)) : HData.canonEntries (a ++ b) = HData.canonEntries a ++ HData.canonEntries b := by
  simp [canonEntries_map]

theorem dataEntries_append (a b : List (Text × Value)) : dataEntries (a ++ b) = dataEntries a ++ dataEntries b := by
  simp [dataEntries_map]

theorem goodItems_snoc {items done} {x k : Text} {v : Value} {tail d} (h : GoodItems items done) (hk : QuotedKey k)
    (hx : Lexes x (keyTok k :: tail)) (ht : PTail tail d) (hd : d.canon = (dataOf v).canon) (hm : HclUnmarked x) :
    GoodItems (items ++ [x]) (done ++ [(k, v)]) := by
  obtain ⟨⟨ts, es, h1, h2, h3, h4⟩, h5⟩ := h
  refine ⟨⟨ts ++ keyTok k :: tail, es ++ [(k, d)], fun c hc => lexes_snoc hc (h1 c hc) hx, pItems_append h2 (pItems_one (keyOf_keyTok hk) ht),
    pBody_append h3 (pBody_one (keyOf_keyTok hk) ht), ?_⟩, ?_⟩
  · rw [canonEntries_append, h4, dataEntries_append, canonEntries_append]
    simp [HData.canonEntries, dataEntries, hd]
  · intro y hy
    rcases List.mem_append.1 hy with hy | hy
    · exact h5 y hy
    · rw [List.mem_singleton.1 hy]; exact hm

theorem itemStep_good {pr : Char → Bool} {full multi : Bool} {indent : Text} {st : List Text × Nat} {e : Text × Value × Text} {done}
    (h : GoodItems st.1 done) (hk : QuotedKey e.1) (hg : Good full (decide (indent ≠ [])) e.2.1 e.2.2)
    (hb : full = true → BlockEntry (decide (indent ≠ [])) e.2.1) :
    GoodItems (itemStep pr full multi indent st e).1 (if contains (T "\n") e.2.2 = multi then done ++ [(e.1, e.2.1)] else done) := by
  unfold itemStep
  by_cases hc : contains (T "\n") e.2.2 = multi
  · rw [if_neg (by simpa using hc), if_pos hc]
    have hst : ∀ st' : List Text × Nat, GoodItems st'.1 done →
        GoodItems (st'.1 ++ [entryText pr indent (equalSign full multi indent e.2.1) e.1 e.2.2 st'.2]) (done ++ [(e.1, e.2.1)]) := by
      intro st' h'
      obtain ⟨tail, d, h1, h2, h3, h4⟩ := entry_reads (pr := pr) st'.2 hk hg hb
      rw [hc] at h1 h4
      exact goodItems_snoc h' hk h1 h2 h3 h4
    refine hst _ ?_
    split
    · exact goodItems_blank h
    · exact h
  · rw [if_pos hc, if_neg hc]; exact h

theorem foldl_good {pr : Char → Bool} {full multi : Bool} {indent : Text} {es : List (Text × Value × Text)} {st : List Text × Nat} {done}
    (h : GoodItems st.1 done) (hk : ∀ e ∈ es, QuotedKey e.1) (hg : ∀ e ∈ es, Good full (decide (indent ≠ [])) e.2.1 e.2.2)
    (hb : full = true → ∀ e ∈ es, BlockEntry (decide (indent ≠ [])) e.2.1) :
    GoodItems (es.foldl (itemStep pr full multi indent) st).1
      (done ++ (es.filter (fun e => contains (T "\n") e.2.2 == multi)).map (fun e => (e.1, e.2.1))) := by
  induction es generalizing st done with
  | nil => simpa using h
  | cons e es ih =>
    rw [List.foldl_cons]
    have h1 := itemStep_good (pr := pr) (multi := multi) h (hk e (by simp)) (hg e (by simp)) (fun hf => hb hf e (by simp))
    have h2 := ih h1 (fun e he => hk e (List.mem_cons_of_mem _ he)) (fun e he => hg e (List.mem_cons_of_mem _ he))
      (fun hf e he => hb hf e (List.mem_cons_of_mem _ he))
    by_cases hc : contains (T "\n") e.2.2 = multi
    · rw [if_pos hc] at h2
      rw [List.filter_cons_of_pos (by simpa using hc)]
      simpa using h2
    · rw [if_neg hc] at h2
      rw [List.filter_cons_of_neg (by simpa using hc)]
      exact h2

theorem itemTexts_good {pr : Char → Bool} {full : Bool} {indent : Text} {es : List (Text × Value × Text)}
    (hk : ∀ e ∈ es, QuotedKey e.1) (hg : ∀ e ∈ es, Good full (decide (indent ≠ [])) e.2.1 e.2.2)
    (hb : full = true → ∀ e ∈ es, BlockEntry (decide (indent ≠ [])) e.2.1) :
    ∃ done, GoodItems (itemTexts pr full indent es) done ∧ done.Perm (es.map (fun e => (e.1, e.2.1))) := by
  refine ⟨_, foldl_good (multi := true) (foldl_good (multi := false) goodItems_nil hk hg hb) hk hg hb, ?_⟩
  rw [List.nil_append, ← List.map_append]
  refine List.Perm.map _ ?_
  refine List.Perm.trans ?_ (List.filter_append_perm (fun e => contains (T "\n") e.2.2 == false) es)
  refine List.Perm.append_left _ (List.Perm.of_eq ?_)
  congr 1
  funext e
  cases contains (T "\n") e.2.2 <;> rfl

theorem itemStep_ne_nil {pr : Char → Bool} {full multi : Bool} {indent : Text} {st : List Text × Nat} {e : Text × Value × Text}
    (h : st.1 ≠ [] ∨ contains (T "\n") e.2.2 = multi) : (itemStep pr full multi indent st e).1 ≠ [] := by
  unfold itemStep
  by_cases hc : contains (T "\n") e.2.2 = multi
  · rw [if_neg (by simpa using hc)]; simp
  · rw [if_pos hc]; exact h.elim id (fun h => absurd h hc)

theorem foldl_ne_nil {pr : Char → Bool} {full multi : Bool} {indent : Text} {es : List (Text × Value × Text)} {st : List Text × Nat}
    (h : st.1 ≠ [] ∨ ∃ e ∈ es, contains (T "\n") e.2.2 = multi) : (es.foldl (itemStep pr full multi indent) st).1 ≠ [] := by
  induction es generalizing st with
  | nil => simpa using h
  | cons e es ih =>
    rw [List.foldl_cons]
    refine ih ?_
    rcases h with h | ⟨e', he', h⟩
    · exact .inl (itemStep_ne_nil (.inl h))
    · rcases List.mem_cons.1 he' with rfl | he'
      · exact .inl (itemStep_ne_nil (.inr h))
      · exact .inr ⟨e', he', h⟩

theorem itemTexts_ne_nil {pr : Char → Bool} {full : Bool} {indent : Text} {es : List (Text × Value × Text)} (h : es ≠ []) :
    itemTexts pr full indent es ≠ [] := by
  obtain ⟨e, es', rfl⟩ := List.exists_cons_of_ne_nil h
  unfold itemTexts
  refine foldl_ne_nil ?_
  cases hc : contains (T "\n") e.2.2 with
  | true => exact .inr ⟨e, by simp, hc⟩
  | false => exact .inl (foldl_ne_nil (.inr ⟨e, by simp, hc⟩))

/-- The data of entries does not depend on their order. -/
theorem canon_perm {es : List (Text × HData)} {done d : List (Text × Value)} (h : HData.canonEntries es = HData.canonEntries (dataEntries done))
    (hp : done.Perm d) (hn : (d.map Prod.fst).Nodup) : (HData.obj es).canon = (dataOf (.dict d)).canon := by
  simp only [HData.canon, dataOf, h, HData.obj.injEq]
  rw [canonEntries_map, canonEntries_map, dataEntries_map, dataEntries_map]
  refine sortBy_perm_invariant _ ((hp.map _).map _) ?_
  rw [List.map_map, List.map_map]
  exact (hp.map Prod.fst).nodup_iff.2 hn

/-! ## Lists -/

theorem elems_good {y : Text} (hy : ∀ c ∈ y, HWhite c) {l : List Value} {rs : List Text}
    (h : List.length l = rs.length) (hg : ∀ (i : Nat) v r, l[i]? = some v → rs[i]? = some r →
      (∃ ts d, Lexes r ts ∧ PVal ts d ∧ d.canon = (dataOf v).canon) ∧ HclUnmarked r) :
    (∃ ts ds, Lexes (join (',' :: y) rs) ts ∧ PElems ts ds ∧ (rs ≠ [] → PElems (ts ++ [.punct ',']) ds) ∧
      HData.canonElems ds = HData.canonElems (dataElems l)) ∧ HclUnmarked (join (',' :: y) rs) := by
  induction l generalizing rs with
  | nil =>
    cases rs with
    | nil => exact ⟨⟨[], [], lexes_nil, pElems_nil, by simp, rfl⟩, noMark_nil⟩
    | cons r rs => simp at h
  | cons v l ih =>
    cases rs with
    | nil => simp at h
    | cons r rs =>
      obtain ⟨⟨ts, d, h1, h2, h3⟩, h4⟩ := hg 0 v r rfl rfl
      have hrest := ih (rs := rs) (by simpa using h) (fun i v' r' hv hr => hg (i + 1) v' r' (by simpa using hv) (by simpa using hr))
      obtain ⟨⟨ts', ds, q1, q2, q3, q4⟩, q5⟩ := hrest
      by_cases hrs : rs = []
      · subst hrs
        have hl : l = [] := by simpa using h
        subst hl
        refine ⟨⟨ts, [d], by simpa [join] using h1, pElems_last h2, fun _ => ?_, by simp [HData.canonElems, dataElems, h3]⟩, by simpa [join] using h4⟩
        exact pElems_cons h2 pElems_nil
      · rw [join_cons_of_ne _ _ hrs, List.append_assoc]
        have hm : ∀ c ∈ y, c ∉ marker := fun c hc => by rcases hy c hc with rfl | rfl | rfl <;> decide
        refine ⟨⟨ts ++ .punct ',' :: ts', d :: ds, ?_, pElems_cons h2 q2, fun _ => ?_, by simp [HData.canonElems, dataElems, h3, q4]⟩, ?_⟩
        · exact lexes_append h1 (lexes_punct (by decide) (lexes_whites hy q1)) (cut_cons (by decide))
        · have := pElems_cons h2 (q3 hrs)
          simpa using this
        · exact noMark_glue (by decide) h4 (noMark_append_left hm q5)

theorem list_good {pre indent : Text} (hp : ∀ c ∈ pre ++ indent, HWhite c) {l : List Value} {rs : List Text}
    (h : List.length l = rs.length) (hg : ∀ (i : Nat) v r, l[i]? = some v → rs[i]? = some r →
      (∃ ts d, Lexes r ts ∧ PVal ts d ∧ d.canon = (dataOf v).canon) ∧ HclUnmarked r) :
    (∃ ts d, Lexes (layoutList pre indent rs) ts ∧ PVal ts d ∧ d.canon = (dataOf (.list l)).canon) ∧ HclUnmarked (layoutList pre indent rs) := by
  unfold layoutList
  simp only
  split
  · rename_i hc
    have hne : rs ≠ [] := by
      rintro rfl
      simp at hc
    obtain ⟨⟨ts, ds, q1, q2, q3, q4⟩, q5⟩ := elems_good (y := T "\n") (by decide) h hg
    refine ⟨⟨.punct '[' :: ((ts ++ [.punct ',']) ++ [.punct ']']), .list ds, ?_, pVal_list (q3 hne), ?_⟩, ?_⟩
    · have h1 : Lexes (T ",\n]") [.punct ',', .punct ']'] :=
        lexes_punct (by decide) (lexes_white (by decide) (lexes_punct (by decide) lexes_nil))
      have h2 := lexes_append (lexes_indent hp q1) h1 (cut_cons (by decide))
      have h3 := lexes_punct (c := '[') (by decide) (lexes_white (c := '\n') (by decide) h2)
      simpa [T] using h3
    · simp [HData.canon, dataOf, q4]
    · have h1 := noMark_append_right (b := T ",\n]") (noMark_indent hp q5) (by decide)
      have h2 := noMark_append_left (a := T "[\n") (by decide) h1
      rw [List.append_assoc]
      exact h2
  · have : ∀ y : Text, (∀ c ∈ y, HWhite c) →
      (∃ ts d, Lexes (T "[" ++ join (',' :: y) rs ++ T "]") ts ∧ PVal ts d ∧ d.canon = (dataOf (.list l)).canon) ∧
        HclUnmarked (T "[" ++ join (',' :: y) rs ++ T "]") := by
      intro y hy
      obtain ⟨⟨ts, ds, q1, q2, q3, q4⟩, q5⟩ := elems_good hy h hg
      refine ⟨⟨.punct '[' :: (ts ++ [.punct ']']), .list ds, ?_, pVal_list q2, ?_⟩, ?_⟩
      · have h1 : Lexes (T "]") [.punct ']'] := lexes_punct (by decide) lexes_nil
        exact lexes_punct (c := '[') (by decide) (lexes_append q1 h1 (cut_cons (by decide)))
      · simp [HData.canon, dataOf, q4]
      · have h1 := noMark_append_right (b := T "]") q5 (by decide)
        exact noMark_append_left (a := T "[") (by decide) h1
    split
    · exact this (T " ") (by decide)
    · exact this [] (by simp)

/-! ## Values -/

/-- A map with one key that is not empty, and a map under it. -/
theorem labelled_dict {d : List (Text × Value)} (h : Labelled (.dict d)) : ∃ k d', k ≠ [] ∧ d = [(k, .dict d')] := by
  cases h with
  | dict k d hk => exact ⟨k, d, hk, rfl⟩

theorem layoutDict_label {pr : Char → Bool} {head : Bool} {pre indent k r : Text} {d : List (Text × Value)} (hk : k ≠ []) :
    layoutDict pr true head pre indent [(k, .dict d, r)] = Hcl.id pr k ++ T " " ++ r := by
  rw [layoutDict, if_pos ⟨rfl, hk⟩]

theorem layoutDict_items {pr : Char → Bool} {full head : Bool} {pre indent : Text} {d : List (Text × Value)}
    (h : ¬ (full = true ∧ Labelled (.dict d))) (f : Value → Text) :
    layoutDict pr full head pre indent (d.map (fun e => (e.1, e.2, f e.2))) =
      wrapItems head pre indent (itemTexts pr full indent (sortBy Prod.fst (d.map (fun e => (e.1, e.2, f e.2))))) := by
  rw [layoutDict.eq_def]
  split
  · rename_i k dd r he
    have hs : sortBy Prod.fst (d.map (fun e => (e.1, e.2, f e.2))) = [(k, .dict dd, r)] := by
      rw [he]; rfl
    rw [hs, if_neg]
    rintro ⟨hf, hk⟩
    refine h ⟨hf, ?_⟩
    cases d with
    | nil => simp at he
    | cons e d =>
      simp only [List.map_cons, List.cons.injEq, List.map_eq_nil_iff, Prod.mk.injEq] at he
      obtain ⟨⟨h1, h2, _⟩, rfl⟩ := he
      obtain ⟨k', v'⟩ := e
      simp only at h1 h2
      subst h1; subst h2
      exact .dict _ _ hk
  · rfl

theorem items_of_dict {pr : Char → Bool} {full : Bool} {indent : Text} {d : List (Text × Value)} {f : Value → Text}
    (hn : (d.map Prod.fst).Nodup) (hk : ∀ e ∈ d, QuotedKey e.1) (hg : ∀ e ∈ d, Good full (decide (indent ≠ [])) e.2 (f e.2))
    (hb : full = true → ∀ e ∈ d, BlockEntry (decide (indent ≠ [])) e.2) :
    ∃ ts es, (∀ c, HWhite c → Lexes (join [c] (itemTexts pr full indent (sortBy Prod.fst (d.map (fun e => (e.1, e.2, f e.2)))))) ts) ∧
      PItems ts es ∧ PBody ts es ∧ (HData.obj es).canon = (dataOf (.dict d)).canon ∧
      ∀ x ∈ itemTexts pr full indent (sortBy Prod.fst (d.map (fun e => (e.1, e.2, f e.2)))), HclUnmarked x := by
  have hp := sortBy_perm Prod.fst (d.map (fun e => (e.1, e.2, f e.2)))
  have hmem : ∀ e ∈ sortBy Prod.fst (d.map (fun e => (e.1, e.2, f e.2))), ∃ e' ∈ d, e = (e'.1, e'.2, f e'.2) := by
    intro e he
    obtain ⟨e', h1, h2⟩ := List.mem_map.1 (hp.mem_iff.1 he)
    exact ⟨e', h1, h2.symm⟩
  obtain ⟨done, ⟨⟨ts, es, h1, h2, h3, h4⟩, h5⟩, h6⟩ := itemTexts_good (pr := pr) (full := full) (indent := indent)
    (es := sortBy Prod.fst (d.map (fun e => (e.1, e.2, f e.2))))
    (fun e he => by obtain ⟨e', h, rfl⟩ := hmem e he; exact hk e' h)
    (fun e he => by obtain ⟨e', h, rfl⟩ := hmem e he; exact hg e' h)
    (fun hf e he => by obtain ⟨e', h, rfl⟩ := hmem e he; exact hb hf e' h)
  refine ⟨ts, es, h1, h2, h3, canon_perm h4 ?_ hn, h5⟩
  refine h6.trans ((hp.map _).trans (List.Perm.of_eq ?_))
  rw [List.map_map]
  exact List.map_id'' (fun _ => rfl) d

/-- A map between braces. -/
theorem block_good {pr : Char → Bool} {full : Bool} {pre indent : Text} {d : List (Text × Value)} {f : Value → Text}
    (hp : ∀ c ∈ pre ++ indent, HWhite c)
    (hn : (d.map Prod.fst).Nodup) (hk : ∀ e ∈ d, QuotedKey e.1) (hg : ∀ e ∈ d, Good full (decide (indent ≠ [])) e.2 (f e.2))
    (hb : full = true → ∀ e ∈ d, BlockEntry (decide (indent ≠ [])) e.2) :
    let r := wrapItems false pre indent (itemTexts pr full indent (sortBy Prod.fst (d.map (fun e => (e.1, e.2, f e.2)))))
    (∃ ts es, Lexes r (.punct '{' :: (ts ++ [.punct '}'])) ∧ PItems ts es ∧ (HData.obj es).canon = (dataOf (.dict d)).canon) ∧ HclUnmarked r ∧
      (indent ≠ [] → d ≠ [] → '\n' ∈ r) := by
  intro r
  have hrd : r = wrapItems false pre indent (itemTexts pr full indent (sortBy Prod.fst (d.map (fun e => (e.1, e.2, f e.2))))) := rfl
  clear_value r
  obtain ⟨ts, es, h1, h2, h3, h4, h5⟩ := items_of_dict (pr := pr) hn hk hg hb
  have hne : d ≠ [] → itemTexts pr full indent (sortBy Prod.fst (d.map (fun e => (e.1, e.2, f e.2)))) ≠ [] := by
    intro hd
    refine itemTexts_ne_nil ?_
    intro h
    have := (sortBy_perm Prod.fst (d.map (fun e => (e.1, e.2, f e.2)))).length_eq
    rw [h] at this
    simp at this
    exact hd (List.length_eq_zero_iff.1 this.symm)
  generalize itemTexts pr full indent (sortBy Prod.fst (d.map (fun e => (e.1, e.2, f e.2)))) = items at *
  have hc : Lexes (T "}") [.punct '}'] := lexes_punct (by decide) lexes_nil
  by_cases hi : indent = [] ∨ items = []
  · have hr : r = T "{" ++ join (T " ") items ++ T "}" := by
      rw [hrd, wrapItems, if_neg (by decide), if_pos hi]
    rw [hr]
    refine ⟨⟨ts, es, ?_, h2, h4⟩, ?_, ?_⟩
    · exact lexes_punct (c := '{') (by decide) (lexes_append (h1 ' ' (by decide)) hc (cut_cons (by decide)))
    · have h6 := noMark_join (c := ' ') (sep := []) (by decide) (by simp) h5
      have h7 := noMark_append_right (b := T "}") h6 (by decide)
      exact noMark_append_left (a := T "{") (by decide) h7
    · intro h7 h8
      rcases hi with hi | hi
      · exact absurd hi h7
      · exact absurd hi (hne h8)
  · have hr : r = T "{\n" ++ Strings.indent (join (T "\n") items) (pre ++ indent) ++ T "\n}" := by
      rw [hrd, wrapItems, if_neg (by decide), if_neg hi]
    rw [hr]
    refine ⟨⟨ts, es, ?_, h2, h4⟩, ?_, ?_⟩
    · have h6 := lexes_append (lexes_indent hp (h1 '\n' (by decide))) (lexes_white (c := '\n') (by decide) hc) (cut_cons (by decide))
      exact lexes_punct (c := '{') (by decide) (lexes_white (c := '\n') (by decide) h6)
    · have h6 := noMark_join (c := '\n') (sep := []) (by decide) (by simp) h5
      have h7 := noMark_append_right (b := T "\n}") (noMark_indent hp h6) (by decide)
      have h8 := noMark_append_left (a := T "{\n") (by decide) h7
      rw [List.append_assoc]
      exact h8
    · intro _ _; simp [T]

theorem intText_digits (n : Nat) : numeral (Nat.toDigits 10 n) = true ∧ ∀ c ∈ Nat.toDigits 10 n, wordChar c = true := by
  have hd : ∀ c ∈ Nat.toDigits 10 n, c.isDigit = true := fun c hc => Nat.isDigit_of_mem_toDigits (by omega) (by omega) hc
  have hw : ∀ c : Char, c.isDigit = true → ('0' ≤ c && c ≤ '9') = true := by
    intro c h
    simp only [Char.isDigit, Bool.and_eq_true, decide_eq_true_eq] at h ⊢
    exact h
  refine ⟨?_, fun c hc => ?_⟩
  · cases h : Nat.toDigits 10 n with
    | nil => exact absurd h (Nat.toDigits_ne_nil)
    | cons c t =>
      have := hw c (hd c (by rw [h]; simp))
      simp only [numeral, this, Bool.true_or]
  · have := hw c (hd c hc)
    simp [wordChar, this]

theorem numberText_int (i : Int) : NumberText (Value.intText i) := by
  cases i with
  | ofNat n => exact intText_digits n
  | negSucc n =>
    refine ⟨rfl, fun c hc => ?_⟩
    simp only [Value.intText] at hc
    rcases List.mem_cons.1 hc with rfl | hc
    · rfl
    · exact (intText_digits _).2 c hc

/-- A number. -/
theorem number_good {full lined : Bool} {v : Value} {t : Text} (h : NumberText t) (hv : dataOf v = .num t) (hd : ∀ dd, v ≠ .dict dd) (hn : v ≠ .nil) :
    Good full lined v t := by
  obtain ⟨h1, h2⟩ := h
  have hne : t ≠ [] := by rintro rfl; simp [numeral] at h1
  have hnot : ∀ w : Text, numeral w = false → t ≠ w := by rintro w hw rfl; rw [h1] at hw; cases hw
  refine ⟨fun _ => ⟨[.word t], .num t, lexes_word hne h2, pVal_word ?_, by rw [hv]⟩, fun dd h => absurd h (hd dd),
    noMark_of_sharp (fun h => by have := h2 _ h; revert this; decide), fun h => absurd h hn, fun _ h => absurd h.choose_spec (hd _)⟩
  unfold wordData
  rw [if_neg (hnot _ (by decide)), if_neg (hnot _ (by decide)), if_neg (hnot _ (by decide)), if_pos h1]

theorem word_good {full lined : Bool} {v : Value} {w : Text} {d : HData} (hw : ∀ c ∈ w, wordChar c = true) (hne : w ≠ []) (h : wordData w = some d)
    (hv : dataOf v = d) (hd : ∀ dd, v ≠ .dict dd) (hn : v = .nil → w = T "null") : Good full lined v w :=
  ⟨fun _ => ⟨[.word w], d, lexes_word hne hw, pVal_word h, by rw [hv]⟩, fun dd h => absurd h (hd dd),
    noMark_of_sharp (fun h => by have := hw _ h; revert this; decide), hn, fun _ h => absurd h.choose_spec (hd _)⟩

mutual
/-- Every value that can be written is read back. -/
theorem good_value (pr : Char → Bool) (full : Bool) (indent : Text) (hi : ∀ c ∈ indent, HWhite c) (v : Value)
    (h : Writable full (decide (indent ≠ [])) v) : Good full (decide (indent ≠ [])) v (render pr full indent v) := by
  match v, h with
  | .nil, _ => exact word_good (w := T "null") (by decide) (by decide) rfl rfl (fun _ h => by cases h) (fun _ => rfl)
  | .bool true, _ => exact word_good (w := T "true") (by decide) (by decide) rfl rfl (fun _ h => by cases h) (fun h => by cases h)
  | .bool false, _ => exact word_good (w := T "false") (by decide) (by decide) rfl rfl (fun _ h => by cases h) (fun h => by cases h)
  | .int i, _ => exact number_good (numberText_int i) rfl (fun _ h => by cases h) (fun h => by cases h)
  | .flt r, .flt _ hr => exact number_good hr rfl (fun _ h => by cases h) (fun h => by cases h)
  | .str s, .str _ hs =>
    have hq : render pr full indent (.str s) = Quote.quote pr s := by
      rw [render]
      by_cases hep : EndsPlain s
      · exact renderText_endsPlain pr indent hep
      rw [renderText]
      by_cases he : indent ≠ [] ∧ contains (T "\\n") (Quote.quote pr s) = true
      · exfalso
        have h2 := (hs.2 (by simpa using he.1)).elim id (fun h => absurd h hep)
        rcases newline_quote pr (contains_iff.1 he.2) with h3 | h3
        · exact h2.1 h3
        · exact h2.2 h3
      · rw [if_neg he]
    rw [hq]
    exact ⟨fun _ => ⟨[.str s], .str s, lexes_quote pr s, pVal_str s, rfl⟩, fun _ h => (by cases h), noMark_quote pr hs.1, fun h => (by cases h),
      fun _ h => (by obtain ⟨_, h⟩ := h; cases h)⟩
  | .list l, .list _ hl hb =>
    have hg := good_elems pr full indent hi l hl
    have hlist : (¬ ∃ d, l = [.dict d]) → Good full (decide (indent ≠ [])) (.list l) (layoutList [] indent (l.map (render pr full indent))) := by
      intro hnd
      have hlen : l.length = (l.map (render pr full indent)).length := by simp
      have := list_good (pre := []) (indent := indent) (by simpa using hi) hlen (fun i v r hv hr => by
        have hmem := List.mem_of_getElem? hv
        rw [List.getElem?_map, hv] at hr
        simp only [Option.map_some, Option.some.injEq] at hr
        subst hr
        refine ⟨(hg v hmem).val ?_, (hg v hmem).mark⟩
        rintro ⟨hf, hlab⟩
        rcases hb hf with ⟨d, hd⟩ | hb
        · exact hnd ⟨d, hd⟩
        · exact hb v hmem hlab)
      exact ⟨fun _ => this.1, fun _ h => (by cases h), this.2, fun h => (by cases h), fun _ h => (by obtain ⟨_, h⟩ := h; cases h)⟩
    by_cases hd : ∃ d, l = [.dict d]
    · obtain ⟨d, rfl⟩ := hd
      have hr : render pr full indent (.list [.dict d]) = render pr full indent (.dict d) := rfl
      rw [hr]
      have hv := hg (.dict d) (by simp)
      have hdata : (dataOf (.list [.dict d])).canon = (dataOf (.dict d)).canon := rfl
      refine ⟨fun hnl => ?_, fun _ h => (by cases h), hv.mark, fun h => (by cases h), fun _ h => (by obtain ⟨_, h⟩ := h; cases h)⟩
      rw [hdata]
      refine hv.val ?_
      rintro ⟨hf, hlab⟩
      obtain ⟨k, d', hk, rfl⟩ := labelled_dict hlab
      exact hnl ⟨hf, .list k d' hk⟩
    · have hr : render pr full indent (.list l) = layoutList [] indent (l.map (render pr full indent)) := by
        rw [render, renderElems_map]
        rw [layoutElems.eq_def]
        split
        · exact absurd ⟨_, rfl⟩ hd
        · rfl
      rw [hr]
      exact hlist hd
  | .dict d, .dict _ hn hk hw hb =>
    have hg := good_entries pr full indent hi d hw
    have hr : render pr full indent (.dict d) = layoutDict pr full false [] indent (d.map (fun e => (e.1, e.2, render pr full indent e.2))) := by
      rw [render, renderEntries_map]
    rw [hr]
    by_cases hl : full = true ∧ Labelled (.dict d)
    · obtain ⟨rfl, hl⟩ := hl
      obtain ⟨k, d', hke, rfl⟩ := labelled_dict hl
      rw [List.map_cons, List.map_nil, layoutDict_label hke, List.append_assoc]
      have hg' := hg (k, .dict d') (by simp)
      have hk' := hk (k, .dict d') (by simp)
      obtain ⟨ts, x, h1, h2, h3⟩ := hg'.tail d' rfl
      refine ⟨fun h => absurd ⟨rfl, hl⟩ h, fun _ _ => ?_, ?_, fun h => (by cases h), fun h1 _ h3 => ?_⟩
      · refine ⟨keyTok k :: ts, .obj [(k, x)], ?_, pBlock_label (keyOf_keyTok hk') h2, ?_⟩
        · exact lexes_key_tail hk' (by decide) (.inl (by decide)) h1
        · simp only [HData.canon, HData.canonEntries, dataOf, dataEntries] at h3 ⊢
          rw [h3]
      · exact noMark_glue (by decide) (noMark_id pr hk') hg'.mark
      · have := hg'.line h1 ⟨d', rfl⟩ (fun h => h3 (.label k _ hke h))
        simp [this]
    · have hb' : full = true → ∀ e ∈ d, BlockEntry (decide (indent ≠ [])) e.2 := fun hf => (hb hf).elim (fun h => absurd ⟨hf, h⟩ hl) id
      rw [layoutDict_items hl (render pr full indent)]
      obtain ⟨⟨ts, es, h1, h2, h3⟩, h4, h5⟩ := block_good (pr := pr) (pre := []) (by simpa using hi) hn hk hg hb'
      refine ⟨fun _ => ⟨_, _, h1, pVal_block h2, h3⟩, fun _ _ => ⟨_, _, h1, pBlock_block h2, h3⟩, h4, fun h => (by cases h), fun h6 _ h7 => ?_⟩
      refine h5 (by simpa using h6) ?_
      rintro rfl
      exact h7 .empty
theorem good_elems (pr : Char → Bool) (full : Bool) (indent : Text) (hi : ∀ c ∈ indent, HWhite c) (l : List Value)
    (h : ∀ v ∈ l, Writable full (decide (indent ≠ [])) v) : ∀ v ∈ l, Good full (decide (indent ≠ [])) v (render pr full indent v) := by
  match l with
  | [] => simp
  | v :: l =>
    intro x hx
    have h1 := good_value pr full indent hi v (h v (by simp))
    have h2 := good_elems pr full indent hi l (fun v hv => h v (List.mem_cons_of_mem _ hv))
    rcases List.mem_cons.1 hx with rfl | hx
    · exact h1
    · exact h2 x hx
theorem good_entries (pr : Char → Bool) (full : Bool) (indent : Text) (hi : ∀ c ∈ indent, HWhite c) (d : List (Text × Value))
    (h : ∀ e ∈ d, Writable full (decide (indent ≠ [])) e.2) : ∀ e ∈ d, Good full (decide (indent ≠ [])) e.2 (render pr full indent e.2) := by
  match d with
  | [] => simp
  | (k, v) :: l =>
    intro x hx
    have h1 := good_value pr full indent hi v (h (k, v) (by simp))
    have h2 := good_entries pr full indent hi l (fun v hv => h v (List.mem_cons_of_mem _ hv))
    rcases List.mem_cons.1 hx with rfl | hx
    · exact h1
    · exact h2 x hx
end

/-! ## Order of the entries -/

/-- What the layout of a map uses of a value. -/
def shape : Value → Value
  | .nil => .nil
  | .dict _ => .dict []
  | _ => .bool true

def shapeEntry (e : Text × Value × Text) : Text × Value × Text := (e.1, shape e.2.1, e.2.2)

theorem dictLike_shape (v : Value) : dictLike (shape v) = dictLike v := by cases v <;> rfl

theorem itemStep_shape (pr : Char → Bool) (full multi : Bool) (indent : Text) (st : List Text × Nat) (e : Text × Value × Text) :
    itemStep pr full multi indent st (shapeEntry e) = itemStep pr full multi indent st e := by
  simp only [itemStep, shapeEntry, equalSign, dictLike_shape]

theorem foldl_shape (pr : Char → Bool) (full multi : Bool) (indent : Text) (es : List (Text × Value × Text)) (st : List Text × Nat) :
    (es.map shapeEntry).foldl (itemStep pr full multi indent) st = es.foldl (itemStep pr full multi indent) st := by
  induction es generalizing st with
  | nil => rfl
  | cons e es ih => rw [List.map_cons, List.foldl_cons, List.foldl_cons, itemStep_shape, ih]

theorem itemTexts_shape (pr : Char → Bool) (full : Bool) (indent : Text) (es : List (Text × Value × Text)) :
    itemTexts pr full indent (es.map shapeEntry) = itemTexts pr full indent es := by
  have hw : keyWidth indent (es.map shapeEntry) = keyWidth indent es := by
    unfold keyWidth
    rw [List.foldl_map]
    rfl
  unfold itemTexts
  simp only [hw, foldl_shape]

theorem insertSorted_shape (e : Text × Value × Text) (es : List (Text × Value × Text)) :
    insertSorted Prod.fst (shapeEntry e) (es.map shapeEntry) = (insertSorted Prod.fst e es).map shapeEntry := by
  induction es with
  | nil => rfl
  | cons x es ih =>
    simp only [List.map_cons, insertSorted]
    have : (shapeEntry e).1 = e.1 ∧ (shapeEntry x).1 = x.1 := ⟨rfl, rfl⟩
    rw [this.1, this.2]
    split
    · rfl
    · rw [ih]; rfl

theorem sortBy_shape (es : List (Text × Value × Text)) : sortBy Prod.fst (es.map shapeEntry) = (sortBy Prod.fst es).map shapeEntry := by
  induction es with
  | nil => rfl
  | cons e es ih => rw [List.map_cons, sortBy, sortBy, ih, insertSorted_shape]

/-- The condition for a label on rendered entries. -/
def labelEntries (es : List (Text × Value × Text)) : Bool :=
  match es with
  | [(k, .dict _, _)] => decide (k ≠ [])
  | _ => false

theorem layoutDict_eq (pr : Char → Bool) (full head : Bool) (pre indent : Text) (es : List (Text × Value × Text)) :
    layoutDict pr full head pre indent es =
      if full && labelEntries es then Hcl.id pr (es.headD ([], .nil, [])).1 ++ T " " ++ (es.headD ([], .nil, [])).2.2
      else wrapItems head pre indent (itemTexts pr full indent (sortBy Prod.fst es)) := by
  rw [layoutDict.eq_def]
  split
  · rename_i k d r
    by_cases h : full = true ∧ k ≠ []
    · rw [if_pos h, if_pos (by simp [labelEntries, h])]; rfl
    · rw [if_neg h, if_neg (by simpa [labelEntries] using h)]; rfl
  · rename_i h
    have : labelEntries es = false := by
      unfold labelEntries
      split
      · exact absurd rfl (h _ _ _)
      · rfl
    rw [if_neg (by simp [this])]

theorem labelEntries_shape (es : List (Text × Value × Text)) : labelEntries (es.map shapeEntry) = labelEntries es := by
  match es with
  | [] => rfl
  | [(k, v, r)] => cases v <;> rfl
  | _ :: _ :: _ => simp [labelEntries]

theorem layoutDict_shape (pr : Char → Bool) (full head : Bool) (pre indent : Text) (es : List (Text × Value × Text)) :
    layoutDict pr full head pre indent (es.map shapeEntry) = layoutDict pr full head pre indent es := by
  rw [layoutDict_eq, layoutDict_eq, labelEntries_shape, sortBy_shape, itemTexts_shape]
  cases es <;> rfl

theorem layoutDict_perm (pr : Char → Bool) (full head : Bool) (pre indent : Text) {es es' : List (Text × Value × Text)} (hp : es.Perm es')
    (hn : (es.map Prod.fst).Nodup) : layoutDict pr full head pre indent es = layoutDict pr full head pre indent es' := by
  by_cases hl : ∃ e, es = [e]
  · obtain ⟨e, rfl⟩ := hl
    rw [List.singleton_perm.1 hp]
  · have hne : labelEntries es = false := by
      unfold labelEntries
      split
      · exact absurd ⟨_, rfl⟩ hl
      · rfl
    have hne' : labelEntries es' = false := by
      unfold labelEntries
      split
      · exact absurd ⟨_, List.perm_singleton.1 hp⟩ hl
      · rfl
    rw [layoutDict_eq, layoutDict_eq, hne, hne', sortBy_perm_invariant _ hp hn, if_neg (by simp), if_neg (by simp)]

theorem reordered_shape {v v' : Value} (h : Reordered v v') : shape v = shape v' := by
  induction h with
  | refl => rfl
  | list => rfl
  | dict => rfl
  | perm => rfl
  | trans _ _ _ _ _ h1 h2 => exact h1.trans h2

theorem map_eq_of_getElem {α β γ : Type} {f : α → γ} {g : β → γ} {l : List α} {l' : List β} (h : l.length = l'.length)
    (hg : ∀ (i : Nat) a b, l[i]? = some a → l'[i]? = some b → f a = g b) : l.map f = l'.map g := by
  apply List.ext_getElem?
  intro i
  rw [List.getElem?_map, List.getElem?_map]
  cases ha : l[i]? with
  | none =>
    rw [List.getElem?_eq_none_iff] at ha
    rw [List.getElem?_eq_none_iff.2 (by omega)]; rfl
  | some a =>
    have hi : i < l'.length := by
      have := (List.getElem?_eq_some_iff.1 ha).1
      omega
    rw [List.getElem?_eq_getElem hi]
    simp [hg i a _ ha (List.getElem?_eq_getElem hi)]

/-- Elements and the entries rendered in the same way. -/
theorem layoutElems_congr (pre indent : Text) {l l' : List Value} (h : l.map shape = l'.map shape) (rs : List Text) :
    layoutElems pre indent l rs = layoutElems pre indent l' rs := by
  match l, l' with
  | [], [] => rfl
  | [], _ :: _ => simp at h
  | _ :: _, [] => simp at h
  | [v], [v'] =>
    simp only [List.map_cons, List.map_nil, List.cons.injEq, and_true] at h
    cases v <;> cases v' <;> first | rfl | (simp only [shape] at h; cases h; done) | (cases rs with | nil => rfl | cons r rs => cases rs <;> rfl)
  | [_], _ :: _ :: _ => simp at h
  | _ :: _ :: _, [_] => simp at h
  | a :: b :: l, c :: d :: l' => 
    have e : ∀ (x y : Value) (l : List Value), layoutElems pre indent (x :: y :: l) rs = layoutList pre indent rs := by
      intro x y l
      rw [layoutElems.eq_def]
      split
      · rename_i h; simp at h
      · rfl
    rw [e, e]

theorem marshal_list {pr : Char → Bool} {full head : Bool} {pre indent : Text} {l : List Value} (h : ∀ d, l ≠ [.dict d]) :
    marshal pr full head pre indent (.list l) = layoutList pre indent (renderElems pr full indent l) := by
  rw [marshal]
  intro d hd
  exact h d hd

/-- The output does not depend on the order of the entries. -/
theorem render_reordered (pr : Char → Bool) (full : Bool) (indent : Text) {v v' : Value} (h : Reordered v v') :
    render pr full indent v = render pr full indent v' := by
  induction h with
  | refl => rfl
  | list l l' hl hr ih =>
    rw [render, render, renderElems_map, renderElems_map]
    have h1 : l.map (render pr full indent) = l'.map (render pr full indent) := map_eq_of_getElem hl ih
    have h2 : l.map shape = l'.map shape := map_eq_of_getElem hl (fun i v v' hv hv' => reordered_shape (hr i v v' hv hv'))
    rw [h1, layoutElems_congr _ _ h2]
  | dict d d' hk hr ih =>
    rw [render, render, renderEntries_map, renderEntries_map, ← layoutDict_shape, ← layoutDict_shape (es := d'.map _), List.map_map, List.map_map]
    have hl : d.length = d'.length := by simpa using congrArg List.length hk
    congr 1
    refine map_eq_of_getElem hl (fun i e e' he he' => ?_)
    have hke : e.1 = e'.1 := by
      have := congrArg (fun l => l[i]?) hk
      simpa [List.getElem?_map, he, he'] using this
    simp only [Function.comp_def, shapeEntry]
    rw [hke, reordered_shape (hr i e e' he he'), ih i e e' he he']
  | perm d d' hn hp =>
    rw [render, render, renderEntries_map, renderEntries_map]
    refine layoutDict_perm _ _ _ _ _ (hp.map _) ?_
    rw [List.map_map]; exact hn
  | trans a b c _ _ h1 h2 => exact h1.trans h2

end Lemmas
end Verif
