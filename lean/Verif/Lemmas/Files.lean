import Verif.Model.Files
import Verif.Lemmas.Path
import Verif.Spec.FileSpec
/-!
# Lemmas about the files written for a template
-/

namespace Verif.Lemmas
open Text Path Files Spec

theorem isName_iff {n : Text} : IsName n ↔ FileName n := by
  unfold IsName IsElem FileName
  constructor
  · rintro ⟨⟨h1, h2, h3⟩, h4⟩; exact ⟨h1, h2, h4, h3⟩
  · rintro ⟨h1, h2, h3, h4⟩; exact ⟨⟨h1, h2, h4⟩, h3⟩

/-- The place of a file is the place of its folder and its name. -/
theorem place_name {cwd d : Text} (hc : isAbs cwd = true) (hd : FolderPart d) :
    ∃ folder, (∀ e ∈ folder, IsName e) ∧ ∀ m, IsName m → place cwd (d ++ m) = '/' :: join ['/'] (folder ++ [m]) := by
  by_cases ha : isAbs d = true
  · rcases hd with rfl | ⟨d', rfl⟩
    · exact absurd ha (by decide)
    · refine ⟨placeElems d', placeElems_isName d', fun m hm => ?_⟩
      have e : d' ++ T "/" ++ m = d' ++ '/' :: m := by simp [T]
      unfold place
      rw [if_pos (isAbs_append ha), clean_abs (isAbs_append ha), e, placeElems_cut, elems_single hm.1, resolve_names _ _ _ (by simpa using hm.2)]
      simp
  · obtain ⟨folder, h1, h2⟩ := placeElems_name (cwd := cwd) (d := d) (by
      rcases hd with h | ⟨d', h⟩
      · exact .inl h
      · exact .inr ⟨d', h⟩)
    refine ⟨folder, h1, fun m hm => ?_⟩
    have hn : isAbs (d ++ m) ≠ true := by
      intro h
      unfold isAbs at h ha
      rw [hasPrefix_iff] at h ha
      cases d with
      | nil =>
        obtain ⟨t, ht⟩ := h
        exact hm.1.2.2 (by rw [List.nil_append] at ht; rw [← ht]; simp)
      | cons c d =>
        obtain ⟨t, ht⟩ := h
        simp at ht
        exact ha ⟨d, by rw [← ht.1]; rfl⟩
    unfold place
    rw [if_neg hn, clean_abs (isAbs_append hc), h2 m hm]

theorem folder_inj {folder folder' : List Text} {m m' : Text} (h1 : ∀ e ∈ folder, IsName e) (h1' : ∀ e ∈ folder', IsName e) (h2 : IsName m) (h2' : IsName m')
    (h : '/' :: join ['/'] (folder ++ [m]) = '/' :: join ['/'] (folder' ++ [m'])) : folder = folder' ∧ m = m' := by
  have a := placeElems_write (l := folder ++ [m]) (by
    intro e he
    rcases List.mem_append.1 he with he | he
    · exact h1 e he
    · rw [List.mem_singleton.1 he]; exact h2)
  have b := placeElems_write (l := folder' ++ [m']) (by
    intro e he
    rcases List.mem_append.1 he with he | he
    · exact h1' e he
    · rw [List.mem_singleton.1 he]; exact h2')
  rw [h] at a
  rw [b] at a
  have := List.append_inj' a.symm rfl
  simpa using this

/-- Two different names of a folder are two different places. -/
theorem place_ne {cwd d m m' : Text} (hc : isAbs cwd = true) (hd : FolderPart d) (hm : FileName m) (hm' : FileName m') (h : m ≠ m') :
    place cwd (d ++ m) ≠ place cwd (d ++ m') := by
  obtain ⟨folder, h1, h2⟩ := place_name hc hd
  rw [h2 m (isName_iff.2 hm), h2 m' (isName_iff.2 hm')]
  intro hp
  exact h (folder_inj h1 h1 (isName_iff.2 hm) (isName_iff.2 hm') hp).2

theorem join_tail (l : List Text) (x y : Text) : join ['/'] (l ++ [x ++ y]) = join ['/'] (l ++ [x]) ++ y := by
  induction l with
  | nil => rfl
  | cons z l ih => rw [List.cons_append, List.cons_append, join_cons_of_ne _ _ (by simp), join_cons_of_ne _ _ (by simp), ih]; simp

theorem nameExt_ext {a e : Text} (h : NameExt a e) (hs : '/' ∉ a ++ e) (pre : List Text) (hp : ∀ x ∈ pre, '/' ∉ x) :
    Content.ext (join ['/'] (pre ++ [a ++ e])) = e := by
  unfold Content.ext
  rw [splitC_join (by simp) (by
    intro l hl
    rcases List.mem_append.1 hl with hl | hl
    · exact hp l hl
    · rw [List.mem_singleton.1 hl]; exact hs)]
  simp only [List.getLastD_eq_getLast?, List.getLast?_append, List.getLast?_singleton, Option.some_or, Option.getD_some]
  cases h with
  | none h => rw [List.append_nil, splitC_of_not_mem h]
  | some b h =>
    rw [splitC_cut, splitC_of_not_mem h]
    cases hc : splitC '.' a with
    | nil => exact absurd hc (splitC_ne_nil _ _)
    | cons x l =>
      cases l with
      | nil => simp
      | cons y l =>
        simp only [List.cons_append]
        rw [← List.cons_append, List.getLast?_append]
        rfl

theorem nameExt_place {a e : Text} (h : NameExt a e) (hn : IsName (a ++ e)) {folder : List Text} (hf : ∀ x ∈ folder, IsName x) :
    Content.ext ('/' :: join ['/'] (folder ++ [a ++ e])) = e := by
  have : '/' :: join ['/'] (folder ++ [a ++ e]) = join ['/'] (([] :: folder) ++ [a ++ e]) := by
    rw [List.cons_append, join_cons_of_ne _ _ (by simp)]; rfl
  rw [this]
  refine nameExt_ext h hn.1.2.2 _ ?_
  intro x hx
  rcases List.mem_cons.1 hx with rfl | hx
  · simp
  · exact (hf x hx).1.2.2

theorem isTemplate_iff {f : Text} : isTemplate f = true ↔ ∃ x, IsTemplateExt x ∧ x <:+ f := by
  simp [isTemplate, templateExt, hasSuffix_iff, IsTemplateExt]

theorem suffix_name {x d n : Text} (hx : '/' ∉ x) (hd : FolderPart d) (h : x <:+ d ++ n) : x <:+ n := by
  rcases hd with rfl | ⟨d', rfl⟩
  · exact h
  · have hn : n <:+ d' ++ T "/" ++ n := List.suffix_append _ _
    rcases List.suffix_or_suffix_of_suffix h hn with h' | h'
    · exact h'
    · obtain ⟨t, rfl⟩ := h'
      by_cases ht : t = []
      · subst ht; exact List.suffix_rfl
      · exfalso
        obtain ⟨s, hs⟩ := h
        rw [← List.append_assoc] at hs
        have := List.append_cancel_right hs
        have hl := congrArg List.getLast? this
        rw [List.getLast?_append, List.getLast?_append] at hl
        have e1 : t.getLast? = some (t.getLast ht) := List.getLast?_eq_some_getLast ht
        rw [e1] at hl
        have e2 : (T "/").getLast? = some '/' := by decide
        rw [e2] at hl
        simp at hl
        exact hx (List.mem_append_left _ (hl ▸ List.getLast_mem ht))

theorem ext_noslash {x : Text} (h : IsTemplateExt x) : '/' ∉ x := by
  rcases h with rfl | rfl <;> decide

theorem stripExt_plain {f : Text} (h : ∀ x, IsTemplateExt x → ¬ x <:+ f) : stripExt f = f := by
  simp only [stripExt, templateExt, List.foldl_cons, List.foldl_nil]
  rw [trimSuffix_of_not (h _ (.inl rfl)), trimSuffix_of_not (h _ (.inr rfl))]

theorem not_gt_template (n : Text) : ¬ T ".gt" <:+ n ++ T ".template" := by
  intro h
  rcases List.suffix_or_suffix_of_suffix h (List.suffix_append n (T ".template")) with h' | h'
  · revert h'; decide
  · have := h'.length_le
    revert this; decide

theorem stripExt_template {n x : Text} (hx : IsTemplateExt x) (h : ¬ T ".template" <:+ n) : stripExt (n ++ x) = n := by
  simp only [stripExt, templateExt, List.foldl_cons, List.foldl_nil]
  rcases hx with rfl | rfl
  · rw [trimSuffix_append, trimSuffix_of_not h]
  · rw [trimSuffix_of_not (not_gt_template n), trimSuffix_append]

/-- The name of the result without the extension of templates. -/
theorem stripExt_name {o : Bool} {n m d : Text} (hd : FolderPart d) (h : ResultName o n m) :
    ∃ k, FileName k ∧ stripExt (d ++ n) = d ++ k ∧
      ((isTemplate (d ++ n) = false ∧ m = k) ∨
       (isTemplate (d ++ n) = true ∧ o = true ∧ m = k) ∨
       (isTemplate (d ++ n) = true ∧ o = false ∧ ∃ a e, k = a ++ e ∧ NameExt a e ∧ m = a ++ T ".generated" ++ e)) := by
  cases h with
  | plain _ _ hf hn =>
    have hn' : ∀ x, IsTemplateExt x → ¬ x <:+ d ++ n := fun x hx h => hn x hx (suffix_name (ext_noslash hx) hd h)
    refine ⟨n, hf, stripExt_plain hn', .inl ⟨?_, rfl⟩⟩
    rw [Bool.eq_false_iff]
    intro h
    obtain ⟨x, hx, hs⟩ := isTemplate_iff.1 h
    exact hn' x hx hs
  | replaced _ x hf hx hn =>
    refine ⟨m, hf, ?_, .inr (.inl ⟨?_, rfl, rfl⟩)⟩
    · rw [← List.append_assoc, stripExt_template hx (fun h => hn (suffix_name (ext_noslash (.inr rfl)) hd h))]
    · exact isTemplate_iff.2 ⟨x, hx, by rw [← List.append_assoc]; exact List.suffix_append _ _⟩
  | generated a e x hf hne hx hn =>
    refine ⟨a ++ e, hf, ?_, .inr (.inr ⟨?_, rfl, a, e, rfl, hne, rfl⟩)⟩
    · rw [← List.append_assoc d, stripExt_template hx (fun h => hn (suffix_name (ext_noslash (.inr rfl)) hd h))]
    · exact isTemplate_iff.2 ⟨x, hx, by rw [← List.append_assoc d]; exact List.suffix_append _ _⟩

theorem resultName_fileName {o : Bool} {n m : Text} (h : ResultName o n m) : FileName m := by
  cases h with
  | plain _ _ hf hn => exact hf
  | replaced _ x hf hx hn => exact hf
  | generated a e x hf hne hx hn =>
    refine ⟨by simp [T], ?_, ?_, ?_⟩
    · intro h; have := congrArg List.length h; simp [T] at this; omega
    · intro h; have := congrArg List.length h; simp [T] at this; omega
    · have := hf.2.2.2
      simp only [List.mem_append, not_or] at this ⊢
      exact ⟨⟨this.1, by decide⟩, this.2⟩

/-- The extension of a clean path. -/
theorem resultName_write {q : Request} {a e : Text} {folder : List Text} (h : NameExt a e) (hn : IsName (a ++ e)) (hf : ∀ x ∈ folder, IsName x)
    (ht : isTemplate q.template = true) (ho : q.overwrite = false)
    (hg : getTargetFile (stripExt q.template) q.sourceFolder q.targetFolder = '/' :: join ['/'] (folder ++ [a ++ e])) {r : Text} (hr : resultName q = some r) :
    r = '/' :: join ['/'] (folder ++ [a ++ T ".generated" ++ e]) := by
  unfold resultName at hr
  simp only [hg, ht, if_true, ho, nameExt_place h hn hf] at hr
  split at hr
  · simp at hr
  · have := Option.some.inj hr
    rw [← this, join_tail, join_tail, ← List.cons_append, trimSuffix_append, join_tail]
    simp

theorem place_location {cwd : Text} {l : List Text} (h : ∀ e ∈ l, IsName e) : place cwd ('/' :: join ['/'] l) = '/' :: join ['/'] l := by
  unfold place
  rw [if_pos (isAbs_cons _), clean_abs (isAbs_cons _), placeElems_write h]

theorem mem_snoc {folder : List Text} {m : Text} (hf : ∀ x ∈ folder, IsName x) (hm : IsName m) : ∀ e ∈ folder ++ [m], IsName e := by
  intro e he
  rcases List.mem_append.1 he with he | he
  · exact hf e he
  · rw [List.mem_singleton.1 he]; exact hm

/-- The place of the result when the target of the stripped name is known. -/
theorem result_place {cwd : Text} {q : Request} {d n m r : Text} {folder : List Text} (hq : q.template = d ++ n) (hd : FolderPart d)
    (h : ResultName q.overwrite n m) (hf : ∀ x ∈ folder, IsName x)
    (hg : ∀ k, FileName k → getTargetFile (d ++ k) q.sourceFolder q.targetFolder = '/' :: join ['/'] (folder ++ [k]))
    (hr : resultName q = some r) : place cwd r = '/' :: join ['/'] (folder ++ [m]) := by
  have hm := resultName_fileName h
  obtain ⟨k, hk, hs, h'⟩ := stripExt_name hd h
  have hg' := hg k hk
  rw [← hs, ← hq] at hg'
  rw [← hq] at h'
  have hpk := place_location (cwd := cwd) (mem_snoc hf (isName_iff.2 hk))
  rcases h' with ⟨ht, rfl⟩ | ⟨ht, ho, rfl⟩ | ⟨ht, ho, a, e, rfl, hne, rfl⟩
  · unfold resultName at hr
    simp only [ht, hg'] at hr
    simp at hr
    rw [← hr, hpk]
  · unfold resultName at hr
    simp only [ht, hg', ho, if_true] at hr
    split at hr
    · simp at hr
    · rw [← Option.some.inj hr, hpk]
  · rw [resultName_write hne (isName_iff.2 hk) hf ht ho hg' hr, place_location (mem_snoc hf (isName_iff.2 hm))]

theorem place_source {cwd S f : Text} (h : isAbs f = true ∨ cwd = S) : place S f = place cwd f := by
  rcases h with h | rfl
  · simp [place, h]
  · rfl

/-! ## Scripts -/

theorem reSpace_iff {c : Char} : reSpace c = true ↔ c = ' ' ∨ c = '\t' ∨ c = '\r' ∨ c = '\x0c' ∨ c = '\n' := by
  simp only [reSpace, Bool.or_eq_true, beq_iff_eq]
  constructor
  · rintro ((((h | h) | h) | h) | h) <;> simp [h]
  · rintro (h | h | h | h | h) <;> simp [h]

theorem dropWhile_append_of {p : Char → Bool} {a b : Text} (ha : ∀ c ∈ a, p c = true) (hb : b = [] ∨ ∃ c t, b = c :: t ∧ p c = false) :
    (a ++ b).dropWhile p = b := by
  induction a with
  | nil =>
    rcases hb with rfl | ⟨c, t, rfl, h⟩
    · rfl
    · simp [h]
  | cons x a ih =>
    rw [List.cons_append, List.dropWhile_cons, if_pos (ha x (by simp))]
    exact ih (fun c hc => ha c (by simp [hc]))

theorem takeWhile_spec (p : Char → Bool) (s : Text) :
    ∃ a b, s = a ++ b ∧ s.dropWhile p = b ∧ (∀ c ∈ a, p c = true) ∧ (b = [] ∨ ∃ c t, b = c :: t ∧ p c = false) := by
  refine ⟨s.takeWhile p, s.dropWhile p, (List.takeWhile_append_dropWhile).symm, rfl, fun c hc => List.all_eq_true.1 List.all_takeWhile c hc, ?_⟩
  induction s with
  | nil => exact .inl rfl
  | cons x s ih =>
    rw [List.dropWhile_cons]
    split
    · exact ih
    · rename_i h; exact .inr ⟨x, s, rfl, by simpa using h⟩

theorem unbroken_iff {s : Text} : Unbroken s ↔ ∀ c ∈ s, (!reSpace c) = true := by
  unfold Unbroken
  constructor
  · intro h c hc
    have := h c hc
    rw [Bool.not_eq_true', ← Bool.not_eq_true, reSpace_iff]
    simp [this]
  · intro h c hc
    have := h c hc
    rw [Bool.not_eq_true', ← Bool.not_eq_true, reSpace_iff] at this
    simp only [not_or] at this
    exact ⟨this.1, this.2.1, this.2.2.1, this.2.2.2.1, this.2.2.2.2⟩

theorem isScript_iff {s : Text} : isScript s = true ↔ ScriptText (trimSpace s) := by
  unfold isScript
  have hT : T "#!" = ['#', '!'] := by decide
  constructor
  · intro h
    split at h
    · simp at h
    · rename_i r hr
      rw [dropPrefix?_eq_some] at hr
      obtain ⟨b, r1, e1, d1, hb, hb'⟩ := takeWhile_spec reSpace r
      obtain ⟨w, r2, e2, d2, hw, hw'⟩ := takeWhile_spec (fun c => !reSpace c) r1
      obtain ⟨g, r3, e3, d3, hg, _⟩ := takeWhile_spec (fun c => c == ' ' || c == '\t') r2
      obtain ⟨a, r4, e4, d4, ha, _⟩ := takeWhile_spec (fun c => !reSpace c) r3
      obtain ⟨e, r5, e5, d5, he, _⟩ := takeWhile_spec (fun c => reSpace c && c != '\n') r4
      simp only [d1, d2, d3, d4, d5, Bool.and_eq_true, decide_eq_true_eq, Bool.or_eq_true] at h
      obtain ⟨h1, h2⟩ := h
      refine ⟨b, w, g, a, e, r5, ?_, fun c hc => reSpace_iff.1 (hb c hc), ?_, unbroken_iff.2 hw, ?_, unbroken_iff.2 ha, ?_, ?_, ?_⟩
      · rw [hr, e1, e2, e3, e4, e5, hT]; simp
      · rintro rfl
        simp only [List.nil_append] at e2
        subst e2
        rcases hb' with hb' | ⟨c, t, hc, hb'⟩
        · exact h1 hb'
        · rcases hw' with hw' | ⟨c', t', hc', hw'⟩
          · exact h1 hw'
          · rw [hc] at hc'
            injection hc' with hc' _
            subst hc'
            simp [hb'] at hw'
      · intro c hc
        have := hg c hc
        simpa using this
      · rintro rfl
        simp only [List.nil_append] at e3
        subst e3
        cases a with
        | nil => rfl
        | cons x a =>
          exfalso
          rcases hw' with hw' | ⟨c, t, hc, hw'⟩
          · rw [hw'] at e4; simp at e4
          · rw [hc] at e4
            injection e4 with e4 _
            have := ha x (by simp)
            rw [← e4] at this
            simp [this] at hw'
      · intro c hc
        have := he c hc
        simp only [Bool.and_eq_true, bne_iff_ne] at this
        rcases reSpace_iff.1 this.1 with h | h | h | h | h
        · exact .inl h
        · exact .inr (.inl h)
        · exact .inr (.inr (.inl h))
        · exact .inr (.inr (.inr h))
        · exact absurd h this.2
      · rcases h2 with h2 | h2
        · exact .inl h2
        · right
          cases r5 with
          | nil => simp at h2
          | cons c t => simp at h2; exact ⟨t, by rw [h2]⟩
  · rintro ⟨b, w, g, a, e, r, hs, hb, hw0, hw, hg, ha, hga, he, hr⟩
    have hd : dropPrefix? ['#', '!'] (trimSpace s) = some (b ++ (w ++ (g ++ (a ++ (e ++ r))))) := by
      rw [dropPrefix?_eq_some, hs, hT]; simp
    have hb' : ∀ c ∈ b, reSpace c = true := fun c hc => reSpace_iff.2 (hb c hc)
    have hw' := unbroken_iff.1 hw
    have ha' := unbroken_iff.1 ha
    have he1 : ∀ c ∈ e, (reSpace c && c != '\n') = true := by
      intro c hc
      rcases he c hc with h | h | h | h <;> subst h <;> decide
    have hr1 : ∀ p : Char → Bool, p '\n' = false → (r = [] ∨ ∃ c t, r = c :: t ∧ p c = false) := by
      intro p hp
      rcases hr with hr | ⟨t, hr⟩
      · exact .inl hr
      · exact .inr ⟨_, t, hr, hp⟩
    have her : e ++ r = [] ∨ ∃ c t, e ++ r = c :: t ∧ (!reSpace c) = false := by
      cases e with
      | nil =>
        rcases hr with hr | ⟨t, hr⟩
        · exact .inl (by simp [hr])
        · exact .inr ⟨'\n', t, by simp [hr], by decide⟩
      | cons c e =>
        refine .inr ⟨c, e ++ r, by simp, ?_⟩
        have := he1 c (by simp)
        simp only [Bool.and_eq_true] at this
        simp [this.1]
    have h1 : (b ++ (w ++ (g ++ (a ++ (e ++ r))))).dropWhile reSpace = w ++ (g ++ (a ++ (e ++ r))) := by
      apply dropWhile_append_of hb'
      cases w with
      | nil => exact absurd rfl hw0
      | cons c w => exact .inr ⟨c, _, rfl, by simpa using hw' c (by simp)⟩
    have h2 : (w ++ (g ++ (a ++ (e ++ r)))).dropWhile (fun c => !reSpace c) = g ++ (a ++ (e ++ r)) := by
      apply dropWhile_append_of hw'
      cases g with
      | nil => rw [hga rfl]; exact her
      | cons c g =>
        refine .inr ⟨c, _, rfl, ?_⟩
        rcases hg c (by simp) with h | h <;> subst h <;> decide
    have h3 : (((g ++ (a ++ (e ++ r))).dropWhile (fun c => c == ' ' || c == '\t')).dropWhile (fun c => !reSpace c)).dropWhile
        (fun c => reSpace c && c != '\n') = r := by
      have hg' : ∀ c ∈ g, (c == ' ' || c == '\t') = true := fun c hc => by simpa using hg c hc
      cases a with
      | nil =>
        obtain ⟨e', e'', ee, _, hee, hee'⟩ := takeWhile_spec (fun c => c == ' ' || c == '\t') e
        have : (g ++ ([] ++ (e ++ r))).dropWhile (fun c => c == ' ' || c == '\t') = e'' ++ r := by
          rw [ee, List.nil_append, List.append_assoc, ← List.append_assoc g]
          apply dropWhile_append_of
          · intro c hc
            rcases List.mem_append.1 hc with hc | hc
            · exact hg' c hc
            · exact hee c hc
          · cases e'' with
            | nil => exact hr1 _ (by decide)
            | cons c t =>
              refine .inr ⟨c, t ++ r, rfl, ?_⟩
              rcases hee' with h | ⟨c', t', h, h'⟩
              · simp at h
              · injection h with h _; rw [h]; exact h'
        rw [this]
        have h4 : (e'' ++ r).dropWhile (fun c => !reSpace c) = e'' ++ r := by
          apply dropWhile_append_of (a := []) (by simp)
          cases e'' with
          | nil => exact hr1 _ (by decide)
          | cons c t =>
            refine .inr ⟨c, t ++ r, rfl, ?_⟩
            have := he1 c (by rw [ee]; simp)
            simp only [Bool.and_eq_true] at this
            simp [this.1]
        rw [h4]
        exact dropWhile_append_of (fun c hc => he1 c (by rw [ee]; simp [hc])) (hr1 _ (by decide))
      | cons x a =>
        rw [dropWhile_append_of hg', dropWhile_append_of ha' her]
        · exact dropWhile_append_of he1 (hr1 _ (by decide))
        · refine .inr ⟨x, _, rfl, ?_⟩
          have := (ha x (by simp))
          simp [this.1, this.2.1]
    rw [hd]
    simp only [h1, h2, h3, Bool.and_eq_true, decide_eq_true_eq, Bool.or_eq_true]
    refine ⟨by simp [hw0], ?_⟩
    rcases hr with hr | ⟨t, hr⟩
    · exact .inl hr
    · right; rw [hr]; rfl

theorem run_append (cwd : Text) (fs : FS) (a b : List Op) : run cwd fs (a ++ b) = run cwd (run cwd fs a) b := by simp [run]

/-- What an operation leaves as it is. -/
def Op.spares (cwd : Text) (x : Text) : Op → Prop
  | .print _ => True
  | .mkdirAll _ => True
  | .rename a b => x ≠ place cwd a ∧ x ≠ place cwd b
  | .create p _ => x ≠ place cwd p
  | .fill p _ => x ≠ place cwd p
  | .remove p => x ≠ place cwd p

theorem apply_spares {cwd x : Text} {fs : FS} {op : Op} (h : Op.spares cwd x op) : Op.apply cwd fs op x = fs x := by
  cases op <;> simp [Op.apply, Op.spares] at h ⊢ <;> simp [h]

theorem run_spares {cwd x : Text} {fs : FS} {ops : List Op} (h : ∀ op ∈ ops, Op.spares cwd x op) : run cwd fs ops x = fs x := by
  induction ops generalizing fs with
  | nil => rfl
  | cons op ops ih =>
    show run cwd (Op.apply cwd fs op) ops x = fs x
    rw [ih (fun o ho => h o (by simp [ho])), apply_spares (h op (by simp))]

/-- The files after the two halves of a writing. -/
theorem run_write (cwd : Text) (fs : FS) (r : Text) (m : Nat) (c : Text) :
    run cwd fs [.create r m, .fill r c] = fun x => if x = place cwd r then some ⟨c, ((fs x).map File.mode).getD m⟩ else fs x := by
  funext x
  simp only [run, List.foldl_cons, List.foldl_nil, Op.apply]
  by_cases h : x = place cwd r <;> simp [h]

theorem plan_cases {q : Request} {r : Text} {ops : List Op} (h : plan q = some (r, ops)) :
    (r = [] ∧ (ops = [] ∨ (q.stdout = true ∧ ops = [.print q.result]))) ∨
    (resultName q = some r ∧ q.stdout = false ∧ (q.sourceFolder = q.targetFolder → q.changed = true) ∧ ops = writing q r) := by
  unfold plan at h
  split at h
  · have := Option.some.inj h
    injection this with h1 h2
    exact .inl ⟨h1.symm, .inl h2.symm⟩
  · rename_i r' hr
    split at h
    · rename_i hs
      split at h
      · simp at h
      · have := Option.some.inj h
        injection this with h1 h2
        exact .inl ⟨h1.symm, .inr ⟨hs, h2.symm⟩⟩
    · rename_i hs
      split at h
      · have := Option.some.inj h
        injection this with h1 h2
        exact .inl ⟨h1.symm, .inl h2.symm⟩
      · rename_i hc
        have := Option.some.inj h
        injection this with h1 h2
        subst h1
        refine .inr ⟨hr, by simpa using hs, fun e => ?_, h2.symm⟩
        by_cases hch : q.changed = true
        · exact hch
        · exact absurd ⟨e, by simpa using hch⟩ hc

theorem getTargetFile_abs {f S D : Text} (h : isAbs D = true) : isAbs (getTargetFile f S D) = true := by
  have hn : D ≠ [] := by rintro rfl; revert h; decide
  unfold getTargetFile
  rw [if_pos hn, joinPath_abs h]
  exact isAbs_clean (isAbs_append h)

theorem ne_nil_of_isAbs {p : Text} (h : isAbs p = true) : p ≠ [] := by rintro rfl; revert h; decide

theorem resultName_ne_nil {q : Request} {r : Text} (ha : isAbs q.targetFolder = true) (h : resultName q = some r) : r ≠ [] := by
  have hg := ne_nil_of_isAbs (getTargetFile_abs (f := stripExt q.template) (S := q.sourceFolder) ha)
  unfold resultName at h
  simp only at h
  split at h
  · split at h
    · simp at h
    · split at h
      · rw [← Option.some.inj h]; exact hg
      · rw [← Option.some.inj h]; simp [T]
  · rw [← Option.some.inj h]; exact hg

end Verif.Lemmas
