import Verif.Lemmas.RazorMarks
import Verif.Spec.TemplateGrammar
/-!
# The variables in razor expressions
-/

namespace Verif.Lemmas
open Verif Text Razor Prepare Spec

/-! ## The return of the marks -/

theorem opened_full {j : Nat} (L : Marked) : full (opened (fun i => if i = j then some (outOf j) else none) L) = full L := by
  induction L with
  | nil => rfl
  | cons x L ih =>
    cases x with
    | inl c => simpa [opened] using ih
    | inr i =>
      by_cases h : i = j
      · subst h
        have : opened (fun k => if k = i then some (outOf i) else none) (.inr i :: L) =
            (outOf i).map .inl ++ opened (fun k => if k = i then some (outOf i) else none) L := by simp [opened]
        rw [this, full_append, full_chars, ih, full_mark]
      · have : opened (fun k => if k = j then some (outOf j) else none) (.inr i :: L) =
            .inr i :: opened (fun k => if k = j then some (outOf j) else none) L := by simp [opened, h]
        rw [this, full_mark, ih, full_mark]

theorem opened_marks {j : Nat} {t : Text} {L : Marked} {i : Nat} (h : .inr i ∈ opened (fun i => if i = j then some t else none) L) : .inr i ∈ L ∧ i ≠ j := by
  simp only [opened, List.mem_flatMap] at h
  obtain ⟨x, hx, h⟩ := h
  cases x with
  | inl c => simp at h
  | inr k =>
    by_cases hk : k = j
    · simp [hk] at h
    · simp only [hk, if_false, List.mem_singleton] at h
      cases h
      exact ⟨hx, hk⟩

theorem opened_none {j : Nat} {t : Text} {L : Marked} (h : .inr j ∉ L) : opened (fun i => if i = j then some t else none) L = L := by
  induction L with
  | nil => rfl
  | cons x L ih =>
    simp only [List.mem_cons, not_or] at h
    cases x with
    | inl c => simpa [opened] using ih h.2
    | inr i =>
      have : i ≠ j := fun e => h.1 (e ▸ rfl)
      simpa [opened, this] using ih h.2

/-- The text where only the marks of the calls remain. -/
def calls (L : Marked) : Marked := opened (fun i => if i = 10 then none else some (outOf i)) L

theorem opened_append (f : Nat → Option Text) (L M : Marked) : opened f (L ++ M) = opened f L ++ opened f M := by simp [opened]

theorem opened_chars (f : Nat → Option Text) (t : Text) : opened f (t.map .inl) = t.map .inl := by
  induction t with
  | nil => rfl
  | cons c t ih => simpa [opened] using ih

theorem calls_opened {j : Nat} (hj : j ≠ 10) (L : Marked) : calls (opened (fun i => if i = j then some (outOf j) else none) L) = calls L := by
  unfold calls
  induction L with
  | nil => rfl
  | cons x L ih =>
    have e : ∀ f, opened f (x :: L) = opened f [x] ++ opened f L := fun f => opened_append f [x] L
    rw [e, e, opened_append, ih]
    congr 1
    cases x with
    | inl c => rfl
    | inr i =>
      by_cases h : i = j
      · subst h
        simp only [opened, List.flatMap_cons, List.flatMap_nil, List.append_nil, if_true, hj, if_false]
        exact opened_chars _ _
      · simp [opened, h]

/-- The marks that remain. -/
structure Back (L : Marked) (done : List Nat) (s : Text) (M : Marked) : Prop where
  known : ∀ i, .inr i ∈ L → i < 11 ∧ i ∉ done
  same : full L = s
  kept : calls L = M

theorem back_step {L : Marked} {done : List Nat} {s : Text} {M : Marked} (hs : ∀ w ∈ markWords, ¬ w <:+: s) (h : Back L done s M) {j : Nat} (hj : j < 10) {t : Text} (ht : t = outOf j ∨ j ∈ done) :
    ∃ L', replaceAll (markOf j) t (flat L) = flat L' ∧ Back L' (j :: done) s M := by
  have hk : Known L := fun i hi => (h.known i hi).1
  have hc : Clear L := by
    intro w hw
    rw [h.same]
    exact hs w hw
  refine ⟨_, mark_back (by omega) t hk hc, ?_, ?_, ?_⟩
  · intro i hi
    obtain ⟨h1, h2⟩ := opened_marks hi
    obtain ⟨h3, h4⟩ := h.known i h1
    exact ⟨h3, by simp [h2, h4]⟩
  · rcases ht with rfl | hd
    · rw [opened_full, h.same]
    · rw [opened_none (fun hm => (h.known j hm).2 hd), h.same]
  · rcases ht with rfl | hd
    · rw [calls_opened (by omega), h.kept]
    · rw [opened_none (fun hm => (h.known j hm).2 hd), h.kept]

theorem flat_full {L : Marked} (h : ∀ i, .inr i ∉ L) : flat L = full L := by
  induction L with
  | nil => rfl
  | cons x L ih =>
    have ih := ih fun i hi => h i (List.mem_cons_of_mem _ hi)
    cases x with
    | inl c => rw [flat_char, full_char, ih]
    | inr i => exact absurd (List.mem_cons_self ..) (h i)

/-- All the marks come back, except those of the calls. -/
theorem comeBack_calls {L : Marked} (hk : Known L) (hs : Clear L) : comeBack (flat L) = flat (calls L) := by
  have h0 : Back L [] (full L) (calls L) := ⟨fun i hi => ⟨hk i hi, by simp⟩, rfl, rfl⟩
  obtain ⟨L1, e1, h1⟩ := back_step hs h0 (j := 0) (by decide) (t := c!"$$") (.inl rfl)
  obtain ⟨L2, e2, h2⟩ := back_step hs h1 (j := 0) (by decide) (t := c!"$") (.inr (by simp))
  obtain ⟨L3, e3, h3⟩ := back_step hs h2 (j := 1) (by decide) (t := c!"...") (.inl rfl)
  obtain ⟨L4, e4, h4⟩ := back_step hs h3 (j := 2) (by decide) (t := c!"range") (.inl rfl)
  obtain ⟨L5, e5, h5⟩ := back_step hs h4 (j := 3) (by decide) (t := c!"default") (.inl rfl)
  obtain ⟨L6, e6, h6⟩ := back_step hs h5 (j := 4) (by decide) (t := c!"func") (.inl rfl)
  obtain ⟨L7, e7, h7⟩ := back_step hs h6 (j := 5) (by decide) (t := c!"type") (.inl rfl)
  obtain ⟨L8, e8, h8⟩ := back_step hs h7 (j := 6) (by decide) (t := c!"struct") (.inl rfl)
  obtain ⟨L9, e9, h9⟩ := back_step hs h8 (j := 7) (by decide) (t := c!"map") (.inl rfl)
  obtain ⟨L10, e10, h10⟩ := back_step hs h9 (j := 8) (by decide) (t := c!".") (.inl rfl)
  obtain ⟨L11, e11, h11⟩ := back_step hs h10 (j := 9) (by decide) (t := c!"$$.") (.inl rfl)
  have he : comeBack (flat L) = flat L11 := by
    rw [← e11, ← e10, ← e9, ← e8, ← e7, ← e6, ← e5, ← e4, ← e3, ← e2, ← e1]
    rfl
  rw [he, ← h11.kept]
  congr 1
  have only : ∀ i, .inr i ∈ L11 → i = 10 := by
    intro i hi
    obtain ⟨hlt, hd⟩ := h11.known i hi
    simp only [List.mem_cons, List.not_mem_nil, or_false, not_or] at hd
    omega
  clear he h11 e11
  unfold calls
  induction L11 with
  | nil => rfl
  | cons x L ih =>
    have e : ∀ f, opened f (x :: L) = opened f [x] ++ opened f L := fun f => opened_append f [x] L
    rw [e, ← ih fun i hi => only i (List.mem_cons_of_mem _ hi)]
    cases x with
    | inl c => rfl
    | inr i =>
      have := only i (List.mem_cons_self ..)
      subst this
      rfl

theorem calls_full (L : Marked) : full (calls L) = full L := by
  unfold calls
  induction L with
  | nil => rfl
  | cons x L ih =>
    have e : ∀ f, opened f (x :: L) = opened f [x] ++ opened f L := fun f => opened_append f [x] L
    have e' : full (x :: L) = full [x] ++ full L := full_append [x] L
    rw [e, e', full_append, ih]
    congr 1
    cases x with
    | inl c => rfl
    | inr i =>
      by_cases h : i = 10
      · subst h; rfl
      · simp only [opened, h, if_false, List.flatMap_cons, List.flatMap_nil, List.append_nil]
        rw [full_chars]
        simp [full]

theorem calls_marks {L : Marked} {i : Nat} (h : .inr i ∈ calls L) : i = 10 ∧ .inr 10 ∈ L := by
  simp only [calls, opened, List.mem_flatMap] at h
  obtain ⟨x, hx, h⟩ := h
  cases x with
  | inl c => simp at h
  | inr k =>
    by_cases hk : k = 10
    · subst hk
      simp at h
      exact ⟨h, hx⟩
    · simp [hk] at h

theorem comeBack_flat {L : Marked} (hk : Known L) (hs : Clear L) (hc : .inr 10 ∉ L) : comeBack (flat L) = full L := by
  rw [comeBack_calls hk hs, flat_full fun i hi => hc (calls_marks hi).2, calls_full]

theorem length_drop_all {k : Text} (hk : k ≠ []) (s : Text) : (replaceAll k [] s).length ≤ s.length := by
  refine replace_induction hk (P := fun s => (replaceAll k [] s).length ≤ s.length) ?_ ?_ ?_ s
  · rw [replaceAll_nil]; exact Nat.le_refl _
  · intro s ih
    rw [replaceAll_match _ _ hk]
    simp only [List.nil_append, List.length_append]
    omega
  · intro c s hp ih
    rw [replaceAll_skip hp]
    simpa using ih

/-- A mark that was not put in is not there. -/
theorem mark_absent {L : Marked} (hk : Known L) (hs : Clear L) {j : Nat} (hj : j < 11) (h : .inr j ∉ L) : hasPrefix (markOf j) (flat L) = false := by
  cases hh : hasPrefix (markOf j) (flat L) with
  | false => rfl
  | true =>
    obtain ⟨r, hr⟩ := hasPrefix_iff.mp hh
    obtain ⟨w, _, t, hf⟩ := markOf_form j hj
    have hne : markOf j ≠ [] := by rw [hf]; simp
    have e := mark_back hj [] hk hs
    rw [opened_none h, ← hr, replaceAll_match _ _ hne, List.nil_append] at e
    have h1 := length_drop_all hne r
    rw [e, List.length_append] at h1
    have : 0 < (markOf j).length := List.length_pos_iff.mpr hne
    omega

theorem length_drop_one {k : Text} (hk : k ≠ []) (s : Text) (h : k <:+: s) : (replaceAll k [] s).length < s.length := by
  revert h
  have hpos : 0 < k.length := List.length_pos_iff.mpr hk
  refine replace_induction hk (P := fun s => k <:+: s → (replaceAll k [] s).length < s.length) ?_ ?_ ?_ s
  · intro h
    exact absurd (List.eq_nil_of_infix_nil h) hk
  · intro s _ _
    have := length_drop_all hk s
    rw [replaceAll_match _ _ hk]
    simp only [List.nil_append, List.length_append]
    omega
  · intro c s hp ih h
    rw [replaceAll_skip hp]
    rcases List.infix_cons_iff.mp h with h | h
    · rw [hasPrefix_iff.mpr h] at hp
      cases hp
    · simpa using ih h

/-- A mark that was not put in is nowhere. -/
theorem mark_nowhere {L : Marked} (hk : Known L) (hs : Clear L) {j : Nat} (hj : j < 11) (h : .inr j ∉ L) : ¬ markOf j <:+: flat L := by
  intro hi
  obtain ⟨w, _, t, hf⟩ := markOf_form j hj
  have hne : markOf j ≠ [] := by rw [hf]; simp
  have e := mark_back hj [] hk hs
  rw [opened_none h] at e
  have := length_drop_one hne _ hi
  rw [e] at this
  omega

/-! ## Characters -/

theorem var_ascii {letter : Char → Bool} (hl : SignLetters letter) {c : Char} (hc : varChar letter c = true) (h : c.toNat < 128) :
    (c.isAlpha || c.isDigit || c == '_') = true := by
  have := hl.1.1 c h
  simpa [varChar, this] using hc

/-- The characters that are in no name. -/
theorem var_not {letter : Char → Bool} (hl : SignLetters letter) : ∀ d ∈ c!"$. <>≠÷≦≧«»[]:\"`♠", varChar letter d = false := by
  obtain ⟨⟨h1, h2, h3, h4⟩, h5, h6, h7, h8⟩ := hl
  intro d hd
  simp only [List.mem_cons, List.not_mem_nil, or_false] at hd
  rcases hd with rfl | rfl | rfl | rfl | rfl | rfl | rfl | rfl | rfl | rfl | rfl | rfl | rfl | rfl | rfl | rfl | rfl <;>
    simp [varChar, h2, h3, h4, h5, h6, h7, h8] <;> exact (h1 _ (by decide)).trans (by decide)

theorem mark_chars {letter : Char → Bool} (hl : SignLetters letter) {i : Nat} (hi : i < 11) : ∀ c ∈ markOf i, varChar letter c = true := by
  have : ∀ i ∈ List.range 11, ∀ c ∈ markOf i, c.toNat < 128 ∧ (c.isAlpha || c.isDigit || c == '_') = true := by decide +kernel
  intro c hc
  obtain ⟨h1, h2⟩ := this i (List.mem_range.mpr hi) c hc
  rw [varChar, hl.1.1 c h1]
  exact h2

theorem flat_var {letter : Char → Bool} (hl : SignLetters letter) {L : Marked} (hk : Known L) (h : ∀ c, .inl c ∈ L → varChar letter c = true) :
    ∀ c ∈ flat L, varChar letter c = true := by
  intro c hc
  simp only [flat, List.mem_flatMap] at hc
  obtain ⟨x, hx, hc⟩ := hc
  cases x with
  | inl d =>
    simp only [List.mem_singleton] at hc
    exact hc ▸ h d hx
  | inr i => exact mark_chars hl (hk i hx) c hc

theorem mem_source {L : Marked} {c : Char} (h : .inl c ∈ L) : c ∈ source L := by
  simp only [source, List.mem_flatMap]
  exact ⟨.inl c, h, by simp⟩

/-! ## The other replacements -/

theorem signs_free {letter : Char → Bool} (hl : SignLetters letter) {order : List (Text × Text)} (ho : ∀ k ∈ order, k ∈ Prepare.signs) {L : Marked} (hk : Known L)
    (hs : Clear L) (h1 : .inr 1 ∉ L) (h : ∀ c ∈ flat L, varChar letter c = true) : replaceEach order (flat L) = flat L := by
  have one : ∀ k ∈ Prepare.signs, replaceAll k.1 k.2 (flat L) = flat L := by
    intro k hk'
    by_cases hm : k.1 = replMark 1
    · have e := mark_back (j := 1) (by decide) k.2 hk hs
      rw [opened_none h1] at e
      rw [hm]
      exact e
    · have : ∀ k ∈ Prepare.signs, k.1 ≠ replMark 1 → ∃ d ∈ c!"$. <>≠÷≦≧«»[]:\"`♠", d ∈ k.1 := by decide +kernel
      obtain ⟨d, hd, hd'⟩ := this k hk' hm
      refine replaceAll_free (fun hi => ?_)
      have := h d (hi.subset hd')
      rw [var_not hl d hd] at this
      cases this
  induction order with
  | nil => rfl
  | cons k order ih =>
    have : replaceEach (k :: order) (flat L) = replaceEach order (replaceAll k.1 k.2 (flat L)) := rfl
    rw [this, one k (ho k (List.mem_cons_self ..)), ih fun k hk => ho k (List.mem_cons_of_mem _ hk)]

theorem operators_free {order : List (Text × Text)} (ho : ∀ k ∈ order, k ∈ wordOperators) {s : Text} (h : ' ' ∉ s) : replaceEach order s = s := by
  induction order with
  | nil => rfl
  | cons k order ih =>
    have : replaceEach (k :: order) s = replaceEach order (replaceAll k.1 k.2 s) := rfl
    have hb : ∀ k ∈ wordOperators, ' ' ∈ k.1 := by decide +kernel
    rw [this, replaceAll_free (fun hi => h (hi.subset (hb k (ho k (List.mem_cons_self ..))))), ih fun k hk => ho k (List.mem_cons_of_mem _ hk)]

theorem index_free {s : Text} (h1 : '[' ∉ s) (h2 : ':' ∉ s) : indexExpression s = s := by
  rw [indexExpression_eq]
  exact completeFrom_free h1 h2 none

theorem rewrite_var {letter : Char → Bool} (hl : SignLetters letter) {o : Orders} (ho : SomeOrder o) {s : Text} {L : Marked} (hk : Known L) (hs : Clear L)
    (h1 : .inr 1 ∉ L) (h : ∀ c ∈ flat L, varChar letter c = true) (hd : dots .free (replaceEach o.words s) = flat L) : rewrite o s = flat L := by
  have hn : ∀ d ∈ c!"$. <>≠÷≦≧«»[]:\"`♠", d ∉ flat L := by
    intro d hd hm
    have := h d hm
    rw [var_not hl d hd] at this
    cases this
  unfold rewrite
  rw [hd, signs_free hl (fun k hk => ho.signs.subset hk) hk hs h1 h, operators_free (fun k hk => ho.operators.subset hk) (hn ' ' (by decide)),
    index_free (hn '[' (by decide)) (hn ':' (by decide))]

theorem prepare_plain {o : Orders} (ho : SomeOrder o) {s : Text} (h : ∀ c ∈ s, c ≠ '"' ∧ c ≠ '`' ∧ c ≠ '♠') : prepare o s = some (rewrite o s) := by
  have hc : Cut s [] s := by
    refine .tail ?_
    intro pre q rest lit after hs _ hq _ _
    have := h q (by rw [hs]; simp)
    rcases hq with hq | hq
    · exact this.2.1 hq
    · exact this.1 hq
  have := prepare_cut ho (fun hm => (h _ hm).2.2 rfl) hc
  simpa using this

theorem expand_plain (group : Text → Text) {s : Text} (h : '$' ∉ s) : expand group s = s := by
  unfold expand
  induction s with
  | nil => rfl
  | cons c s ih =>
    simp only [List.mem_cons, not_or] at h
    rw [expandAux, if_neg (Ne.symm h.1), ih h.2]

theorem expand_dollar (group : Text → Text) {s : Text} (h : '$' ∉ s) : expand group (c!"$$" ++ s) = '$' :: s := by
  have := expand_plain group h
  have hp : hasPrefix ['$'] ('$' :: s) = true := hasPrefix_iff.mpr ⟨s, rfl⟩
  unfold expand at this ⊢
  simp [expandAux, hp, this]

theorem word_outside : ∀ w ∈ markWords, '_' ∉ w ∧ '$' ∉ w ∧ '.' ∉ w ∧ w ≠ [] := by decide

theorem source_full {L : Marked} (h : ∀ i, .inr i ∈ L → i ≠ 0 ∧ i < 9) : full L = source L := by
  induction L with
  | nil => rfl
  | cons x L ih =>
    have ih := ih fun i hi => h i (List.mem_cons_of_mem _ hi)
    cases x with
    | inl c => rw [full_char, source_char, ih]
    | inr i =>
      obtain ⟨h0, h9⟩ := h i (List.mem_cons_self ..)
      have : outOf i = keyOf i := by
        have h9' : i ≠ 9 := Nat.ne_of_lt h9
        simp [outOf, keyOf, h0, h9']
      rw [full_mark, source_mark, ih, this]

theorem key_source {L : Marked} {i : Nat} (h : .inr i ∈ L) : ∀ c ∈ keyOf i, c ∈ source L := by
  intro c hc
  simp only [source, List.mem_flatMap]
  exact ⟨.inr i, h, hc⟩

theorem infix_behind {w s : Text} {c : Char} (hc : c ∉ w) (hw : w ≠ []) (h : w <:+: c :: s) : w <:+: s := by
  rcases List.infix_cons_iff.mp h with h | h
  · obtain ⟨d, w', rfl⟩ := List.exists_cons_of_ne_nil hw
    rw [List.cons_prefix_cons] at h
    exact absurd (by simp [h.1]) hc
  · exact h

/-- The text of a variable in an expression. -/
def written : Ident → Text
  | .glob n => n
  | .loc n => '$' :: n
  | .ctx n => '.' :: n

/-- The name of a variable. -/
def nameOf : Ident → Text
  | .glob n => n
  | .loc n => n
  | .ctx n => n

/-- The marks for the reserved words of a name. -/
def WordMarks (L : Marked) (n : Text) : Prop := (∀ i, .inr i ∈ L → 2 ≤ i ∧ i < 8) ∧ source L = n

/-- What is given to Go for a variable, with its marks. -/
inductive NameMarks : Ident → Marked → Prop
  | glob {n : Text} {L : Marked} : WordMarks L n → NameMarks (.glob n) L
  | loc {n : Text} {L : Marked} : WordMarks L n → NameMarks (.loc n) (.inr 0 :: L)
  | ctx {n : Text} {L : Marked} : WordMarks L n → NameMarks (.ctx n) (.inr 8 :: L)

theorem wordMarks_full {L : Marked} {n : Text} (h : WordMarks L n) : full L = n := by
  rw [← h.2]
  exact source_full fun i hi => ⟨by have := h.1 i hi; omega, by have := h.1 i hi; omega⟩

theorem word_range {L : Marked} (h0 : .inr 0 ∉ L) (h1 : .inr 1 ∉ L) (hL : ∀ i, .inr i ∈ L → i < 8) : ∀ i, .inr i ∈ L → 2 ≤ i ∧ i < 8 := by
  intro i hi
  have := hL i hi
  have h0' : i ≠ 0 := fun e => h0 (e ▸ hi)
  have h1' : i ≠ 1 := fun e => h1 (e ▸ hi)
  omega

theorem prepare_marks {letter : Char → Bool} (hl : SignLetters letter) {o : Orders} (ho : SomeOrder o) {v code : Text} (hv : Variable letter v code)
    (hm : ∀ w ∈ markWords, ¬ w <:+: v) :
    ∃ i L, v = written i ∧ code = varText i ∧ (∀ d ∈ nameOf i, varChar letter d = true) ∧ NameMarks i L ∧ prepare o v = some (flat L) ∧ GoName letter (flat L) := by
  obtain ⟨L, ⟨hL, hsrc⟩, hw⟩ := words_marked (fun k hk => ho.words.subset hk) (s := v) (L := v.map .inl)
    ⟨fun i hi => by simp at hi, source_chars v⟩
  rw [flat_chars] at hw
  have hk : Known L := fun i hi => Nat.lt_trans (hL i hi) (by decide)
  have hn : ∀ {s : Text}, (∀ c ∈ s, varChar letter c = true) → ∀ d ∈ c!"$. <>≠÷≦≧«»[]:\"`♠", d ∉ s := by
    intro s hs d hd hmem
    have := hs d hmem
    rw [var_not hl d hd] at this
    cases this
  have gone : ∀ k ∈ reservedKeywords, ¬ k <:+: flat L := by
    intro k hk'
    have : ∀ k ∈ reservedKeywords, ∃ m, (k, m) ∈ reserved := by
      intro k hk'
      have : reservedKeywords = reserved.map Prod.fst := by decide +kernel
      rw [this] at hk'
      obtain ⟨q, hq, rfl⟩ := List.mem_map.mp hk'
      exact ⟨q.2, hq⟩
    obtain ⟨m, hm⟩ := this k hk'
    rw [← hw]
    exact words_gone (fun k hk => ho.words.subset hk) v (k, m) (ho.words.symm.subset hm)
  have under : ∀ w ∈ goKeywords, '_' ∉ w := by decide
  have fromMark : ∀ (i : Nat) (M : Marked), i < 11 → ∃ t, flat (.inr i :: M) = '_' :: t := by
    intro i M hi
    obtain ⟨w, _, t, hf⟩ := markOf_form i hi
    exact ⟨'_' :: (w ++ t) ++ flat M, by rw [flat_mark, hf]; rfl⟩
  cases hv with
  | global c n hc hcs hkw =>
    have hvar : ∀ d ∈ c :: n, varChar letter d = true := by
      intro d hd
      rcases List.mem_cons.mp hd with rfl | hd
      · rcases hc with h | rfl
        · simp [varChar, h]
        · simp [varChar]
      · exact hcs d hd
    have h0 : .inr 0 ∉ L := fun h => hn hvar '$' (by decide) (hsrc ▸ key_source h '$' (by decide))
    have h1 : .inr 1 ∉ L := fun h => hn hvar '.' (by decide) (hsrc ▸ key_source h '.' (by decide))
    have hfull : full L = c :: n := by
      rw [← hsrc]
      exact source_full fun i hi => ⟨fun e => h0 (e ▸ hi), Nat.lt_trans (hL i hi) (by decide)⟩
    have hcl : Clear L := by
      intro w hw'
      rw [hfull]
      exact hm w hw'
    have hfv : ∀ d ∈ flat L, varChar letter d = true := flat_var hl hk fun d hd => hvar d (hsrc ▸ mem_source hd)
    have hd : dots .free (replaceEach o.words (c :: n)) = flat L := by rw [hw, dots_free (hn hfv '.' (by decide))]
    refine ⟨.glob (c :: n), L, rfl, rfl, hvar, .glob ⟨word_range h0 h1 hL, hsrc⟩, ?_, ⟨?_, hfv, ?_⟩⟩
    · rw [prepare_plain ho, rewrite_var hl ho hk hcl h1 hfv hd]
      intro d hd
      refine ⟨?_, ?_, ?_⟩ <;> rintro rfl <;> exact hn hvar _ (by decide) hd
    · cases L with
      | nil => cases hsrc
      | cons x L =>
        cases x with
        | inl d =>
          rw [source_char] at hsrc
          exact ⟨d, flat L, rfl, by cases hsrc; exact hc⟩
        | inr i =>
          obtain ⟨t, ht⟩ := fromMark i L (hk i (List.mem_cons_self ..))
          exact ⟨'_', t, ht, .inr rfl⟩
    · intro hg
      have hu := under _ hg
      have hno : ∀ i, .inr i ∉ L := by
        intro i hi
        apply hu
        simp only [flat, List.mem_flatMap]
        refine ⟨.inr i, hi, ?_⟩
        obtain ⟨t, ht⟩ := mark_ends i (hk i hi)
        simp [ht]
      have hg' := hg
      rw [flat_full hno, hfull] at hg'
      have ha := hkw hg'
      have hr : ∀ w ∈ allowedKeywords, w ∈ reservedKeywords := by decide
      have := gone _ (hr _ ha)
      rw [flat_full hno, hfull] at this
      exact this (List.infix_refl _)
  | «local» n hcs =>
    have hd0 : '$' ∉ flat L := by
      intro h
      obtain ⟨a, b, hab⟩ := List.append_of_mem h
      exact gone c!"$" (by decide) ⟨a, b, by rw [hab]; simp⟩
    obtain ⟨M, rfl, hM⟩ : ∃ M, L = .inr 0 :: M ∧ source M = n := by
      cases L with
      | nil => cases hsrc
      | cons x M =>
        cases x with
        | inl d =>
          rw [source_char] at hsrc
          cases hsrc
          exact absurd (List.mem_cons_self ..) hd0
        | inr i =>
          have hi := hL i (List.mem_cons_self ..)
          have : ∀ i ∈ List.range 8, (keyOf i).head? = some '$' → i = 0 := by decide +kernel
          have hne := (key_plain hi).2.1
          obtain ⟨d, t, hd⟩ := List.exists_cons_of_ne_nil hne
          have h0 : i = 0 := by
            refine this i (List.mem_range.mpr hi) ?_
            rw [source_mark, hd] at hsrc
            cases hsrc
            rw [hd]
            rfl
          subst h0
          refine ⟨M, rfl, ?_⟩
          rw [source_mark] at hsrc
          exact (List.cons.inj hsrc).2
    have h0 : .inr 0 ∉ M := fun h => hn hcs '$' (by decide) (hM ▸ key_source h '$' (by decide))
    have h1 : .inr 1 ∉ M := fun h => hn hcs '.' (by decide) (hM ▸ key_source h '.' (by decide))
    have hfull : full M = n := by
      rw [← hM]
      exact source_full fun i hi => ⟨fun e => h0 (e ▸ hi), Nat.lt_trans (hL i (List.mem_cons_of_mem _ hi)) (by decide)⟩
    have hfull0 : full (.inr 0 :: M) = c!"$$" ++ n := by rw [full_mark, hfull]; rfl
    have hcl : Clear (.inr 0 :: M) := by
      intro w hw' hi
      obtain ⟨_, a2, a3, a4⟩ := word_outside w hw'
      rw [hfull0] at hi
      exact hm w hw' (List.infix_cons (infix_behind a2 a4 (infix_behind a2 a4 hi)))
    have hfv : ∀ d ∈ flat (.inr 0 :: M), varChar letter d = true := by
      refine flat_var hl hk fun d hd => ?_
      rcases List.mem_cons.mp hd with h | h
      · cases h
      · exact hcs d (hM ▸ mem_source h)
    have hd : dots .free (replaceEach o.words ('$' :: n)) = flat (.inr 0 :: M) := by rw [hw, dots_free (hn hfv '.' (by decide))]
    refine ⟨.loc n, .inr 0 :: M, rfl, rfl, hcs, .loc ⟨word_range h0 h1 fun i hi => hL i (List.mem_cons_of_mem _ hi), hM⟩, ?_, ⟨?_, hfv, ?_⟩⟩
    · rw [prepare_plain ho, rewrite_var hl ho hk hcl (by simp [h1]) hfv hd]
      intro d hd
      rcases List.mem_cons.mp hd with rfl | hd
      · decide
      · refine ⟨?_, ?_, ?_⟩ <;> rintro rfl <;> exact hn hcs _ (by decide) hd
    · obtain ⟨t, ht⟩ := fromMark 0 M (by decide)
      exact ⟨'_', t, ht, .inr rfl⟩
    · intro hg
      obtain ⟨t, ht⟩ := fromMark 0 M (by decide)
      exact under _ hg (by rw [ht]; simp)
  | context n hcs =>
    obtain ⟨M, rfl, hM⟩ : ∃ M, L = .inl '.' :: M ∧ source M = n := by
      cases L with
      | nil => cases hsrc
      | cons x M =>
        cases x with
        | inl d =>
          rw [source_char] at hsrc
          cases hsrc
          exact ⟨M, rfl, rfl⟩
        | inr i =>
          have hi := hL i (List.mem_cons_self ..)
          have : ∀ i ∈ List.range 8, (keyOf i).head? = some '.' → i = 1 := by decide +kernel
          obtain ⟨d, t, hd⟩ := List.exists_cons_of_ne_nil (key_plain hi).2.1
          have h1 : i = 1 := by
            refine this i (List.mem_range.mpr hi) ?_
            rw [source_mark, hd] at hsrc
            cases hsrc
            rw [hd]
            rfl
          subst h1
          rw [source_mark] at hsrc
          have := (List.cons.inj hsrc).2
          exact absurd (this ▸ List.mem_cons_self ..) (hn hcs '.' (by decide))
    have hLM : ∀ i, .inr i ∈ M → i < 8 := fun i hi => hL i (List.mem_cons_of_mem _ hi)
    have h0 : .inr 0 ∉ M := fun h => hn hcs '$' (by decide) (hM ▸ key_source h '$' (by decide))
    have h1 : .inr 1 ∉ M := fun h => hn hcs '.' (by decide) (hM ▸ key_source h '.' (by decide))
    have hfull : full M = n := by
      rw [← hM]
      exact source_full fun i hi => ⟨fun e => h0 (e ▸ hi), Nat.lt_trans (hLM i hi) (by decide)⟩
    have hfull8 : full (.inr 8 :: M) = '.' :: n := by rw [full_mark, hfull]; rfl
    have hcl : Clear (.inr 8 :: M) := by
      intro w hw'
      rw [hfull8]
      exact hm w hw'
    have hk8 : Known (.inr 8 :: M) := by
      intro i hi
      rcases List.mem_cons.mp hi with h | h
      · cases h; decide
      · exact Nat.lt_trans (hLM i h) (by decide)
    have hfM : ∀ d ∈ flat M, varChar letter d = true := flat_var hl (fun i hi => Nat.lt_trans (hLM i hi) (by decide)) fun d hd => hcs d (hM ▸ mem_source hd)
    have hfv : ∀ d ∈ flat (.inr 8 :: M), varChar letter d = true := by
      intro d hd
      rw [flat_mark] at hd
      rcases List.mem_append.mp hd with h | h
      · exact mark_chars hl (by decide) d h
      · exact hfM d h
    have hd : dots .free (replaceEach o.words ('.' :: n)) = flat (.inr 8 :: M) := by
      rw [hw, flat_char, dots]
      rw [if_pos rfl, dots_free (hn hfM '.' (by decide)), flat_mark]
      rfl
    refine ⟨.ctx n, .inr 8 :: M, rfl, rfl, hcs, .ctx ⟨word_range h0 h1 hLM, hM⟩, ?_, ⟨?_, hfv, ?_⟩⟩
    · rw [prepare_plain ho, rewrite_var hl ho hk8 hcl (by simp [h1]) hfv hd]
      intro d hd
      rcases List.mem_cons.mp hd with rfl | hd
      · decide
      · refine ⟨?_, ?_, ?_⟩ <;> rintro rfl <;> exact hn hcs _ (by decide) hd
    · obtain ⟨t, ht⟩ := fromMark 8 M (by decide)
      exact ⟨'_', t, ht, .inr rfl⟩
    · intro hg
      obtain ⟨t, ht⟩ := fromMark 8 M (by decide)
      exact under _ hg (by rw [ht]; simp)

/-- The marks of the text of an identifier. -/
def identMarks : Ident → Marked → Marked
  | .glob _, L => .inr 9 :: L
  | _, L => L

theorem nameMarks_known {i : Ident} {L : Marked} (h : NameMarks i L) : Known (identMarks i L) ∧ Known L := by
  cases h with
  | glob h =>
    constructor <;> intro j hj
    · rcases List.mem_cons.mp hj with h' | h'
      · cases h'; decide
      · have := h.1 j h'; omega
    · have := h.1 j hj; omega
  | loc h =>
    constructor <;> intro j hj <;> rcases List.mem_cons.mp hj with h' | h'
    · cases h'; decide
    · have := h.1 j h'; omega
    · cases h'; decide
    · have := h.1 j h'; omega
  | ctx h =>
    constructor <;> intro j hj <;> rcases List.mem_cons.mp hj with h' | h'
    · cases h'; decide
    · have := h.1 j h'; omega
    · cases h'; decide
    · have := h.1 j h'; omega

theorem nameMarks_clear {i : Ident} {L : Marked} (h : NameMarks i L) (hm : ∀ w ∈ markWords, ¬ w <:+: written i) : Clear (identMarks i L) ∧ Clear L := by
  cases h with
  | @glob n L h =>
    have hf := wordMarks_full h
    constructor <;> intro w hw hi
    · obtain ⟨_, a2, a3, a4⟩ := word_outside w hw
      have : full (identMarks (.glob n) L) = '$' :: '$' :: '.' :: n := by
        show full (.inr 9 :: L) = _
        rw [full_mark, hf]
        rfl
      rw [this] at hi
      exact hm w hw (infix_behind a3 a4 (infix_behind a2 a4 (infix_behind a2 a4 hi)))
    · rw [hf] at hi
      exact hm w hw hi
  | @loc n L h =>
    have hf := wordMarks_full h
    have : Clear (.inr 0 :: L) := by
      intro w hw hi
      obtain ⟨_, a2, a3, a4⟩ := word_outside w hw
      rw [full_mark, hf] at hi
      exact hm w hw (List.infix_cons (infix_behind a2 a4 (infix_behind a2 a4 hi)))
    exact ⟨this, this⟩
  | @ctx n L h =>
    have hf := wordMarks_full h
    have : Clear (.inr 8 :: L) := by
      intro w hw hi
      rw [full_mark, hf] at hi
      exact hm w hw hi
    exact ⟨this, this⟩

/-- The text of an identifier, with its marks. -/
theorem ident_marks {i : Ident} {L : Marked} (h : NameMarks i L) (hm : ∀ w ∈ markWords, ¬ w <:+: written i) : identText (flat L) = flat (identMarks i L) := by
  have hk := (nameMarks_known h).2
  have hcl := (nameMarks_clear h hm).2
  cases h with
  | @glob n L h =>
    have e1 : hasPrefix dotMark (flat L) = false := mark_absent hk hcl (j := 8) (by decide) fun hi => by have := h.1 8 hi; omega
    have e2 : hasPrefix (replMark 0) (flat L) = false := mark_absent hk hcl (j := 0) (by decide) fun hi => by have := h.1 0 hi; omega
    have e3 : contains c!"__FuncCall__" (flat L) = false := by
      cases hh : contains c!"__FuncCall__" (flat L) with
      | false => rfl
      | true => exact absurd (contains_iff.mp hh) (mark_nowhere hk hcl (j := 10) (by decide) fun hi => by have := h.1 10 hi; omega)
    unfold identText
    rw [e1, e2, e3]
    rfl
  | @loc n L h =>
    have : hasPrefix (replMark 0) (flat (.inr 0 :: L)) = true := hasPrefix_iff.mpr ⟨flat L, rfl⟩
    unfold identText
    rw [this, Bool.or_true, Bool.true_or, if_pos rfl]
    rfl
  | @ctx n L h =>
    have : hasPrefix dotMark (flat (.inr 8 :: L)) = true := hasPrefix_iff.mpr ⟨flat L, rfl⟩
    unfold identText
    rw [this, Bool.true_or, Bool.true_or, if_pos rfl]
    rfl

/-- What is given to Go for a variable. -/
theorem prepare_variable {letter : Char → Bool} (hl : SignLetters letter) {o : Orders} (ho : SomeOrder o) {v code : Text} (hv : Variable letter v code)
    (hm : ∀ w ∈ markWords, ¬ w <:+: v) :
    ∃ m, prepare o v = some m ∧ GoName letter m ∧ ∀ group, expand group (comeBack (identText m)) = code := by
  obtain ⟨i, L, rfl, rfl, hcs, hn, hp, hg⟩ := prepare_marks hl ho hv hm
  refine ⟨flat L, hp, hg, fun group => ?_⟩
  have hno : '$' ∉ nameOf i := by
    intro hmem
    have := hcs _ hmem
    rw [var_not hl '$' (by decide)] at this
    cases this
  rw [ident_marks hn hm, comeBack_flat (nameMarks_known hn).1 (nameMarks_clear hn hm).1]
  · cases hn with
    | @glob n L h =>
      have : full (identMarks (.glob n) L) = c!"$$" ++ '.' :: n := by
        show full (.inr 9 :: L) = _
        rw [full_mark, wordMarks_full h]
        rfl
      rw [this, expand_dollar group (by simpa [nameOf] using hno)]
      rfl
    | @loc n L h =>
      have : full (identMarks (.loc n) (.inr 0 :: L)) = c!"$$" ++ n := by
        show full (.inr 0 :: L) = _
        rw [full_mark, wordMarks_full h]
        rfl
      rw [this, expand_dollar group (s := n) hno]
      rfl
    | @ctx n L h =>
      have : full (identMarks (.ctx n) (.inr 8 :: L)) = '.' :: n := by
        show full (.inr 8 :: L) = _
        rw [full_mark, wordMarks_full h]
        rfl
      rw [this, expand_plain group (by simpa [nameOf] using hno)]
      rfl
  · intro h10
    cases hn with
    | glob h =>
      rcases List.mem_cons.mp h10 with h' | h'
      · cases h'
      · have := h.1 10 h'; omega
    | loc h =>
      rcases List.mem_cons.mp h10 with h' | h'
      · cases h'
      · have := h.1 10 h'; omega
    | ctx h =>
      rcases List.mem_cons.mp h10 with h' | h'
      · cases h'
      · have := h.1 10 h'; omega

end Verif.Lemmas
