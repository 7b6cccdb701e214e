import Verif.Lemmas.GoParse
import Verif.Lemmas.RazorPrepareName
import Verif.Lemmas.RazorExpr
/-!
# The marks as texts and the marks as characters

`Translate.nodeValue` writes the marks as the code does; `Razor.nodeValue` uses one character for each. Both give the same code.
-/

namespace Verif.Lemmas
open Verif Text Razor Prepare Spec

/-- The character of a mark in `Razor.nodeValue`; the reserved words are written as they are. -/
def charOf (i : Nat) : Text :=
  if i = 0 then [dollarRep] else if i = 8 then [dotRep] else if i = 9 then [globalRep] else if i = 10 then [funcCall] else reservedKeywords.getD i []

def short (L : Marked) : Text := L.flatMap fun x => match x with | .inl c => [c] | .inr i => charOf i

@[simp] theorem short_nil : short [] = [] := rfl
@[simp] theorem short_char (c : Char) (L : Marked) : short (.inl c :: L) = c :: short L := rfl
@[simp] theorem short_mark (i : Nat) (L : Marked) : short (.inr i :: L) = charOf i ++ short L := rfl
theorem short_append (L M : Marked) : short (L ++ M) = short L ++ short M := by simp [short]
theorem short_chars (t : Text) : short (t.map .inl) = t := by induction t with | nil => rfl | cons c t ih => simp [ih]

/-- A character that is not a mark, not `$`, not `*`. -/
def quietChar (c : Char) : Prop := c ≠ '$' ∧ c ≠ '*' ∧ c ∉ [dotRep, globalRep, funcCall, dollarRep]

instance (c : Char) : Decidable (quietChar c) := inferInstanceAs (Decidable (_ ∧ _ ∧ _))

/-- A text with marks where nothing else looks like a mark. -/
structure Tidy (L : Marked) : Prop where
  known : ∀ i, .inr i ∈ L → i < 11 ∧ i ≠ 1
  clear : Clear L
  chars : ∀ c, .inl c ∈ L → quietChar c

theorem Tidy.marks {L : Marked} (h : Tidy L) : Known L := fun i hi => (h.known i hi).1

theorem infix_sep {w A B : Text} {c : Char} (hc : c ∉ w) (h : w <:+: A ++ c :: B) : w <:+: A ∨ w <:+: B := by
  obtain ⟨p, q, h⟩ := h
  rw [List.append_assoc] at h
  rcases List.append_eq_append_iff.mp h with ⟨u, h1, h2⟩ | ⟨u, h1, h2⟩
  · rcases List.append_eq_append_iff.mp h2 with ⟨v, h3, h4⟩ | ⟨v, h3, h4⟩
    · left
      exact ⟨p, v, by rw [h1, h3]; simp⟩
    · cases v with
      | nil =>
        left
        exact ⟨p, [], by rw [h1, h3]; simp⟩
      | cons d v =>
        simp only [List.cons_append, List.cons.injEq] at h4
        exact absurd (by rw [h3, ← h4.1]; simp) hc
  · cases u with
    | nil =>
      rw [List.nil_append] at h2
      cases w with
      | nil => exact .inl (List.nil_infix)
      | cons d w =>
        rw [List.cons_append, List.cons.injEq] at h2
        exact absurd (by rw [h2.1]; simp) hc
    | cons d u =>
      rw [List.cons_append, List.cons.injEq] at h2
      right
      exact ⟨u, q, by rw [h2.2]; simp⟩

/-- The characters that are in no mark. -/
def apartChar (c : Char) : Prop := quietChar c ∧ ∀ w ∈ markWords, c ∉ w

instance (c : Char) : Decidable (apartChar c) := inferInstanceAs (Decidable (_ ∧ _))

theorem tidy_nil : Tidy [] := ⟨nofun, by intro w hw; revert hw; revert w; decide, nofun⟩

theorem tidy_sep {A B : Marked} {c : Char} (hA : Tidy A) (hB : Tidy B) (hc : apartChar c) : Tidy (A ++ .inl c :: B) := by
  refine ⟨fun i hi => ?_, fun w hw hi => ?_, fun d hd => ?_⟩
  · rcases List.mem_append.mp hi with h | h
    · exact hA.known i h
    · rcases List.mem_cons.mp h with h | h
      · cases h
      · exact hB.known i h
  · rw [full_append, full_char] at hi
    rcases infix_sep (hc.2 w hw) hi with h | h
    · exact hA.clear w hw h
    · exact hB.clear w hw h
  · rcases List.mem_append.mp hd with h | h
    · exact hA.chars d h
    · rcases List.mem_cons.mp h with h | h
      · cases h; exact hc.1
      · exact hB.chars d h

theorem tidy_text {t : Text} (h : ∀ c ∈ t, quietChar c) (hm : ∀ w ∈ markWords, ¬ w <:+: t) : Tidy (t.map .inl) := by
  refine ⟨fun i hi => by simp at hi, fun w hw => ?_, fun c hc => ?_⟩
  · rw [full_chars]
    exact hm w hw
  · simp only [List.mem_map, Sum.inl.injEq] at hc
    obtain ⟨d, hd, rfl⟩ := hc
    exact h d hd

theorem tidy_call {L : Marked} (h : Tidy L) : Tidy (L ++ [.inr 10]) := by
  refine ⟨fun i hi => ?_, fun w hw => ?_, fun c hc => ?_⟩
  · rcases List.mem_append.mp hi with hi | hi
    · exact h.known i hi
    · simp only [List.mem_singleton] at hi
      cases hi
      decide
  · have : full (L ++ [.inr 10]) = full L := by
      rw [full_append]
      exact List.append_nil _
    rw [this]
    exact h.clear w hw
  · rcases List.mem_append.mp hc with hc | hc
    · exact h.chars c hc
    · simp at hc

theorem tidy_tail {x : Char ⊕ Nat} {L : Marked} (h : Tidy (x :: L)) : Tidy L :=
  ⟨fun i hi => h.known i (List.mem_cons_of_mem _ hi), clear_tail h.clear, fun c hc => h.chars c (List.mem_cons_of_mem _ hc)⟩

/-! ## What is in both texts -/

theorem marks_start {L : Marked} (hk : Known L) (hs : Clear L) {j : Nat} (hj : j < 11) : hasPrefix (markOf j) (flat L) = true ↔ L.head? = some (.inr j) := by
  constructor
  · intro h
    have hp := hasPrefix_iff.mp h
    obtain ⟨w, hw, u, hm⟩ := markOf_form j hj
    have hw' : w ∈ markWords := by
      have : ∀ w ∈ [c!"REPL", c!"DoTPrefix", c!"GlobalVar", c!"FuncCall"], w ∈ markWords := by decide
      exact this w hw
    cases L with
    | nil => rw [hm] at hp; simp at hp
    | cons x L =>
      have hk' : Known L := fun i hi => hk i (List.mem_cons_of_mem _ hi)
      cases x with
      | inl d =>
        rw [flat_char, hm, List.cons_append, List.cons_append, List.cons_prefix_cons] at hp
        exact absurd hp.2 (clear_under hk' (clear_tail hs) hw' u)
      | inr i =>
        by_cases hij : i = j
        · rw [hij]; rfl
        · exfalso
          have hi := hk i (List.mem_cons_self ..)
          have hlen : ∀ i ∈ List.range 11, 0 < (markOf i).length ∧ markOf i ≠ c!"__" ∧ markOf i ≠ c!"_" := by decide +kernel
          obtain ⟨l1, l2, l3⟩ := hlen i (List.mem_range.mpr hi)
          obtain ⟨h1, h2⟩ := marks_apart i (List.mem_range.mpr hi) j (List.mem_range.mpr hj) hij 0 (List.mem_range.mpr l1)
          rw [List.drop_zero] at h1 h2
          rw [flat_mark] at hp
          rcases List.prefix_or_prefix_of_prefix hp (List.prefix_append (markOf i) (flat L)) with h' | h'
          · rw [List.isPrefixOf_iff_prefix.mpr h'] at h1
            cases h1
          · rcases h2 (List.isPrefixOf_iff_prefix.mpr h') with e | e
            · exact l2 e
            · exact l3 e
  · intro h
    cases L with
    | nil => cases h
    | cons x L =>
      cases h
      exact hasPrefix_iff.mpr (List.prefix_append _ _)

theorem charOf_cases : ∀ i ∈ List.range 11, i ≠ 1 → charOf i ≠ [] ∧ ∀ c ∈ charOf i, c ∉ c!" \t.*\"" ∧ c.isDigit = false ∧
    (c = dotRep → i = 8) ∧ (c = funcCall → i = 10) ∧ (c = globalRep → i = 9) ∧ (i = 8 → c = dotRep) ∧ (i = 10 → c = funcCall) ∧ (i = 9 → c = globalRep) := by
  decide +kernel

theorem markOf_cases : ∀ i ∈ List.range 11, markOf i ≠ [] ∧ (markOf i).head? = some '_' ∧ ∀ c ∈ markOf i, c ∉ c!" \t.*\"" := by decide +kernel

theorem apart_both {d : Char} (hd : d ∈ c!" \t.*\"") {L : Marked} (h : Tidy L) : (d ∈ flat L ↔ .inl d ∈ L) ∧ (d ∈ short L ↔ .inl d ∈ L) := by
  constructor
  · simp only [flat, List.mem_flatMap]
    constructor
    · rintro ⟨x, hx, hm⟩
      cases x with
      | inl c => simp only [List.mem_singleton] at hm; rw [hm]; exact hx
      | inr i => exact absurd hd ((markOf_cases i (List.mem_range.mpr (h.known i hx).1)).2.2 d hm)
    · intro hx
      exact ⟨_, hx, by simp⟩
  · simp only [short, List.mem_flatMap]
    constructor
    · rintro ⟨x, hx, hm⟩
      cases x with
      | inl c => simp only [List.mem_singleton] at hm; rw [hm]; exact hx
      | inr i => exact absurd hd ((charOf_cases i (List.mem_range.mpr (h.known i hx).1) (h.known i hx).2).2 d hm).1
    · intro hx
      exact ⟨_, hx, by simp⟩

theorem head_both {L : Marked} (h : Tidy L) (p : Char → Bool) (hp : p '_' = false) (hp' : ∀ i < 11, i ≠ 1 → ∀ c ∈ charOf i, p c = false) :
    ((flat L).head?.any p) = ((short L).head?.any p) := by
  cases L with
  | nil => rfl
  | cons x L =>
    cases x with
    | inl c => rfl
    | inr i =>
      obtain ⟨hi, hi1⟩ := h.known i (List.mem_cons_self ..)
      obtain ⟨m1, m2, _⟩ := markOf_cases i (List.mem_range.mpr hi)
      obtain ⟨c1, _⟩ := charOf_cases i (List.mem_range.mpr hi) hi1
      obtain ⟨a, s, ha⟩ := List.exists_cons_of_ne_nil m1
      obtain ⟨b, t, hb⟩ := List.exists_cons_of_ne_nil c1
      rw [ha] at m2
      cases m2
      rw [flat_mark, short_mark, ha, hb]
      simp [hp, hp' i hi hi1 b (by rw [hb]; simp)]

theorem quote_both {L : Marked} (h : Tidy L) : hasPrefix ['"'] (flat L) = hasPrefix ['"'] (short L) := by
  have e : ∀ s : Text, hasPrefix ['"'] s = s.head?.any (· == '"') := by
    intro s
    cases s with
    | nil => rfl
    | cons c s =>
      rw [Bool.eq_iff_iff, hasPrefix_iff, List.cons_prefix_cons]
      simp only [List.nil_prefix, and_true, List.head?_cons, Option.any_some, beq_iff_eq]
      exact eq_comm
  rw [e, e]
  refine head_both h _ (by decide) fun i hi h1 c hc => ?_
  have := ((charOf_cases i (List.mem_range.mpr hi) h1).2 c hc).1
  simp only [beq_eq_false_iff_ne]
  rintro rfl
  exact this (by decide)

theorem digit_both {L : Marked} (h : Tidy L) : startsDigit (flat L) = startsDigit (short L) := by
  have e : ∀ s : Text, startsDigit s = s.head?.any (·.isDigit) := by
    intro s
    cases s <;> rfl
  rw [e, e]
  exact head_both h _ (by decide) fun i hi h1 c hc => ((charOf_cases i (List.mem_range.mpr hi) h1).2 c hc).2.1

/-- The marks before the first space. -/
def firstOf (L : Marked) : Marked := L.takeWhile fun x => match x with | .inl c => c != ' ' | .inr _ => true

theorem firstOf_tidy {L : Marked} (h : Tidy L) : Tidy (firstOf L) := by
  have hsub : firstOf L <+: L := List.takeWhile_prefix _
  obtain ⟨M, hM⟩ := hsub
  refine ⟨fun i hi => h.known i (hM ▸ List.mem_append_left _ hi), fun w hw hi => ?_, fun c hc => h.chars c (hM ▸ List.mem_append_left _ hc)⟩
  refine h.clear w hw ?_
  rw [← hM, full_append]
  exact hi.trans (List.prefix_append _ _).isInfix

theorem first_both {L : Marked} (h : Tidy L) : (flat L).takeWhile (fun c => c != ' ') = flat (firstOf L) ∧ (short L).takeWhile (fun c => c != ' ') = short (firstOf L) := by
  have over : ∀ {t s : Text}, (∀ c ∈ t, c ≠ ' ') → (t ++ s).takeWhile (fun c => c != ' ') = t ++ s.takeWhile (fun c => c != ' ') := by
    intro t s ht
    exact List.takeWhile_append_of_pos (fun c hc => by simp [ht c hc])
  induction L with
  | nil => exact ⟨rfl, rfl⟩
  | cons x L ih =>
    obtain ⟨i1, i2⟩ := ih (tidy_tail h)
    cases x with
    | inl c =>
      by_cases hc : c = ' '
      · subst hc
        exact ⟨rfl, rfl⟩
      · have e : firstOf (.inl c :: L) = .inl c :: firstOf L := by simp [firstOf, hc]
        rw [e]
        simp [hc, i1, i2]
    | inr i =>
      obtain ⟨hi, hi1⟩ := h.known i (List.mem_cons_self ..)
      have e : firstOf (.inr i :: L) = .inr i :: firstOf L := by simp [firstOf]
      rw [e, flat_mark, short_mark, flat_mark, short_mark, over, over, i1, i2]
      · exact ⟨rfl, rfl⟩
      · rintro c hc rfl
        exact absurd (by decide) ((charOf_cases i (List.mem_range.mpr hi) hi1).2 _ hc).1
      · rintro c hc rfl
        exact absurd (by decide) ((markOf_cases i (List.mem_range.mpr hi)).2.2 _ hc)

theorem short_start {L : Marked} (h : Tidy L) {j : Nat} {d : Char} (hj : (j = 8 ∧ d = dotRep) ∨ (j = 9 ∧ d = globalRep)) : hasPrefix [d] (short L) = true ↔ L.head? = some (.inr j) := by
  rw [hasPrefix_iff]
  cases L with
  | nil => simp
  | cons x L =>
    cases x with
    | inl c =>
      have := (h.chars c (List.mem_cons_self ..)).2.2
      simp only [List.mem_cons, List.not_mem_nil, or_false, not_or] at this
      rw [short_char, List.cons_prefix_cons]
      constructor
      · rintro ⟨rfl, _⟩
        rcases hj with ⟨_, e⟩ | ⟨_, e⟩
        · exact absurd e this.1
        · exact absurd e this.2.1
      · intro e; cases e
    | inr i =>
      obtain ⟨hi, hi1⟩ := h.known i (List.mem_cons_self ..)
      obtain ⟨c1, c2⟩ := charOf_cases i (List.mem_range.mpr hi) hi1
      obtain ⟨b, t, hb⟩ := List.exists_cons_of_ne_nil c1
      obtain ⟨_, _, a1, a2, a3, a4, a5, a6⟩ := c2 b (by rw [hb]; simp)
      rw [short_mark, hb, List.cons_append, List.cons_prefix_cons]
      simp only [List.nil_prefix, and_true, List.head?_cons, Option.some.injEq, Sum.inr.injEq]
      rcases hj with ⟨rfl, rfl⟩ | ⟨rfl, rfl⟩
      · exact ⟨fun e => a1 e.symm, fun e => (a4 e).symm⟩
      · exact ⟨fun e => a3 e.symm, fun e => (a6 e).symm⟩

theorem call_both {L : Marked} (h : Tidy L) : (contains Translate.callMark (flat L) = true ↔ .inr 10 ∈ L) ∧ (List.elem funcCall (short L) = true ↔ .inr 10 ∈ L) := by
  constructor
  · rw [contains_iff]
    constructor
    · intro hi
      apply Classical.byContradiction
      intro hn
      exact mark_nowhere h.marks h.clear (j := 10) (by decide) hn hi
    · intro hi
      obtain ⟨a, b, rfl⟩ := List.append_of_mem hi
      rw [flat_append]
      exact ⟨flat a, flat b, by simp [Translate.callMark, markOf]⟩
  · rw [List.elem_iff]
    simp only [short, List.mem_flatMap]
    constructor
    · rintro ⟨x, hx, hm⟩
      cases x with
      | inl c =>
        simp only [List.mem_singleton] at hm
        have := (h.chars c hx).2.2
        rw [← hm] at this
        exact absurd (by decide) this
      | inr i =>
        obtain ⟨hi, hi1⟩ := h.known i hx
        have := ((charOf_cases i (List.mem_range.mpr hi) hi1).2 _ hm).2.2.2.1 rfl
        rw [← this]
        exact hx
    · intro hx
      exact ⟨_, hx, by decide⟩

/-- The parentheses of `nodeValueInternal`. -/
theorem wrap_both {L : Marked} (h : Tidy L) : ∃ M, Tidy M ∧ Translate.wrap (flat L) = flat M ∧ Razor.wrap (short L) = short M := by
  have hb : ((flat L).any fun c => c == ' ' || c == '\t') = ((short L).any fun c => c == ' ' || c == '\t') := by
    rw [Bool.eq_iff_iff]
    simp only [List.any_eq_true, Bool.or_eq_true, beq_iff_eq]
    constructor
    · rintro ⟨c, hc, rfl | rfl⟩
      · exact ⟨_, ((apart_both (by decide) h).2.mpr ((apart_both (by decide) h).1.mp hc)), .inl rfl⟩
      · exact ⟨_, ((apart_both (by decide) h).2.mpr ((apart_both (by decide) h).1.mp hc)), .inr rfl⟩
    · rintro ⟨c, hc, rfl | rfl⟩
      · exact ⟨_, ((apart_both (by decide) h).1.mpr ((apart_both (by decide) h).2.mp hc)), .inl rfl⟩
      · exact ⟨_, ((apart_both (by decide) h).1.mpr ((apart_both (by decide) h).2.mp hc)), .inr rfl⟩
  have hf := firstOf_tidy h
  obtain ⟨f1, f2⟩ := first_both h
  have hd : (hasPrefix dotMark (flat (firstOf L)) && contains Translate.callMark (flat (firstOf L))) =
      (hasPrefix [dotRep] (short (firstOf L)) && List.elem funcCall (short (firstOf L))) := by
    have d1 : hasPrefix dotMark (flat (firstOf L)) = true ↔ _ := marks_start hf.marks hf.clear (j := 8) (by decide)
    rw [Bool.eq_iff_iff, Bool.and_eq_true, Bool.and_eq_true, d1, short_start hf (.inl ⟨rfl, rfl⟩), (call_both hf).1, (call_both hf).2]
  unfold Translate.wrap Razor.wrap
  simp only
  rw [quote_both h, hb, f1, f2, hd]
  split
  · exact ⟨L, h, rfl, rfl⟩
  · split
    · exact ⟨L, h, rfl, rfl⟩
    · refine ⟨.inl '(' :: (L ++ [.inl ')']), ?_, ?_, ?_⟩
      · exact tidy_sep tidy_nil (tidy_sep h tidy_nil (by decide)) (by decide)
      · rw [flat_char, flat_append]; rfl
      · rw [short_char, short_append]; rfl

/-! ## The trees -/

/-- A name without anything that looks like a mark. -/
def CleanName (n : Text) : Prop := (∀ c ∈ n, quietChar c) ∧ ∀ w ∈ markWords, ¬ w <:+: n

/-- The same tree, with the marks as texts and without them. -/
inductive Same : Translate.Node → Expr → Prop
  | ident {i L} : NameMarks i L → CleanName (nameOf i) → Same (.ident (flat L)) (.ident i)
  | lit {v} : CleanName v → Same (.lit v) (.lit v)
  | unary {op x y} : Same x y → Same (.unary op x) (.unary op y)
  | binary {op x y x' y'} : Same x y → Same x' y' → Same (.binary op x x') (.binary op y y')
  | paren {x y} : Same x y → Same (.paren x) (.paren y)
  | sel {x y L n} : Same x y → WordMarks L n → CleanName n → (∀ c ∈ n, c ≠ ' ' ∧ c ≠ '\t') → Same (.sel x (flat L)) (.sel y n)
  | call {f g} (args : List (Translate.Node × Expr)) : Same f g → (∀ a ∈ args, Same a.1 a.2) → Same (.call f (args.map (·.1)) false) (.call g (args.map (·.2)) false)
  | index {x y x' y'} : Same x y → Same x' y' → Same (.index x x') (.index y y')
  | slice {x y x' y' x'' y''} : Same x y → Same x' y' → Same x'' y'' → Same (.slice x x' x'') (.slice y y' y'')

/-- Both texts, or none. -/
def Both (a b : Option Text) : Prop := (a = none ∧ b = none) ∨ ∃ L, Tidy L ∧ a = some (flat L) ∧ b = some (short L)

theorem both_wrap {a b : Option Text} (h : Both a b) : Both (a.map Translate.wrap) (b.map Razor.wrap) := by
  rcases h with ⟨rfl, rfl⟩ | ⟨L, hL, rfl, rfl⟩
  · exact .inl ⟨rfl, rfl⟩
  · obtain ⟨M, hM, e1, e2⟩ := wrap_both hL
    exact .inr ⟨M, hM, by simp [e1], by simp [e2]⟩

theorem clean_words {n : Text} {L : Marked} (h : WordMarks L n) (hn : CleanName n) : Tidy L := by
  refine ⟨fun i hi => by have := h.1 i hi; omega, fun w hw => ?_, fun c hc => hn.1 c (h.2 ▸ mem_source hc)⟩
  rw [wordMarks_full h]
  exact hn.2 w hw

theorem short_words {n : Text} {L : Marked} (h : WordMarks L n) : short L = n := by
  rw [← h.2]
  have : ∀ L : Marked, (∀ i, .inr i ∈ L → 2 ≤ i ∧ i < 8) → short L = source L := by
    intro L
    induction L with
    | nil => intro _; rfl
    | cons x L ih =>
      intro hx
      have ih := ih fun i hi => hx i (List.mem_cons_of_mem _ hi)
      cases x with
      | inl c => rw [short_char, source_char, ih]
      | inr i =>
        have hi := hx i (List.mem_cons_self ..)
        have : ∀ i ∈ List.range 8, 2 ≤ i → charOf i = keyOf i := by decide +kernel
        rw [short_mark, source_mark, ih, this i (List.mem_range.mpr hi.2) hi.1]
  exact this L h.1

theorem ident_written {i : Ident} (h : CleanName (nameOf i)) : ∀ w ∈ markWords, ¬ w <:+: written i := by
  intro w hw hi
  obtain ⟨_, a2, a3, a4⟩ := word_outside w hw
  cases i with
  | glob n => exact h.2 w hw hi
  | loc n => exact h.2 w hw (infix_behind a2 a4 hi)
  | ctx n => exact h.2 w hw (infix_behind a3 a4 hi)

theorem ident_tidy {i : Ident} {L : Marked} (h : NameMarks i L) (hn : CleanName (nameOf i)) : Tidy (identMarks i L) := by
  have hw := ident_written hn
  refine ⟨fun j hj => ⟨(nameMarks_known h).1 j hj, ?_⟩, (nameMarks_clear h hw).1, fun c hc => ?_⟩
  · cases h with
    | glob h =>
      rcases List.mem_cons.mp hj with e | e
      · cases e; decide
      · have := h.1 j e; omega
    | loc h =>
      rcases List.mem_cons.mp hj with e | e
      · cases e; decide
      · have := h.1 j e; omega
    | ctx h =>
      rcases List.mem_cons.mp hj with e | e
      · cases e; decide
      · have := h.1 j e; omega
  · cases h with
    | glob h =>
      rcases List.mem_cons.mp hc with e | e
      · cases e
      · exact hn.1 c (h.2 ▸ mem_source e)
    | loc h =>
      rcases List.mem_cons.mp hc with e | e
      · cases e
      · exact hn.1 c (h.2 ▸ mem_source e)
    | ctx h =>
      rcases List.mem_cons.mp hc with e | e
      · cases e
      · exact hn.1 c (h.2 ▸ mem_source e)

theorem funcCall_clean {n : Text} (hn : CleanName n) : List.elem funcCall n = false := by
  cases h : List.elem funcCall n with
  | false => rfl
  | true => exact absurd (by decide) (hn.1 _ (List.elem_iff.mp h)).2.2

theorem short_ident {i : Ident} {L : Marked} (h : NameMarks i L) (hn : CleanName (nameOf i)) : identValue i = short (identMarks i L) := by
  cases h with
  | @glob n L h =>
    have hne : ∀ d ∈ [dotRep, globalRep, funcCall, dollarRep], hasPrefix [d] n = false := by
      intro d hd
      cases hh : hasPrefix [d] n with
      | false => rfl
      | true => exact absurd hd ((hn.1 d ((hasPrefix_iff.mp hh).subset (by simp))).2.2)
    have e3 : List.elem funcCall n = false := funcCall_clean (n := n) hn
    show identValue (.glob n) = short (.inr 9 :: L)
    rw [short_mark, short_words h]
    simp only [identValue, Ident.name, hne dotRep (by simp), hne dollarRep (by simp), e3]
    rfl
  | @loc n L h =>
    have : hasPrefix [dollarRep] (dollarRep :: n) = true := hasPrefix_iff.mpr ⟨n, rfl⟩
    show identValue (.loc n) = short (.inr 0 :: L)
    rw [short_mark, short_words h]
    simp [identValue, Ident.name, this]
    rfl
  | @ctx n L h =>
    have : hasPrefix [dotRep] (dotRep :: n) = true := hasPrefix_iff.mpr ⟨n, rfl⟩
    show identValue (.ctx n) = short (.inr 8 :: L)
    rw [short_mark, short_words h]
    simp [identValue, Ident.name, this]
    rfl

theorem operator_plain : ∀ k ∈ operators, (∀ c ∈ k.2, quietChar c) ∧ (markWords.all fun w => !contains w k.2) = true := by decide +kernel

theorem operator_tidy {op name : Text} (h : operatorName op = some name) : Tidy (name.map .inl) := by
  unfold operatorName at h
  have hm : (op, name) ∈ operators := by
    revert h
    generalize operators = l
    intro h
    induction l with
    | nil => cases h
    | cons e l ih =>
      obtain ⟨k, v⟩ := e
      rw [List.lookup_cons] at h
      split at h
      · next hk =>
        cases h
        rw [eq_of_beq hk]
        exact List.mem_cons_self ..
      · exact List.mem_cons_of_mem _ (ih h)
  obtain ⟨h1, h2⟩ := operator_plain _ hm
  refine tidy_text h1 fun w hw hi => ?_
  have := List.all_eq_true.mp h2 w hw
  rw [contains_iff.mpr hi] at this
  cases this

/-- A text in front. -/
theorem tidy_front {t : Text} {L : Marked} (ht : Tidy (t.map .inl)) (hL : Tidy L) : Tidy (t.map .inl ++ .inl ' ' :: L) := tidy_sep ht hL (by decide)

theorem flat_text (t : Text) (L : Marked) : flat (t.map .inl ++ L) = t ++ flat L := by rw [flat_append, flat_chars]
theorem short_text (t : Text) (L : Marked) : short (t.map .inl ++ L) = t ++ short L := by rw [short_append, short_chars]

theorem trim_both {L : Marked} (h : Tidy L) : ∃ M, Tidy M ∧ trimPrefix globalMark (flat L) = flat M ∧ trimPrefix [globalRep] (short L) = short M := by
  have g1 : hasPrefix globalMark (flat L) = true ↔ _ := marks_start h.marks h.clear (j := 9) (by decide)
  have g2 := short_start h (j := 9) (d := globalRep) (.inr ⟨rfl, rfl⟩)
  have cut : ∀ (p s r : Text), s = p ++ r → trimPrefix p s = r := by
    intro p s r e
    rw [e, trimPrefix, dropPrefix?_eq_some.mpr rfl]
    rfl
  have keep : ∀ (p s : Text), hasPrefix p s = false → trimPrefix p s = s := by
    intro p s e
    unfold hasPrefix at e
    unfold trimPrefix
    rw [Option.isSome_eq_false_iff, Option.isNone_iff_eq_none] at e
    rw [e]
    rfl
  by_cases hh : L.head? = some (.inr 9)
  · cases L with
    | nil => cases hh
    | cons x L =>
      cases hh
      exact ⟨L, tidy_tail h, cut _ _ _ rfl, cut _ _ _ rfl⟩
  · refine ⟨L, h, keep _ _ ?_, keep _ _ ?_⟩
    · cases e : hasPrefix globalMark (flat L) with
      | false => rfl
      | true => exact absurd (g1.mp e) hh
    · cases e : hasPrefix [globalRep] (short L) with
      | false => rfl
      | true => exact absurd (g2.mp e) hh

theorem dot_both {L : Marked} (h : Tidy L) : '.' ∈ flat L ↔ '.' ∈ short L :=
  (apart_both (by decide) h).1.trans (apart_both (by decide) h).2.symm

theorem star_none {L : Marked} (h : Tidy L) : '*' ∉ flat L ∧ '*' ∉ short L :=
  ⟨fun e => (h.chars _ ((apart_both (by decide) h).1.mp e)).2.1 rfl, fun e => (h.chars _ ((apart_both (by decide) h).2.mp e)).2.1 rfl⟩

theorem trim_cut (p r : Text) : trimPrefix p (p ++ r) = r := by
  rw [trimPrefix, dropPrefix?_eq_some.mpr rfl]
  rfl

theorem sel_both {L : Marked} {n : Text} (h : WordMarks L n) (hn : CleanName n) (hb : ∀ c ∈ n, c ≠ ' ' ∧ c ≠ '\t') :
    trimPrefix globalMark (Translate.wrap (identText (flat L))) = flat L ∧ trimPrefix [globalRep] (Razor.wrap (identValue (.glob n))) = n := by
  have hT : Tidy (.inr 9 :: L) := ident_tidy (.glob h) hn
  have hnot : ∀ c, (c = ' ' ∨ c = '\t') → (.inl c : Char ⊕ Nat) ∉ (.inr 9 :: L : Marked) := by
    intro c hc hm
    rcases List.mem_cons.mp hm with e | e
    · cases e
    · have := hb c (h.2 ▸ mem_source e)
      rcases hc with rfl | rfl
      · exact this.1 rfl
      · exact this.2 rfl
  have a1 : ((flat (.inr 9 :: L)).any fun c => c == ' ' || c == '\t') = false := by
    rw [List.any_eq_false]
    intro c hc
    simp only [Bool.or_eq_true, beq_iff_eq]
    rintro (rfl | rfl)
    · exact hnot _ (.inl rfl) ((apart_both (by decide) hT).1.mp hc)
    · exact hnot _ (.inr rfl) ((apart_both (by decide) hT).1.mp hc)
  have a2 : ((short (.inr 9 :: L)).any fun c => c == ' ' || c == '\t') = false := by
    rw [List.any_eq_false]
    intro c hc
    simp only [Bool.or_eq_true, beq_iff_eq]
    rintro (rfl | rfl)
    · exact hnot _ (.inl rfl) ((apart_both (by decide) hT).2.mp hc)
    · exact hnot _ (.inr rfl) ((apart_both (by decide) hT).2.mp hc)
  have i1 : identText (flat L) = flat (.inr 9 :: L) := ident_marks (.glob h) (ident_written (i := .glob n) hn)
  have i2 : identValue (.glob n) = short (.inr 9 :: L) := short_ident (.glob h) hn
  constructor
  · rw [i1, Translate.wrap, a1]
    simp only [Bool.not_false, Bool.or_true, if_true]
    exact trim_cut _ _
  · rw [i2, Razor.wrap, a2]
    simp only [Bool.not_false, Bool.or_true, if_true]
    rw [short_mark, short_words h]
    exact trim_cut _ _

/-- The arguments of a call. -/
def joinMarks : List Marked → Marked
  | [] => []
  | [L] => L
  | L :: M :: Ls => L ++ .inl ' ' :: joinMarks (M :: Ls)

theorem join_both (Ls : List Marked) : join [' '] (Ls.map flat) = flat (joinMarks Ls) ∧ join [' '] (Ls.map short) = short (joinMarks Ls) := by
  induction Ls with
  | nil => exact ⟨rfl, rfl⟩
  | cons L Ls ih =>
    cases Ls with
    | nil => exact ⟨rfl, rfl⟩
    | cons M Ls =>
      constructor
      · show flat L ++ [' '] ++ join [' '] ((M :: Ls).map flat) = flat (L ++ .inl ' ' :: joinMarks (M :: Ls))
        rw [ih.1, flat_append, flat_char]
        simp
      · show short L ++ [' '] ++ join [' '] ((M :: Ls).map short) = short (L ++ .inl ' ' :: joinMarks (M :: Ls))
        rw [ih.2, short_append, short_char]
        simp

theorem joinMarks_tidy {Ls : List Marked} (h : ∀ L ∈ Ls, Tidy L) : Tidy (joinMarks Ls) := by
  induction Ls with
  | nil => exact tidy_nil
  | cons L Ls ih =>
    cases Ls with
    | nil => exact h L (List.mem_cons_self ..)
    | cons M Ls => exact tidy_sep (h L (List.mem_cons_self ..)) (ih fun K hK => h K (List.mem_cons_of_mem _ hK)) (by decide)

theorem tidy_slice : Tidy (c!"slice".map .inl) := tidy_text (by decide) (by
  have : (markWords.all fun w => !contains w c!"slice") = true := by decide
  intro w hw hi
  have := List.all_eq_true.mp this w hw
  rw [contains_iff.mpr hi] at this
  cases this)

theorem tidy_sub : Tidy (c!"sub 0".map .inl) := tidy_text (by decide) (by
  have : (markWords.all fun w => !contains w c!"sub 0") = true := by decide
  intro w hw hi
  have := List.all_eq_true.mp this w hw
  rw [contains_iff.mpr hi] at this
  cases this)

/-- Both ways to write the code agree. -/
theorem value_both {t : Translate.Node} {e : Expr} (h : Same t e) : Both (Translate.nodeValue t) (Razor.nodeValue e) := by
  induction h with
  | ident h hn =>
    rw [Translate.nodeValue, Razor.nodeValue, ident_marks h (ident_written hn), short_ident h hn]
    exact .inr ⟨_, ident_tidy h hn, rfl, rfl⟩
  | lit h =>
    rw [Translate.nodeValue, Razor.nodeValue]
    exact .inr ⟨_, tidy_text h.1 h.2, by rw [flat_chars], by rw [short_chars]⟩
  | @unary op x y _ ih =>
    rw [Translate.nodeValue, Razor.nodeValue]
    cases ho : operatorName op with
    | none => exact .inl ⟨rfl, rfl⟩
    | some name =>
      rcases both_wrap ih with ⟨e1, e2⟩ | ⟨L, hL, e1, e2⟩
      · rw [e1, e2]; exact .inl ⟨rfl, rfl⟩
      · rw [e1, e2]
        simp only [Option.bind_eq_bind, Option.bind_some]
        rw [digit_both hL]
        split
        · split
          · exact .inr ⟨.inl '-' :: L, tidy_sep tidy_nil hL (by decide), rfl, rfl⟩
          · refine .inr ⟨_, tidy_front tidy_sub hL, ?_, ?_⟩
            · rw [flat_text]; rfl
            · rw [short_text]; rfl
        · refine .inr ⟨_, tidy_front (operator_tidy ho) hL, ?_, ?_⟩
          · rw [flat_text]; rfl
          · rw [short_text]; rfl
  | @binary op x y x' y' _ _ ih ih' =>
    rw [Translate.nodeValue, Razor.nodeValue]
    cases ho : operatorName op with
    | none => exact .inl ⟨rfl, rfl⟩
    | some name =>
      rcases both_wrap ih with ⟨e1, e2⟩ | ⟨L, hL, e1, e2⟩
      · rw [e1, e2]; exact .inl ⟨rfl, rfl⟩
      · rcases both_wrap ih' with ⟨e3, e4⟩ | ⟨M, hM, e3, e4⟩
        · rw [e1, e2, e3, e4]; exact .inl ⟨rfl, rfl⟩
        · rw [e1, e2, e3, e4]
          simp only [Option.bind_eq_bind, Option.bind_some]
          rw [if_neg (fun h => (star_none hM).1 h.2), if_neg (fun h => (star_none hM).2 h.2)]
          refine .inr ⟨_, tidy_front (operator_tidy ho) (tidy_sep hL hM (c := ' ') (by decide)), ?_, ?_⟩
          · rw [flat_text, flat_char, flat_append]; simp
          · rw [short_text, short_char, short_append]; simp
  | paren _ ih =>
    rw [Translate.nodeValue, Razor.nodeValue]
    exact ih
  | @sel x y N n _ h hn hb ih =>
    rw [Translate.nodeValue, Razor.nodeValue]
    rcases both_wrap ih with ⟨e1, e2⟩ | ⟨L, hL, e1, e2⟩
    · rw [e1, e2]; exact .inl ⟨rfl, rfl⟩
    · rw [e1, e2]
      simp only [Option.bind_eq_bind, Option.bind_some]
      rw [(sel_both h hn hb).1, (sel_both h hn hb).2]
      refine .inr ⟨_, tidy_sep hL (clean_words h hn) (c := '.') (by decide), ?_, ?_⟩
      · rw [flat_append]; rfl
      · rw [short_append, short_char, short_words h]
  | @call f g args _ _ ih ihs =>
    rw [Translate.nodeValue, Razor.nodeValue]
    rcases ih with ⟨e1, e2⟩ | ⟨L, hL, e1, e2⟩
    · rw [e1, e2]; exact .inl ⟨rfl, rfl⟩
    · rw [e1, e2]
      simp only [Option.bind_eq_bind, Option.bind_some]
      have hf : ∃ M, Tidy M ∧ (if '.' ∈ flat L then flat L else trimPrefix globalMark (flat L)) = flat M ∧ (if '.' ∈ short L then short L else trimPrefix [globalRep] (short L)) = short M := by
        by_cases hd : '.' ∈ flat L
        · exact ⟨L, hL, if_pos hd, if_pos ((dot_both hL).mp hd)⟩
        · rw [if_neg hd, if_neg (fun h => hd ((dot_both hL).mpr h))]
          exact trim_both hL
      obtain ⟨M, hM, f1, f2⟩ := hf
      rw [f1, f2]
      have hargs : (Translate.nodeValues (args.map (·.1)) = none ∧ Razor.nodeValues (args.map (·.2)) = none) ∨
          ∃ Ls : List Marked, (∀ L ∈ Ls, Tidy L) ∧ Translate.nodeValues (args.map (·.1)) = some (Ls.map flat) ∧ Razor.nodeValues (args.map (·.2)) = some (Ls.map short) := by
        clear e1 e2 f1 f2
        induction args with
        | nil => exact .inr ⟨[], nofun, rfl, rfl⟩
        | cons a args iha =>
          rw [List.map_cons, List.map_cons, Translate.nodeValues, Razor.nodeValues]
          rcases both_wrap (ihs a (List.mem_cons_self ..)) with ⟨g1, g2⟩ | ⟨K, hK, g1, g2⟩
          · rw [g1, g2]; exact .inl ⟨rfl, rfl⟩
          · rw [g1, g2]
            rcases iha (fun b hb => by apply_assumption; exact List.mem_cons_of_mem _ hb) (fun b hb => ihs b (List.mem_cons_of_mem _ hb)) with ⟨g3, g4⟩ | ⟨Ls, hLs, g3, g4⟩
            · rw [g3, g4]; exact .inl ⟨rfl, rfl⟩
            · rw [g3, g4]
              refine .inr ⟨K :: Ls, fun M hM => ?_, rfl, rfl⟩
              rcases List.mem_cons.mp hM with rfl | hM
              · exact hK
              · exact hLs M hM
      rcases hargs with ⟨g1, g2⟩ | ⟨Ls, hLs, g1, g2⟩
      · rw [g1, g2]; exact .inl ⟨rfl, rfl⟩
      · rw [g1, g2]
        simp only [Option.bind_some, List.map_eq_nil_iff]
        have c1 : flat M ++ Translate.callMark = flat (M ++ [.inr 10]) := by rw [flat_append]; rfl
        have c2 : short M ++ [funcCall] = short (M ++ [.inr 10]) := by rw [short_append]; rfl
        rw [c1, c2]
        split
        · exact .inr ⟨_, tidy_call hM, rfl, rfl⟩
        · refine .inr ⟨_, tidy_sep (tidy_call hM) (joinMarks_tidy hLs) (c := ' ') (by decide), ?_, ?_⟩
          · rw [(join_both Ls).1]; exact congrArg some (flat_append (M ++ [.inr 10]) (.inl ' ' :: joinMarks Ls)).symm
          · rw [(join_both Ls).2]; exact congrArg some (short_append (M ++ [.inr 10]) (.inl ' ' :: joinMarks Ls)).symm
  | @index x y x' y' _ _ ih ih' =>
    rw [Translate.nodeValue, Razor.nodeValue]
    rcases both_wrap ih with ⟨e1, e2⟩ | ⟨L, hL, e1, e2⟩
    · rw [e1, e2]; exact .inl ⟨rfl, rfl⟩
    · rcases both_wrap ih' with ⟨e3, e4⟩ | ⟨M, hM, e3, e4⟩
      · rw [e1, e2, e3, e4]; exact .inl ⟨rfl, rfl⟩
      · rw [e1, e2, e3, e4]
        refine .inr ⟨_, tidy_front tidy_slice (tidy_sep hL hM (c := ' ') (by decide)), ?_, ?_⟩
        · rw [flat_text, flat_char, flat_append]; rfl
        · rw [short_text, short_char, short_append]; rfl
  | @slice x y x' y' x'' y'' _ _ _ ih ih' ih'' =>
    rw [Translate.nodeValue, Razor.nodeValue]
    rcases both_wrap ih with ⟨e1, e2⟩ | ⟨L, hL, e1, e2⟩
    · rw [e1, e2]; exact .inl ⟨rfl, rfl⟩
    · rcases both_wrap ih' with ⟨e3, e4⟩ | ⟨M, hM, e3, e4⟩
      · rw [e1, e2, e3, e4]; exact .inl ⟨rfl, rfl⟩
      · rcases both_wrap ih'' with ⟨e5, e6⟩ | ⟨N, hN, e5, e6⟩
        · rw [e1, e2, e3, e4, e5, e6]; exact .inl ⟨rfl, rfl⟩
        · rw [e1, e2, e3, e4, e5, e6]
          refine .inr ⟨_, tidy_front tidy_slice (tidy_sep hL (tidy_sep hM hN (c := ' ') (by decide)) (c := ' ') (by decide)), ?_, ?_⟩
          · rw [flat_text, flat_char, flat_append, flat_char, flat_append]
            simp only [Option.bind_eq_bind, Option.bind_some, List.append_assoc, List.cons_append]
            rfl
          · rw [short_text, short_char, short_append, short_char, short_append]
            simp only [Option.bind_eq_bind, Option.bind_some, List.append_assoc, List.cons_append]
            rfl

/-! ## The return of the marks -/

/-- The same text, with each `$` of the second one twice in the first one. -/
inductive Doubled : Text → Text → Prop
  | nil : Doubled [] []
  | same {a b c} : c ≠ '$' → Doubled a b → Doubled (c :: a) (c :: b)
  | dollar {a b} : Doubled a b → Doubled ('$' :: '$' :: a) ('$' :: b)

theorem doubled_expand {group : Text → Text} {a b : Text} (h : Doubled a b) : expand group a = b := by
  unfold expand
  induction h with
  | nil => rfl
  | same hc _ ih => simp [expandAux, hc, ih]
  | dollar _ ih => simp [expandAux, hasPrefix, dropPrefix?, ih]

theorem doubled_prefix {w a b : Text} (hw : '$' ∉ w) (h : Doubled a b) (hp : w <+: b) : w <+: a := by
  induction h generalizing w with
  | nil => exact hp
  | same hc _ ih =>
    cases w with
    | nil => exact List.nil_prefix
    | cons d w =>
      rw [List.cons_prefix_cons] at hp ⊢
      exact ⟨hp.1, ih (fun e => hw (List.mem_cons_of_mem _ e)) hp.2⟩
  | dollar _ ih =>
    cases w with
    | nil => exact List.nil_prefix
    | cons d w =>
      rw [List.cons_prefix_cons] at hp
      exact absurd (by rw [hp.1]; simp) hw

theorem doubled_infix {w a b : Text} (hw : '$' ∉ w) (h : Doubled a b) (hi : w <:+: b) : w <:+: a := by
  induction h with
  | nil => exact hi
  | same hc h ih =>
    rcases List.infix_cons_iff.mp hi with hp | hi
    · exact (doubled_prefix hw (.same hc h) hp).isInfix
    · exact List.infix_cons_iff.mpr (.inr (ih hi))
  | dollar h ih =>
    rcases List.infix_cons_iff.mp hi with hp | hi
    · exact (doubled_prefix hw (.dollar h) hp).isInfix
    · exact List.infix_cons_iff.mpr (.inr (List.infix_cons_iff.mpr (.inr (ih hi))))

theorem doubled_plain {t a b : Text} (ht : '$' ∉ t) (h : Doubled a b) : Doubled (t ++ a) (t ++ b) := by
  induction t with
  | nil => exact h
  | cons c t ih => exact .same (fun e => ht (by rw [e]; simp)) (ih fun e => ht (List.mem_cons_of_mem _ e))

/-- What a mark becomes, with `$` written once. -/
def onceOf (i : Nat) : Text := if i = 0 then ['$'] else if i = 9 then ['$', '.'] else outOf i

/-- All the marks but those of the calls, with `$` written once. -/
def once (L : Marked) : Marked := opened (fun i => if i = 10 then none else some (onceOf i)) L

theorem onceOf_out : ∀ i ∈ List.range 11, i ≠ 0 → i ≠ 9 → '$' ∉ outOf i ∧ onceOf i = outOf i := by decide +kernel

theorem opened_char (f : Nat → Option Text) (c : Char) (L : Marked) : opened f (.inl c :: L) = .inl c :: opened f L := opened_append f [.inl c] L

theorem opened_mark (f : Nat → Option Text) (i : Nat) (L : Marked) : opened f (.inr i :: L) = opened f [.inr i] ++ opened f L := opened_append f [.inr i] L

theorem doubled_once {L : Marked} (h : Tidy L) : Doubled (flat (calls L)) (flat (once L)) ∧ Doubled (full L) (full (once L)) := by
  induction L with
  | nil => exact ⟨.nil, .nil⟩
  | cons x L ih =>
    obtain ⟨i1, i2⟩ := ih (tidy_tail h)
    cases x with
    | inl c =>
      have hc := (h.chars c (List.mem_cons_self ..)).1
      unfold calls once
      rw [opened_char, opened_char, flat_char, flat_char, full_char, full_char]
      exact ⟨.same hc i1, .same hc i2⟩
    | inr i =>
      obtain ⟨hi, hi1⟩ := h.known i (List.mem_cons_self ..)
      unfold calls once
      rw [opened_mark _ i L, opened_mark (fun i => if i = 10 then none else some (onceOf i)) i L, flat_append, flat_append, full_append, full_mark]
      by_cases h10 : i = 10
      · subst h10
        exact ⟨doubled_plain (t := markOf 10) (by decide) i1, i2⟩
      · have o1 : opened (fun i => if i = 10 then none else some (outOf i)) [.inr i] = (outOf i).map .inl := by simp [opened, h10]
        have o2 : opened (fun i => if i = 10 then none else some (onceOf i)) [.inr i] = (onceOf i).map .inl := by simp [opened, h10]
        rw [o1, o2, flat_chars, flat_chars, full_chars]
        by_cases h0 : i = 0
        · subst h0
          exact ⟨.dollar i1, .dollar i2⟩
        · by_cases h9 : i = 9
          · subst h9
            exact ⟨.dollar (.same (by decide) i1), .dollar (.same (by decide) i2)⟩
          · obtain ⟨p1, p2⟩ := onceOf_out i (List.mem_range.mpr hi) h0 h9
            rw [p2]
            exact ⟨doubled_plain p1 i1, doubled_plain p1 i2⟩

theorem rho_charOf : ∀ i ∈ List.range 11, i ≠ 1 → i ≠ 10 → rho (charOf i) = onceOf i := by decide +kernel

theorem once_rho {L : Marked} (h : Tidy L) : flat (opened (fun i => if i = 10 then some [] else none) (once L)) = rho (short L) := by
  induction L with
  | nil => rfl
  | cons x L ih =>
    have ih := ih (tidy_tail h)
    unfold once at ih ⊢
    cases x with
    | inl c =>
      rw [opened_char, opened_char, flat_char, short_char, rho_cons, ih, sigma_plain (h.chars c (List.mem_cons_self ..)).2.2]
      rfl
    | inr i =>
      obtain ⟨hi, hi1⟩ := h.known i (List.mem_cons_self ..)
      rw [opened_mark, opened_append, flat_append, short_mark, rho_append, ih]
      congr 1
      by_cases h10 : i = 10
      · subst h10
        decide
      · have o2 : opened (fun i => if i = 10 then none else some (onceOf i)) [.inr i] = (onceOf i).map .inl := by simp [opened, h10]
        rw [o2, opened_chars, flat_chars, rho_charOf i (List.mem_range.mpr hi) hi1 h10]

theorem finish_both {L : Marked} (h : Tidy L) (group : Text → Text) : replaceAll Translate.callMark [] (expand group (comeBack (flat L))) = rho (short L) := by
  obtain ⟨d1, d2⟩ := doubled_once h
  have hk : Known (once L) := by
    intro i hi
    simp only [once, opened, List.mem_flatMap] at hi
    obtain ⟨x, hx, hi⟩ := hi
    cases x with
    | inl c => simp at hi
    | inr k =>
      by_cases h10 : k = 10
      · simp [h10] at hi
        rw [hi]
        decide
      · simp [h10] at hi
  have hs : Clear (once L) := fun w hw hi => h.clear w hw (doubled_infix ((by decide : ∀ w ∈ markWords, '$' ∉ w) w hw) d2 hi)
  rw [comeBack_calls h.marks h.clear, doubled_expand d1]
  show replaceAll (markOf 10) [] (flat (once L)) = _
  rw [mark_back (by decide) [] hk hs, once_rho h]

end Verif.Lemmas
