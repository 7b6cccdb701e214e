import Verif.Lemmas.RazorOperator
/-!
# An operator between two texts
-/

namespace Verif.Lemmas
open Verif Text Razor Prepare Spec

theorem each_between {P Q S : Text → Prop} {order : List (Text × Text)}
    (step : ∀ k ∈ order, ∀ A X B, P A → S X → Q B →
      replaceAll k.1 k.2 (A ++ (X ++ B)) = replaceAll k.1 k.2 A ++ (replaceAll k.1 k.2 X ++ replaceAll k.1 k.2 B))
    (hP : ∀ k ∈ order, ∀ A, P A → P (replaceAll k.1 k.2 A)) (hQ : ∀ k ∈ order, ∀ A, Q A → Q (replaceAll k.1 k.2 A))
    (hS : ∀ k ∈ order, ∀ A, S A → S (replaceAll k.1 k.2 A)) : ∀ {A X B : Text}, P A → S X → Q B →
    replaceEach order (A ++ (X ++ B)) = replaceEach order A ++ (replaceEach order X ++ replaceEach order B) := by
  induction order with
  | nil => intros; rfl
  | cons k order ih =>
    intro A X B hA hX hB
    have e : ∀ s, replaceEach (k :: order) s = replaceEach order (replaceAll k.1 k.2 s) := fun _ => rfl
    have hk := List.mem_cons_self (a := k) (l := order)
    simp only [e]
    rw [step k hk A X B hA hX hB]
    exact ih (fun k hk => step k (List.mem_cons_of_mem _ hk)) (fun k hk => hP k (List.mem_cons_of_mem _ hk)) (fun k hk => hQ k (List.mem_cons_of_mem _ hk))
      (fun k hk => hS k (List.mem_cons_of_mem _ hk)) (hP k hk A hA) (hS k hk X hX) (hQ k hk B hB)

theorem each_inv {P : Text → Prop} {order : List (Text × Text)} (hP : ∀ k ∈ order, ∀ A, P A → P (replaceAll k.1 k.2 A)) : ∀ {A : Text}, P A →
    P (replaceEach order A) := by
  induction order with
  | nil => intro A h; exact h
  | cons k order ih =>
    intro A h
    exact ih (fun k hk => hP k (List.mem_cons_of_mem _ hk)) (hP k (List.mem_cons_self ..) A h)

theorem each_fixed {order : List (Text × Text)} {g : Text} (h : ∀ k ∈ order, replaceAll k.1 k.2 g = g) : replaceEach order g = g :=
  each_inv (P := fun s => s = g) (fun k hk A hA => by rw [hA, h k hk]) rfl

theorem each_turn {order : List (Text × Text)} {x g : Text} {key : Text × Text} (h1 : ∀ k ∈ order, k ≠ key → replaceAll k.1 k.2 x = x)
    (h2 : replaceAll key.1 key.2 x = g) (h3 : ∀ k ∈ order, replaceAll k.1 k.2 g = g) (hm : key ∈ order) : replaceEach order x = g := by
  induction order with
  | nil => cases hm
  | cons k order ih =>
    have e : ∀ s, replaceEach (k :: order) s = replaceEach order (replaceAll k.1 k.2 s) := fun _ => rfl
    rw [e]
    by_cases hk : k = key
    · rw [hk, h2]
      exact each_fixed fun k hk => h3 k (List.mem_cons_of_mem _ hk)
    · rw [h1 k (List.mem_cons_self ..) hk]
      exact ih (fun k hk => h1 k (List.mem_cons_of_mem _ hk)) (fun k hk => h3 k (List.mem_cons_of_mem _ hk)) ((List.mem_cons.mp hm).resolve_left (Ne.symm hk))

/-! ## Words -/

/-- The text of an operator that is a word. -/
def spaced (w : Text) : Text := ' ' :: (w ++ [' '])

def NoWordEnd (A : Text) : Prop := ∀ p ∈ wordTable, ¬ ' ' :: p.1 <:+ A
def NoWordStart (B : Text) : Prop := ∀ p ∈ wordTable, ¬ p.1 ++ [' '] <+: B

theorem word_entries : ∀ k ∈ wordOperators, ∃ p ∈ wordTable, k = (spaced p.1, p.2) := by decide +kernel
theorem word_entry : ∀ p ∈ wordTable, (spaced p.1, p.2) ∈ wordOperators := by decide +kernel
theorem word_facts : ∀ p ∈ wordTable, ' ' ∉ p.1 ∧ '_' ∉ p.1 ∧ '.' ∉ p.1 ∧ p.2 ≠ [] ∧ (∀ c ∈ p.2, c ∈ c!"=!<>+-*/%&|^") ∧ (p.2 = c!"-" ∨ ∃ c ∈ p.2, c ≠ '-' ∧ c.isDigit = false) := by
  decide +kernel
theorem word_apart : ∀ p ∈ wordTable, ∀ q ∈ wordTable, ∀ c ∈ p.2, c ∉ spaced q.1 := by decide +kernel
theorem word_turn : ∀ p ∈ wordTable, replaceAll (spaced p.1) p.2 (spaced p.1) = p.2 ∧
    ∀ q ∈ wordTable, (q ≠ p → replaceAll (spaced q.1) q.2 (spaced p.1) = spaced p.1) ∧ replaceAll (spaced q.1) q.2 p.2 = p.2 := by decide +kernel

theorem space_split {w u z : Text} (hw : ' ' ∉ w) (h : w ++ [' '] = u ++ ' ' :: z) : u = w ∧ z = [] := by
  rcases List.eq_nil_or_concat z with rfl | ⟨z', e, rfl⟩
  · exact ⟨(List.append_inj' h rfl).1.symm, rfl⟩
  · exfalso
    rw [List.concat_eq_append] at h
    have h' : w ++ [' '] = (u ++ ' ' :: z') ++ [e] := by rw [h]; simp
    have := (List.append_inj' h' rfl).1
    exact hw (by rw [this]; simp)

theorem word_step {p q : Text × Text} (hp : p ∈ wordTable) (hq : q ∈ wordTable) {A X B : Text} (hA : NoWordEnd A) (hX : X = spaced p.1 ∨ X = p.2) (hB : NoWordStart B) :
    replaceAll (spaced q.1) q.2 (A ++ (X ++ B)) = replaceAll (spaced q.1) q.2 A ++ (replaceAll (spaced q.1) q.2 X ++ replaceAll (spaced q.1) q.2 B) := by
  have hne : spaced q.1 ≠ [] := by simp [spaced]
  have hw := (word_facts q hq).1
  rw [replaceAll_apart hne, replaceAll_apart hne]
  · intro k1 k2 hk h1 h2 hs hpre
    rcases hX with rfl | rfl
    · obtain ⟨y, e, rfl⟩ : ∃ y e, k1 = y ++ [e] := by
        rcases List.eq_nil_or_concat k1 with h | ⟨y, e, h⟩
        · exact absurd h h1
        · exact ⟨y, e, by simpa using h⟩
      have he : e = ' ' := by
        obtain ⟨t, ht⟩ := hs
        have : (t ++ y) ++ [e] = (' ' :: p.1) ++ [' '] := by simpa [spaced] using ht
        have := (List.append_inj' this rfl).2
        simpa using this
      subst he
      cases y with
      | nil =>
        have : k2 = q.1 ++ [' '] := by
          simp only [spaced, List.nil_append, List.cons_append, List.cons.injEq, true_and] at hk
          exact hk.symm
        exact hB q hq (this ▸ hpre)
      | cons d y =>
        simp only [spaced, List.cons_append, List.append_assoc, List.cons.injEq] at hk
        exact h2 (space_split hw hk.2).2
    · obtain ⟨y, e, rfl⟩ : ∃ y e, k1 = y ++ [e] := by
        rcases List.eq_nil_or_concat k1 with h | ⟨y, e, h⟩
        · exact absurd h h1
        · exact ⟨y, e, by simpa using h⟩
      exact word_apart p hp q hq e (hs.subset (by simp)) (by rw [hk]; simp)
  · intro k1 k2 hk h1 h2 hs hpre
    obtain ⟨d, z, rfl⟩ := List.exists_cons_of_ne_nil h2
    rcases hX with rfl | rfl
    · simp only [spaced, List.cons_append, List.cons_prefix_cons] at hpre
      obtain ⟨rfl, hpre⟩ := hpre
      obtain ⟨e, y, rfl⟩ := List.exists_cons_of_ne_nil h1
      simp only [spaced, List.cons_append, List.cons.injEq] at hk
      obtain ⟨rfl, hk⟩ := hk
      obtain ⟨rfl, _⟩ := space_split hw hk
      exact hA q hq hs
    · have hg := (word_facts p hp).2.2.2.1
      obtain ⟨c, g, hc⟩ := List.exists_cons_of_ne_nil hg
      rw [hc, List.cons_append, List.cons_prefix_cons] at hpre
      refine word_apart p hp q hq c (by rw [hc]; simp) (by rw [hk, ← hpre.1]; simp)

/-! ## The invariants -/

/-- The texts put in by the replacements have no character of the operator words. -/
theorem filled : ∀ k ∈ reserved ++ Prepare.signs ++ wordOperators, k.1 ≠ [] ∧ k.2 ≠ [] ∧ (∀ d ∈ k.2, d ≠ '[') ∧ ∀ p ∈ wordTable,
    (∀ d, k.2.getLast? = some d → d ∉ ' ' :: p.1) ∧ (∀ d, k.2.head? = some d → d ∉ p.1 ++ [' ']) := by
  have : ∀ k ∈ reserved ++ Prepare.signs ++ wordOperators, k.1 ≠ [] ∧ k.2 ≠ [] ∧ (∀ d ∈ k.2, d ≠ '[') ∧ ∀ p ∈ wordTable,
      (k.2.getLast?.all fun d => !(' ' :: p.1).elem d) = true ∧ (k.2.head?.all fun d => !(p.1 ++ [' ']).elem d) = true := by decide +kernel
  intro k hk
  obtain ⟨h1, h2, h3, h4⟩ := this k hk
  refine ⟨h1, h2, h3, fun p hp => ⟨fun d hd => ?_, fun d hd => ?_⟩⟩
  · have := (h4 p hp).1
    rw [hd] at this
    simpa using this
  · have := (h4 p hp).2
    rw [hd] at this
    simpa using this

theorem wordEnd_replace {k : Text × Text} (hk : k ∈ reserved ++ Prepare.signs ++ wordOperators) {A : Text} (h : NoWordEnd A) : NoWordEnd (replaceAll k.1 k.2 A) := by
  intro p hp hs
  obtain ⟨h1, h2, _, h4⟩ := filled k hk
  obtain ⟨w, y, hv⟩ : ∃ w y, k.2 = w ++ [y] := by
    rcases List.eq_nil_or_concat k.2 with h | ⟨y, e, h⟩
    · exact absurd h h2
    · exact ⟨y, e, by simpa using h⟩
  exact h p hp (suffix_replaceAll h1 hv ((h4 p hp).1 y (by rw [hv]; simp)) A hs)

theorem wordStart_replace {k : Text × Text} (hk : k ∈ reserved ++ Prepare.signs ++ wordOperators) {A : Text} (h : NoWordStart A) :
    NoWordStart (replaceAll k.1 k.2 A) := by
  intro p hp hs
  obtain ⟨_, h2, _, h4⟩ := filled k hk
  obtain ⟨x, w, hv⟩ := List.exists_cons_of_ne_nil h2
  rw [hv] at hs
  exact h p hp (prefix_replaceAll ((h4 p hp).2 x (by rw [hv]; simp)) hs)

theorem bracket_replace {k : Text × Text} (hk : k ∈ reserved ++ Prepare.signs ++ wordOperators) {A : Text} (h : '[' ∉ A) : '[' ∉ replaceAll k.1 k.2 A := by
  intro hm
  rcases mem_replaceAll hm with hm | hm
  · exact (filled k hk).2.2.1 _ hm rfl
  · exact h hm

/-- The first three loops. -/
def early (o : Orders) (s : Text) : Text := replaceEach o.signs (dots .free (replaceEach o.words s))

/-- The four loops. -/
def passes (o : Orders) (s : Text) : Text := replaceEach o.operators (early o s)

theorem in_words {o : Orders} (ho : SomeOrder o) {k : Text × Text} (hk : k ∈ o.words) : k ∈ reserved ++ Prepare.signs ++ wordOperators := by
  simp [ho.words.subset hk]

theorem in_signs {o : Orders} (ho : SomeOrder o) {k : Text × Text} (hk : k ∈ o.signs) : k ∈ reserved ++ Prepare.signs ++ wordOperators := by
  simp [ho.signs.subset hk]

theorem in_operators {o : Orders} (ho : SomeOrder o) {k : Text × Text} (hk : k ∈ o.operators) : k ∈ reserved ++ Prepare.signs ++ wordOperators := by
  simp [ho.operators.subset hk]

theorem wordEnd_early {o : Orders} (ho : SomeOrder o) {a : Text} (h : NoWordEnd a) : NoWordEnd (early o a) := by
  refine each_inv (fun k hk A hA => wordEnd_replace (in_signs ho hk) hA) ?_
  intro p hp hs
  refine each_inv (P := NoWordEnd) (fun k hk A hA => wordEnd_replace (in_words ho hk) hA) h p hp (dots_suffix ?_ _ _ hs)
  have := (word_facts p hp).2.1
  simp only [List.mem_cons, not_or]
  exact ⟨by decide, this⟩

theorem wordStart_early {o : Orders} (ho : SomeOrder o) {a : Text} (h : NoWordStart a) : NoWordStart (early o a) := by
  refine each_inv (fun k hk A hA => wordStart_replace (in_signs ho hk) hA) ?_
  intro p hp hs
  refine each_inv (P := NoWordStart) (fun k hk A hA => wordStart_replace (in_words ho hk) hA) h p hp (dots_prefix ?_ hs)
  have := (word_facts p hp).2.1
  simp only [List.mem_append, List.mem_singleton, not_or]
  exact ⟨this, by decide⟩

theorem bracket_early {o : Orders} (ho : SomeOrder o) {a : Text} (h : '[' ∉ a) : '[' ∉ early o a := by
  refine each_inv (P := fun s => '[' ∉ s) (fun k hk A hA => bracket_replace (in_signs ho hk) hA) ?_
  intro hm
  rcases mem_dots hm with hm | hm
  · exact absurd hm (by decide)
  · exact each_inv (P := fun s => '[' ∉ s) (fun k hk A hA => bracket_replace (in_words ho hk) hA) h hm

theorem early_around {o : Orders} (ho : SomeOrder o) {d : Char} (hd : d = ' ') (a b : Text) : early o (a ++ d :: b) = early o a ++ d :: early o b := by
  subst hd
  have h1 : ∀ k ∈ reserved, k.1 ≠ [] ∧ ' ' ∉ k.1 := by decide +kernel
  have h2 : ∀ k ∈ Prepare.signs, k.1 ≠ [] ∧ ' ' ∉ k.1 := by decide +kernel
  have e1 := each_around (order := o.words) (fun k hk => (h1 k (ho.words.subset hk)).1) (X := [' ']) (by simp)
    (fun k hk c hc => by rw [List.mem_singleton.mp hc]; exact (h1 k (ho.words.subset hk)).2) a b
  have e2 := each_around (order := o.signs) (fun k hk => (h2 k (ho.signs.subset hk)).1) (X := [' ']) (by simp)
    (fun k hk c hc => by rw [List.mem_singleton.mp hc]; exact (h2 k (ho.signs.subset hk)).2) (dots .free (replaceEach o.words a)) (dots .free (replaceEach o.words b))
  simp only [List.singleton_append] at e1 e2
  unfold early
  rw [e1, dots_around (by decide), e2]

theorem early_word {o : Orders} (ho : SomeOrder o) {p : Text × Text} (hp : p ∈ wordTable) : early o p.1 = p.1 := by
  have h1 : ∀ p ∈ wordTable, ∀ k ∈ reserved, replaceAll k.1 k.2 p.1 = p.1 := by decide +kernel
  have h2 : ∀ p ∈ wordTable, ∀ k ∈ Prepare.signs, replaceAll k.1 k.2 p.1 = p.1 := by decide +kernel
  unfold early
  rw [each_fixed fun k hk => h1 p hp k (ho.words.subset hk), dots_free (word_facts p hp).2.2.1, each_fixed fun k hk => h2 p hp k (ho.signs.subset hk)]

theorem go_operator {g : Text} (h : ∀ c ∈ g, c ∈ c!"=!<>+-*/%&|^") : ∀ c ∈ g, c ≠ '[' ∧ c ≠ ']' ∧ c ≠ ':' := by
  intro c hc
  have : ∀ c ∈ c!"=!<>+-*/%&|^", c ≠ '[' ∧ c ≠ ']' ∧ c ≠ ':' := by decide
  exact this c (h c hc)

theorem passes_word {o : Orders} (ho : SomeOrder o) {p : Text × Text} (hp : p ∈ wordTable) {a b : Text} (ha : NoWordEnd a) (hb : NoWordStart b) :
    passes o (a ++ (spaced p.1 ++ b)) = passes o a ++ (p.2 ++ passes o b) := by
  have e : ∀ s, passes o s = replaceEach o.operators (early o s) := fun _ => rfl
  have e1 : early o (a ++ (spaced p.1 ++ b)) = early o a ++ (spaced p.1 ++ early o b) := by
    have : a ++ (spaced p.1 ++ b) = a ++ ' ' :: (p.1 ++ ' ' :: b) := by simp [spaced]
    rw [this, early_around ho rfl, early_around ho rfl, early_word ho hp]
    simp [spaced]
  have hop : ∀ k ∈ o.operators, ∃ q ∈ wordTable, k = (spaced q.1, q.2) := fun k hk => word_entries k (ho.operators.subset hk)
  obtain ⟨t1, t2⟩ := word_turn p hp
  have e2 := each_between (order := o.operators) (P := NoWordEnd) (Q := NoWordStart) (S := fun X => X = spaced p.1 ∨ X = p.2)
    (fun k hk A X B hA hX hB => by
      obtain ⟨q, hq, rfl⟩ := hop k hk
      exact word_step hp hq hA hX hB)
    (fun k hk A hA => wordEnd_replace (in_operators ho hk) hA) (fun k hk A hA => wordStart_replace (in_operators ho hk) hA)
    (fun k hk X hX => by
      obtain ⟨q, hq, rfl⟩ := hop k hk
      rcases hX with rfl | rfl
      · by_cases hqp : q = p
        · right; rw [hqp]; exact t1
        · left; exact (t2 q hq).1 hqp
      · right; exact (t2 q hq).2)
    (wordEnd_early ho ha) (.inl rfl) (wordStart_early ho hb)
  have e3 : replaceEach o.operators (spaced p.1) = p.2 := by
    refine each_turn (key := (spaced p.1, p.2)) (fun k hk hne => ?_) t1 (fun k hk => ?_) (ho.operators.symm.subset (word_entry p hp))
    · obtain ⟨q, hq, rfl⟩ := hop k hk
      exact (t2 q hq).1 (fun h => hne (by rw [h]))
    · obtain ⟨q, hq, rfl⟩ := hop k hk
      exact (t2 q hq).2
  rw [e, e1, e2, e3]
  rfl

theorem rewrite_word {o : Orders} (ho : SomeOrder o) {p : Text × Text} (hp : p ∈ wordTable) {a b : Text} (ha : NoWordEnd a) (hb : NoWordStart b)
    (hm : p.2 = c!"-" → '[' ∉ a) : rewrite o (a ++ (spaced p.1 ++ b)) = rewrite o a ++ (p.2 ++ rewrite o b) := by
  have e : ∀ s, rewrite o s = indexExpression (passes o s) := fun _ => rfl
  obtain ⟨_, _, _, hg1, hg2, hg3⟩ := word_facts p hp
  rw [e, passes_word ho hp ha hb, index_around (go_operator hg2) hg1]
  · rfl
  · rcases hg3 with h | h
    · right
      exact each_inv (P := fun s => '[' ∉ s) (fun k hk A hA => bracket_replace (in_operators ho hk) hA) (bracket_early ho (hm h))
    · exact .inl h

/-! ## Signs -/

def NoSignEnd (A : Text) : Prop := ∀ c ∈ c!"<«", ¬ [c] <:+ A
def NoSignStart (B : Text) : Prop := ∀ c ∈ c!">»≧", ¬ [c] <+: B

theorem sign_entry : ∀ p ∈ signTable, p ∈ Prepare.signs := by decide +kernel
theorem sign_keys : ∀ k ∈ Prepare.signs, k.1.length = 1 ∨ k.1 = c!"<>" ∨ (k.1 ≠ [] ∧ ∀ p ∈ signTable, ∀ c ∈ p.1 ++ p.2, c ∉ k.1) := by decide +kernel
theorem sign_facts : ∀ p ∈ signTable, p.1 ≠ [] ∧ p.2 ≠ [] ∧ (∀ c ∈ p.2, c ∈ c!"=!<>+-*/%&|^") ∧ (∃ c ∈ p.2, c ≠ '-' ∧ c.isDigit = false) ∧
    (∀ c ∈ p.1, loose c = true) ∧ (∀ k ∈ reserved, ∀ c ∈ p.1, c ∉ k.1) ∧ ∀ k ∈ wordOperators, ∀ c ∈ p.2, c ∉ k.1 := by decide +kernel
theorem sign_turn : ∀ p ∈ signTable, replaceAll p.1 p.2 p.1 = p.2 ∧
    ∀ k ∈ Prepare.signs, (k ≠ p → replaceAll k.1 k.2 p.1 = p.1) ∧ replaceAll k.1 k.2 p.2 = p.2 := by decide +kernel
theorem sign_sides : ∀ k ∈ Prepare.signs, (∀ c ∈ c!"<«", k.2.getLast? = some c → k.1 = c!"«") ∧ (∀ c ∈ c!">»≧", k.2.head? = some c → k.1 = c!"»" ∨ k.1 = c!"≧") := by
  decide +kernel

theorem pair_split {k1 k2 : Text} {c d : Char} (h : [c, d] = k1 ++ k2) (h1 : k1 ≠ []) (h2 : k2 ≠ []) : k1 = [c] ∧ k2 = [d] := by
  cases k1 with
  | nil => exact absurd rfl h1
  | cons x k1 =>
    cases k1 with
    | nil =>
      simp only [List.cons_append, List.nil_append, List.cons.injEq] at h
      obtain ⟨rfl, rfl⟩ := h
      exact ⟨rfl, rfl⟩
    | cons y k1 =>
      simp only [List.cons_append, List.cons.injEq, List.nil_eq, List.append_eq_nil_iff] at h
      exact absurd h.2.2.2 h2

theorem sign_step {p k : Text × Text} (hp : p ∈ signTable) (hk : k ∈ Prepare.signs) {A X B : Text} (hA : NoSignEnd A) (hX : X = p.1 ∨ X = p.2) (hB : NoSignStart B) :
    replaceAll k.1 k.2 (A ++ (X ++ B)) = replaceAll k.1 k.2 A ++ (replaceAll k.1 k.2 X ++ replaceAll k.1 k.2 B) := by
  rcases sign_keys k hk with h | h | ⟨hne, h⟩
  · have hne : k.1 ≠ [] := by intro e; rw [e] at h; cases h
    have nosplit : ∀ k1 k2 : Text, k.1 = k1 ++ k2 → k1 ≠ [] → k2 ≠ [] → False := by
      intro k1 k2 e h1 h2
      rw [e, List.length_append] at h
      have := List.length_pos_iff.mpr h1
      have := List.length_pos_iff.mpr h2
      omega
    rw [replaceAll_apart hne (fun k1 k2 e h1 h2 => (nosplit k1 k2 e h1 h2).elim), replaceAll_apart hne (fun k1 k2 e h1 h2 => (nosplit k1 k2 e h1 h2).elim)]
  · rw [h, replaceAll_apart (by simp), replaceAll_apart (by simp)]
    · intro k1 k2 e h1 h2 _ hpre
      obtain ⟨rfl, rfl⟩ := pair_split e h1 h2
      exact hB '>' (by decide) hpre
    · intro k1 k2 e h1 h2 hs
      obtain ⟨rfl, rfl⟩ := pair_split e h1 h2
      exact absurd hs (hA '<' (by decide))
  · have hc : ∀ c ∈ X, c ∉ k.1 := by
      intro c hc
      rcases hX with rfl | rfl
      · exact h p hp c (List.mem_append_left _ hc)
      · exact h p hp c (List.mem_append_right _ hc)
    have hX' : X ≠ [] := by
      rcases hX with rfl | rfl
      · exact (sign_facts p hp).1
      · exact (sign_facts p hp).2.1
    rw [replaceAll_around hne hX' hc]
    have : replaceAll k.1 k.2 X = X := by
      have := replaceAll_around (v := k.2) hne hX' hc [] []
      simpa [replaceAll_nil] using this
    rw [this]

theorem singleton_suffix_iff {d : Char} {v : Text} : [d] <:+ v ↔ v.getLast? = some d := by
  rw [List.getLast?_eq_some_iff]
  constructor
  · rintro ⟨t, h⟩; exact ⟨t, h.symm⟩
  · rintro ⟨t, h⟩; exact ⟨t, h.symm⟩

theorem singleton_prefix_iff {d : Char} {v : Text} : [d] <+: v ↔ v.head? = some d := by
  cases v with
  | nil => simp
  | cons c v => simp [List.cons_prefix_cons, eq_comm]

theorem signEnd_replace {k : Text × Text} (hk : k ∈ Prepare.signs) {A : Text} (h : NoSignEnd A) : NoSignEnd (replaceAll k.1 k.2 A) := by
  intro c hc hs
  obtain ⟨h1, h2, _⟩ := filled k (by simp [hk])
  rcases last_replaceAll h1 h2 A hs with h' | ⟨h', h''⟩
  · exact h c hc h'
  · have := (sign_sides k hk).1 c hc (singleton_suffix_iff.mp h'')
    rw [this] at h'
    exact h '«' (by decide) h'

theorem signStart_replace {k : Text × Text} (hk : k ∈ Prepare.signs) {A : Text} (h : NoSignStart A) : NoSignStart (replaceAll k.1 k.2 A) := by
  intro c hc hs
  obtain ⟨h1, h2, _⟩ := filled k (by simp [hk])
  rcases head_replaceAll h1 h2 hs with h' | ⟨h', h''⟩
  · exact h c hc h'
  · rcases (sign_sides k hk).2 c hc (singleton_prefix_iff.mp h'') with e | e
    · rw [e] at h'
      exact h '»' (by decide) h'
    · rw [e] at h'
      exact h '≧' (by decide) h'

theorem mark_sides : ∀ k ∈ reserved, k.1 ≠ [] ∧ k.2 ≠ [] ∧ k.2.getLast? = some '_' ∧ k.2.head? = some '_' := by decide +kernel

theorem signEnd_words {o : Orders} (ho : SomeOrder o) {a : Text} (h : NoSignEnd a) : NoSignEnd (dots .free (replaceEach o.words a)) := by
  intro c hc hs
  have hu : '_' ∉ [c] := by
    have : ∀ c ∈ c!"<«", '_' ∉ [c] := by decide
    exact this c hc
  refine each_inv (P := NoSignEnd) (fun k hk A hA c hc hs => ?_) h c hc (dots_suffix hu _ _ hs)
  obtain ⟨h1, h2, h3, _⟩ := mark_sides k (ho.words.subset hk)
  rcases last_replaceAll h1 h2 A hs with h' | ⟨_, h'⟩
  · exact hA c hc h'
  · rw [singleton_suffix_iff, h3] at h'
    cases h'
    exact absurd hc (by decide)

theorem signStart_words {o : Orders} (ho : SomeOrder o) {a : Text} (h : NoSignStart a) : NoSignStart (dots .free (replaceEach o.words a)) := by
  intro c hc hs
  have hu : '_' ∉ [c] := by
    have : ∀ c ∈ c!">»≧", '_' ∉ [c] := by decide
    exact this c hc
  refine each_inv (P := NoSignStart) (fun k hk A hA c hc hs => ?_) h c hc (dots_prefix hu hs)
  obtain ⟨h1, h2, _, h3⟩ := mark_sides k (ho.words.subset hk)
  rcases head_replaceAll h1 h2 hs with h' | ⟨_, h'⟩
  · exact hA c hc h'
  · rw [singleton_prefix_iff, h3] at h'
    cases h'
    exact absurd hc (by decide)

theorem dots_over {X : Text} (h : ∀ c ∈ X, loose c = true) (hX : X ≠ []) : ∀ (a b : Text) (p : Place), dots p (a ++ (X ++ b)) = dots p a ++ (X ++ dots .free b) := by
  induction X with
  | nil => exact absurd rfl hX
  | cons c X ih =>
    intro a b p
    rw [List.cons_append, dots_around (h c (List.mem_cons_self ..))]
    cases X with
    | nil => rfl
    | cons d X =>
      have := ih (fun c hc => h c (List.mem_cons_of_mem _ hc)) (by simp) [] b .free
      simp only [List.nil_append, dots] at this
      rw [this]
      rfl

theorem rewrite_sign {o : Orders} (ho : SomeOrder o) {p : Text × Text} (hp : p ∈ signTable) {a b : Text} (ha : NoSignEnd a) (hb : NoSignStart b) :
    rewrite o (a ++ (p.1 ++ b)) = rewrite o a ++ (p.2 ++ rewrite o b) := by
  have e : ∀ s, rewrite o s = indexExpression (replaceEach o.operators (replaceEach o.signs (dots .free (replaceEach o.words s)))) := fun _ => rfl
  obtain ⟨h1, h2, h3, h4, h5, h6, h7⟩ := sign_facts p hp
  obtain ⟨t1, t2⟩ := sign_turn p hp
  have e1 : replaceEach o.words (a ++ (p.1 ++ b)) = replaceEach o.words a ++ (p.1 ++ replaceEach o.words b) :=
    each_around (fun k hk => (mark_sides k (ho.words.subset hk)).1) h1 (fun k hk => h6 k (ho.words.subset hk)) a b
  have e2 := each_between (order := o.signs) (P := NoSignEnd) (Q := NoSignStart) (S := fun X => X = p.1 ∨ X = p.2)
    (fun k hk A X B hA hX hB => sign_step hp (ho.signs.subset hk) hA hX hB)
    (fun k hk A hA => signEnd_replace (ho.signs.subset hk) hA) (fun k hk A hA => signStart_replace (ho.signs.subset hk) hA)
    (fun k hk X hX => by
      have hk' := ho.signs.subset hk
      rcases hX with rfl | rfl
      · by_cases hkp : k = p
        · right; rw [hkp]; exact t1
        · left; exact (t2 k hk').1 hkp
      · right; exact (t2 k hk').2)
    (signEnd_words ho ha) (.inl rfl) (signStart_words ho hb)
  have e3 : replaceEach o.signs p.1 = p.2 :=
    each_turn (key := p) (fun k hk hne => (t2 k (ho.signs.subset hk)).1 hne) t1 (fun k hk => (t2 k (ho.signs.subset hk)).2) (ho.signs.symm.subset (sign_entry p hp))
  have hne : ∀ k ∈ wordOperators, k.1 ≠ [] := by decide +kernel
  have e4 := each_around (order := o.operators) (fun k hk => hne k (ho.operators.subset hk)) h2 (fun k hk => h7 k (ho.operators.subset hk))
    (replaceEach o.signs (dots .free (replaceEach o.words a))) (replaceEach o.signs (dots .free (replaceEach o.words b)))
  rw [e, e1, dots_over h5 h1, e2, e3, e4, index_around (go_operator h3) h2 (.inl h4)]
  rfl

/-! ## With literals -/

theorem rewrite_between {o : Orders} (ho : SomeOrder o) {a x b g : Text} (h : Between a x b g) : rewrite o (a ++ (x ++ b)) = rewrite o a ++ (g ++ rewrite o b) := by
  cases h with
  | word w g b h1 h2 h3 h4 => exact rewrite_word ho h1 h2 h3 h4
  | sign x g b h1 h2 h3 => exact rewrite_sign ho h1 h2 h3

theorem between_less {a a' x b b' g : Text} (h : Between a x b g) (ha : a' <:+ a) (hb : b' <+: b) : Between a' x b' g := by
  cases h with
  | word w g b h1 h2 h3 h4 =>
    exact .word w g b' h1 (fun p hp hs => h2 p hp (hs.trans ha)) (fun p hp hs => h3 p hp (hs.trans hb)) (fun e hm => h4 e (ha.subset hm))
  | sign x g b h1 h2 h3 => exact .sign x g b' h1 (fun p hp hs => h2 p hp (hs.trans ha)) (fun p hp hs => h3 p hp (hs.trans hb))

theorem between_plain {a x b g : Text} (h : Between a x b g) : Plain x ∧ '♠' ∉ x := by
  have h1 : ∀ p ∈ wordTable, ∀ c ∈ spaced p.1, c ≠ '`' ∧ c ≠ '"' ∧ c ≠ '♠' := by decide +kernel
  have h2 : ∀ p ∈ signTable, ∀ c ∈ p.1, c ≠ '`' ∧ c ≠ '"' ∧ c ≠ '♠' := by decide +kernel
  have : ∀ c ∈ x, c ≠ '`' ∧ c ≠ '"' ∧ c ≠ '♠' := by
    cases h with
    | word w g b h _ _ _ => exact h1 _ h
    | sign x g b h _ _ => exact h2 _ h
  refine ⟨fun c hc hq => ?_, fun hm => (this _ hm).2.2 rfl⟩
  rcases hq with h | h
  · exact (this c hc).1 h
  · exact (this c hc).2.1 h

theorem cut_more {a s : Text} {pieces qs : List (Text × Text)} {tail t : Text} (h : Cut a pieces tail) (h' : Cut (tail ++ s) qs t) :
    Cut (a ++ s) (pieces ++ qs) t := by
  induction h with
  | tail _ => exact h'
  | @literal pre lit rest pieces tail hp hl _ ih =>
    have := Cut.literal hp hl (ih h')
    simpa using this

theorem noLiteral_plain {p t : Text} (hp : Plain p) (ht : NoLiteral t) : NoLiteral (p ++ t) := by
  intro pre q rest lit after he hpre hq hl hle
  rcases List.append_eq_append_iff.mp he with ⟨u, h1, h2⟩ | ⟨u, h1, h2⟩
  · exact ht u q rest lit after h2 (fun c hc => hpre c (by rw [h1]; simp [hc])) hq hl hle
  · cases u with
    | nil => exact ht [] q rest lit after h2.symm (fun c hc => nomatch hc) hq hl hle
    | cons d u =>
      simp only [List.cons_append, List.cons.injEq] at h2
      exact hp q (by rw [h1, h2.1]; simp) hq

theorem plain_append {a b : Text} (ha : Plain a) (hb : Plain b) : Plain (a ++ b) := by
  intro c hc
  rcases List.mem_append.mp hc with h | h
  · exact ha c h
  · exact hb c h

theorem cut_suffix {a : Text} {pieces : List (Text × Text)} {tail : Text} (h : Cut a pieces tail) : tail <:+ a := by
  induction h with
  | tail _ => exact List.suffix_refl _
  | literal _ _ _ ih => exact ih.trans (List.suffix_append _ _)

/-- An operator between two expressions. -/
theorem prepare_between {o : Orders} (ho : SomeOrder o) {a x b g : Text} (h : Between a x b g) (ha : Closed a) (h1 : '♠' ∉ a) (h2 : '♠' ∉ b) :
    ∃ A B, prepare o a = some A ∧ prepare o b = some B ∧ prepare o (a ++ (x ++ b)) = some (A ++ (g ++ B)) := by
  obtain ⟨pieces, tail, hc, hp⟩ := ha
  obtain ⟨hx, hx'⟩ := between_plain h
  have hs : '♠' ∉ a ++ (x ++ b) := by simp [h1, h2, hx']
  obtain ⟨qs, t, hcb, _⟩ := Protect.protectLoop_cut b.length 0 b (Nat.le_refl _)
  refine ⟨_, _, prepare_cut ho h1 hc, prepare_cut ho h2 hcb, ?_⟩
  cases hcb with
  | tail hn =>
    have hcut : Cut (tail ++ (x ++ b)) [] (tail ++ (x ++ b)) := .tail (noLiteral_plain hp (noLiteral_plain hx hn))
    rw [prepare_cut ho hs (cut_more hc hcut), rewrite_between ho (between_less h (cut_suffix hc) (List.prefix_refl _))]
    simp
  | @literal pre lit rest ps t hpre hl hrest =>
    have hcut : Cut (tail ++ (x ++ (pre ++ lit ++ rest))) ((tail ++ (x ++ pre), lit) :: ps) t := by
      have := Cut.literal (plain_append hp (plain_append hx hpre)) hl hrest
      simpa using this
    rw [prepare_cut ho hs (cut_more hc hcut)]
    have := rewrite_between ho (between_less h (cut_suffix hc) (b' := pre) ⟨lit ++ rest, by simp⟩)
    simp [this]

end Verif.Lemmas
