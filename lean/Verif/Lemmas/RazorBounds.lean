import Verif.Lemmas.RazorReady
/-!
# The bounds that are not written in slices
-/

namespace Verif.Lemmas
open Verif Text Razor Prepare Spec

/-- The keys of the three maps. -/
abbrev allKeys : List (Text × Text) := reserved ++ Prepare.signs ++ wordOperators

/-- The characters of brackets. -/
def bracket (q : Char) : Bool := q == '[' || q == ']' || q == ':'

/-- The characters of the bounds. -/
def boundChar (c : Char) : Bool := c.isDigit || c == '-' || c == ':'

theorem bracket_keys {q : Char} (hq : bracket q = true) : ∀ k ∈ allKeys, ∀ c ∈ [q], c ∉ k.1 := by
  have h : ∀ q ∈ c!"[]:", ∀ k ∈ allKeys, ∀ c ∈ [q], c ∉ k.1 := by decide +kernel
  refine h q ?_
  simp only [bracket, Bool.or_eq_true, beq_iff_eq] at hq
  rcases hq with (rfl | rfl) | rfl <;> decide

theorem keys_filled : ∀ k ∈ allKeys, k.1 ≠ [] := by decide +kernel

theorem each_bracket {order : List (Text × Text)} (ho : ∀ k ∈ order, k ∈ allKeys) {q : Char} (hq : bracket q = true) (a b : Text) :
    replaceEach order (a ++ q :: b) = replaceEach order a ++ q :: replaceEach order b :=
  each_around (X := [q]) (fun k hk => keys_filled k (ho k hk)) (by simp) (fun k hk => bracket_keys hq k (ho k hk)) a b

theorem each_bound {order : List (Text × Text)} (ho : ∀ k ∈ order, k ∈ allKeys) {w : Text} (hw : ∀ c ∈ w, boundChar c = true) : replaceEach order w = w := by
  have h : ∀ k ∈ allKeys, ∃ c : Char, c ∈ k.1 ∧ boundChar c = false := by
    have h' : ∀ k ∈ allKeys, k.1.any (fun c => !boundChar c) = true := by decide +kernel
    intro k hk
    obtain ⟨c, hc, hb⟩ := List.any_eq_true.mp (h' k hk)
    exact ⟨c, hc, by simpa using hb⟩
  refine each_fixed fun k hk => replaceAll_free fun hi => ?_
  obtain ⟨c, hc, hb⟩ := h k (ho k hk)
  rw [hw c (hi.subset hc)] at hb
  cases hb

theorem dots_bracket {q : Char} (hq : bracket q = true) (a b : Text) (p : Place) : dots p (a ++ q :: b) = dots p a ++ q :: dots (placeAfter q) b := by
  simp only [bracket, Bool.or_eq_true, beq_iff_eq] at hq
  rcases hq with (rfl | rfl) | rfl
  · exact dots_around (by decide) b a p
  · exact dots_close (.inr rfl) b a p
  · exact dots_around (by decide) b a p

/-- What the loops make of the text after a bracket. -/
def passesAfter (o : Orders) (q : Char) (b : Text) : Text := replaceEach o.operators (replaceEach o.signs (dots (placeAfter q) (replaceEach o.words b)))

theorem passes_bracket {o : Orders} (ho : SomeOrder o) {q : Char} (hq : bracket q = true) (a b : Text) : passes o (a ++ q :: b) = passes o a ++ q :: passesAfter o q b := by
  have e : ∀ s, passes o s = replaceEach o.operators (replaceEach o.signs (dots .free (replaceEach o.words s))) := fun _ => rfl
  rw [e, e, passesAfter, each_bracket (fun k hk => in_words ho hk) hq, dots_bracket hq, each_bracket (fun k hk => in_signs ho hk) hq,
    each_bracket (fun k hk => in_operators ho hk) hq]

theorem dots_bound {w : Text} (hw : ∀ c ∈ w, boundChar c = true) : ∀ p, dots p w = w := by
  induction w with
  | nil => intro p; rfl
  | cons c w ih =>
    intro p
    have hc : c ≠ '.' := by
      rintro rfl
      exact absurd (hw '.' (List.mem_cons_self ..)) (by decide)
    have ih := ih fun c hc => hw c (List.mem_cons_of_mem _ hc)
    cases p <;> simp [dots, hc, ih]

/-- The bounds between two brackets stay. -/
theorem passesAfter_bound {o : Orders} (ho : SomeOrder o) {p q : Char} (hq : bracket q = true) {w : Text} (hw : ∀ c ∈ w, boundChar c = true) (b : Text) :
    passesAfter o p (w ++ q :: b) = w ++ q :: passesAfter o q b := by
  rw [passesAfter, each_bracket (fun k hk => in_words ho hk) hq, dots_bracket hq, each_bracket (fun k hk => in_signs ho hk) hq,
    each_bracket (fun k hk => in_operators ho hk) hq, each_bound (fun k hk => in_words ho hk) hw, dots_bound hw, each_bound (fun k hk => in_signs ho hk) hw,
    each_bound (fun k hk => in_operators ho hk) hw]
  rfl

/-! ## The completion -/

theorem complete_swap {x y : Text} (hh : x.head? = y.head?) : ∀ {a : Text} {o : Option Text}, completeFrom (openedBy o a) x = completeFrom (openedBy o a) y →
    completeFrom o (a ++ x) = completeFrom o (a ++ y) := by
  intro a
  induction a with
  | nil => intro o h; exact h
  | cons c a ih =>
    intro o h
    have hm : (a ++ x).head? = (a ++ y).head? := by
      cases a with
      | nil => exact hh
      | cons d a => rfl
    simp only [List.cons_append, completeFrom, hm]
    rw [ih h]

theorem dead_with {o : Option Text} {u : Text} {c : Char} (hc : c ∈ u) (h1 : c ≠ '-') (h2 : c.isDigit = false) : Dead (o.map fun w => w ++ u) := by
  intro w hw v
  cases o with
  | none => cases hw
  | some x =>
    cases hw
    exact isNegative_not (c := c) (by simp [hc]) h1 h2

theorem bound_texts : T "0:-1" = c!"0:-1" ∧ T "0" = c!"0" ∧ T "-1" = c!"-1" := by decide

theorem complete_both (o : Option Text) (b : Text) : completeFrom o (c!"[]" ++ b) = completeFrom o (c!"[0:-1]" ++ b) := by
  have h : completeFrom (some c!"]") b = completeFrom (some c!"0:-1]") b := completeFrom_dead (dead_with (o := some []) (u := c!"]") (c := ']') (by simp) (by decide) (by decide))
    (dead_with (o := some []) (u := c!"0:-1]") (c := ']') (by simp) (by decide) (by decide))
  simpa [completeFrom, missing, isNegative, bound_texts] using h

theorem complete_low (o : Option Text) (b : Text) : completeFrom o (c!"[:" ++ b) = completeFrom o (c!"[0:" ++ b) := by
  have h : completeFrom (some c!":") b = completeFrom (some c!"0:") b := completeFrom_dead (dead_with (o := some []) (u := c!":") (c := ':') (by simp) (by decide) (by decide))
    (dead_with (o := some []) (u := c!"0:") (c := ':') (by simp) (by decide) (by decide))
  simpa [completeFrom, missing, isNegative, bound_texts] using h

theorem complete_high {o : Option Text} (ho : o.any isNegative = false) (b : Text) : completeFrom o (c!":]" ++ b) = completeFrom o (c!":-1]" ++ b) := by
  have h : completeFrom (o.map fun w => w ++ c!":]") b = completeFrom (o.map fun w => w ++ c!":-1]") b :=
    completeFrom_dead (dead_with (c := ']') (by simp) (by decide) (by decide)) (dead_with (c := ']') (by simp) (by decide) (by decide))
  simpa [completeFrom, missing, ho, bound_texts, Option.map_map, Function.comp_def] using h

theorem complete_zero {o : Option Text} (ho : o.any isNegative = true) (b : Text) : completeFrom o (c!":]" ++ b) = completeFrom o (c!":0]" ++ b) := by
  have h : completeFrom (o.map fun w => w ++ c!":]") b = completeFrom (o.map fun w => w ++ c!":0]") b :=
    completeFrom_dead (dead_with (c := ']') (by simp) (by decide) (by decide)) (dead_with (c := ']') (by simp) (by decide) (by decide))
  simpa [completeFrom, missing, ho, bound_texts, Option.map_map, Function.comp_def] using h

/-! ## The texts -/

instance (s : Text) : Decidable (Plain s) := inferInstanceAs (Decidable (∀ c ∈ s, ¬ (c = _ ∨ c = _)))

/-- A text in place of another between two literals. -/
theorem prepare_swap {o : Orders} (ho : SomeOrder o) {a x y b : Text} (ha : Closed a) (h1 : '♠' ∉ a) (h2 : '♠' ∉ b) (hx : Plain x) (hx' : '♠' ∉ x) (hy : Plain y)
    (hy' : '♠' ∉ y) (h : ∀ a' b', a' <:+ a → Plain a' → rewrite o (a' ++ (x ++ b')) = rewrite o (a' ++ (y ++ b'))) :
    prepare o (a ++ (x ++ b)) = prepare o (a ++ (y ++ b)) := by
  obtain ⟨pieces, tail, hc, hp⟩ := ha
  obtain ⟨qs, t, hcb, _⟩ := Protect.protectLoop_cut b.length 0 b (Nat.le_refl _)
  have hs : ∀ z, '♠' ∉ z → '♠' ∉ a ++ (z ++ b) := by
    intro z hz
    simp [h1, h2, hz]
  cases hcb with
  | tail hn =>
    have hcut : ∀ z, Plain z → Cut (tail ++ (z ++ b)) [] (tail ++ (z ++ b)) := fun z hz => .tail (noLiteral_plain hp (noLiteral_plain hz hn))
    rw [prepare_cut ho (hs x hx') (cut_more hc (hcut x hx)), prepare_cut ho (hs y hy') (cut_more hc (hcut y hy)), h _ _ (cut_suffix hc) hp]
  | @literal pre lit rest ps t hpre hl hrest =>
    have hcut : ∀ z, Plain z → Cut (tail ++ (z ++ (pre ++ lit ++ rest))) ((tail ++ (z ++ pre), lit) :: ps) t := by
      intro z hz
      have := Cut.literal (plain_append hp (plain_append hz hpre)) hl hrest
      simpa using this
    rw [prepare_cut ho (hs x hx') (cut_more hc (hcut x hx)), prepare_cut ho (hs y hy') (cut_more hc (hcut y hy))]
    have := h tail pre (cut_suffix hc) hp
    simp [this]

/-- Two brackets with the bounds between them. -/
theorem rewrite_swap {o : Orders} (ho : SomeOrder o) {p q : Char} (hp : bracket p = true) (hq : bracket q = true) {v w a b : Text} (hv : ∀ c ∈ v, boundChar c = true)
    (hw : ∀ c ∈ w, boundChar c = true)
    (h : ∀ B, completeFrom (openedBy none (passes o a)) (p :: (v ++ q :: B)) = completeFrom (openedBy none (passes o a)) (p :: (w ++ q :: B))) :
    rewrite o (a ++ p :: (v ++ q :: b)) = rewrite o (a ++ p :: (w ++ q :: b)) := by
  have e : ∀ s, rewrite o s = completeFrom none (passes o s) := fun s => indexExpression_eq _
  rw [e, e, passes_bracket ho hp, passes_bracket ho hp, passesAfter_bound ho hq hv, passesAfter_bound ho hq hw]
  exact complete_swap (x := p :: (v ++ q :: passesAfter o q b)) (y := p :: (w ++ q :: passesAfter o q b)) rfl (h _)

theorem prepare_both {o : Orders} (ho : SomeOrder o) {a b : Text} (ha : Closed a) (h1 : '♠' ∉ a) (h2 : '♠' ∉ b) :
    prepare o (a ++ (c!"[]" ++ b)) = prepare o (a ++ (c!"[0:-1]" ++ b)) :=
  prepare_swap ho ha h1 h2 (by decide) (by decide) (by decide) (by decide) fun a' b' _ _ =>
    rewrite_swap ho (p := '[') (q := ']') rfl rfl (v := []) (w := c!"0:-1") (by decide) (by decide) fun B => complete_both _ B

theorem prepare_low {o : Orders} (ho : SomeOrder o) {a b : Text} (ha : Closed a) (h1 : '♠' ∉ a) (h2 : '♠' ∉ b) :
    prepare o (a ++ (c!"[:" ++ b)) = prepare o (a ++ (c!"[0:" ++ b)) :=
  prepare_swap ho ha h1 h2 (by decide) (by decide) (by decide) (by decide) fun a' b' _ _ =>
    rewrite_swap ho (p := '[') (q := ':') rfl rfl (v := []) (w := c!"0") (by decide) (by decide) fun B => complete_low _ B

/-! ## The end of a negative bound -/

/-- A number with a minus, or with the word of the subtraction. -/
def Neg (v : Text) : Prop := ∃ d : Text, d ≠ [] ∧ (∀ c ∈ d, c.isDigit = true) ∧ (v = c!"-" ++ d ∨ v = c!" sub " ++ d)

theorem neg_values : ∀ k ∈ allKeys, k.1 ≠ [] ∧ (∃ c : Char, c ∈ k.2 ∧ c ∉ c!" sub" ∧ c.isDigit = false) ∧
    (k = (c!" sub ", c!"-") ∨ ∃ c : Char, c ∈ k.2 ∧ c ≠ '-' ∧ c.isDigit = false) := by
  have h : ∀ k ∈ allKeys, k.1 ≠ [] ∧ k.2.any (fun c => !(c!" sub").contains c && !c.isDigit) = true ∧
      (k = (c!" sub ", c!"-") ∨ k.2.any (fun c => c != '-' && !c.isDigit) = true) := by decide +kernel
  intro k hk
  obtain ⟨h1, h2, h3⟩ := h k hk
  obtain ⟨c, hc, hb⟩ := List.any_eq_true.mp h2
  refine ⟨h1, ⟨c, hc, ?_⟩, ?_⟩
  · simp only [Bool.and_eq_true, Bool.not_eq_true'] at hb
    exact ⟨fun hm => by rw [List.contains_iff_mem.mpr hm] at hb; exact absurd hb.1 (by decide), hb.2⟩
  · rcases h3 with h3 | h3
    · exact .inl h3
    · obtain ⟨c, hc, hb⟩ := List.any_eq_true.mp h3
      simp only [Bool.and_eq_true, Bool.not_eq_true', bne_iff_ne] at hb
      exact .inr ⟨c, hc, hb⟩

theorem neg_replace {k : Text × Text} (hk : k ∈ allKeys) {v : Text} (h : Neg (replaceAll k.1 k.2 v)) : Neg v := by
  obtain ⟨h1, ⟨c, hc, hc1, hc2⟩, h3⟩ := neg_values k hk
  obtain ⟨d, hd, hd', he⟩ := h
  rcases he with he | he
  · rcases h3 with rfl | ⟨e, he1, he2, he3⟩
    · have hm : ∀ s, replaceAll c!" sub " c!"-" s = d → s = d := by
        intro s hs
        rcases replaceAll_same (v := c!"-") (k := c!" sub ") (by simp) s with e | e
        · rw [← e, hs]
        · rw [hs] at e
          exact absurd (hd' '-' (e.subset (by simp))) (by decide)
      cases hp : hasPrefix c!" sub " v with
      | true =>
        obtain ⟨s, rfl⟩ := hasPrefix_iff.mp hp
        rw [replaceAll_match _ _ (by simp)] at he
        exact ⟨d, hd, hd', .inr (by rw [hm s (List.append_cancel_left he)])⟩
      | false =>
        cases v with
        | nil =>
          rw [replaceAll_nil] at he
          cases he
        | cons x s =>
          rw [replaceAll_skip hp] at he
          have he := List.cons.inj he
          exact ⟨d, hd, hd', .inl (by rw [he.1, hm s he.2]; rfl)⟩
    · rcases replaceAll_same (v := k.2) h1 v with e' | e'
      · exact ⟨d, hd, hd', .inl (e' ▸ he)⟩
      · rw [he] at e'
        rcases List.mem_append.mp (e'.subset he1) with h | h
        · exact absurd (List.mem_singleton.mp h) he2
        · rw [hd' e h] at he3
          cases he3
  · rcases replaceAll_same (v := k.2) h1 v with e' | e'
    · exact ⟨d, hd, hd', .inr (e' ▸ he)⟩
    · rw [he] at e'
      rcases List.mem_append.mp (e'.subset hc) with h | h
      · refine absurd ?_ hc1
        have : ∀ c ∈ c!" sub ", c ∈ c!" sub" := by decide
        exact this c h
      · rw [hd' c h] at hc2
        cases hc2

theorem neg_each {order : List (Text × Text)} (ho : ∀ k ∈ order, k ∈ allKeys) {v : Text} (h : Neg (replaceEach order v)) : Neg v := by
  induction order generalizing v with
  | nil => exact h
  | cons k order ih => exact neg_replace (ho k (List.mem_cons_self ..)) (ih (fun k hk => ho k (List.mem_cons_of_mem _ hk)) h)

theorem neg_dots {p : Place} {v : Text} (h : Neg (dots p v)) : Neg v := by
  rcases dots_same v p with e | e
  · exact e ▸ h
  · obtain ⟨d, _, hd', he⟩ := h
    refine absurd ?_ (show ¬ ('_' : Char).isDigit = true by decide)
    rcases he with he | he
    · rw [he] at e
      rcases List.mem_append.mp e with h | h
      · exact absurd h (by decide)
      · exact hd' _ h
    · rw [he] at e
      rcases List.mem_append.mp e with h | h
      · exact absurd h (by decide)
      · exact hd' _ h

theorem neg_passes {o : Orders} (ho : SomeOrder o) {q : Char} {v : Text} (h : Neg (passesAfter o q v)) : Neg v :=
  neg_each (fun _ hk => in_words ho hk) (neg_dots (neg_each (fun _ hk => in_signs ho hk) (neg_each (fun _ hk => in_operators ho hk) h)))

theorem openedBy_inside {v : Text} (hv : '[' ∉ v) : ∀ {w : Text}, openedBy (some w) v = some (w ++ v) := by
  induction v with
  | nil => intro w; simp [openedBy]
  | cons c v ih =>
    intro w
    simp only [List.mem_cons, not_or] at hv
    have e : openedBy (some w) (c :: v) = openedBy (if c = '[' then some [] else some (w ++ [c])) v := rfl
    rw [e, if_neg (Ne.symm hv.1), ih hv.2]
    simp

theorem last_bracket {a : Text} (h : '[' ∈ a) : ∃ w v, a = w ++ '[' :: v ∧ '[' ∉ v := by
  induction a with
  | nil => cases h
  | cons c a ih =>
    by_cases ha : '[' ∈ a
    · obtain ⟨w, v, rfl, hv⟩ := ih ha
      exact ⟨c :: w, v, rfl, hv⟩
    · rcases List.mem_cons.mp h with rfl | h
      · exact ⟨[], a, rfl, ha⟩
      · exact absurd h ha

theorem bracket_passesAfter {o : Orders} (ho : SomeOrder o) {q : Char} {v : Text} (h : '[' ∉ v) : '[' ∉ passesAfter o q v := by
  refine each_inv (P := fun s => '[' ∉ s) (fun k hk A hA => bracket_replace (in_operators ho hk) hA) ?_
  refine each_inv (P := fun s => '[' ∉ s) (fun k hk A hA => bracket_replace (in_signs ho hk) hA) ?_
  have hw : '[' ∉ replaceEach o.words v := each_inv (P := fun s => '[' ∉ s) (fun k hk A hA => bracket_replace (in_words ho hk) hA) h
  intro hm
  rcases mem_dots hm with h' | h'
  · exact absurd h' (by decide)
  · exact hw h'

theorem not_negative {o : Orders} (ho : SomeOrder o) {a : Text} (h : ¬ NegativeLow a) : (openedBy none (passes o a)).any isNegative = false := by
  by_cases hb : '[' ∈ a
  · obtain ⟨w, v, rfl, hv⟩ := last_bracket hb
    rw [passes_bracket ho rfl, openedBy_append]
    have e : openedBy (openedBy none (passes o w)) ('[' :: passesAfter o '[' v) = openedBy (some []) (passesAfter o '[' v) := rfl
    rw [e, openedBy_inside (bracket_passesAfter ho hv), List.nil_append, Option.any_some, Bool.eq_false_iff]
    intro hn
    have hneg : Neg (passesAfter o '[' v) := by
      unfold isNegative at hn
      split at hn
      · rename_i d he
        simp only [Bool.and_eq_true, List.all_eq_true] at hn
        exact ⟨d, by simpa using hn.1, hn.2, .inl he⟩
      · cases hn
    obtain ⟨d, h1, h2, h3⟩ := neg_passes ho hneg
    refine h ⟨d, h1, h2, ?_⟩
    rcases h3 with rfl | rfl
    · exact .inl ⟨w, by simp⟩
    · exact .inr ⟨w, by simp⟩
  · have : '[' ∉ passes o a := each_inv (P := fun s => '[' ∉ s) (fun k hk A hA => bracket_replace (in_operators ho hk) hA) (bracket_early ho hb)
    rw [openedBy_none this]
    rfl

theorem prepare_high {o : Orders} (ho : SomeOrder o) {a b : Text} (ha : Closed a) (h1 : '♠' ∉ a) (h2 : '♠' ∉ b) (hm : ¬ NegativeLow a) :
    prepare o (a ++ (c!":]" ++ b)) = prepare o (a ++ (c!":-1]" ++ b)) :=
  prepare_swap ho ha h1 h2 (by decide) (by decide) (by decide) (by decide) fun a' b' hs _ =>
    rewrite_swap ho (p := ':') (q := ']') rfl rfl (v := []) (w := c!"-1") (by decide) (by decide) fun B =>
      complete_high (not_negative ho fun ⟨d, h1, h2, h3⟩ => hm ⟨d, h1, h2, h3.imp (·.trans hs) (·.trans hs)⟩) B

theorem prepare_zero {o : Orders} (ho : SomeOrder o) {a d b : Text} (ha : Closed a) (h1 : '♠' ∉ a) (h2 : '♠' ∉ b) (hd : d ≠ []) (hd' : ∀ c ∈ d, c.isDigit = true) :
    prepare o (a ++ (c!"[-" ++ d ++ c!":]" ++ b)) = prepare o (a ++ (c!"[-" ++ d ++ c!":0]" ++ b)) := by
  have hn : ∀ {c : Char}, c.isDigit = false → c ∉ d := by
    intro c hc hm
    rw [hd' c hm] at hc
    cases hc
  have hb : ∀ c ∈ '-' :: d, boundChar c = true := by
    intro c hc
    rcases List.mem_cons.mp hc with rfl | hc
    · rfl
    · simp [boundChar, hd' c hc]
  have hp : ∀ z : Text, Plain z → Plain (c!"[-" ++ d ++ z) := by
    intro z hz c hc hq
    simp only [List.mem_append] at hc
    rcases hc with (hc | hc) | hc
    · rcases hq with rfl | rfl <;> exact absurd hc (by decide)
    · rcases hq with rfl | rfl <;> exact hn (by decide) hc
    · exact hz c hc hq
  have hs : ∀ z : Text, '♠' ∉ z → '♠' ∉ c!"[-" ++ d ++ z := by
    intro z hz hm
    simp only [List.mem_append] at hm
    rcases hm with (hc | hc) | hc
    · exact absurd hc (by decide)
    · exact hn (by decide) hc
    · exact hz hc
  refine prepare_swap ho ha h1 h2 (hp _ (by decide)) (hs _ (by decide)) (hp _ (by decide)) (hs _ (by decide)) fun a' b' _ _ => ?_
  have key := rewrite_swap ho (a := a' ++ '[' :: '-' :: d) (b := b') (p := ':') (q := ']') rfl rfl (v := []) (w := c!"0") (by decide) (by decide) fun B =>
    complete_zero (b := B) ?_
  · simpa using key
  · have e : passes o (a' ++ '[' :: '-' :: d) = passes o a' ++ '[' :: '-' :: d := by
      rw [passes_bracket ho rfl, passesAfter, each_bound (fun k hk => in_words ho hk) hb, dots_bound hb, each_bound (fun k hk => in_signs ho hk) hb,
        each_bound (fun k hk => in_operators ho hk) hb]
    have e' : openedBy none (passes o a' ++ '[' :: '-' :: d) = some ('-' :: d) := by
      rw [openedBy_append]
      show openedBy (some []) ('-' :: d) = _
      rw [openedBy_inside]
      · rfl
      · intro hm
        rcases List.mem_cons.mp hm with h | h
        · exact absurd h (by decide)
        · exact hn (by decide) h
    rw [e, e', Option.any_some]
    simp only [isNegative, Bool.and_eq_true, List.all_eq_true]
    exact ⟨by simpa using hd, hd'⟩

end Verif.Lemmas
