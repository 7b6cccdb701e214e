import Verif.Lemmas.RazorSettled
import Verif.Lemmas.GoScan
import Verif.Lemmas.RazorGap
/-!
# The symbols that are not rewritten
-/

namespace Verif.Lemmas
open Verif Text Razor Prepare Spec

theorem literal_last {l : Text} (h : Literal l) : ∃ t q, (q = '"' ∨ q = '`') ∧ l = t ++ [q] := by
  cases h with
  | double body _ _ => exact ⟨'"' :: body, '"', .inl rfl, rfl⟩
  | backtick body _ => exact ⟨'`' :: body, '`', .inr rfl, rfl⟩

/-- The last character, when it is not a quote, is after the last literal. -/
theorem cut_last {a : Text} {pieces : List (Text × Text)} {tail : Text} (h : Cut a pieces tail) {c : Char} (hc : [c] <:+ a) (hq : c ≠ '"' ∧ c ≠ '`') : [c] <:+ tail := by
  induction h with
  | tail _ => exact hc
  | @literal pre lit rest ps t _ hl _ ih =>
    refine ih ?_
    by_cases he : rest = []
    · subst he
      obtain ⟨u, q, hq', rfl⟩ := literal_last hl
      rw [List.append_nil, ← List.append_assoc] at hc
      have : c = q := by
        obtain ⟨v, hv⟩ := hc
        exact (List.append_inj' hv rfl).2 |> List.cons.inj |>.1
      rcases hq' with rfl | rfl
      · exact absurd this hq.1
      · exact absurd this hq.2
    · obtain ⟨v, hv⟩ := hc
      obtain ⟨u, d, rfl⟩ : ∃ u d, rest = u ++ [d] := by
        rcases List.eq_nil_or_concat rest with h | ⟨t, d, h⟩
        · exact absurd h he
        · exact ⟨t, d, by rw [h, List.concat_eq_append]⟩
      rw [← List.append_assoc] at hv
      have := (List.cons.inj (List.append_inj' hv rfl).2).1
      subst this
      exact List.suffix_append _ _

/-- Both sides of a text that the replacements leave where it is. -/
theorem prepare_split {o : Orders} (ho : SomeOrder o) {a x b g : Text} (ha : Closed a) (hb : Closed b) (h1 : '♠' ∉ a) (h2 : '♠' ∉ b) (hx : Plain x) (hx' : '♠' ∉ x)
    (h : ∀ a' b', a' <:+ a → Plain a' → b' <+: b → Plain b' → (∀ c, [c] <:+ a → c ≠ '"' ∧ c ≠ '`' → [c] <:+ a') → rewrite o (a' ++ (x ++ b')) = rewrite o a' ++ (g ++ rewrite o b')) :
    ∃ A B, prepare o a = some A ∧ prepare o b = some B ∧ prepare o (a ++ (x ++ b)) = some (A ++ (g ++ B)) := by
  obtain ⟨pieces, tail, hc, hp⟩ := ha
  obtain ⟨qs, t, hcb, ht⟩ := hb
  have hs : '♠' ∉ a ++ (x ++ b) := by simp [h1, h2, hx']
  refine ⟨_, _, prepare_cut ho h1 hc, prepare_cut ho h2 hcb, ?_⟩
  cases hcb with
  | tail hn =>
    have hcut : Cut (tail ++ (x ++ b)) [] (tail ++ (x ++ b)) := .tail (noLiteral_plain hp (noLiteral_plain hx hn))
    rw [prepare_cut ho hs (cut_more hc hcut), h _ _ (cut_suffix hc) hp (List.prefix_refl _) ht fun c => cut_last hc]
    simp
  | @literal pre lit rest ps t hpre hl hrest =>
    have hcut : Cut (tail ++ (x ++ (pre ++ lit ++ rest))) ((tail ++ (x ++ pre), lit) :: ps) t := by
      have := Cut.literal (plain_append hp (plain_append hx hpre)) hl hrest
      simpa using this
    rw [prepare_cut ho hs (cut_more hc hcut)]
    have := h tail pre (cut_suffix hc) hp ⟨lit ++ rest, by simp⟩ hpre fun c => cut_last hc
    simp [this]

theorem symbol_facts : ∀ g ∈ exprSymbols, g ≠ [] ∧ (∀ c ∈ g, c ≠ '"' ∧ c ≠ '`' ∧ c ≠ '♠') ∧ (g = c!")" ∨ g = c!"]" ∨ ∀ c ∈ g, loose c = true) ∧ (∀ k ∈ reserved, ∀ c ∈ g, c ∉ k.1) ∧ (∀ k ∈ wordOperators, ∀ c ∈ g, c ∉ k.1) ∧
    ∀ k ∈ Prepare.signs, replaceAll k.1 k.2 g = g ∧ (k.1 = c!"<>" ∨ ∀ c ∈ g, c ∉ k.1) := by decide +kernel

theorem dots_closed {s : Text} (h : s.head? ≠ some '.') : dots .closed s = dots .free s := by
  cases s with
  | nil => rfl
  | cons c s =>
    have : c ≠ '.' := fun e => h (by rw [e]; rfl)
    simp [dots, this]

theorem dots_close {d : Char} (hd : d = ')' ∨ d = ']') (b : Text) : ∀ (a : Text) (p : Place), dots p (a ++ d :: b) = dots p a ++ d :: dots .closed b := by
  intro a
  induction a with
  | nil =>
    intro p
    rcases hd with rfl | rfl <;> cases p <;> rfl
  | cons c a ih =>
    intro p
    cases p <;> simp only [List.cons_append, dots] <;> (try split) <;> simp [ih]

theorem dot_words {o : Orders} (ho : SomeOrder o) {b : Text} (h : b.head? ≠ some '.') : (replaceEach o.words b).head? ≠ some '.' := by
  refine each_inv (P := fun s => s.head? ≠ some '.') (fun k hk A hA hs => ?_) h
  obtain ⟨h1, h2, _, h3⟩ := mark_sides k (ho.words.subset hk)
  rcases head_replaceAll h1 h2 (singleton_prefix_iff.mpr hs) with h' | ⟨_, h'⟩
  · exact hA (singleton_prefix_iff.mp h')
  · rw [singleton_prefix_iff, h3] at h'
    cases h'

theorem passes_over {o : Orders} (ho : SomeOrder o) {g : Text} (hg : g ∈ exprSymbols) {a b : Text} (ha : NoSignEnd a) (hb : NoSignStart b)
    (hd : g = c!")" ∨ g = c!"]" → b.head? ≠ some '.') : passes o (a ++ (g ++ b)) = passes o a ++ (g ++ passes o b) := by
  have e : ∀ s, passes o s = replaceEach o.operators (replaceEach o.signs (dots .free (replaceEach o.words s))) := fun _ => rfl
  obtain ⟨h1, h2, h4, h5, h6, h7⟩ := symbol_facts g hg
  have e1 : replaceEach o.words (a ++ (g ++ b)) = replaceEach o.words a ++ (g ++ replaceEach o.words b) :=
    each_around (fun k hk => (mark_sides k (ho.words.subset hk)).1) h1 (fun k hk => h5 k (ho.words.subset hk)) a b
  have ed : dots .free (replaceEach o.words a ++ (g ++ replaceEach o.words b)) = dots .free (replaceEach o.words a) ++ (g ++ dots .free (replaceEach o.words b)) := by
    rcases h4 with rfl | rfl | h4
    · show dots .free (_ ++ ')' :: replaceEach o.words b) = _
      rw [dots_close (.inl rfl), dots_closed (dot_words ho (hd (.inl rfl)))]
      rfl
    · show dots .free (_ ++ ']' :: replaceEach o.words b) = _
      rw [dots_close (.inr rfl), dots_closed (dot_words ho (hd (.inr rfl)))]
      rfl
    · exact dots_over h4 h1 _ _ _
  have e2 := each_between (order := o.signs) (P := NoSignEnd) (Q := NoSignStart) (S := fun X => X = g)
    (fun k hk A X B hA hX hB => by
      subst hX
      have hk' := ho.signs.subset hk
      obtain ⟨f1, _⟩ := filled k (by simp [hk'])
      rcases (h7 k hk').2 with h | h
      · rw [h, replaceAll_apart (by simp), replaceAll_apart (by simp)]
        · intro k1 k2 e h1 h2 _ hpre
          obtain ⟨rfl, rfl⟩ := pair_split e h1 h2
          exact hB '>' (by decide) hpre
        · intro k1 k2 e h1 h2 hs
          obtain ⟨rfl, rfl⟩ := pair_split e h1 h2
          exact absurd hs (hA '<' (by decide))
      · rw [replaceAll_around f1 h1 h, (h7 k hk').1])
    (fun k hk A hA => signEnd_replace (ho.signs.subset hk) hA) (fun k hk A hA => signStart_replace (ho.signs.subset hk) hA)
    (fun k hk X hX => by subst hX; exact (h7 k (ho.signs.subset hk)).1)
    (signEnd_words ho ha) rfl (signStart_words ho hb)
  have e3 : replaceEach o.signs g = g := each_fixed fun k hk => (h7 k (ho.signs.subset hk)).1
  have hne : ∀ k ∈ wordOperators, k.1 ≠ [] := by decide +kernel
  have e4 := each_around (order := o.operators) (fun k hk => hne k (ho.operators.subset hk)) h1 (fun k hk => h6 k (ho.operators.subset hk))
    (replaceEach o.signs (dots .free (replaceEach o.words a))) (replaceEach o.signs (dots .free (replaceEach o.words b)))
  rw [e, e1, ed, e2, e3, e4]
  rfl

theorem symbol_plain {g : Text} (hg : g ∈ exprSymbols) : Plain g ∧ '♠' ∉ g := by
  obtain ⟨_, h, _⟩ := symbol_facts g hg
  refine ⟨fun c hc hq => ?_, fun hm => (h _ hm).2.2 rfl⟩
  rcases hq with rfl | rfl
  · exact (h _ hc).2.1 rfl
  · exact (h _ hc).1 rfl

/-- A symbol of Go between two texts. -/
theorem prepare_symbol {o : Orders} (ho : SomeOrder o) {g a b : Text} (hg : g ∈ exprSymbols) (ha : Closed a) (hb : Closed b) (h1 : '♠' ∉ a) (h2 : '♠' ∉ b)
    (h3 : NoSignEnd a) (h4 : NoSignStart b) (h5 : ∀ a' b', a' <:+ a → Plain a' → b' <+: b → Plain b' → Gapless (a' ++ (g ++ b')))
    (h6 : g = c!")" ∨ g = c!"]" → b.head? ≠ some '.') :
    ∃ A B, prepare o a = some A ∧ prepare o b = some B ∧ prepare o (a ++ (g ++ b)) = some (A ++ (g ++ B)) := by
  refine prepare_split ho ha hb h1 h2 (symbol_plain hg).1 (symbol_plain hg).2 fun a' b' ha' hp hb' hp' _ => ?_
  refine rewrite_parts ho (passes_over ho hg (fun c hc hs => h3 c hc (hs.trans ha')) (fun c hc hs => h4 c hc (hs.trans hb')) (fun e hd => h6 e ?_)) (h5 a' b' ha' hp hb' hp')
  exact singleton_prefix_iff.mp ((singleton_prefix_iff.mpr hd).trans hb')

/-! ## Selectors -/

/-- The characters that can stand before the dot of a selector. -/
def BeforeDot (c : Char) : Prop := wordChar c = true ∨ c = ')' ∨ c = ']'

theorem dots_select {b : Text} (hb : '.' ∉ b) {c : Char} (hc : BeforeDot c) : ∀ (a : Text) (p : Place), [c] <:+ a → dots p (a ++ '.' :: b) = dots p a ++ '.' :: b := by
  have hdot : c ≠ '.' := by
    rintro rfl
    rcases hc with h | h | h <;> revert h <;> decide
  have hplace : placeAfter c = .closed := by
    rcases hc with h | rfl | rfl
    · simp [placeAfter, h]
    · rfl
    · rfl
  intro a
  induction a with
  | nil =>
    intro p h
    exact absurd h.length_le (by simp)
  | cons d a ih =>
    intro p h
    by_cases ha : a = []
    · subst ha
      have : c = d := by
        obtain ⟨v, hv⟩ := h
        cases v with
        | nil => exact (List.cons.inj hv).1
        | cons x v => simp at hv
      subst this
      cases p with
      | free => simp [dots, hdot, hplace, dots_free hb]
      | closed => simp [dots, hplace, dots_free hb]
      | dot =>
        by_cases hw : wordChar c = true
        · simp [dots, hw, dots_free hb]
        · simp [dots, hw, hplace, dots_free hb]
      | value =>
        by_cases hw : wordChar c = true
        · simp [dots, hw, dots_free hb]
        · simp [dots, hw, hdot, hplace, dots_free hb]
    · have h' : [c] <:+ a := by
        rcases List.suffix_cons_iff.mp h with h | h
        · cases h
          exact absurd rfl ha
        · exact h
      cases p <;> simp only [List.cons_append, dots] <;> (try split) <;> simp [ih _ h']

theorem no_dollar {order : List (Text × Text)} (h : ∀ k ∈ order, k ∈ reserved) : ∀ a : Text, '$' ∉ a ∨ (∃ k ∈ order, k.1 = c!"$") → '$' ∉ replaceEach order a := by
  have hv : ∀ k ∈ reserved, '$' ∉ k.2 := by decide +kernel
  induction order with
  | nil =>
    intro a ha
    rcases ha with ha | ⟨k, hk, _⟩
    · exact ha
    · cases hk
  | cons k ks ih =>
    intro a ha
    show '$' ∉ replaceEach ks (replaceAll k.1 k.2 a)
    refine ih (fun k hk => h k (List.mem_cons_of_mem _ hk)) _ ?_
    rcases ha with ha | ⟨k', hk', e⟩
    · left
      intro hm
      rcases mem_replaceAll hm with hm | hm
      · exact hv k (h k (by simp)) hm
      · exact ha hm
    · rcases List.mem_cons.mp hk' with rfl | hk'
      · left
        rw [e]
        intro hm
        have : ∀ (s : Text), '$' ∉ replaceAll c!"$" k'.2 s := by
          intro s
          refine replace_induction (k := c!"$") (by decide) (P := fun s => '$' ∉ replaceAll c!"$" k'.2 s) ?_ ?_ ?_ s
          · rw [replaceAll_nil]; simp
          · intro s ih
            rw [replaceAll_match _ _ (by decide)]
            simp [ih, hv k' (h k' (by simp))]
          · intro c s hp ih
            rw [replaceAll_skip hp]
            simp only [List.mem_cons, not_or]
            refine ⟨?_, ih⟩
            rintro rfl
            have : hasPrefix c!"$" ('$' :: s) = true := hasPrefix_iff.mpr ⟨s, rfl⟩
            rw [this] at hp
            cases hp
        exact this a hm
      · exact .inr ⟨k', hk', e⟩

theorem words_last {o : Orders} (ho : SomeOrder o) {c : Char} (hc : BeforeDot c ∨ c = '$') {a : Text} (h : [c] <:+ a) : ∃ d, BeforeDot d ∧ [d] <:+ replaceEach o.words a := by
  have key : ∃ d, (BeforeDot d ∨ d = '$') ∧ [d] <:+ replaceEach o.words a := by
    refine each_inv (P := fun s => ∃ d, (BeforeDot d ∨ d = '$') ∧ [d] <:+ s) (fun k hk A hA => ?_) ⟨c, hc, h⟩
    obtain ⟨d, hd, hs⟩ := hA
    obtain ⟨h1, h2, h3, _⟩ := mark_sides k (ho.words.subset hk)
    have hne : replaceAll k.1 k.2 A ≠ [] := by
      intro e
      obtain ⟨x, A', rfl⟩ := List.exists_cons_of_ne_nil (l := A) (by rintro rfl; exact absurd hs.length_le (by simp))
      cases hp : hasPrefix k.1 (x :: A') with
      | false => rw [replaceAll_skip hp] at e; cases e
      | true =>
        obtain ⟨r, hr⟩ := hasPrefix_iff.mp hp
        rw [← hr, replaceAll_match _ _ h1] at e
        exact h2 (List.append_eq_nil_iff.mp e).1
    obtain ⟨u, x, hx⟩ : ∃ u x, replaceAll k.1 k.2 A = u ++ [x] := by
      rcases List.eq_nil_or_concat (replaceAll k.1 k.2 A) with h | ⟨t, d, h⟩
      · exact absurd h hne
      · exact ⟨t, d, by rw [h, List.concat_eq_append]⟩
    have hsx : [x] <:+ replaceAll k.1 k.2 A := ⟨u, hx.symm⟩
    refine ⟨x, ?_, hsx⟩
    rcases last_replaceAll h1 h2 A hsx with h' | ⟨_, h'⟩
    · rw [singleton_suffix_iff] at h' hs
      rw [hs] at h'
      cases h'
      exact hd
    · rw [singleton_suffix_iff, h3] at h'
      cases h'
      exact .inl (.inl (by decide))
  obtain ⟨d, hd, hs⟩ := key
  rcases hd with hd | rfl
  · exact ⟨d, hd, hs⟩
  · refine absurd (hs.subset (by simp)) (no_dollar (fun k hk => ho.words.subset hk) a (.inr ?_))
    obtain ⟨k, hk, e⟩ : ∃ k ∈ reserved, k.1 = c!"$" := ⟨(c!"$", replMark 0), by decide, rfl⟩
    exact ⟨k, ho.words.symm.subset hk, e⟩

theorem rewrite_dot {o : Orders} (ho : SomeOrder o) {a b : Text} {c : Char} (hc : BeforeDot c ∨ c = '$') (ha : [c] <:+ a) (hb : '.' ∉ b) :
    rewrite o (a ++ (c!"." ++ b)) = rewrite o a ++ (c!"." ++ rewrite o b) := by
  have e : ∀ s, rewrite o s = indexExpression (replaceEach o.operators (replaceEach o.signs (dots .free (replaceEach o.words s)))) := fun _ => rfl
  have hdot : ∀ d, BeforeDot d ∨ d = '$' → d ≠ '.' := by
    rintro d hd rfl
    rcases hd with (h | h | h) | h <;> revert h <;> decide
  have one : ∀ k ∈ reserved, k.1 = c!"..." ∨ '.' ∉ k.1 := by decide +kernel
  have vals : ∀ k ∈ reserved, '.' ∉ k.2 := by decide +kernel
  have e1 := each_between (order := o.words) (P := fun s => ¬ [('.' : Char)] <:+ s) (Q := fun s => '.' ∉ s) (S := fun X => X = c!".")
    (fun k hk A X B hA hX hB => by
      subst hX
      have hk' := ho.words.subset hk
      obtain ⟨h1, h2, h3, _⟩ := mark_sides k hk'
      rcases one k hk' with h | h
      · rw [h]
        have split3 : ∀ k1 k2 : Text, c!"..." = k1 ++ k2 → k1 ≠ [] → k2 ≠ [] → [('.' : Char)] <:+ k1 ∧ [('.' : Char)] <+: k2 := by
          intro k1 k2 e n1 n2
          have all : ∀ c ∈ k1 ++ k2, c = '.' := by rw [← e]; decide
          constructor
          · obtain ⟨u, x, rfl⟩ : ∃ u x, k1 = u ++ [x] := by
              rcases List.eq_nil_or_concat k1 with h | ⟨t, d, h⟩
              · exact absurd h n1
              · exact ⟨t, d, by rw [h, List.concat_eq_append]⟩
            rw [all x (by simp)]
            exact List.suffix_append _ _
          · obtain ⟨x, u, rfl⟩ := List.exists_cons_of_ne_nil n2
            rw [all x (by simp)]
            exact ⟨u, rfl⟩
        rw [replaceAll_apart (by decide), replaceAll_apart (by decide)]
        · intro k1 k2 e n1 n2 _ hp
          exact hB (hp.subset ((split3 k1 k2 e n1 n2).2.subset (by simp)))
        · intro k1 k2 e n1 n2 hs
          exact absurd ((split3 k1 k2 e n1 n2).1.trans hs) hA
      · rw [replaceAll_around h1 (by decide) (by simpa using h), replaceAll_free (s := c!".")]
        intro hi
        have := hi.length_le
        obtain ⟨y, t, hy⟩ := List.exists_cons_of_ne_nil h1
        have : y ∈ c!"." := hi.subset (by rw [hy]; simp)
        rw [List.mem_singleton.mp this] at hy
        exact h (by rw [hy]; simp))
    (fun k hk A hA hs => by
      obtain ⟨h1, h2, h3, _⟩ := mark_sides k (ho.words.subset hk)
      rcases last_replaceAll h1 h2 A hs with h' | ⟨_, h'⟩
      · exact hA h'
      · rw [singleton_suffix_iff, h3] at h'
        cases h')
    (fun k hk A hA hm => by
      rcases mem_replaceAll hm with hm | hm
      · exact vals k (ho.words.subset hk) hm
      · exact hA hm)
    (fun k hk X hX => by
      subst hX
      refine replaceAll_free fun hi => ?_
      have hl := hi.length_le
      have : ∀ k ∈ reserved, k.1.length ≤ 1 → '.' ∉ k.1 ∧ k.1 ≠ [] := by decide +kernel
      obtain ⟨t1, t2⟩ := this k (ho.words.subset hk) hl
      obtain ⟨y, t, hy⟩ := List.exists_cons_of_ne_nil t2
      have : y ∈ c!"." := hi.subset (by rw [hy]; simp)
      rw [List.mem_singleton.mp this] at hy
      exact t1 (by rw [hy]; simp))
    (A := a) (X := c!".") (B := b)
    (fun hs => by
      rw [singleton_suffix_iff] at hs ha
      rw [ha] at hs
      cases hs
      exact hdot _ hc rfl)
    rfl hb
  have ex : replaceEach o.words c!"." = c!"." := each_fixed fun k hk => by
    refine replaceAll_free fun hi => ?_
    have hl := hi.length_le
    have : ∀ k ∈ reserved, k.1.length ≤ 1 → '.' ∉ k.1 ∧ k.1 ≠ [] := by decide +kernel
    obtain ⟨t1, t2⟩ := this k (ho.words.subset hk) hl
    obtain ⟨y, t, hy⟩ := List.exists_cons_of_ne_nil t2
    have : y ∈ c!"." := hi.subset (by rw [hy]; simp)
    rw [List.mem_singleton.mp this] at hy
    exact t1 (by rw [hy]; simp)
  have hb' : '.' ∉ replaceEach o.words b := each_inv (P := fun s => '.' ∉ s) (fun k hk A hA hm => by
    rcases mem_replaceAll hm with hm | hm
    · exact vals k (ho.words.subset hk) hm
    · exact hA hm) hb
  obtain ⟨d, hd, hs⟩ := words_last ho hc ha
  have e2 : dots .free (replaceEach o.words a ++ (c!"." ++ replaceEach o.words b)) = dots .free (replaceEach o.words a) ++ (c!"." ++ dots .free (replaceEach o.words b)) := by
    rw [dots_free hb']
    exact dots_select hb' hd _ _ hs
  have s1 : ∀ k ∈ Prepare.signs, k.1 ≠ [] ∧ ∀ c ∈ c!".", c ∉ k.1 := by decide +kernel
  have s2 : ∀ k ∈ wordOperators, k.1 ≠ [] ∧ ∀ c ∈ c!".", c ∉ k.1 := by decide +kernel
  rw [e, e1, ex, e2, each_around (fun k hk => (s1 k (ho.signs.subset hk)).1) (by decide) (fun k hk => (s1 k (ho.signs.subset hk)).2),
    each_around (fun k hk => (s2 k (ho.operators.subset hk)).1) (by decide) (fun k hk => (s2 k (ho.operators.subset hk)).2), index_around (by decide) (by decide)]
  · rfl
  · exact .inl ⟨'.', by decide, by decide, by decide⟩

/-- A selector. -/
theorem prepare_dot {o : Orders} (ho : SomeOrder o) {a b : Text} {c : Char} (hc : BeforeDot c ∨ c = '$') (hs : [c] <:+ a) (ha : Closed a) (hb : Closed b) (h1 : '♠' ∉ a) (h2 : '♠' ∉ b)
    (h3 : '.' ∉ b) : ∃ A B, prepare o a = some A ∧ prepare o b = some B ∧ prepare o (a ++ (c!"." ++ b)) = some (A ++ (c!"." ++ B)) := by
  refine prepare_split ho ha hb h1 h2 (fun c hc hq => ?_) (by decide) fun a' b' _ _ hb' _ hl => ?_
  · rw [List.mem_singleton.mp hc] at hq
    rcases hq with h | h <;> revert h <;> decide
  · refine rewrite_dot ho hc (hl c hs ?_) fun hm => h3 (hb'.subset hm)
    constructor <;> rintro rfl <;> rcases hc with (h | h | h) | h <;> revert h <;> decide

end Verif.Lemmas
