import Verif.Lemmas.RazorBetween
/-!
# The order of the replacements
-/

namespace Verif.Lemmas
open Verif Text Razor Prepare Spec

/-! ## Spaces and literals -/

theorem space_step {q : Text × Text} (hq : q ∈ wordTable) {A B : Text} (hA : NoWordEnd A) (hB : NoWordStart B) :
    replaceAll (spaced q.1) q.2 (A ++ ([' '] ++ B)) = replaceAll (spaced q.1) q.2 A ++ ([' '] ++ replaceAll (spaced q.1) q.2 B) := by
  have hne : spaced q.1 ≠ [] := by simp [spaced]
  have hw := (word_facts q hq).1
  have h1 : ∀ q ∈ wordTable, replaceAll (spaced q.1) q.2 [' '] = [' '] := by decide +kernel
  rw [replaceAll_apart hne, replaceAll_apart hne, h1 q hq]
  · intro k1 k2 hk h1 h2 hs hpre
    have hk1 : k1 = [' '] := by
      have := hs.length_le
      cases k1 with
      | nil => exact absurd rfl h1
      | cons d k1 =>
        cases k1 with
        | nil => obtain ⟨t, ht⟩ := hs; cases t with
          | nil => simpa using ht
          | cons e t => simp at ht
        | cons e k1 => simp at this
    subst hk1
    simp only [spaced, List.cons_append, List.nil_append, List.cons.injEq, true_and] at hk
    exact hB q hq (hk ▸ hpre)
  · intro k1 k2 hk h1 h2 hs hpre
    obtain ⟨d, z, rfl⟩ := List.exists_cons_of_ne_nil h2
    simp only [List.singleton_append, List.cons_prefix_cons] at hpre
    obtain ⟨rfl, _⟩ := hpre
    obtain ⟨e, y, rfl⟩ := List.exists_cons_of_ne_nil h1
    simp only [spaced, List.cons_append, List.cons.injEq] at hk
    obtain ⟨rfl, hk⟩ := hk
    obtain ⟨rfl, _⟩ := space_split hw hk
    exact hA q hq hs

theorem rewrite_space {o : Orders} (ho : SomeOrder o) {a b : Text} (ha : NoWordEnd a) (hb : NoWordStart b) :
    rewrite o (a ++ ' ' :: b) = rewrite o a ++ ' ' :: rewrite o b := by
  have e : ∀ s, rewrite o s = indexExpression (replaceEach o.operators (early o s)) := fun _ => rfl
  have hop : ∀ k ∈ o.operators, ∃ q ∈ wordTable, k = (spaced q.1, q.2) := fun k hk => word_entries k (ho.operators.subset hk)
  have h1 : ∀ q ∈ wordTable, replaceAll (spaced q.1) q.2 [' '] = [' '] := by decide +kernel
  have e2 := each_between (order := o.operators) (P := NoWordEnd) (Q := NoWordStart) (S := fun X => X = [' '])
    (fun k hk A X B hA hX hB => by
      obtain ⟨q, hq, rfl⟩ := hop k hk
      rw [hX, space_step hq hA hB, h1 q hq])
    (fun k hk A hA => wordEnd_replace (in_operators ho hk) hA) (fun k hk A hA => wordStart_replace (in_operators ho hk) hA)
    (fun k hk X hX => by
      obtain ⟨q, hq, rfl⟩ := hop k hk
      rw [hX, h1 q hq])
    (wordEnd_early ho ha) rfl (wordStart_early ho hb)
  have e3 : replaceEach o.operators [' '] = [' '] := each_fixed fun k hk => by
    obtain ⟨q, hq, rfl⟩ := hop k hk
    exact h1 q hq
  rw [e3] at e2
  have e1 := early_around ho rfl a b
  rw [e, e1]
  have : early o a ++ ' ' :: early o b = early o a ++ ([' '] ++ early o b) := rfl
  rw [this, e2, index_around (by decide) (by simp) (.inl ⟨' ', by decide⟩)]
  rfl

theorem prepare_space {o : Orders} (ho : SomeOrder o) {a b : Text} (ha : Closed a) (h1 : '♠' ∉ a) (h2 : '♠' ∉ b) (h3 : NoWordEnd a) (h4 : NoWordStart b) :
    ∃ A B, prepare o a = some A ∧ prepare o b = some B ∧ prepare o (a ++ ' ' :: b) = some (A ++ ' ' :: B) := by
  obtain ⟨pieces, tail, hc, hp⟩ := ha
  have hs : '♠' ∉ a ++ ' ' :: b := by simp [h1, h2]
  have hx : Plain [' '] := by
    intro c hc
    rw [List.mem_singleton.mp hc]
    unfold Quote
    decide
  have h3' : NoWordEnd tail := fun p hp hs => h3 p hp (hs.trans (cut_suffix hc))
  obtain ⟨qs, t, hcb, _⟩ := Protect.protectLoop_cut b.length 0 b (Nat.le_refl _)
  refine ⟨_, _, prepare_cut ho h1 hc, prepare_cut ho h2 hcb, ?_⟩
  cases hcb with
  | tail hn =>
    have hcut : Cut (tail ++ ' ' :: b) [] (tail ++ ' ' :: b) := .tail (noLiteral_plain hp (noLiteral_plain (p := [' ']) hx hn))
    rw [prepare_cut ho hs (cut_more hc hcut), rewrite_space ho h3' h4]
    simp
  | @literal pre lit rest ps t hpre hl hrest =>
    have hcut : Cut (tail ++ ' ' :: (pre ++ lit ++ rest)) ((tail ++ ' ' :: pre, lit) :: ps) t := by
      have := Cut.literal (plain_append hp (plain_append (a := [' ']) hx hpre)) hl hrest
      simpa using this
    rw [prepare_cut ho hs (cut_more hc hcut)]
    have := rewrite_space ho h3' (b := pre) (fun p hp hs => h4 p hp (hs.trans ⟨lit ++ rest, by simp⟩))
    simp [this]

theorem prepare_literal {o : Orders} (ho : SomeOrder o) {a l b : Text} (ha : Closed a) (hl : Literal l) (h1 : '♠' ∉ a ++ (l ++ b)) :
    ∃ A B, prepare o a = some A ∧ prepare o b = some B ∧ prepare o (a ++ (l ++ b)) = some (A ++ (replaceAll ['@'] atSign l ++ B)) := by
  obtain ⟨pieces, tail, hc, hp⟩ := ha
  have ha : '♠' ∉ a := fun h => h1 (List.mem_append_left _ h)
  have hb : '♠' ∉ b := fun h => h1 (List.mem_append_right _ (List.mem_append_right _ h))
  obtain ⟨qs, t, hcb, _⟩ := Protect.protectLoop_cut b.length 0 b (Nat.le_refl _)
  refine ⟨_, _, prepare_cut ho ha hc, prepare_cut ho hb hcb, ?_⟩
  have hcut : Cut (tail ++ (l ++ b)) ((tail, l) :: qs) t := by
    have := Cut.literal hp hl hcb
    simpa using this
  rw [prepare_cut ho h1 (cut_more hc hcut)]
  simp

theorem cut_closed {a s : Text} {pieces : List (Text × Text)} {tail : Text} (h : Cut a pieces tail) (h' : Closed (tail ++ s)) : Closed (a ++ s) := by
  obtain ⟨qs, t, hq, ht⟩ := h'
  exact ⟨_, t, cut_more h hq, ht⟩

theorem plain_closed {s : Text} (h : Plain s) : Closed s := by
  refine ⟨[], s, .tail ?_, h⟩
  have := noLiteral_plain h (t := []) (by intro pre q rest lit after he; simp at he)
  simpa using this

theorem closed_plain {p b : Text} (hp : Plain p) (hb : Closed b) : Closed (p ++ b) := by
  obtain ⟨pieces, tail, hc, ht⟩ := hb
  cases hc with
  | tail _ => exact plain_closed (plain_append hp ht)
  | @literal pre lit rest ps t hpre hl hrest =>
    refine ⟨(p ++ pre, lit) :: ps, tail, ?_, ht⟩
    have := Cut.literal (plain_append hp hpre) hl hrest
    simpa using this

theorem closed_append {a b : Text} (ha : Closed a) (hb : Closed b) : Closed (a ++ b) := by
  obtain ⟨pieces, tail, hc, ht⟩ := ha
  exact cut_closed hc (closed_plain ht hb)

theorem closed_literal {l : Text} (h : Literal l) : Closed l := by
  refine ⟨[([], l)], [], ?_, fun c hc => nomatch hc⟩
  have := Cut.literal (pre := []) (rest := []) (fun c hc => nomatch hc) h (.tail (by intro pre q rest lit after he; simp at he))
  simpa using this

theorem settled_closed {s : Text} (h : Settled s) : Closed s ∧ '♠' ∉ s := by
  induction h with
  | simple s h _ _ =>
    refine ⟨plain_closed fun c hc hq => ?_, fun hm => h _ hm (by decide)⟩
    rcases hq with rfl | rfl <;> exact h _ hc (by decide)
  | operator a x b g _ _ hb iha ihb =>
    obtain ⟨h1, h2⟩ := between_plain hb
    exact ⟨closed_append iha.1 (closed_append (plain_closed h1) ihb.1), by simp [iha.2, ihb.2, h2]⟩
  | space a b _ _ _ _ iha ihb =>
    have : Plain [' '] := by
      intro c hc
      rw [List.mem_singleton.mp hc]
      unfold Quote
      decide
    exact ⟨closed_append iha.1 (closed_append (plain_closed this) ihb.1), by simp [iha.2, ihb.2]⟩
  | literal a l b _ _ hl hm iha ihb => exact ⟨closed_append iha.1 (closed_append (closed_literal hl) ihb.1), by simp [iha.2, ihb.2, hm]⟩

/-! ## One result for the reserved words -/

/-- Two words share a character when one begins in the other. -/
theorem key_overlap : ∀ i ∈ List.range 8, ∀ j ∈ List.range 8, ∀ n ∈ List.range (keyOf i).length, n ≠ 0 →
    (keyOf j).isPrefixOf ((keyOf i).drop n) = false ∧
      (((keyOf i).drop n).isPrefixOf (keyOf j) = true → ∃ w ∈ sharedWords, w.isPrefixOf ((keyOf i).take n ++ keyOf j) = true) := by decide +kernel

theorem key_single : ∀ i ∈ List.range 8, ∀ j ∈ List.range 8, (keyOf i).isPrefixOf (keyOf j) = true → i = j := by decide +kernel

/-- No word is left to replace. -/
def Done (L : Marked) : Prop := ∀ i, i < 8 → ¬ keyOf i <:+: flat L

theorem done_tail {x : Char ⊕ Nat} {L : Marked} (h : Done (x :: L)) : Done L := by
  intro i hi hn
  refine h i hi (hn.trans ?_)
  have : flat (x :: L) = flat [x] ++ flat L := flat_append [x] L
  rw [this]
  exact (List.suffix_append _ _).isInfix

/-- Where a mark begins in a text. -/
theorem first_mark : ∀ {L : Marked} {k : Text}, k <+: source L → (∃ M, L = k.map .inl ++ M) ∨
    ∃ (u : Text) (j : Nat) (M : Marked), L = u.map .inl ++ .inr j :: M ∧ u.length < k.length := by
  intro L
  induction L with
  | nil =>
    intro k h
    have : k = [] := by simpa [source] using h
    subst this
    exact .inl ⟨[], rfl⟩
  | cons x L ih =>
    intro k h
    cases k with
    | nil => exact .inl ⟨x :: L, rfl⟩
    | cons d k =>
      cases x with
      | inl c =>
        rw [source_char, List.cons_prefix_cons] at h
        obtain ⟨rfl, h⟩ := h
        rcases ih h with ⟨M, rfl⟩ | ⟨u, j, M, rfl, hu⟩
        · exact .inl ⟨M, rfl⟩
        · exact .inr ⟨d :: u, j, M, rfl, by simpa using hu⟩
      | inr j => exact .inr ⟨[], j, L, rfl, by simp⟩

/-- Where a word is, there is its mark. -/
theorem mark_here {L : Marked} (hL : ∀ i, .inr i ∈ L → i < 8) (hd : Done L) (hs : ∀ w ∈ sharedWords, ¬ w <:+: source L) {i : Nat} (hi : i < 8)
    (h : keyOf i <+: source L) : ∃ M, L = .inr i :: M := by
  rcases first_mark h with ⟨M, rfl⟩ | ⟨u, j, M, rfl, hu⟩
  · exfalso
    refine hd i hi ?_
    rw [flat_append, flat_chars]
    exact (List.prefix_append _ _).isInfix
  · have hj := hL j (by simp)
    rw [source_append, source_chars, source_mark] at h
    have hku : u <+: keyOf i := by
      rcases List.prefix_or_prefix_of_prefix h (List.prefix_append u (keyOf j ++ source M)) with h' | h'
      · have := h'.length_le
        omega
      · exact h'
    obtain ⟨r, hr⟩ := hku
    rw [← hr] at h
    have hrest : r <+: keyOf j ++ source M := (List.prefix_append_right_inj _).mp h
    have hdrop : (keyOf i).drop u.length = r := by rw [← hr]; simp
    have htake : (keyOf i).take u.length = u := by rw [← hr]; simp
    by_cases h0 : u = []
    · subst h0
      simp only [List.nil_append] at hr
      subst hr
      have : i = j := by
        rcases List.prefix_or_prefix_of_prefix hrest (List.prefix_append (keyOf j) (source M)) with h' | h'
        · exact key_single i (List.mem_range.mpr hi) j (List.mem_range.mpr hj) (List.isPrefixOf_iff_prefix.mpr h')
        · exact (key_single j (List.mem_range.mpr hj) i (List.mem_range.mpr hi) (List.isPrefixOf_iff_prefix.mpr h')).symm
      exact ⟨M, by rw [this]; rfl⟩
    · exfalso
      obtain ⟨o1, o2⟩ := key_overlap i (List.mem_range.mpr hi) j (List.mem_range.mpr hj) u.length (List.mem_range.mpr hu)
        (fun e => h0 (List.length_eq_zero_iff.mp e))
      rw [hdrop] at o1 o2
      rw [htake] at o2
      rcases List.prefix_or_prefix_of_prefix hrest (List.prefix_append (keyOf j) (source M)) with h' | h'
      · obtain ⟨w, hw, hp⟩ := o2 (List.isPrefixOf_iff_prefix.mpr h')
        refine hs w hw ?_
        rw [source_append, source_chars, source_mark, ← List.append_assoc]
        exact ((List.isPrefixOf_iff_prefix.mp hp).trans (List.prefix_append _ _)).isInfix
      · rw [List.isPrefixOf_iff_prefix.mpr h'] at o1
        cases o1

theorem marked_unique : ∀ {L M : Marked}, (∀ i, .inr i ∈ L → i < 8) → (∀ i, .inr i ∈ M → i < 8) → Done L → Done M → source L = source M →
    (∀ w ∈ sharedWords, ¬ w <:+: source L) → L = M := by
  intro L
  induction L with
  | nil =>
    intro M _ hM _ _ he _
    cases M with
    | nil => rfl
    | cons x M =>
      cases x with
      | inl c => simp [source] at he
      | inr i =>
        have := (key_plain (hM i (List.mem_cons_self ..))).2.1
        rw [source_mark] at he
        exact absurd (List.append_eq_nil_iff.mp he.symm).1 this
  | cons x L ih =>
    intro M hL hM dL dM he hs
    have hs' : ∀ w ∈ sharedWords, ¬ w <:+: source L := by
      intro w hw hi
      refine hs w hw (hi.trans ?_)
      have : source (x :: L) = source [x] ++ source L := source_append [x] L
      rw [this]
      exact (List.suffix_append _ _).isInfix
    cases x with
    | inr i =>
      have hi := hL i (List.mem_cons_self ..)
      obtain ⟨M', rfl⟩ := mark_here hM dM (by rw [← he]; exact hs) hi (by rw [← he, source_mark]; exact List.prefix_append _ _)
      rw [source_mark, source_mark] at he
      rw [ih (fun i hi => hL i (List.mem_cons_of_mem _ hi)) (fun i hi => hM i (List.mem_cons_of_mem _ hi)) (done_tail dL) (done_tail dM) (List.append_cancel_left he) hs']
    | inl c =>
      cases M with
      | nil => simp [source] at he
      | cons y M =>
        cases y with
        | inl d =>
          rw [source_char, source_char] at he
          injection he with h1 h2
          rw [h1, ih (fun i hi => hL i (List.mem_cons_of_mem _ hi)) (fun i hi => hM i (List.mem_cons_of_mem _ hi)) (done_tail dL) (done_tail dM) h2 hs']
        | inr i =>
          have hi := hM i (List.mem_cons_self ..)
          obtain ⟨L', hL'⟩ := mark_here hL dL hs hi (by rw [he, source_mark]; exact List.prefix_append _ _)
          cases hL'

theorem words_done {o : Orders} (ho : SomeOrder o) (s : Text) : ∃ L, (∀ i, .inr i ∈ L → i < 8) ∧ source L = s ∧ Done L ∧ replaceEach o.words s = flat L := by
  obtain ⟨L, ⟨hL, hsrc⟩, hw⟩ := words_marked (fun k hk => ho.words.subset hk) (s := s) (L := s.map .inl) ⟨fun i hi => by simp at hi, source_chars s⟩
  rw [flat_chars] at hw
  refine ⟨L, hL, hsrc, fun i hi => ?_, hw⟩
  have he : ∀ i ∈ List.range 8, (keyOf i, markOf i) ∈ reserved := by decide +kernel
  rw [← hw]
  exact words_gone (fun k hk => ho.words.subset hk) s (keyOf i, markOf i) (ho.words.symm.subset (he i (List.mem_range.mpr hi)))

/-- One of the entries does all the work. -/
theorem each_only {order : List (Text × Text)} {key : Text × Text} {s t : Text} (hm : key ∈ order) (h1 : ∀ k ∈ order, k ≠ key → replaceAll k.1 k.2 s = s)
    (h2 : replaceAll key.1 key.2 s = t) (h3 : ∀ k ∈ order, replaceAll k.1 k.2 t = t) : replaceEach order s = t := each_turn h1 h2 h3 hm

/-- The characters of the signs. -/
theorem sign_shape : ∀ k ∈ Prepare.signs, k = (replMark 1, c!"...") ∨ k.1 = c!"<>" ∨ ∃ c ∈ c!" ≠÷≦≧«»\"`♠", c ∈ k.1 := by decide +kernel

theorem signs_simple {o : Orders} (ho : SomeOrder o) {t : Text} (h : ∀ c ∈ t, c ∉ c!" ≠÷≦≧«»\"`♠") (h' : ¬ c!"<>" <:+: t) :
    replaceEach o.signs t = replaceAll (replMark 1) c!"..." t := by
  have hne : replMark 1 ≠ [] := by decide
  have hm : ('.' : Char) ∉ replMark 1 := by decide
  have key : ∀ k ∈ Prepare.signs, k ≠ (replMark 1, c!"...") → ∀ {t : Text}, (∀ c ∈ t, c ∉ c!" ≠÷≦≧«»\"`♠") → ¬ c!"<>" <:+: t → replaceAll k.1 k.2 t = t := by
    intro k hk hne t h h'
    rcases sign_shape k hk with e | e | ⟨c, hc, hck⟩
    · exact absurd e hne
    · rw [e]
      exact replaceAll_free h'
    · exact replaceAll_free fun hi => h c (hi.subset hck) hc
  have g1 : ∀ c ∈ replaceAll (replMark 1) c!"..." t, c ∉ c!" ≠÷≦≧«»\"`♠" := by
    intro c hc
    rcases mem_replaceAll hc with hc | hc
    · have : ∀ c ∈ c!"...", c ∉ c!" ≠÷≦≧«»\"`♠" := by decide
      exact this c hc
    · exact h c hc
  have g2 : ¬ c!"<>" <:+: replaceAll (replMark 1) c!"..." t :=
    fun hi => h' (infix_replaceAll (x := '.') (w := c!"..") (w' := c!"..") rfl rfl (by decide) (by decide) (by decide +kernel) hne hi)
  have g3 : ¬ replMark 1 <:+: replaceAll (replMark 1) c!"..." t :=
    not_infix_replaceAll (x := '.') (w := c!"..") (w' := c!"..") rfl rfl hm hm (by
      intro hi
      have := hi.length_le
      revert this
      decide) hne t
  refine each_only (key := (replMark 1, c!"...")) (ho.signs.symm.subset (by decide +kernel)) (fun k hk hne => key k (ho.signs.subset hk) hne h h') rfl (fun k hk => ?_)
  by_cases hk' : k = (replMark 1, c!"...")
  · rw [hk']
    exact replaceAll_free g3
  · exact key k (ho.signs.subset hk) hk' g1 g2

theorem settled_one {o o' : Orders} (ho : SomeOrder o) (ho' : SomeOrder o') {s : Text} (h : Settled s) : prepare o s = prepare o' s := by
  induction h with
  | simple s h h' hs =>
    have hq : ∀ c ∈ s, c ≠ '"' ∧ c ≠ '`' ∧ c ≠ '♠' := by
      intro c hc
      refine ⟨?_, ?_, ?_⟩ <;> rintro rfl <;> exact h _ hc (by decide)
    rw [prepare_plain ho hq, prepare_plain ho' hq]
    obtain ⟨L, hL, sL, dL, eL⟩ := words_done ho s
    obtain ⟨M, hM, sM, dM, eM⟩ := words_done ho' s
    have hLM : L = M := marked_unique hL hM dL dM (sL.trans sM.symm) (by rw [sL]; exact hs)
    subst hLM
    -- the text after the leading dots
    have hflat : ∀ c ∈ dots .free (flat L), c ∉ c!" ≠÷≦≧«»\"`♠" := by
      intro c hc
      rcases mem_dots hc with hc | hc
      · have : ∀ c ∈ dotMark, c ∉ c!" ≠÷≦≧«»\"`♠" := by decide +kernel
        exact this c hc
      · rw [← eL] at hc
        have : c ∈ s ∨ ∃ k ∈ o.words, c ∈ k.2 := by
          have := each_inv (P := fun t => ∀ c ∈ t, c ∈ s ∨ ∃ k ∈ o.words, c ∈ k.2) (order := o.words) (A := s) (fun k hk A hA c hc => by
            rcases mem_replaceAll hc with h | h
            · exact .inr ⟨k, hk, h⟩
            · exact hA c h) (fun c hc => .inl hc)
          exact this c hc
        rcases this with hc | ⟨k, hk, hc⟩
        · exact h c hc
        · have : ∀ k ∈ reserved, ∀ c ∈ k.2, c ∉ c!" ≠÷≦≧«»\"`♠" := by decide +kernel
          exact this k (ho.words.subset hk) c hc
    have hpair : ¬ c!"<>" <:+: dots .free (flat L) := by
      have h1 : ¬ c!"<>" <:+: flat L := by
        rw [← eL]
        refine each_inv (P := fun t => ¬ c!"<>" <:+: t) (fun k hk A hA hi => hA ?_) h'
        obtain ⟨i, hi', rfl⟩ := reserved_entry (ho.words.subset hk)
        have hi10 : i < 11 := Nat.lt_trans hi' (by decide)
        obtain ⟨w, _, t, hf⟩ := markOf_form i hi10
        obtain ⟨t', ht'⟩ := mark_ends i hi10
        refine infix_replaceAll (x := '_') (w := '_' :: (w ++ t)) hf ht' (by decide) (by decide) ?_ (key_plain hi').2.1 hi
        intro hx
        have : ∀ i ∈ List.range 11, ('<' : Char) ∉ markOf i := by decide +kernel
        exact this i (List.mem_range.mpr hi10) (hx.subset (by decide))
      have key : ∀ (t : Text) (p : Place), c!"<>" <:+: dots p t → c!"<>" <:+: t := by
        intro t
        induction t with
        | nil => intro p h; exact h
        | cons c t ih =>
          intro p h
          have go : ∀ r, c!"<>" <:+: c :: dots r t → c!"<>" <:+: c :: t := by
            intro r h
            rcases List.infix_cons_iff.mp h with h | h
            · rw [List.cons_prefix_cons] at h
              have := dots_prefix (q := c!">") (by decide) h.2
              refine List.IsPrefix.isInfix ?_
              rw [List.cons_prefix_cons]
              exact ⟨h.1, this⟩
            · exact List.infix_cons (ih r h)
          cases p <;> simp only [dots] at h
          · split at h
            · have : ∀ (m : Text), '<' ∉ m → c!"<>" <:+: m ++ dots .dot t → c!"<>" <:+: dots .dot t := by
                intro m
                induction m with
                | nil => intro _ h; exact h
                | cons d m ihm =>
                  intro hm h
                  simp only [List.mem_cons, not_or] at hm
                  rw [List.cons_append] at h
                  rcases List.infix_cons_iff.mp h with h | h
                  · rw [List.cons_prefix_cons] at h
                    exact absurd h.1 hm.1
                  · exact ihm hm.2 h
              exact List.infix_cons (ih _ (this dotMark (by decide) h))
            · exact go _ h
          · exact go _ h
          · split at h <;> exact go _ h
          · split at h <;> exact go _ h
      exact fun h => h1 (key _ _ h)
    have hsp : ∀ {o : Orders}, SomeOrder o → replaceEach o.words s = flat L →
        rewrite o s = indexExpression (replaceAll (replMark 1) c!"..." (dots .free (flat L))) := by
      intro o ho e
      unfold rewrite
      rw [e, signs_simple ho hflat hpair, operators_free (fun k hk => ho.operators.subset hk)]
      intro hm
      rcases mem_replaceAll hm with hm | hm
      · exact absurd hm (by decide)
      · exact hflat _ hm (by decide)
    rw [hsp ho eL, hsp ho' eM]
  | operator a x b g ha hb hx iha ihb =>
    obtain ⟨A, B, h1, h2, h3⟩ := prepare_between ho hx (settled_closed ha).1 (settled_closed ha).2 (settled_closed hb).2
    obtain ⟨A', B', h1', h2', h3'⟩ := prepare_between ho' hx (settled_closed ha).1 (settled_closed ha).2 (settled_closed hb).2
    rw [h1, h1'] at iha
    rw [h2, h2'] at ihb
    cases iha
    cases ihb
    rw [h3, h3']
  | space a b ha hb hx hx' iha ihb =>
    obtain ⟨A, B, h1, h2, h3⟩ := prepare_space ho (settled_closed ha).1 (settled_closed ha).2 (settled_closed hb).2 hx hx'
    obtain ⟨A', B', h1', h2', h3'⟩ := prepare_space ho' (settled_closed ha).1 (settled_closed ha).2 (settled_closed hb).2 hx hx'
    rw [h1, h1'] at iha
    rw [h2, h2'] at ihb
    cases iha
    cases ihb
    rw [h3, h3']
  | literal a l b ha hb hl hm iha ihb =>
    have hs : '♠' ∉ a ++ (l ++ b) := by simp [(settled_closed ha).2, (settled_closed hb).2, hm]
    obtain ⟨A, B, h1, h2, h3⟩ := prepare_literal ho (settled_closed ha).1 hl hs
    obtain ⟨A', B', h1', h2', h3'⟩ := prepare_literal ho' (settled_closed ha).1 hl hs
    rw [h1, h1'] at iha
    rw [h2, h2'] at ihb
    cases iha
    cases ihb
    rw [h3, h3']

end Verif.Lemmas
