import Verif.Spec.RegexSpec
/-!
# The search of regular expressions is correct
-/

namespace Verif.Lemmas
open Verif Regex Spec

theorem lastOr_nil (p : Option Char) : lastOr p [] = p := rfl

theorem lastOr_single (p : Option Char) (c : Char) : lastOr p [c] = some c := rfl

theorem lastOr_append (p : Option Char) (x y : Text) : lastOr (lastOr p x) y = lastOr p (x ++ y) := by
  unfold lastOr
  rw [List.getLast?_append]
  cases y.getLast? <;> simp

theorem atStart_iff {multi : Bool} {p : Option Char} : atStart multi p = true ↔ p = none ∨ multi = true ∧ p = some '\n' := by
  cases p <;> simp [atStart]

theorem atStop_iff {multi : Bool} {q : Text} : atStop multi q = true ↔ q = [] ∨ multi = true ∧ q.head? = some '\n' := by
  cases q <;> simp [atStop]

theorem atEdge_iff {p : Option Char} {q : Text} : atEdge p q = true ↔ p.any isWordChar ≠ q.head?.any isWordChar := by
  simp [atEdge]

theorem or_some {α : Type} {a b : Option α} {x : α} (h : a.or b = some x) : a = some x ∨ b = some x := by
  cases a <;> simp_all

theorem starLoop_sound {β : Type} (letter : Char → Bool) {r : Re} {g : Bool}
    (ih : ∀ {p s c} {k : Cont β} {b : β}, run letter r p s c k = some b →
      ∃ x q c', s = x ++ q ∧ Fit letter r p x q c c' ∧ k (lastOr p x) q c' = some b) :
    ∀ (n : Nat) {p s c} {k : Cont β} {b : β}, starLoop (fun p s c k => run letter r p s c k) g n p s c k = some b →
      ∃ x q c', s = x ++ q ∧ Fit letter (.star g r) p x q c c' ∧ k (lastOr p x) q c' = some b := by
  intro n
  induction n with
  | zero =>
    intro p s c k b h
    exact ⟨[], s, c, rfl, .done, h⟩
  | succ n ihn =>
    intro p s c k b h
    have skip : k p s c = some b → ∃ x q c', s = x ++ q ∧ Fit letter (.star g r) p x q c c' ∧ k (lastOr p x) q c' = some b :=
      fun h => ⟨[], s, c, rfl, .done, h⟩
    have take : run letter r p s c
        (fun p' s' c' => if s'.length < s.length then starLoop (fun p s c k => run letter r p s c k) g n p' s' c' k else none) = some b →
        ∃ x q c', s = x ++ q ∧ Fit letter (.star g r) p x q c c' ∧ k (lastOr p x) q c' = some b := by
      intro h
      obtain ⟨x, q, c₁, hs, hf, hk⟩ := ih h
      split at hk
      · rename_i hlt
        obtain ⟨y, q', c₂, hq, hf', hk'⟩ := ihn hk
        subst hq hs
        refine ⟨x ++ y, q', c₂, by simp, .more ?_ hf hf', ?_⟩
        · rintro rfl
          simp at hlt
        · rw [← lastOr_append]
          exact hk'
      · cases hk
    unfold starLoop at h
    split at h
    · cases or_some h with
      | inl h => exact take h
      | inr h => exact skip h
    · cases or_some h with
      | inl h => exact skip h
      | inr h => exact take h

/-- Whatever the search finds is a match. -/
theorem run_sound {β : Type} (letter : Char → Bool) (r : Re) : ∀ {p s c} {k : Cont β} {b : β}, run letter r p s c k = some b →
    ∃ x q c', s = x ++ q ∧ Fit letter r p x q c c' ∧ k (lastOr p x) q c' = some b := by
  induction r with
  | eps =>
    intro p s c k b h
    exact ⟨[], s, c, rfl, .eps, h⟩
  | cls cl =>
    intro p s c k b h
    cases s with
    | nil => cases h
    | cons ch t =>
      simp only [run, oneChar] at h
      split at h
      · rename_i hc
        exact ⟨[ch], t, c, rfl, .cls hc, h⟩
      · cases h
  | bol m =>
    intro p s c k b h
    simp only [run] at h
    split at h
    · rename_i hc
      exact ⟨[], s, c, rfl, .bol (atStart_iff.mp hc), h⟩
    · cases h
  | eol m =>
    intro p s c k b h
    simp only [run] at h
    split at h
    · rename_i hc
      exact ⟨[], s, c, rfl, .eol (atStop_iff.mp hc), h⟩
    · cases h
  | edge =>
    intro p s c k b h
    simp only [run] at h
    split at h
    · rename_i hc
      exact ⟨[], s, c, rfl, .edge (atEdge_iff.mp hc), h⟩
    · cases h
  | seq a b iha ihb =>
    intro p s c k r h
    obtain ⟨x, q, c₁, hs, hf, hk⟩ := iha h
    obtain ⟨y, q', c₂, hq, hf', hk'⟩ := ihb hk
    subst hq hs
    exact ⟨x ++ y, q', c₂, by simp, .seq hf hf', by rw [← lastOr_append]; exact hk'⟩
  | alt a b iha ihb =>
    intro p s c k r h
    cases or_some h with
    | inl h =>
      obtain ⟨x, q, c', hs, hf, hk⟩ := iha h
      exact ⟨x, q, c', hs, .left hf, hk⟩
    | inr h =>
      obtain ⟨x, q, c', hs, hf, hk⟩ := ihb h
      exact ⟨x, q, c', hs, .right hf, hk⟩
  | opt g a iha =>
    intro p s c k r h
    have take : run letter a p s c k = some r → ∃ x q c', s = x ++ q ∧ Fit letter (.opt g a) p x q c c' ∧ k (lastOr p x) q c' = some r := by
      intro h
      obtain ⟨x, q, c', hs, hf, hk⟩ := iha h
      exact ⟨x, q, c', hs, .one hf, hk⟩
    have skip : k p s c = some r → ∃ x q c', s = x ++ q ∧ Fit letter (.opt g a) p x q c c' ∧ k (lastOr p x) q c' = some r :=
      fun h => ⟨[], s, c, rfl, .none, h⟩
    cases g with
    | true =>
      cases or_some h with
      | inl h => exact take h
      | inr h => exact skip h
    | false =>
      cases or_some h with
      | inl h => exact skip h
      | inr h => exact take h
  | star g a iha =>
    intro p s c k r h
    exact starLoop_sound letter iha _ h
  | group n a iha =>
    intro p s c k r h
    obtain ⟨x, q, c', hs, hf, hk⟩ := iha h
    subst hs
    refine ⟨x, q, (n, x) :: c', rfl, .group hf, ?_⟩
    simpa using hk

theorem or_isSome {α : Type} {a b : Option α} (h : a.isSome = true ∨ b.isSome = true) : (a.or b).isSome = true := by
  cases a <;> simp_all

theorem starLoop_complete {β : Type} (letter : Char → Bool) {r : Re} {g : Bool}
    (ih : ∀ {p x q c c'} {k : Cont β}, Fit letter r p x q c c' → (k (lastOr p x) q c').isSome = true →
      (run letter r p (x ++ q) c k).isSome = true) :
    ∀ {p x q c c'} {k : Cont β}, Fit letter (.star g r) p x q c c' → (k (lastOr p x) q c').isSome = true →
      ∀ n, (x ++ q).length ≤ n → (starLoop (fun p s c k => run letter r p s c k) g n p (x ++ q) c k).isSome = true := by
  intro p x q c c' k h
  generalize hr : Re.star g r = e at h
  induction h with
  | done =>
    intro hk n hn
    cases n with
    | zero => exact hk
    | succ n =>
      unfold starLoop
      split
      · exact or_isSome (.inr hk)
      · exact or_isSome (.inl hk)
  | @more g' a p x y q c c₁ c₂ hx h₁ h₂ _ ih₂ =>
    cases hr
    intro hk n hn
    rw [← lastOr_append] at hk
    cases n with
    | zero =>
      cases x with
      | nil => exact absurd rfl hx
      | cons _ _ => simp at hn
    | succ n =>
      have hlen : 0 < x.length := List.length_pos_iff.mpr hx
      have step : (run letter r p (x ++ y ++ q) c (fun p' s' c' => if s'.length < (x ++ y ++ q).length then
          starLoop (fun p s c k => run letter r p s c k) g n p' s' c' k else none)).isSome = true := by
        rw [List.append_assoc]
        refine ih h₁ ?_
        rw [if_pos (by simp; omega)]
        refine ih₂ rfl hk n ?_
        simp at hn ⊢
        omega
      unfold starLoop
      split
      · exact or_isSome (.inl step)
      · exact or_isSome (.inr step)
  | _ => cases hr

/-- When there is a match that the rest accepts, the search succeeds. -/
theorem run_complete {β : Type} (letter : Char → Bool) (r : Re) : ∀ {p x q c c'} {k : Cont β}, Fit letter r p x q c c' →
    (k (lastOr p x) q c').isSome = true → (run letter r p (x ++ q) c k).isSome = true := by
  induction r with
  | eps =>
    intro p x q c c' k h hk
    cases h
    exact hk
  | cls cl =>
    intro p x q c c' k h hk
    cases h with
    | cls hc =>
      simp only [run, oneChar, List.cons_append, List.nil_append]
      rw [if_pos hc]
      exact hk
  | bol m =>
    intro p x q c c' k h hk
    cases h with
    | bol hc =>
      simp only [run]
      rw [if_pos (atStart_iff.mpr hc)]
      exact hk
  | eol m =>
    intro p x q c c' k h hk
    cases h with
    | eol hc =>
      simp only [run, List.nil_append]
      rw [if_pos (atStop_iff.mpr hc)]
      exact hk
  | edge =>
    intro p x q c c' k h hk
    cases h with
    | edge hc =>
      simp only [run, List.nil_append]
      rw [if_pos (atEdge_iff.mpr hc)]
      exact hk
  | seq a b iha ihb =>
    intro p x q c c' k h hk
    cases h with
    | seq h₁ h₂ =>
      rw [List.append_assoc]
      refine iha h₁ (ihb h₂ ?_)
      rw [lastOr_append]
      exact hk
  | alt a b iha ihb =>
    intro p x q c c' k h hk
    cases h with
    | left h => exact or_isSome (.inl (iha h hk))
    | right h => exact or_isSome (.inr (ihb h hk))
  | opt g a iha =>
    intro p x q c c' k h hk
    have : (run letter a p (x ++ q) c k).isSome = true ∨ (k p (x ++ q) c).isSome = true := by
      cases h with
      | none => exact .inr hk
      | one h => exact .inl (iha h hk)
    cases g with
    | true => exact or_isSome this
    | false => exact or_isSome this.symm
  | star g a iha =>
    intro p x q c c' k h hk
    exact starLoop_complete letter iha h hk _ (Nat.le_refl _)
  | group n a iha =>
    intro p x q c c' k h hk
    cases h with
    | group h =>
      refine iha h ?_
      simpa using hk

theorem matchAt_sound {letter : Char → Bool} {r : Re} {p : Option Char} {s : Text} {n : Nat} {caps : Caps}
    (h : matchAt letter r p s = some (n, caps)) : ∃ x q, s = x ++ q ∧ Fit letter r p x q [] caps ∧ n = x.length := by
  obtain ⟨x, q, c', hs, hf, hk⟩ := run_sound letter r h
  subst hs
  simp at hk
  obtain ⟨rfl, rfl⟩ := hk
  exact ⟨x, q, rfl, hf, rfl⟩

theorem matchAt_complete {letter : Char → Bool} {r : Re} {p : Option Char} {x q : Text} {caps : Caps}
    (h : Fit letter r p x q [] caps) : ∃ n caps, matchAt letter r p (x ++ q) = some (n, caps) := by
  have := run_complete letter r (k := fun _ s' c => some ((x ++ q).length - s'.length, c)) h rfl
  obtain ⟨⟨n, c⟩, hb⟩ := Option.isSome_iff_exists.mp this
  exact ⟨n, c, hb⟩

/-! ## Replacements -/

theorem replaceAux_skipped (letter : Char → Bool) (r : Re) (out : Text → Caps → Text) (x q : Text) (p : Option Char) :
    replaceAux letter r out x.length p (x ++ q) = replaceAux letter r out 0 (lastOr p x) q := by
  induction x generalizing p with
  | nil => rfl
  | cons c x ih =>
    simp only [List.length_cons, List.cons_append, replaceAux]
    rw [ih, ← lastOr_single p c, lastOr_append]
    rfl

/-- What is true of the end of the content, of a character kept and of a match replaced is true of the whole replacement. -/
theorem replaceAux_induct {letter : Char → Bool} {r : Re} {out : Text → Caps → Text} (K : Text → Text → Prop)
    (nil : K [] []) (keep : ∀ c t t', K t t' → K (c :: t) (c :: t'))
    (change : ∀ p x q caps t', x ≠ [] → Fit letter r p x q [] caps → K q t' → K (x ++ q) (out x caps ++ t')) :
    ∀ (n : Nat) (s : Text) (p : Option Char), s.length ≤ n → K s (replaceAux letter r out 0 p s) := by
  intro n
  induction n with
  | zero =>
    intro s p h
    rw [List.length_eq_zero_iff.mp (Nat.le_zero.mp h)]
    exact nil
  | succ n ih =>
    intro s p h
    cases s with
    | nil => exact nil
    | cons c t =>
      simp only [replaceAux]
      split
      · rename_i m caps hm
        obtain ⟨x, q, hs, hf, hn⟩ := matchAt_sound hm
        have hx : x ≠ [] := by
          rintro rfl
          cases hn
        have htake : (c :: t).take (m + 1) = x := by
          rw [hs, show m + 1 = x.length from hn]
          simp
        have hrest : replaceAux letter r out m (some c) t = replaceAux letter r out 0 (lastOr p x) q := by
          rw [← replaceAux_skipped, show x.length = m + 1 from hn.symm, ← hs]
          rfl
        rw [htake, hrest, hs]
        refine change p x q caps _ hx hf (ih q _ ?_)
        have h1 : (c :: t).length = x.length + q.length := by
          rw [hs]
          exact List.length_append
        have h2 : 0 < x.length := List.length_pos_iff.mpr hx
        rw [h1] at h
        omega
      · exact keep c t _ (ih t _ (by simpa using h))

theorem replaceRe_induct {letter : Char → Bool} {r : Re} {out : Text → Caps → Text} (K : Text → Text → Prop)
    (nil : K [] []) (keep : ∀ c t t', K t t' → K (c :: t) (c :: t'))
    (change : ∀ p x q caps t', x ≠ [] → Fit letter r p x q [] caps → K q t' → K (x ++ q) (out x caps ++ t')) (s : Text) :
    K s (replaceRe letter r out s) := replaceAux_induct K nil keep change _ s none (Nat.le_refl _)

/-- Nothing changes when there is no match. -/
theorem replaceRe_none {letter : Char → Bool} {r : Re} {out : Text → Caps → Text} {s : Text}
    (h : ∀ p x q caps, Fit letter r p x q [] caps → x ≠ [] → ¬ x <:+: s) : replaceRe letter r out s = s := by
  have := replaceRe_induct (letter := letter) (r := r) (out := out) (fun t t' => t <:+: s → t' = t)
    (fun _ => rfl)
    (fun c t t' ih hi => by rw [ih (List.IsInfix.trans (List.suffix_cons c t).isInfix hi)])
    (fun p x q caps t' hx hf _ hi => absurd (List.IsInfix.trans (List.prefix_append x q).isInfix hi) (h p x q caps hf hx))
    s
  exact this (List.infix_refl s)

end Verif.Lemmas
