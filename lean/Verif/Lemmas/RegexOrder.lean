import Verif.Lemmas.RegexStatic
import Verif.Spec.RegexOrderSpec
/-!
# The search takes the preferred match
-/

namespace Verif.Lemmas
open Verif Regex Spec

/-- The first end that the rest of the search accepts. -/
def firstOk {β : Type} (k : Cont β) (l : List Stop) : Option β := l.findSome? (fun st => k st.1 st.2.1 st.2.2)

theorem firstOk_append {β : Type} (k : Cont β) (l l' : List Stop) : firstOk k (l ++ l') = (firstOk k l).or (firstOk k l') := by
  unfold firstOk
  rw [List.findSome?_append]

theorem firstOk_flatMap {β : Type} (k : Cont β) (f : Stop → List Stop) (l : List Stop) :
    firstOk k (l.flatMap f) = firstOk (fun p s c => firstOk k (f (p, s, c))) l := by
  induction l with
  | nil => rfl
  | cons st l ih =>
    rw [List.flatMap_cons, firstOk_append, ih]
    unfold firstOk
    rw [List.findSome?_cons]
    cases h : List.findSome? (fun st => k st.1 st.2.1 st.2.2) (f st) <;> simp [h]

theorem firstOk_filter {β : Type} (k : Cont β) (P : Stop → Bool) (l : List Stop) :
    firstOk k (l.filter P) = firstOk (fun p s c => if P (p, s, c) = true then k p s c else none) l := by
  unfold firstOk
  induction l with
  | nil => rfl
  | cons st l ih =>
    obtain ⟨p, s, c⟩ := st
    rw [List.findSome?_cons, List.filter_cons]
    by_cases h : P (p, s, c) = true
    · rw [if_pos h]
      simp only [List.findSome?_cons, if_pos h]
      rw [ih]
    · rw [if_neg h]
      simp only [if_neg h]
      exact ih

theorem starLoop_first {β : Type} {step : Option Char → Text → Caps → Cont β → Option β} {one : Stop → List Stop}
    (h : ∀ p s c k, step p s c k = firstOk k (one (p, s, c))) (g : Bool) (n : Nat) : ∀ p s c k,
    starLoop step g n p s c k = firstOk k (repeated one g n (p, s, c)) := by
  induction n with
  | zero =>
    intro p s c k
    simp [starLoop, repeated, firstOk]
  | succ n ih =>
    intro p s c k
    have hone : firstOk k [(p, s, c)] = k p s c := by simp [firstOk]
    have hlong : step p s c (fun p' s' c' => if s'.length < s.length then starLoop step g n p' s' c' k else none) =
        firstOk k (((one (p, s, c)).filter (fun st' => st'.2.1.length < s.length)).flatMap (repeated one g n)) := by
      rw [h, firstOk_flatMap, firstOk_filter]
      congr 1
      funext p' s' c'
      simp only [decide_eq_true_eq]
      split
      · exact ih p' s' c' k
      · rfl
    unfold starLoop repeated
    rw [hlong]
    cases g with
    | true =>
      simp only [if_true]
      rw [firstOk_append, hone]
    | false =>
      simp only [Bool.false_eq_true, if_false]
      rw [show ∀ l : List Stop, (p, s, c) :: l = [(p, s, c)] ++ l from fun _ => rfl, firstOk_append, hone]

theorem run_first {β : Type} (letter : Char → Bool) (r : Re) : ∀ (p : Option Char) (s : Text) (c : Caps) (k : Cont β),
    run letter r p s c k = firstOk k (ends letter r (p, s, c)) := by
  induction r with
  | eps =>
    intro p s c k
    simp [run, ends, firstOk]
  | cls cl =>
    intro p s c k
    cases s with
    | nil => simp [run, ends, firstOk, oneChar]
    | cons ch t =>
      simp only [run, ends, oneChar]
      split <;> simp [firstOk]
  | bol m =>
    intro p s c k
    simp only [run, ends]
    by_cases h : atStart m p = true
    · rw [if_pos h, if_pos (atStart_iff.mp h)]
      simp [firstOk]
    · rw [if_neg h, if_neg (fun h' => h (atStart_iff.mpr h'))]
      rfl
  | eol m =>
    intro p s c k
    simp only [run, ends]
    by_cases h : atStop m s = true
    · rw [if_pos h, if_pos (atStop_iff.mp h)]
      simp [firstOk]
    · rw [if_neg h, if_neg (fun h' => h (atStop_iff.mpr h'))]
      rfl
  | edge =>
    intro p s c k
    simp only [run, ends]
    by_cases h : atEdge p s = true
    · rw [if_pos h, if_pos (atEdge_iff.mp h)]
      simp [firstOk]
    · rw [if_neg h, if_neg (fun h' => h (atEdge_iff.mpr h'))]
      rfl
  | seq a b iha ihb =>
    intro p s c k
    simp only [run, ends]
    rw [iha, firstOk_flatMap]
    congr 1
    funext p s c
    exact ihb p s c k
  | alt a b iha ihb =>
    intro p s c k
    simp only [run, ends]
    rw [firstOk_append, iha, ihb]
  | opt g a iha =>
    intro p s c k
    have hone : firstOk k [(p, s, c)] = k p s c := by simp [firstOk]
    cases g with
    | true =>
      simp only [run, ends, if_true]
      rw [firstOk_append, hone, iha]
    | false =>
      simp only [run, ends, Bool.false_eq_true, if_false]
      rw [show ∀ l : List Stop, (p, s, c) :: l = [(p, s, c)] ++ l from fun _ => rfl, firstOk_append, hone, iha]
  | star g a iha =>
    intro p s c k
    exact starLoop_first (one := ends letter a) iha g s.length p s c k
  | group n a iha =>
    intro p s c k
    simp only [run, ends]
    rw [iha]
    unfold firstOk
    rw [List.findSome?_map]
    rfl

theorem matchAt_ends (letter : Char → Bool) (r : Re) (p : Option Char) (s : Text) :
    matchAt letter r p s = (ends letter r (p, s, [])).head?.map (fun st => (s.length - st.2.1.length, st.2.2)) := by
  unfold matchAt
  rw [run_first]
  cases ends letter r (p, s, []) with
  | nil => rfl
  | cons st l => simp [firstOk]

/-- The ends are ends of matches. -/
theorem ends_fit {letter : Char → Bool} {r : Re} {p : Option Char} {s : Text} {c : Caps} {st : Stop} {l : List Stop}
    (h : ends letter r (p, s, c) = st :: l) : ∃ x, s = x ++ st.2.1 ∧ Fit letter r p x st.2.1 c st.2.2 ∧ st.1 = lastOr p x := by
  have := run_first letter r p s c (fun p' s' c' => some (p', s', c'))
  rw [h] at this
  simp only [firstOk, List.findSome?_cons] at this
  obtain ⟨x, q, c', hs, hf, hk⟩ := run_sound letter r this
  simp only [Option.some.injEq, Prod.mk.injEq] at hk
  rw [← hk.1, ← hk.2.1, ← hk.2.2]
  exact ⟨x, hs, hf, rfl⟩

theorem replaceAux_replaced {letter : Char → Bool} {r : Re} {out : Text → Caps → Text} : ∀ (n : Nat) (s : Text) (p : Option Char), s.length ≤ n →
    Replaced letter r out p s (replaceAux letter r out 0 p s) := by
  intro n
  induction n with
  | zero =>
    intro s p h
    rw [List.length_eq_zero_iff.mp (Nat.le_zero.mp h)]
    exact .nil
  | succ n ih =>
    intro s p h
    cases s with
    | nil => exact .nil
    | cons c t =>
      simp only [replaceAux]
      rw [matchAt_ends]
      cases he : ends letter r (p, c :: t, []) with
      | nil =>
        simp only [List.head?_nil, Option.map_none]
        refine .keep ?_ (ih t _ (by simpa using h))
        intro x q caps _ hs hp
        unfold Preferred at hp
        rw [← hs, he] at hp
        cases hp
      | cons st l =>
        obtain ⟨x, hs, _, hst⟩ := ends_fit he
        obtain ⟨p', q, caps⟩ := st
        simp only at hs hst
        subst hst
        have hlen : (c :: t).length - q.length = x.length := by
          rw [hs]
          simp
        simp only [List.head?_cons, Option.map_some, hlen]
        cases x with
        | nil =>
          simp only [List.length_nil]
          refine .keep ?_ (ih t _ (by simpa using h))
          intro y q' caps' hy hs' hp
          unfold Preferred at hp
          rw [← hs', he] at hp
          simp only [List.head?_cons, Option.some.injEq, Prod.mk.injEq] at hp
          have : (c :: t).length = y.length + q'.length := by
            rw [hs']
            simp
          rw [List.nil_append] at hs
          rw [hs, hp.2.1] at this
          exact hy (List.length_eq_zero_iff.mp (by omega))
        | cons d x =>
          simp only [List.length_cons]
          have htake : (c :: t).take (x.length + 1) = d :: x := by
            rw [hs]
            simp
          have hrest : replaceAux letter r out x.length (some c) t = replaceAux letter r out 0 (lastOr p (d :: x)) q := by
            rw [← replaceAux_skipped, ← hs]
            rfl
          rw [htake, hrest, hs]
          refine .change (by simp) ?_ (ih q _ ?_)
          · unfold Preferred
            rw [← hs, he]
            rfl
          · have := congrArg List.length hs
            simp at this h
            omega

theorem replaceRe_replaced (letter : Char → Bool) (r : Re) (out : Text → Caps → Text) (s : Text) : Replaced letter r out none s (replaceRe letter r out s) :=
  replaceAux_replaced _ s none (Nat.le_refl _)

/-- There is only one replacement. -/
theorem replaced_unique {letter : Char → Bool} {r : Re} {out : Text → Caps → Text} {p : Option Char} {s s₁ s₂ : Text}
    (h₁ : Replaced letter r out p s s₁) (h₂ : Replaced letter r out p s s₂) : s₁ = s₂ := by
  induction h₁ generalizing s₂ with
  | nil =>
    generalize hs : ([] : Text) = s at h₂
    cases h₂ with
    | nil => rfl
    | keep => cases hs
    | change hx => exact absurd (List.append_eq_nil_iff.mp hs.symm).1 hx
  | @keep p c t t' hk _ ih =>
    generalize hs : c :: t = s at h₂
    cases h₂ with
    | nil => cases hs
    | keep _ ht =>
      cases hs
      rw [ih ht]
    | change hx hp => exact absurd hp (hk _ _ _ hx hs)
  | @change p x q caps t' hx hp _ ih =>
    generalize hs : x ++ q = s at h₂
    cases h₂ with
    | nil => exact absurd (List.append_eq_nil_iff.mp hs).1 hx
    | keep hk => exact absurd hp (hk _ _ _ hx hs.symm)
    | @change _ x' q' caps' t'' _ hp' ht =>
      unfold Preferred at hp hp'
      rw [← hs, hp] at hp'
      simp only [Option.some.injEq, Prod.mk.injEq] at hp'
      obtain ⟨h1, rfl, rfl⟩ := hp'
      rw [← h1] at ht
      have : x = x' := List.append_cancel_right hs
      subst this
      rw [ih ht]

/-! ## Rules do not match the empty text -/

/-- Whether the expression may match the empty text. -/
def nullable : Re → Bool
  | .eps | .bol _ | .eol _ | .edge | .opt _ _ | .star _ _ => true
  | .cls _ => false
  | .seq a b => nullable a && nullable b
  | .alt a b => nullable a || nullable b
  | .group _ a => nullable a

theorem nullable_sound {letter : Char → Bool} {r : Re} {p : Option Char} {x q : Text} {c c' : Caps} (h : Fit letter r p x q c c') (hx : x = []) :
    nullable r = true := by
  induction h with
  | eps | bol | eol | edge | none | one | done | more => rfl
  | cls => cases hx
  | seq _ _ ih₁ ih₂ =>
    simp only [nullable, Bool.and_eq_true]
    exact ⟨ih₁ (List.append_eq_nil_iff.mp hx).1, ih₂ (List.append_eq_nil_iff.mp hx).2⟩
  | left _ ih => simp [nullable, ih hx]
  | right _ ih => simp [nullable, ih hx]
  | group _ ih => exact ih hx

end Verif.Lemmas
