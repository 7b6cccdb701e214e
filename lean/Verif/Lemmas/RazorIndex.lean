import Verif.Model.RazorIndex
import Verif.Spec.IndexSpec
/-!
# Lemmas for partial slices
-/

namespace Verif.Razor
open Spec

/-- Insertion of `x` between `a` and `b`. -/
def insertBetween (a b : Char) (x : Text) : Text → Text
  | [] => []
  | c :: s => c :: ((if c = a ∧ s.head? = some b then x else []) ++ insertBetween a b x s)

theorem hasPrefix_two {a b c : Char} {s : Text} : Text.hasPrefix [a, b] (c :: s) = decide (c = a ∧ s.head? = some b) := by
  unfold Text.hasPrefix
  by_cases h : a = c
  · subst h
    cases s with
    | nil => simp [Text.dropPrefix?]
    | cons d s =>
      by_cases h : b = d
      · subst h; simp [Text.dropPrefix?]
      · simp [Text.dropPrefix?, h, Ne.symm h]
  · simp [Text.dropPrefix?, h, Ne.symm h]

theorem replaceAll_two {a b : Char} (hab : a ≠ b) (x s : Text) :
    Text.replaceAll [a, b] (a :: (x ++ [b])) s = insertBetween a b x s := by
  have key : ∀ n (s : Text), s.length ≤ n → Text.replaceAll [a, b] (a :: (x ++ [b])) s = insertBetween a b x s := by
    intro n
    induction n with
    | zero =>
      intro s hs
      cases s with
      | nil => exact Text.replaceAll_nil _ _
      | cons c s => simp at hs
    | succ n ih =>
      intro s hs
      cases s with
      | nil => exact Text.replaceAll_nil _ _
      | cons c s =>
        simp at hs
        by_cases h : c = a ∧ s.head? = some b
        · obtain ⟨rfl, hb⟩ := h
          cases s with
          | nil => cases hb
          | cons d r =>
            simp at hb
            subst hb
            have := Text.replaceAll_match (old := [c, d]) (c :: (x ++ [d])) r (by simp)
            simp only [List.cons_append, List.nil_append] at this
            simp at hs
            rw [this, ih r (by omega)]
            simp [insertBetween, Ne.symm hab]
        · have hp : Text.hasPrefix [a, b] (c :: s) = false := by rw [hasPrefix_two]; simpa using h
          rw [Text.replaceAll_skip hp, ih s hs, insertBetween, if_neg h]
          rfl
  exact key s.length s (Nat.le_refl _)

/-- The first replacement, as an insertion. -/
def negPass (opened : Option Text) : Text → Text
  | [] => []
  | c :: s => c :: ((if c = ':' ∧ s.head? = some ']' ∧ opened.any isNegative then T "0" else []) ++
      negPass (if c = '[' then some [] else opened.map (fun w => w ++ [c])) s)

/-- No match begins before `s`, after the text `w`. -/
def Safe (w s : Text) : Prop := ∀ u r, s = u ++ ':' :: ']' :: r → isNegative (w ++ u) = false

theorem Safe.step {w s : Text} {c : Char} (h : Safe w (c :: s)) : Safe (w ++ [c]) s := by
  intro u r e
  have := h (c :: u) r (by rw [e]; rfl)
  simpa using this

theorem isNegative_colon {w : Text} (h : ':' ∈ w) : isNegative w = false := by
  cases hn : isNegative w with
  | false => rfl
  | true =>
    unfold isNegative at hn
    split at hn
    · rename_i d
      simp at hn h
      exact absurd (hn.2 ':' h) (by decide)
    · cases hn

theorem safe_colon {w s : Text} (h : ':' ∈ w) : Safe w s := fun u _ _ => isNegative_colon (by simp [h])

theorem negMatch_some {s i : Text} (h : negMatch s = some i) :
    isNegative i = true ∧ ∃ r, s = i ++ ':' :: ']' :: r := by
  unfold negMatch at h
  split at h
  · rename_i s
    simp only at h
    split at h
    · rename_i hc
      cases h
      obtain ⟨hd, hp⟩ := hc
      have hr := Text.hasPrefix_iff.1 hp
      obtain ⟨r, hr⟩ := hr
      refine ⟨?_, r, ?_⟩
      · simp only [isNegative, Bool.and_eq_true]
        refine ⟨by simpa using hd, ?_⟩
        rw [List.all_eq_true]
        intro c hc
        have := List.all_takeWhile (p := Char.isDigit) (l := s)
        rw [List.all_eq_true] at this
        exact this c hc
      · have e := List.takeWhile_append_dropWhile (p := Char.isDigit) (l := s)
        have e2 : s.drop (s.takeWhile Char.isDigit).length = s.dropWhile Char.isDigit := by
          have e3 : ∀ a b : Text, (a ++ b).drop a.length = b := by simp
          have := e3 (s.takeWhile Char.isDigit) (s.dropWhile Char.isDigit)
          rwa [e] at this
        rw [e2] at hr
        rw [List.cons_append]
        congr 1
        conv => lhs; rw [← e, ← hr]
        rfl
    · cases h
  · cases h

theorem negMatch_none {s : Text} (h : negMatch s = none) : Safe [] s := by
  intro u r e
  rw [List.nil_append]
  cases hn : isNegative u with
  | false => rfl
  | true =>
    exfalso
    unfold isNegative at hn
    split at hn
    · rename_i d
      simp only [Bool.and_eq_true, decide_eq_true_eq] at hn
      subst e
      have tw : (d ++ ':' :: ']' :: r).takeWhile Char.isDigit = d := by
        rw [List.takeWhile_append_of_pos (by simpa [List.all_eq_true] using hn.2)]
        rw [List.takeWhile_cons_of_neg (by decide)]
        simp
      simp only [negMatch, List.cons_append, tw, List.drop_left] at h
      rw [if_pos ⟨hn.1, Text.hasPrefix_iff.2 ⟨r, rfl⟩⟩] at h
      cases h
    · cases hn

theorem negativeAux_skip (a b : Text) : negativeAux a.length (a ++ b) = negativeAux 0 b := by
  induction a with
  | nil => rfl
  | cons c a ih => simpa [negativeAux] using ih

theorem negPass_run {i r : Text} (w : Text) (hw : isNegative (w ++ i) = true) :
    negPass (some w) (i ++ ':' :: ']' :: r) = i ++ T ":0]" ++ negPass (some (w ++ i ++ [':', ']'])) r := by
  induction i generalizing w with
  | nil =>
    rw [List.append_nil] at hw
    simp [negPass, hw, T]
  | cons c i ih =>
    have hc : c ≠ '[' ∧ c ≠ ':' := by
      have hm : c ∈ w ++ c :: i := by simp
      unfold isNegative at hw
      split at hw
      · rename_i d hd
        rw [hd] at hm
        simp at hw hm
        rcases hm with rfl | hm
        · decide
        · have := hw.2 c hm
          constructor <;> rintro rfl <;> revert this <;> decide
      · cases hw
    have := ih (w ++ [c]) (by simpa using hw)
    simp only [List.cons_append, negPass, if_neg hc.1, hc.2, false_and, if_false, List.nil_append, Option.map_some]
    rw [this]
    simp

theorem negativeAux_eq (s : Text) (opened : Option Text) (h : ∀ w, opened = some w → Safe w s) : negativeAux 0 s = negPass opened s := by
  have key : ∀ n (s : Text), s.length ≤ n → ∀ opened : Option Text, (∀ w, opened = some w → Safe w s) →
      negativeAux 0 s = negPass opened s := by
    intro n
    induction n with
    | zero =>
      intro s hs o _
      cases s with
      | nil => rfl
      | cons c s => simp at hs
    | succ n ih =>
      intro s hs o h
      cases s with
      | nil => rfl
      | cons c s =>
        simp at hs
        by_cases hc : c = '['
        · subst hc
          simp only [negativeAux, negPass, if_true]
          have e : (('[' : Char) = ':' ∧ s.head? = some ']' ∧ o.any isNegative = true) ↔ False := by simp
          simp only [e, if_false, List.nil_append]
          cases hm : negMatch s with
          | none => simp only; rw [ih s hs (some []) (by intro w hw; cases hw; exact negMatch_none hm)]
          | some i =>
            obtain ⟨h1, r, rfl⟩ := negMatch_some hm
            simp only
            have e2 : i.length + 2 = (i ++ [':', ']']).length := by simp
            have e3 : i ++ ':' :: ']' :: r = (i ++ [':', ']']) ++ r := by simp
            rw [negPass_run [] (by simpa using h1), e3, e2, negativeAux_skip]
            simp at hs
            rw [ih r (by omega) (some ([] ++ i ++ [':', ']']))]
            intro w hw
            cases hw
            exact safe_colon (by simp)
        · simp only [negativeAux, negPass, if_neg hc]
          have e : ¬ (c = ':' ∧ s.head? = some ']' ∧ o.any isNegative = true) := by
            rintro ⟨rfl, h1, h2⟩
            cases o with
            | none => simp at h2
            | some w =>
              cases s with
              | nil => cases h1
              | cons d s =>
                simp at h1 h2
                subst h1
                have := h w rfl [] s rfl
                rw [List.append_nil, h2] at this
                cases this
          rw [if_neg e, ih s hs (o.map (fun w => w ++ [c]))]
          · rfl
          · intro w hw
            cases o with
            | none => cases hw
            | some w' =>
              simp at hw
              subst hw
              exact (h w' rfl).step
  exact key s.length s (Nat.le_refl _) opened h

theorem head_negPass (o : Option Text) (s : Text) : (negPass o s).head? = s.head? := by cases s <;> rfl
theorem head_insert (a b : Char) (x s : Text) : (insertBetween a b x s).head? = s.head? := by cases s <;> rfl

theorem insert_skip {a b : Char} {x t s : Text} (h : a ∉ t) : insertBetween a b x (t ++ s) = t ++ insertBetween a b x s := by
  induction t with
  | nil => rfl
  | cons c t ih =>
    have hc : c ≠ a := fun e => h (by simp [e])
    simp only [List.cons_append, insertBetween, hc, false_and, if_false, List.nil_append]
    rw [ih (fun e => h (by simp [e]))]

theorem indexExpression_eq (s : Text) : indexExpression s = complete s := by
  unfold indexExpression complete
  simp only
  rw [negativeAux_eq s none (by intro w h; cases h)]
  have r1 : ∀ t, Text.replaceAll (T "[]") (T "[0:-1]") t = insertBetween '[' ']' ['0', ':', '-', '1'] t :=
    replaceAll_two (a := '[') (b := ']') (by decide) ['0', ':', '-', '1']
  have r2 : ∀ t, Text.replaceAll (T "[:") (T "[0:") t = insertBetween '[' ':' ['0'] t :=
    replaceAll_two (a := '[') (b := ':') (by decide) ['0']
  have r3 : ∀ t, Text.replaceAll (T ":]") (T ":-1]") t = insertBetween ':' ']' ['-', '1'] t :=
    replaceAll_two (a := ':') (b := ']') (by decide) ['-', '1']
  rw [r1, r2, r3]
  generalize (none : Option Text) = o
  induction s generalizing o with
  | nil => rfl
  | cons c s ih =>
    simp only [negPass, completeFrom, missing]
    by_cases h1 : c = '['
    · subst h1
      have ih := ih (some [])
      cases s with
      | nil => simp [insertBetween, negPass, completeFrom]
      | cons d s =>
        have hh : (negPass (some []) (d :: s)).head? = some d := head_negPass _ _
        simp only [insertBetween, head_negPass, List.head?_cons, true_and, if_true, false_and, if_false, List.nil_append,
          show ('[' : Char) ≠ ':' from by decide, Option.some.injEq] at ih ⊢
        by_cases h2 : d = ']'
        · subst h2
          simp only [if_true, show (']' : Char) ≠ ':' from by decide, if_false]
          simp [T, insertBetween, head_insert, head_negPass, ih]
        · by_cases h3 : d = ':'
          · subst h3
            simp [T, insertBetween, head_insert, head_negPass, ih, h2]
          · simp [h2, h3, ih, head_insert, head_negPass]
    · by_cases h2 : c = ':'
      · subst h2
        have ih := ih (o.map (fun w => w ++ [':']))
        cases s with
        | nil => simp [insertBetween, negPass, completeFrom]
        | cons d s =>
          by_cases h3 : d = ']'
          · subst h3
            by_cases h4 : o.any isNegative = true
            · simp [T, insertBetween, head_insert, head_negPass, ih, h4]
            · simp [T, insertBetween, head_insert, head_negPass, ih, h4]
          · simp [insertBetween, head_insert, head_negPass, ih, h3]
      · simp [insertBetween, h1, h2, ih]

end Verif.Razor
