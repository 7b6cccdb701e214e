import Verif.Lemmas.FloatFor
import Verif.Model.Rounding
/-!
# C99: the functions that round numbers
-/

namespace Verif.Props
open Verif Math F64 Spec Rounding Lemmas

/-- C99. Exactly one floating point number stands for a number, and it is the number itself if this has at most 53 bits. -/
theorem C99_float (q : ℚ) : (∃ x, FloatFor x q ∧ ∀ y, FloatFor y q → y = x) ∧ (IsFloat q → FloatFor q q) :=
  ⟨⟨_, rnd_floatFor q, fun _ h => floatFor_unique h (rnd_floatFor q)⟩, fun h => floatFor_iff.2 (rnd_exact h).symm⟩

example : IsFloat (mkRat (-7) 2) ∧ ¬ FloatFor (mkRat 1 3) (mkRat 1 3) :=
  ⟨⟨-7, -1, by norm_num, by rw [Rat.mkRat_eq_div]; norm_num⟩, fun h => absurd (floatFor_iff.1 h) (by decide +kernel)⟩

/-- C99. For every number, let x be the floating point number it is read as. If x is less than 2^63 in absolute value, floor gives the greatest integer that is not
above x, ceil the least one that is not below, trunc the integer part with its sign, and abs the number without its sign. -/
theorem C99_rounding (q : ℚ) : ∃ x, FloatFor x q ∧ (|x| < 2 ^ 63 →
    (∃ n : Int, floor q = .int n ∧ n ≤ x ∧ x < n + 1) ∧
    (∃ n : Int, ceil q = .int n ∧ n - 1 < x ∧ x ≤ n) ∧
    (∃ n : Int, trunc q = .int n ∧ |(n : ℚ)| ≤ |x| ∧ |x| < |(n : ℚ)| + 1 ∧ 0 ≤ n * x) ∧
    NumberIs (abs q) |x|) := by
  refine ⟨toFloat q, toFloat_stands q, fun hb => ?_⟩
  have hF : IsFloat (toFloat q) := rnd_isF q
  generalize hx : toFloat q = x at hb hF ⊢
  have hb' := abs_lt.1 hb
  have hfl := floor_bounds x
  have hcl := floor_bounds (-x)
  -- the bounds of the integers
  have f1 : -2 ^ 63 ≤ x.floor := by
    rw [Rat.le_floor_iff]; push_cast; linarith [hb'.1]
  have f2 : x.floor < 2 ^ 63 := by
    have : (x.floor : ℚ) < ((2 ^ 63 : Int) : ℚ) := by push_cast; linarith [hb'.2, hfl.1]
    exact_mod_cast this
  have c1 : -2 ^ 63 ≤ -(-x).floor := by
    have : ((-x).floor : ℚ) < ((2 ^ 63 : Int) : ℚ) := by push_cast; linarith [hb'.1, hcl.1]
    have : (-x).floor < 2 ^ 63 := by exact_mod_cast this
    omega
  have c2 : -(-x).floor < 2 ^ 63 := by
    rcases lt_or_ge |x| (2 ^ 53) with h | h
    · have := (abs_lt.1 h).2
      have : ((-2 ^ 53 : Int) : ℚ) ≤ -x := by push_cast; linarith
      have := Rat.le_floor_iff.2 this
      omega
    · obtain ⟨n, rfl⟩ := isFloat_large hF h
      rw [← Int.cast_neg, floor_int]
      have : (n : ℚ) < ((2 ^ 63 : Int) : ℚ) := by push_cast; exact hb'.2
      have : n < 2 ^ 63 := by exact_mod_cast this
      omega
  refine ⟨⟨x.floor, ?_, hfl.1, hfl.2⟩, ⟨-(-x).floor, ?_, ?_, ?_⟩, ⟨goTrunc x, ?_, ?_⟩, ?_⟩
  · unfold floor; rw [hx]; exact simplify_intCast f1 f2
  · unfold ceil; rw [hx]; exact simplify_intCast c1 c2
  · push_cast; linarith [hcl.2]
  · push_cast; linarith [hcl.1]
  · unfold trunc; rw [hx]
    refine simplify_intCast ?_ ?_ <;> unfold goTrunc <;> split <;> assumption
  · unfold goTrunc
    split
    · rename_i hn
      have : 0 ≤ (-x).floor := Rat.le_floor_iff.2 (by push_cast; linarith)
      have h0 : (0 : ℚ) ≤ ((-x).floor : ℚ) := by exact_mod_cast this
      push_cast
      rw [abs_neg, abs_of_nonneg h0, abs_of_neg hn]
      refine ⟨hcl.1, hcl.2, ?_⟩
      nlinarith
    · rename_i hn
      have hn := not_lt.1 hn
      have : 0 ≤ x.floor := Rat.le_floor_iff.2 (by push_cast; linarith)
      have h0 : (0 : ℚ) ≤ (x.floor : ℚ) := by exact_mod_cast this
      rw [abs_of_nonneg h0, abs_of_nonneg hn]
      exact ⟨hfl.1, hfl.2, by positivity⟩
  · unfold Rounding.abs; rw [hx]
    have e : (if x < 0 then -x else x) = |x| := by
      split
      · rename_i h; rw [abs_of_neg h]
      · rename_i h; rw [abs_of_nonneg (not_lt.1 h)]
    rw [e]
    exact simplify_denotes (by rwa [abs_abs])

example : floor (mkRat (-7) 2) = .int (-4) ∧ ceil (mkRat (-7) 2) = .int (-3) ∧ trunc (mkRat (-7) 2) = .int (-3) ∧
    Rounding.abs (mkRat (-7) 2) = .flt (mkRat 7 2) ∧ |((mkRat (-7) 2 : ℚ))| < 2 ^ 63 := by
  refine ⟨by decide +kernel, by decide +kernel, by decide +kernel, by decide +kernel, ?_⟩
  rw [show (mkRat (-7) 2 : ℚ) = -7 / 2 by rw [Rat.mkRat_eq_div]; norm_num]; norm_num [abs_of_neg]

/-- C99. For integers of at most 53 bits nothing is rounded. -/
theorem C99_integers (n : Int) (h : |n| ≤ 2 ^ 53) : floor n = .int n ∧ ceil n = .int n ∧ trunc n = .int n ∧ Rounding.abs n = .int |n| := by
  have hx := toFloat_int h
  have hn : (-(n : ℚ)).floor = -n := by rw [← Int.cast_neg, floor_int]
  refine ⟨?_, ?_, ?_, ?_⟩
  · unfold floor; rw [hx, floor_int]; exact simplify_int h
  · unfold ceil; rw [hx, hn, neg_neg]; exact simplify_int h
  · unfold trunc goTrunc; rw [hx, hn, floor_int, neg_neg, ite_self]; exact simplify_int h
  · unfold Rounding.abs; rw [hx]
    have e : (if (n : ℚ) < 0 then -(n : ℚ) else n) = ((|n| : Int) : ℚ) := by
      split
      · rename_i h; have h : n < 0 := by exact_mod_cast h
        rw [abs_of_neg h]; push_cast; rfl
      · rename_i h; have h : ¬ n < 0 := by exact_mod_cast h
        rw [abs_of_nonneg (not_lt.1 h)]
    rw [e]
    exact simplify_int (by rwa [abs_abs])

example : floor (-12 : Int) = .int (-12) := (C99_integers (-12) (by decide)).1

/-- C99. modf gives two parts whose sum is the number, both of its sign, the first one being an integer and the second less than one. -/
theorem C99_modf (q : ℚ) : ∃ x, FloatFor x q ∧ ∃ (n : Int) (f : ℚ), modf q = (.flt n, .flt f) ∧ x = n + f ∧ |f| < 1 ∧ 0 ≤ n * x ∧ 0 ≤ f * x := by
  refine ⟨toFloat q, toFloat_stands q, goTrunc (toFloat q), toFloat q - goTrunc (toFloat q), rfl, by ring, ?_⟩
  generalize toFloat q = x
  have hfl := floor_bounds x
  have hcl := floor_bounds (-x)
  unfold goTrunc
  split
  · rename_i hn
    have : 0 ≤ (-x).floor := Rat.le_floor_iff.2 (by push_cast; linarith)
    have h0 : (0 : ℚ) ≤ ((-x).floor : ℚ) := by exact_mod_cast this
    push_cast
    refine ⟨abs_lt.2 ⟨by linarith [hcl.2], by linarith [hcl.1]⟩, by nlinarith, by nlinarith [hcl.1]⟩
  · rename_i hn
    have hn := not_lt.1 hn
    have : 0 ≤ x.floor := Rat.le_floor_iff.2 (by push_cast; linarith)
    have h0 : (0 : ℚ) ≤ (x.floor : ℚ) := by exact_mod_cast this
    exact ⟨abs_lt.2 ⟨by linarith [hfl.1], by linarith [hfl.2]⟩, by positivity, mul_nonneg (by linarith [hfl.1]) hn⟩

example : modf (mkRat (-7) 2) = (.flt (-3), .flt (mkRat (-1) 2)) := by decide +kernel

/-- C99. dim gives the difference if it is positive and zero otherwise. -/
theorem C99_dim (a b : ℚ) : ∃ x y d, FloatFor x a ∧ FloatFor y b ∧ (x ≤ y → d = 0) ∧ (y < x → FloatFor d (x - y)) ∧
    (|d| < 2 ^ 63 → NumberIs (dim a b) d) := by
  have hd : ∀ v : ℚ, v = rnd (toFloat a - toFloat b) → dim a b = simplify (if v ≤ 0 then 0 else v) := by rintro v rfl; rfl
  refine ⟨toFloat a, toFloat b, if rnd (toFloat a - toFloat b) ≤ 0 then 0 else rnd (toFloat a - toFloat b), toFloat_stands a, toFloat_stands b, ?_, ?_, ?_⟩
  · intro h
    have := rnd_mono (sub_nonpos.2 h)
    rw [rnd_zero] at this
    rw [if_pos this]
  · intro h
    have := rnd_pos (sub_pos.2 h)
    rw [if_neg (not_le.2 this)]
    exact toFloat_stands (toFloat a - toFloat b)
  · intro h
    rw [hd _ rfl]
    exact simplify_denotes h

example : dim 5 (mkRat 3 2) = .flt (mkRat 7 2) ∧ dim 2 5 = .int 0 := by decide +kernel

/-- Violation: a number just below an integer, with too many digits, is read as this integer. -/
theorem C99_not_digits : ∃ q : ℚ, q < 3 ∧ floor q = .int 3 :=
  ⟨mkRat (3 * 10 ^ 20 - 1) (10 ^ 20), by decide +kernel, by decide +kernel⟩

/-- Violation: from 2^63 on floor, ceil, trunc and abs give the smallest integer. -/
theorem C99_not_large : floor (2 ^ 63) = .int (-2 ^ 63) ∧ ceil (2 ^ 70) = .int (-2 ^ 63) ∧ trunc (10 ^ 30) = .int (-2 ^ 63) ∧
    Rounding.abs (-2 ^ 63) = .int (-2 ^ 63) := by decide +kernel

end Verif.Props
