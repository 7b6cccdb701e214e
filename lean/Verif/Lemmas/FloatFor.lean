import Verif.Lemmas.Math
import Verif.Spec.RoundingSpec
import Mathlib.Tactic.LinearCombination
/-!
# Rounding gives the nearest floating point number, ties going to the even one
-/

namespace Verif.Lemmas
open Verif Math F64 Spec

/-- A floating point number that is not below 2^52 units is a whole number of units. -/
private theorem isFloat_units {y : ℚ} {e : Int} (h : IsFloat y) (hy : 2 ^ 52 * 2 ^ e ≤ y) : ∃ k : Int, y = k * 2 ^ e := by
  obtain ⟨m, e', hm, rfl⟩ := h
  have hm' : (m : ℚ) ≤ 2 ^ 53 := by
    have := (abs_le.1 hm).2
    exact_mod_cast this
  rcases le_or_gt e e' with hle | hgt
  · refine ⟨m * 2 ^ (e' - e).toNat, ?_⟩
    have h1 : (2 : ℚ) ^ e' = 2 ^ (e' - e).toNat * 2 ^ e := by
      rw [← zpow_natCast, ← zpow_add₀ (by norm_num), Int.toNat_of_nonneg (by omega)]; congr 1; omega
    rw [h1]
    push_cast
    ring
  · refine ⟨2 ^ 52, ?_⟩
    have h1 : (2 : ℚ) ^ e' ≤ 2 ^ e / 2 := by
      have : (2 : ℚ) ^ e' ≤ 2 ^ (e - 1) := zpow_le_zpow_right₀ (by norm_num) (by omega)
      rwa [zpow_sub₀ (by norm_num), zpow_one] at this
    have h2 : (m : ℚ) * 2 ^ e' ≤ 2 ^ 52 * 2 ^ e := by
      calc (m : ℚ) * 2 ^ e' ≤ 2 ^ 53 * (2 ^ e / 2) := mul_le_mul hm' h1 (pow_pos' e').le (by positivity)
        _ = 2 ^ 52 * 2 ^ e := by ring
    push_cast
    exact le_antisymm h2 hy

private theorem rdiv_even {a b : Nat} (hb : 0 < b) (h : |(rdiv a b : ℚ) - a / b| = 1 / 2) : rdiv a b % 2 = 0 := by
  have hb' : (0 : ℚ) < b := by exact_mod_cast hb
  have e : (a : ℚ) = (a / b) * b := by field_simp
  have h1 := Nat.div_add_mod a b
  have key : 2 * a + b = 2 * (rdiv a b * b) ∨ 2 * (rdiv a b * b) + b = 2 * a := by
    rcases (abs_eq (by norm_num)).1 h with h | h
    · left
      have : 2 * (a : ℚ) + b = 2 * (rdiv a b * b) := by rw [e]; linear_combination (-2 * (b : ℚ)) * h
      exact_mod_cast this
    · right
      have : 2 * ((rdiv a b : ℚ) * b) + b = 2 * a := by rw [e]; linear_combination (2 * (b : ℚ)) * h
      exact_mod_cast this
  have h2 := Nat.mod_lt a hb
  have tie : 2 * (a % b) = b := by
    rcases rdiv_cases a b with h | h <;> rw [h] at key <;> generalize a / b = q at * <;> generalize a % b = r at *
    · rw [Nat.mul_comm q b] at key; omega
    · rw [Nat.mul_comm (q + 1) b, Nat.mul_add] at key; omega
  unfold rdiv
  simp only
  rw [if_neg (by omega), if_neg (by omega)]
  omega

private theorem floatFor_pos {q : ℚ} (hq : 0 < q) : FloatFor (rnd q) q := by
  have hn : 0 < q.num.natAbs := by have := Rat.num_pos.2 hq; omega
  have hd : 0 < q.den := q.den_pos
  have hqe : (q.num.natAbs : ℚ) / q.den = q := by rw [← rat_abs_eq, abs_of_pos hq]
  obtain ⟨a, b, hb, hab, hr⟩ := rndPos_form q.num.natAbs q.den hd
  obtain ⟨lo, _⟩ := expo_spec hn hd
  have hrange := rdiv_range hn hd hb hab
  rw [← rnd_pos_eq hq] at hr
  rw [hqe] at lo hab
  generalize expo q.num.natAbs q.den = e at *
  have p := pow_pos' e
  have hc := rdiv_closeQ (a := a) hb
  have hv : q = (a : ℚ) / b * 2 ^ e := by rw [hab]; field_simp
  generalize hr' : rdiv a b = r at *
  generalize hv' : (a : ℚ) / b = v at *
  have dist : |rnd q - q| = |(r : ℚ) - v| * 2 ^ e := by rw [hr, hv, ← sub_mul, abs_mul, abs_of_pos p]
  -- the whole numbers of units
  have units : ∀ k : Int, k = r ∨ |rnd q - q| ≤ 1 / 2 * 2 ^ e ∧ 1 / 2 * 2 ^ e ≤ |(k : ℚ) * 2 ^ e - q| := by
    intro k
    by_cases hk : k = r
    · exact .inl hk
    · right
      refine ⟨by rw [dist]; exact mul_le_mul_of_nonneg_right hc p.le, ?_⟩
      rw [hv, ← sub_mul, abs_mul, abs_of_pos p]
      refine mul_le_mul_of_nonneg_right ?_ p.le
      have h1 : (1 : ℚ) ≤ |(k : ℚ) - r| := by
        have : 1 ≤ |k - (r : Int)| := Int.one_le_abs (by omega)
        exact_mod_cast this
      have h2 : |(k : ℚ) - r| ≤ |(k : ℚ) - v| + |(r : ℚ) - v| := by
        have := abs_sub_le (k : ℚ) v r
        rwa [abs_sub_comm v (r : ℚ)] at this
      linarith
  have low : ∀ y, y < 2 ^ 52 * 2 ^ e → |rnd q - q| < |y - q| := by
    intro y hy
    have h0 : |rnd q - q| ≤ |(((2 ^ 52 : Int) : ℚ)) * 2 ^ e - q| := by
      rcases units (2 ^ 52) with h | h
      · rw [hr]
        have : ((2 ^ 52 : Int) : ℚ) = r := by rw [h]; norm_cast
        rw [this]
      · exact h.1.trans h.2
    rw [show ((2 ^ 52 : Int) : ℚ) = 2 ^ 52 by norm_num, abs_sub_comm (2 ^ 52 * 2 ^ e) q, abs_of_nonneg (sub_nonneg.2 lo)] at h0
    rw [abs_sub_comm y q, abs_of_pos (show 0 < q - y from sub_pos.2 (lt_of_lt_of_le hy lo))]
    generalize |rnd q - q| = d at *
    generalize (2 : ℚ) ^ 52 * 2 ^ e = u at *
    linarith
  refine ⟨rnd_isF q, ?_, ?_, ?_⟩
  · intro y hy
    rcases lt_or_ge y (2 ^ 52 * 2 ^ e) with h | h
    · exact (low y h).le
    · obtain ⟨k, rfl⟩ := isFloat_units hy h
      rcases units k with h | h
      · rw [hr, h]; norm_cast
      · exact h.1.trans h.2
  · intro y hy hne heq
    rcases lt_or_ge y (2 ^ 52 * 2 ^ e) with h | h
    · exact absurd heq (low y h).ne
    · obtain ⟨k, rfl⟩ := isFloat_units hy h
      rcases units k with h | h
      · exact absurd (by rw [hr, h]; norm_cast) hne
      · rw [← heq] at h
        have h12 : |(r : ℚ) - v| = 1 / 2 := by
          have : |(r : ℚ) - v| * 2 ^ e = 1 / 2 * 2 ^ e := by rw [← dist]; exact le_antisymm h.1 h.2
          exact mul_right_cancel₀ p.ne' this
        have hev : r % 2 = 0 := by
          rw [← hr']
          exact rdiv_even hb (by rw [hr', hv']; exact h12)
        refine ⟨(r / 2 : Nat), e, ?_, ?_, ?_⟩
        · rw [abs_of_nonneg (by positivity)]; have := hrange.1; omega
        · rw [abs_of_nonneg (by positivity)]; have := hrange.2; omega
        · rw [hr]
          congr 1
          have : r = 2 * (r / 2) := by omega
          have : (r : Int) = 2 * ((r / 2 : Nat) : Int) := by omega
          exact_mod_cast this
  · have h := rnd_close' q
    have : (2 : ℚ) ^ 53 = 9007199254740992 := by norm_num
    rw [this]
    linarith

private theorem floatFor_neg {x q : ℚ} (h : FloatFor x q) : FloatFor (-x) (-q) := by
  have dist : ∀ y : ℚ, |-y - -q| = |y - q| := fun y => by rw [← neg_sub_neg, neg_neg, neg_neg, abs_sub_comm]
  have neg : ∀ {y}, IsFloat y → IsFloat (-y) := by
    rintro _ ⟨m, e, hm, rfl⟩
    exact ⟨-m, e, by rwa [abs_neg], by push_cast; ring⟩
  refine ⟨neg h.1, fun y hy => ?_, fun y hy hne he => ?_, ?_⟩
  · have := h.2.1 _ (neg hy)
    rw [dist]
    rwa [← dist (-y), neg_neg] at this
  · obtain ⟨m, e, h1, h2, h3⟩ := h.2.2.1 _ (neg hy) (fun hc => hne (by rw [← hc, neg_neg])) (by rw [← dist x, he, ← dist (-y), neg_neg])
    exact ⟨-m, e, by rwa [abs_neg], by rwa [abs_neg], by rw [h3]; push_cast; ring⟩
  · rw [dist, abs_neg]; exact h.2.2.2

theorem rnd_floatFor (q : ℚ) : FloatFor (rnd q) q := by
  rcases lt_trichotomy q 0 with h | h | h
  · have := floatFor_neg (floatFor_pos (neg_pos.2 h))
    rwa [rnd_neg, neg_neg, neg_neg] at this
  · subst h
    rw [rnd_zero]
    refine ⟨⟨0, 0, by norm_num, by norm_num⟩, fun y _ => by simp, fun y _ hne he => ?_, by simp⟩
    simp only [sub_zero, abs_zero] at he
    exact absurd (abs_eq_zero.1 he.symm) hne
  · exact floatFor_pos h

/-- An even floating point number has a whole even number of units, less than 2^53. -/
private theorem even_units {x : ℚ} (h : EvenFloat x) : ∃ (n e : Int), 2 ^ 52 ≤ |2 * n| ∧ |2 * n| < 2 ^ 53 ∧ x = (2 * n : Int) * 2 ^ e := by
  obtain ⟨m, e, h1, h2, rfl⟩ := h
  rcases lt_or_eq_of_le h2 with h | h
  · exact ⟨m, e, by rw [abs_mul]; norm_num; omega, by rw [abs_mul]; norm_num; omega, rfl⟩
  · have e2 : (2 : ℚ) ^ (e + 1) = 2 ^ e * 2 := by rw [zpow_add₀ (by norm_num), zpow_one]
    rcases (abs_eq (by norm_num)).1 h with rfl | rfl
    · exact ⟨2 ^ 51, e + 1, by norm_num, by norm_num, by rw [e2]; push_cast; ring⟩
    · exact ⟨-2 ^ 51, e + 1, by norm_num, by norm_num, by rw [e2]; push_cast; ring⟩

/-- Between two even floating point numbers, the first one with the smaller unit, there is another one. -/
private theorem between {n n' e e' : Int} (h2 : |2 * n| < 2 ^ 53) (he : e ≤ e')
    (hne : ((2 * n : Int) : ℚ) * 2 ^ e ≠ (2 * n' : Int) * 2 ^ e') :
    ∃ y, IsFloat y ∧ |y - ((2 * n : Int) : ℚ) * 2 ^ e| + |(2 * n' : Int) * 2 ^ e' - y| = |(2 * n' : Int) * 2 ^ e' - ((2 * n : Int) : ℚ) * 2 ^ e| ∧
      y ≠ (2 * n : Int) * 2 ^ e ∧ y ≠ (2 * n' : Int) * 2 ^ e' := by
  obtain ⟨d, hd⟩ : ∃ d : Nat, e' = e + d := ⟨(e' - e).toNat, by omega⟩
  subst hd
  have hp : (2 : ℚ) ^ (e + d) = 2 ^ d * 2 ^ e := by rw [zpow_add₀ (by norm_num), zpow_natCast, mul_comm]
  have p := pow_pos' e
  have hx' : (((2 * n' : Int) : ℚ)) * 2 ^ (e + (d : Int)) = ((2 * (n' * 2 ^ d) : Int) : ℚ) * 2 ^ e := by rw [hp]; push_cast; ring
  rw [hx'] at hne ⊢
  generalize n' * 2 ^ d = k at *
  have hnk : n ≠ k := fun h => hne (by rw [h])
  have hab := abs_lt.1 h2
  have main : ∀ s : Int, |2 * n + s| ≤ 2 ^ 53 → |s| + |2 * k - (2 * n + s)| = |2 * k - 2 * n| → s ≠ 0 → 2 * n + s ≠ 2 * k →
      ∃ y, IsFloat y ∧ |y - ((2 * n : Int) : ℚ) * 2 ^ e| + |(2 * k : Int) * 2 ^ e - y| = |(2 * k : Int) * 2 ^ e - ((2 * n : Int) : ℚ) * 2 ^ e| ∧
      y ≠ (2 * n : Int) * 2 ^ e ∧ y ≠ (2 * k : Int) * 2 ^ e := by
    intro s hs hsum h0 hk
    refine ⟨((2 * n + s : Int) : ℚ) * 2 ^ e, ⟨_, _, hs, rfl⟩, ?_, ?_, ?_⟩
    · rw [← sub_mul, ← sub_mul, ← sub_mul, abs_mul, abs_mul, abs_mul, abs_of_pos p, ← add_mul]
      congr 1
      have e1 : ((2 * n + s : Int) : ℚ) - ((2 * n : Int) : ℚ) = (s : Int) := by push_cast; ring
      rw [e1]
      exact_mod_cast hsum
    · intro h
      have := mul_right_cancel₀ p.ne' h
      have : 2 * n + s = 2 * n := by exact_mod_cast this
      omega
    · intro h
      have := mul_right_cancel₀ p.ne' h
      exact hk (by exact_mod_cast this)
  rcases lt_or_gt_of_ne hnk with h | h
  · refine main 1 (abs_le.2 ⟨by omega, by omega⟩) ?_ (by omega) (by omega)
    rw [abs_of_nonneg (a := 2 * k - (2 * n + 1)) (by omega), abs_of_nonneg (a := 2 * k - 2 * n) (by omega)]
    norm_num
    omega
  · refine main (-1) (abs_le.2 ⟨by omega, by omega⟩) ?_ (by omega) (by omega)
    rw [abs_of_nonpos (a := 2 * k - (2 * n + -1)) (by omega), abs_of_nonpos (a := 2 * k - 2 * n) (by omega)]
    norm_num
    omega

/-- Only one floating point number stands for a number. -/
theorem floatFor_unique {x x' q : ℚ} (h : FloatFor x q) (h' : FloatFor x' q) : x = x' := by
  by_contra hne
  have heq : |x - q| = |x' - q| := le_antisymm (h.2.1 _ h'.1) (h'.2.1 _ h.1)
  obtain ⟨n, e, _, hn, hx⟩ := even_units (h.2.2.1 x' h'.1 (Ne.symm hne) heq)
  obtain ⟨n', e', _, hn', hx'⟩ := even_units (h'.2.2.1 x h.1 hne heq.symm)
  have hy : ∃ y, IsFloat y ∧ |y - x| + |x' - y| = |x' - x| ∧ y ≠ x ∧ y ≠ x' := by
    rcases le_total e e' with hle | hle
    · obtain ⟨y, h1, h2, h3, h4⟩ := between hn hle (by rw [← hx, ← hx']; exact hne)
      rw [← hx, ← hx'] at h2
      rw [← hx] at h3
      rw [← hx'] at h4
      exact ⟨y, h1, h2, h3, h4⟩
    · obtain ⟨y, h1, h2, h3, h4⟩ := between hn' hle (by rw [← hx, ← hx']; exact Ne.symm hne)
      rw [← hx, ← hx'] at h2
      rw [← hx'] at h3
      rw [← hx] at h4
      exact ⟨y, h1, by rw [abs_sub_comm y x, abs_sub_comm x' y, abs_sub_comm x' x, add_comm]; exact h2, h4, h3⟩
  obtain ⟨y, hf, hsum, hyx, hyx'⟩ := hy
  have c := h.2.1 y hf
  have mid : x + x' = 2 * q := by
    rcases abs_eq_abs.1 heq with h | h
    · exact absurd (by linarith) hne
    · linarith
  have p1 : 0 < |y - x| := abs_pos.2 (sub_ne_zero.2 hyx)
  have p2 : 0 < |x' - y| := abs_pos.2 (sub_ne_zero.2 (Ne.symm hyx'))
  have hq : q = (x + x') / 2 := by linarith
  subst hq
  rcases lt_or_gt_of_ne hne with hlt | hlt
  · rw [abs_of_pos (a := x' - x) (by linarith)] at hsum
    rw [abs_of_neg (a := x - (x + x') / 2) (by linarith)] at c
    rcases le_abs.1 c with c | c
    · have := le_abs_self (y - x); have := neg_abs_le (x' - y); linarith [le_abs_self (x' - y)]
    · linarith [neg_abs_le (y - x), le_abs_self (x' - y)]
  · rw [abs_of_neg (a := x' - x) (by linarith)] at hsum
    rw [abs_of_pos (a := x - (x + x') / 2) (by linarith)] at c
    rcases le_abs.1 c with c | c
    · linarith [le_abs_self (y - x), neg_abs_le (x' - y)]
    · linarith [neg_abs_le (y - x), neg_abs_le (x' - y)]

theorem floatFor_iff {x q : ℚ} : FloatFor x q ↔ x = rnd q :=
  ⟨fun h => floatFor_unique h (rnd_floatFor q), fun h => h ▸ rnd_floatFor q⟩

theorem toFloat_stands (q : ℚ) : FloatFor (toFloat q) q := rnd_floatFor q

theorem isFloat_large {x : ℚ} (h : IsFloat x) (hx : 2 ^ 53 ≤ |x|) : ∃ n : Int, (n : ℚ) = x := by
  obtain ⟨m, e, hm, rfl⟩ := h
  rcases lt_or_ge e 0 with he | he
  · exfalso
    rw [abs_mul, abs_of_pos (pow_pos' e)] at hx
    have h1 : (2 : ℚ) ^ e ≤ 2 ^ (-1 : Int) := zpow_le_zpow_right₀ (by norm_num) (by omega)
    have h2 : |(m : ℚ)| ≤ 2 ^ 53 := by exact_mod_cast hm
    have h3 : (2 : ℚ) ^ (-1 : Int) = 1 / 2 := by norm_num
    have h4 := mul_le_mul h2 h1 (le_of_lt (pow_pos' e)) (by norm_num)
    rw [h3] at h4
    norm_num at h4 hx
    linarith
  · obtain ⟨k, rfl⟩ := Int.eq_ofNat_of_zero_le he
    exact ⟨m * 2 ^ k, by push_cast; simp⟩

theorem simplify_intCast {n : Int} (h1 : -2 ^ 63 ≤ n) (h2 : n < 2 ^ 63) : simplify (n : ℚ) = .int n := by
  unfold simplify
  rw [floor_int, if_pos rfl, toInt64_int h1 h2]

theorem simplify_denotes {x : ℚ} (h : |x| < 2 ^ 63) : NumberIs (simplify x) x := by
  by_cases hi : ∃ n : Int, (n : ℚ) = x
  · obtain ⟨n, rfl⟩ := hi
    rw [← Int.cast_abs] at h
    have h' : |n| < 2 ^ 63 := by exact_mod_cast h
    have := abs_lt.1 h'
    exact .inl ⟨n, rfl, simplify_intCast (by omega) (by omega)⟩
  · refine .inr ⟨fun n hn => hi ⟨n, hn⟩, ?_⟩
    unfold simplify
    rw [if_neg fun hf => hi ⟨_, hf⟩]

theorem floor_bounds (x : ℚ) : (x.floor : ℚ) ≤ x ∧ x < x.floor + 1 :=
  ⟨Rat.floor_le x, by exact_mod_cast Rat.lt_floor_add_one x⟩

end Verif.Lemmas
