import Verif.Model.Float64
import Mathlib.Algebra.Order.Field.Rat
import Mathlib.Algebra.Order.Field.Power
import Mathlib.Tactic.Linarith
import Mathlib.Tactic.FieldSimp
import Mathlib.Tactic.Positivity
import Mathlib.Tactic.Ring
import Mathlib.Tactic.NormNum
import Mathlib.Tactic.Push
/-!
# Floating point rounding

Rounding leaves the representable numbers unchanged, is monotone, and has a relative error of at most `2 ^ -53`.
-/

namespace Verif.F64

theorem rdiv_close {a b : Nat} (hb : 0 < b) :
    2 * a ≤ 2 * (rdiv a b * b) + b ∧ 2 * (rdiv a b * b) ≤ 2 * a + b := by
  have h1 := Nat.div_add_mod a b
  have h2 := Nat.mod_lt a hb
  unfold rdiv
  set q := a / b
  set r := a % b
  have hq : q * b + r = a := by rw [Nat.mul_comm]; exact h1
  simp only
  split
  · constructor <;> omega
  · split
    · rw [Nat.add_mul]; constructor <;> omega
    · rcases Nat.mod_two_eq_zero_or_one q with h | h <;> rw [h, Nat.add_mul] <;> constructor <;> omega

theorem rdiv_exact {b : Nat} (q : Nat) (hb : 0 < b) : rdiv (q * b) b = q := by
  unfold rdiv
  simp [Nat.mul_div_cancel _ hb, Nat.mul_mod_left, hb]

theorem rdiv_bounds (a b : Nat) : a / b ≤ rdiv a b ∧ rdiv a b ≤ a / b + 1 := by
  unfold rdiv
  simp only
  split
  · omega
  · split <;> omega

theorem rdiv_cases (a b : Nat) : rdiv a b = a / b ∨ rdiv a b = a / b + 1 := by
  have := rdiv_bounds a b
  omega

theorem rdiv_mono {a b a' b' : Nat} (hb : 0 < b) (hb' : 0 < b') (h : a * b' ≤ a' * b) : rdiv a b ≤ rdiv a' b' := by
  have hq : a / b ≤ a' / b' := by
    rw [Nat.le_div_iff_mul_le hb']
    have h1 := Nat.div_mul_le_self a b
    have : a / b * b' * b ≤ a' * b := by
      calc a / b * b' * b = (a / b * b) * b' := by ring
        _ ≤ a * b' := Nat.mul_le_mul_right _ h1
        _ ≤ a' * b := h
    exact Nat.le_of_mul_le_mul_right this hb
  rcases Nat.lt_or_ge (a / b) (a' / b') with hlt | hge
  · exact (rdiv_bounds a b).2.trans (hlt.trans_le (rdiv_bounds a' b').1)
  · have heq : a / b = a' / b' := Nat.le_antisymm hq hge
    have h1 := Nat.div_add_mod a b
    have h2 := Nat.div_add_mod a' b'
    have hr : (a % b) * b' ≤ (a' % b') * b := by
      have e1 : a * b' = b * b' * (a / b) + (a % b) * b' := by conv => lhs; rw [← h1]
                                                               ring
      have e2 : a' * b = b * b' * (a' / b') + (a' % b') * b := by conv => lhs; rw [← h2]
                                                                  ring
      rw [e1, e2, heq] at h
      omega
    unfold rdiv
    simp only
    rw [← heq]
    generalize a % b = r at *
    generalize a' % b' = r' at *
    generalize a / b = q at *
    split
    · split
      · omega
      · split <;> omega
    · rename_i n1
      split
      · rename_i n2
        have c1 : b' * b < 2 * r' * b := by nlinarith
        have c2 : b' < 2 * r' := Nat.lt_of_mul_lt_mul_right c1
        rw [if_neg (by omega), if_pos c2]
      · have c0 : 2 * r = b := by omega
        have c1 : b' * b ≤ 2 * r' * b := by nlinarith
        have c2 : b' ≤ 2 * r' := Nat.le_of_mul_le_mul_right c1 hb
        rw [if_neg (by omega)]
        split <;> omega

theorem ltPow_iff {n d : Nat} (hd : 0 < d) (k : Int) : ltPow n d k = true ↔ (n : ℚ) / d < 2 ^ k := by
  have hd' : (0 : ℚ) < d := by exact_mod_cast hd
  cases k with
  | ofNat k =>
    simp only [ltPow, decide_eq_true_eq, Int.ofNat_eq_natCast, zpow_natCast]
    rw [div_lt_iff₀ hd', mul_comm]
    exact_mod_cast Iff.rfl
  | negSucc k =>
    simp only [ltPow, decide_eq_true_eq, zpow_negSucc]
    rw [div_lt_iff₀ hd', inv_mul_eq_div, lt_div_iff₀ (by positivity)]
    exact_mod_cast Iff.rfl

theorem expo_spec {n d : Nat} (hn : 0 < n) (hd : 0 < d) :
    (2 : ℚ) ^ 52 * 2 ^ (expo n d) ≤ (n : ℚ) / d ∧ (n : ℚ) / d < 2 ^ 53 * 2 ^ (expo n d) := by
  have hd' : (0 : ℚ) < d := by exact_mod_cast hd
  have n1 : 2 ^ Nat.log2 n ≤ n := Nat.log2_self_le (by omega)
  have n2 : n < 2 ^ (Nat.log2 n + 1) := Nat.lt_log2_self
  have d1 : 2 ^ Nat.log2 d ≤ d := Nat.log2_self_le (by omega)
  have d2 : d < 2 ^ (Nat.log2 d + 1) := Nat.lt_log2_self
  have n1' : (2 : ℚ) ^ Nat.log2 n ≤ n := by exact_mod_cast n1
  have n2' : (n : ℚ) < 2 ^ (Nat.log2 n + 1) := by exact_mod_cast n2
  have d1' : (2 : ℚ) ^ Nat.log2 d ≤ d := by exact_mod_cast d1
  have d2' : (d : ℚ) < 2 ^ (Nat.log2 d + 1) := by exact_mod_cast d2
  have two : (2 : ℚ) ≠ 0 := by norm_num
  have lo : (2 : ℚ) ^ ((Nat.log2 n : Int) - Nat.log2 d - 1) ≤ (n : ℚ) / d := by
    rw [le_div_iff₀ hd', sub_sub, zpow_sub₀ two, zpow_natCast]
    have : (2 : ℚ) ^ ((Nat.log2 d : Int) + 1) = 2 ^ (Nat.log2 d + 1) := by exact_mod_cast rfl
    rw [this, div_mul_eq_mul_div, div_le_iff₀ (by positivity)]
    exact mul_le_mul n1' d2'.le hd'.le (by positivity)
  have hi : (n : ℚ) / d < 2 ^ ((Nat.log2 n : Int) - Nat.log2 d + 1) := by
    rw [div_lt_iff₀ hd', show (Nat.log2 n : Int) - Nat.log2 d + 1 = (Nat.log2 n + 1 : Int) - Nat.log2 d by ring,
      zpow_sub₀ two, zpow_natCast]
    have : (2 : ℚ) ^ ((Nat.log2 n : Int) + 1) = 2 ^ (Nat.log2 n + 1) := by exact_mod_cast rfl
    rw [this, div_mul_eq_mul_div, lt_div_iff₀ (by positivity)]
    exact mul_lt_mul n2' d1' (by positivity) (by positivity)
  unfold expo
  simp only
  set e : Int := (Nat.log2 n : Int) - Nat.log2 d
  have c1 : ∀ k : Int, (2 : ℚ) ^ 52 * 2 ^ k = 2 ^ (k + 52) := fun k => by
    rw [zpow_add₀ two, mul_comm]; norm_cast
  have c2 : ∀ k : Int, (2 : ℚ) ^ 53 * 2 ^ k = 2 ^ (k + 53) := fun k => by
    rw [zpow_add₀ two, mul_comm]; norm_cast
  rw [c1, c2]
  split
  · rename_i h
    rw [ltPow_iff hd] at h
    rw [show e - 53 + 52 = e - 1 by ring, show e - 53 + 53 = e by ring]
    exact ⟨lo, h⟩
  · rename_i h
    rw [Bool.not_eq_true, ← Bool.not_eq_true, ltPow_iff hd, not_lt] at h
    rw [show e - 52 + 52 = e by ring, show e - 52 + 53 = e + 1 by ring]
    exact ⟨h, hi⟩

theorem rndPos_form (n d : Nat) (hd : 0 < d) :
    ∃ a b : Nat, 0 < b ∧ (a : ℚ) / b = (n : ℚ) / d / 2 ^ (expo n d) ∧ rndPos n d = rdiv a b * 2 ^ (expo n d) := by
  unfold rndPos
  cases expo n d with
  | ofNat k =>
    refine ⟨n, d * 2 ^ k, by positivity, ?_, ?_⟩
    · simp only [Int.ofNat_eq_natCast, zpow_natCast]
      push_cast
      rw [div_div]
    · simp only [Int.ofNat_eq_natCast, zpow_natCast]
      push_cast
      rfl
  | negSucc k =>
    refine ⟨n * 2 ^ (k + 1), d, hd, ?_, ?_⟩
    · simp only [zpow_negSucc]
      push_cast
      field_simp
    · simp only [zpow_negSucc]
      rw [Rat.mkRat_eq_div]
      push_cast
      rfl

/-- The representable numbers: a mantissa of at most 53 bits and any exponent. -/
def IsF (x : ℚ) : Prop := ∃ m e : Int, |m| ≤ 2 ^ 53 ∧ x = m * 2 ^ e

theorem pow_pos' (e : Int) : (0 : ℚ) < 2 ^ e := by positivity

theorem rndPos_exact {n d : Nat} (hn : 0 < n) (hd : 0 < d) (h : IsF ((n : ℚ) / d)) : rndPos n d = (n : ℚ) / d := by
  obtain ⟨a, b, hb, hab, hr⟩ := rndPos_form n d hd
  obtain ⟨lo, hi⟩ := expo_spec hn hd
  obtain ⟨m, e', hm, hx⟩ := h
  set e := expo n d
  have hb' : (0 : ℚ) < b := by exact_mod_cast hb
  have hx0 : (0 : ℚ) < (n : ℚ) / d := by positivity
  have hm0 : 0 < m := by
    have : (0 : ℚ) < m := by
      by_contra hneg
      have := mul_nonpos_of_nonpos_of_nonneg (not_lt.1 hneg) (pow_pos' e').le
      rw [← hx] at this
      exact absurd hx0 (not_lt.2 this)
    exact_mod_cast this
  have hm' : (m : ℚ) ≤ 2 ^ 53 := by
    have := (abs_le.1 hm).2
    exact_mod_cast this
  -- the scaled value is an integer
  have key : ∃ q : Nat, (n : ℚ) / d / 2 ^ e = q := by
    rcases le_or_gt e e' with hle | hgt
    · refine ⟨(m * 2 ^ (e' - e).toNat).toNat, ?_⟩
      have h1 : (2 : ℚ) ^ e' = 2 ^ (e' - e).toNat * 2 ^ e := by
        rw [← zpow_natCast, ← zpow_add₀ (by norm_num), Int.toNat_of_nonneg (by omega)]; congr 1; omega
      have h2 : ((m * 2 ^ (e' - e).toNat).toNat : Int) = m * 2 ^ (e' - e).toNat :=
        Int.toNat_of_nonneg (by positivity)
      have h3 : (((m * 2 ^ (e' - e).toNat).toNat : Nat) : ℚ) = m * 2 ^ (e' - e).toNat := by exact_mod_cast h2
      rw [h3, hx, h1, ← mul_assoc, mul_div_assoc, div_self (pow_pos' e).ne', mul_one]
    · refine ⟨2 ^ 52, ?_⟩
      have h1 : (2 : ℚ) ^ e' ≤ 2 ^ e / 2 := by
        have : (2 : ℚ) ^ e' ≤ 2 ^ (e - 1) := zpow_le_zpow_right₀ (by norm_num) (by omega)
        rwa [zpow_sub₀ (by norm_num), zpow_one] at this
      have h2 : (n : ℚ) / d ≤ 2 ^ 52 * 2 ^ e := by
        rw [hx]
        calc (m : ℚ) * 2 ^ e' ≤ 2 ^ 53 * (2 ^ e / 2) := mul_le_mul hm' h1 (pow_pos' e').le (by positivity)
          _ = 2 ^ 52 * 2 ^ e := by ring
      have h3 : (n : ℚ) / d = 2 ^ 52 * 2 ^ e := le_antisymm h2 lo
      rw [h3, mul_div_assoc, div_self (pow_pos' e).ne']; norm_num
  obtain ⟨q, hq⟩ := key
  have haq : a = q * b := by
    rw [hq, div_eq_iff hb'.ne'] at hab
    exact_mod_cast hab
  rw [hr, haq, rdiv_exact q hb, ← hq, div_mul_cancel₀ _ (pow_pos' e).ne']

theorem rdiv_closeQ {a b : Nat} (hb : 0 < b) : |(rdiv a b : ℚ) - a / b| ≤ 1 / 2 := by
  have hb' : (0 : ℚ) < b := by exact_mod_cast hb
  obtain ⟨h1, h2⟩ := rdiv_close (a := a) hb
  have h1' : 2 * (a : ℚ) ≤ 2 * (rdiv a b * b) + b := by exact_mod_cast h1
  have h2' : 2 * ((rdiv a b : ℚ) * b) ≤ 2 * a + b := by exact_mod_cast h2
  rw [abs_le]
  have e : (a : ℚ) = (a / b) * b := by field_simp
  set x : ℚ := (a : ℚ) / b
  rw [e] at h1' h2'
  constructor <;> nlinarith

theorem rndPos_close {n d : Nat} (hn : 0 < n) (hd : 0 < d) :
    |rndPos n d - (n : ℚ) / d| ≤ (n : ℚ) / d * 2 ^ (-53 : Int) := by
  obtain ⟨a, b, hb, hab, hr⟩ := rndPos_form n d hd
  obtain ⟨lo, hi⟩ := expo_spec hn hd
  set e := expo n d
  have h := rdiv_closeQ (a := a) hb
  rw [hab] at h
  have p := pow_pos' e
  have e1 : (n : ℚ) / d = (n : ℚ) / d / 2 ^ e * 2 ^ e := by field_simp
  rw [hr]
  conv => lhs; rw [e1]
  rw [← sub_mul, abs_mul, abs_of_pos p]
  calc |(rdiv a b : ℚ) - (n : ℚ) / d / 2 ^ e| * 2 ^ e ≤ 1 / 2 * 2 ^ e := mul_le_mul_of_nonneg_right h p.le
    _ = (2 ^ 52 * 2 ^ e) * 2 ^ (-53 : Int) := by norm_num; ring
    _ ≤ (n : ℚ) / d * 2 ^ (-53 : Int) := mul_le_mul_of_nonneg_right lo (by positivity)

theorem rdiv_range {n d a b : Nat} (hn : 0 < n) (hd : 0 < d) (hb : 0 < b)
    (hab : (a : ℚ) / b = (n : ℚ) / d / 2 ^ (expo n d)) : 2 ^ 52 ≤ rdiv a b ∧ rdiv a b ≤ 2 ^ 53 := by
  obtain ⟨lo, hi⟩ := expo_spec hn hd
  have hb' : (0 : ℚ) < b := by exact_mod_cast hb
  have p := pow_pos' (expo n d)
  have l1 : (2 : ℚ) ^ 52 ≤ a / b := by rw [hab, le_div_iff₀ p]; exact lo
  have l2 : (a : ℚ) / b ≤ 2 ^ 53 := by rw [hab, div_le_iff₀ p]; exact hi.le
  constructor
  · have := rdiv_exact (b := 1) (2 ^ 52) (by norm_num)
    rw [← this]
    apply rdiv_mono (by norm_num) hb
    rw [le_div_iff₀ hb'] at l1
    have : 2 ^ 52 * b ≤ a := by exact_mod_cast l1
    omega
  · have := rdiv_exact (b := 1) (2 ^ 53) (by norm_num)
    rw [← this]
    apply rdiv_mono hb (by norm_num)
    rw [div_le_iff₀ hb'] at l2
    have : a ≤ 2 ^ 53 * b := by exact_mod_cast l2
    omega

theorem rndPos_isF {n d : Nat} (hn : 0 < n) (hd : 0 < d) : IsF (rndPos n d) := by
  obtain ⟨a, b, hb, hab, hr⟩ := rndPos_form n d hd
  refine ⟨rdiv a b, expo n d, ?_, ?_⟩
  · have := (rdiv_range hn hd hb hab).2
    rw [abs_of_nonneg (by positivity)]
    exact_mod_cast this
  · rw [hr]; norm_cast

theorem rndPos_pos {n d : Nat} (hn : 0 < n) (hd : 0 < d) : 0 < rndPos n d := by
  obtain ⟨a, b, hb, hab, hr⟩ := rndPos_form n d hd
  have := (rdiv_range hn hd hb hab).1
  rw [hr]
  have : (0 : ℚ) < rdiv a b := by
    have : 0 < rdiv a b := by omega
    exact_mod_cast this
  positivity

theorem rndPos_mono {n d n' d' : Nat} (hn : 0 < n) (hd : 0 < d) (hn' : 0 < n') (hd' : 0 < d')
    (h : (n : ℚ) / d ≤ (n' : ℚ) / d') : rndPos n d ≤ rndPos n' d' := by
  obtain ⟨a, b, hb, hab, hr⟩ := rndPos_form n d hd
  obtain ⟨a', b', hb', hab', hr'⟩ := rndPos_form n' d' hd'
  obtain ⟨lo, hi⟩ := expo_spec hn hd
  obtain ⟨lo', hi'⟩ := expo_spec hn' hd'
  have range := rdiv_range hn hd hb hab
  have range' := rdiv_range hn' hd' hb' hab'
  rw [hr, hr']
  have hle : expo n d ≤ expo n' d' := by
    by_contra hgt
    have : (2 : ℚ) ^ 53 * 2 ^ (expo n' d') ≤ 2 ^ 52 * 2 ^ (expo n d) := by
      have h1 : (2 : ℚ) ^ (expo n' d') ≤ 2 ^ (expo n d - 1) := zpow_le_zpow_right₀ (by norm_num) (by omega)
      rw [zpow_sub₀ (by norm_num), zpow_one] at h1
      linarith
    linarith
  rcases eq_or_lt_of_le hle with heq | hlt
  · rw [heq] at hab ⊢
    have hbq : (0 : ℚ) < b := by exact_mod_cast hb
    have hbq' : (0 : ℚ) < b' := by exact_mod_cast hb'
    have h1 : (a : ℚ) / b ≤ a' / b' := by
      rw [hab, hab']; exact div_le_div_of_nonneg_right h (pow_pos' _).le
    rw [div_le_div_iff₀ hbq hbq'] at h1
    have h2 : rdiv a b ≤ rdiv a' b' := rdiv_mono hb hb' (by exact_mod_cast h1)
    exact mul_le_mul_of_nonneg_right (by exact_mod_cast h2) (pow_pos' _).le
  · have h1 : (2 : ℚ) ^ (expo n d) ≤ 2 ^ (expo n' d' - 1) := zpow_le_zpow_right₀ (by norm_num) (by omega)
    rw [zpow_sub₀ (by norm_num), zpow_one] at h1
    have r1 : (rdiv a b : ℚ) ≤ 2 ^ 53 := by exact_mod_cast range.2
    have r2 : (2 : ℚ) ^ 52 ≤ rdiv a' b' := by exact_mod_cast range'.1
    calc (rdiv a b : ℚ) * 2 ^ (expo n d) ≤ 2 ^ 53 * (2 ^ (expo n' d') / 2) :=
          mul_le_mul r1 h1 (pow_pos' _).le (by positivity)
      _ = 2 ^ 52 * 2 ^ (expo n' d') := by ring
      _ ≤ rdiv a' b' * 2 ^ (expo n' d') := mul_le_mul_of_nonneg_right r2 (pow_pos' _).le

/-! ## Signed numbers -/

theorem rat_abs_eq (q : ℚ) : |q| = (q.num.natAbs : ℚ) / q.den := by
  conv => lhs; rw [← Rat.num_div_den q]
  rw [abs_div, Nat.abs_cast]
  congr 1
  rw [← Int.cast_abs, Int.abs_eq_natAbs]; simp

theorem rnd_zero : rnd 0 = 0 := by decide +kernel

theorem rnd_pos_eq {q : ℚ} (h : 0 < q) : rnd q = rndPos q.num.natAbs q.den := by
  have := Rat.num_pos.2 h
  unfold rnd
  rw [if_neg (by omega), if_neg (by omega)]

theorem rnd_neg (q : ℚ) : rnd (-q) = -rnd q := by
  unfold rnd
  rw [show (-q).num = -q.num from rfl, show (-q).den = q.den from rfl, Int.natAbs_neg]
  rcases lt_trichotomy q.num 0 with h | h | h
  · rw [if_neg (by omega), if_neg (by omega), if_neg (by omega), if_pos h, neg_neg]
  · rw [if_pos (by omega), if_pos h]; simp
  · rw [if_neg (by omega), if_pos (by omega), if_neg (by omega), if_neg (by omega)]

theorem frac_eq {q : ℚ} (h : 0 < q) : (q.num.natAbs : ℚ) / q.den = q := by rw [← rat_abs_eq, abs_of_pos h]

theorem natAbs_pos {q : ℚ} (h : 0 < q) : 0 < q.num.natAbs := by
  have := Rat.num_pos.2 h
  omega

theorem IsF.neg {x : ℚ} (h : IsF x) : IsF (-x) := by
  obtain ⟨m, e, hm, hx⟩ := h
  exact ⟨-m, e, by rwa [abs_neg], by rw [hx]; push_cast; ring⟩

theorem rnd_exact {x : ℚ} (h : IsF x) : rnd x = x := by
  have pos : ∀ {x : ℚ}, 0 < x → IsF x → rnd x = x := by
    intro x hx hf
    rw [rnd_pos_eq hx, rndPos_exact (natAbs_pos hx) x.pos (by rw [frac_eq hx]; exact hf), frac_eq hx]
  rcases lt_trichotomy x 0 with hx | hx | hx
  · have := pos (neg_pos.2 hx) h.neg
    rw [rnd_neg] at this
    exact neg_injective this
  · rw [hx, rnd_zero]
  · exact pos hx h

theorem rnd_isF (x : ℚ) : IsF (rnd x) := by
  have pos : ∀ {x : ℚ}, 0 < x → IsF (rnd x) := by
    intro x hx
    rw [rnd_pos_eq hx]
    exact rndPos_isF (natAbs_pos hx) x.pos
  rcases lt_trichotomy x 0 with hx | hx | hx
  · have := (pos (neg_pos.2 hx)).neg
    rwa [rnd_neg, neg_neg] at this
  · rw [hx, rnd_zero]; exact ⟨0, 0, by norm_num, by norm_num⟩
  · exact pos hx

theorem rnd_rnd (x : ℚ) : rnd (rnd x) = rnd x := rnd_exact (rnd_isF x)

theorem rnd_pos {x : ℚ} (hx : 0 < x) : 0 < rnd x := by
  rw [rnd_pos_eq hx]; exact rndPos_pos (natAbs_pos hx) x.pos

theorem rnd_close (x : ℚ) : |rnd x - x| ≤ |x| * 2 ^ (-53 : Int) := by
  have pos : ∀ {x : ℚ}, 0 < x → |rnd x - x| ≤ x * 2 ^ (-53 : Int) := by
    intro x hx
    have := rndPos_close (natAbs_pos hx) x.pos
    rwa [frac_eq hx, ← rnd_pos_eq hx] at this
  rcases lt_trichotomy x 0 with hx | hx | hx
  · have := pos (neg_pos.2 hx)
    rw [rnd_neg] at this
    rw [abs_of_neg hx]
    rwa [show -rnd x - -x = -(rnd x - x) by ring, abs_neg] at this
  · subst hx; simp [rnd_zero]
  · rw [abs_of_pos hx]; exact pos hx

theorem rnd_mono {x y : ℚ} (h : x ≤ y) : rnd x ≤ rnd y := by
  have pos : ∀ {x y : ℚ}, 0 < x → x ≤ y → rnd x ≤ rnd y := by
    intro x y hx hxy
    have hy := hx.trans_le hxy
    rw [rnd_pos_eq hx, rnd_pos_eq hy]
    apply rndPos_mono (natAbs_pos hx) x.pos (natAbs_pos hy) y.pos
    rw [frac_eq hx, frac_eq hy]; exact hxy
  rcases lt_trichotomy x 0 with hx | hx | hx
  · rcases lt_trichotomy y 0 with hy | hy | hy
    · have := pos (neg_pos.2 hy) (neg_le_neg h)
      rw [rnd_neg, rnd_neg] at this
      exact neg_le_neg_iff.1 this
    · have := rnd_pos (neg_pos.2 hx)
      rw [rnd_neg] at this
      subst hy; rw [rnd_zero]; linarith
    · have h1 := rnd_pos (neg_pos.2 hx)
      have h2 := rnd_pos hy
      rw [rnd_neg] at h1
      linarith
  · subst hx
    rcases eq_or_lt_of_le h with hy | hy
    · rw [hy]
    · rw [rnd_zero]; exact (rnd_pos hy).le
  · exact pos hx h

/-- The integers up to `2 ^ 53` are representable. -/
theorem isF_int {n : Int} (h : |n| ≤ 2 ^ 53) : IsF n := ⟨n, 0, h, by simp⟩

theorem rnd_int {n : Int} (h : |n| ≤ 2 ^ 53) : rnd n = n := rnd_exact (isF_int h)

end Verif.F64
