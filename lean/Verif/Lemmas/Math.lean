import Verif.Model.Math
import Verif.Lemmas.Float64
import Verif.Lemmas.Strings
import Verif.Lemmas.Numbers
import Verif.Spec.RangeSpec
/-!
# Arithmetic on integers, and the loop of numeric ranges
-/

namespace Verif.Math
open F64 Spec

theorem floor_eq {x : ℚ} {n : Int} (h1 : (n : ℚ) ≤ x) (h2 : x < n + 1) : x.floor = n := by
  have a : n ≤ x.floor := Rat.le_floor_iff.2 h1
  have b : x.floor < n + 1 := by
    by_contra hc
    have := Rat.le_floor_iff.1 (not_lt.1 hc)
    push_cast at this
    linarith
  omega

theorem floor_int (n : Int) : (n : ℚ).floor = n := Rat.floor_intCast n

theorem toInt64_int {n : Int} (h1 : -2 ^ 63 ≤ n) (h2 : n < 2 ^ 63) : F64.toInt64 (n : ℚ) = n := by
  have : (if (n : ℚ) < 0 then -(Rat.floor (-(n : ℚ))) else Rat.floor (n : ℚ)) = n := by
    split
    · rw [show -(n : ℚ) = ((-n : Int) : ℚ) by push_cast; rfl, floor_int]; omega
    · exact floor_int n
  unfold F64.toInt64
  simp only [this]
  exact if_pos ⟨h1, h2⟩

theorem simplify_int {n : Int} (h : |n| ≤ 2 ^ 53) : simplify (n : ℚ) = .int n := by
  have := abs_le.1 h
  unfold simplify
  rw [floor_int, if_pos rfl, toInt64_int (by omega) (by omega)]

theorem toFloat_int {n : Int} (h : |n| ≤ 2 ^ 53) : toFloat (n : ℚ) = n := rnd_int h

theorem pow10_exact {p : Nat} (hp : p ≤ 22) : rnd (((10 ^ p : Nat)) : ℚ) = 10 ^ p := by
  rw [rnd_exact]
  · push_cast; rfl
  · refine ⟨5 ^ p, p, ?_, ?_⟩
    · rw [abs_of_pos (by positivity)]
      calc (5 : Int) ^ p ≤ 5 ^ 22 := pow_le_pow_right₀ (by norm_num) hp
        _ ≤ 2 ^ 53 := by norm_num
    · push_cast
      rw [show (10 : ℚ) = 5 * 2 by norm_num, mul_pow]
      norm_cast

/-- Rounding to `p` decimals leaves an integer as it is, as long as its product by `5 ^ p` is at most `2 ^ 53`. -/
theorem sprigRound_int {p : Nat} (hp : p ≤ 22) {n : Int} (h : |n| * 5 ^ p ≤ 2 ^ 53) : sprigRound (n : ℚ) p = n := by
  have hn : |n| ≤ 2 ^ 53 := le_trans (le_mul_of_one_le_right (abs_nonneg n) (one_le_pow₀ (by norm_num))) h
  have hd : rnd ((10 : ℚ) ^ p * n) = ((10 ^ p * n : Int) : ℚ) := by
    rw [rnd_exact]
    · push_cast; rfl
    · refine ⟨n * 5 ^ p, p, ?_, ?_⟩
      · rw [abs_mul, abs_of_pos (show (0 : Int) < 5 ^ p by positivity)]; exact h
      · push_cast
        rw [show (10 : ℚ) = 5 * 2 by norm_num, mul_pow]
        push_cast
        try simp only [zpow_natCast]
        ring
  unfold sprigRound
  simp only [pow10_exact hp, hd, floor_int]
  generalize hD : (10 ^ p * n : Int) = D
  have t : (if (D : ℚ) < 0 then -(Rat.floor (-(D : ℚ))) else D) = D := by
    split
    · rw [show -(D : ℚ) = ((-D : Int) : ℚ) by push_cast; rfl, floor_int]; omega
    · rfl
  rw [t, sub_self]
  have : ¬ (0 : ℚ) ≥ mkRat 1 2 := by decide +kernel
  rw [if_neg this, ← hD]
  have hne : (10 : ℚ) ^ p ≠ 0 := by positivity
  push_cast
  rw [mul_div_cancel_left₀ _ hne]
  exact rnd_int hn

/-- The loop on a sequence: `u i` is the current value before rounding. -/
theorem rangeLoop_seq (limit forward : Bool) (stop step : ℚ) (p : Nat) (u : Nat → ℚ) (N : Nat)
    (hu : ∀ i < N, rnd (sprigRound (u i) p + step) = u (i + 1))
    (hc : ∀ i < N, rangeCond limit forward stop (u i) = true) (hN : rangeCond limit forward stop (u N) = false)
    (fuel : Nat) (hf : N < fuel) :
    rangeLoop limit forward stop step p fuel (u 0) [] = some ((List.range N).map (fun i => simplify (sprigRound (u i) p))) := by
  have key : ∀ (k fuel : Nat) (acc : List Num), k ≤ N → N - k < fuel →
      rangeLoop limit forward stop step p fuel (u k) acc =
        some (acc ++ (List.range' k (N - k)).map (fun i => simplify (sprigRound (u i) p))) := by
    intro k fuel
    induction fuel generalizing k with
    | zero => intro acc _ h; omega
    | succ fuel ih =>
      intro acc hk hf
      rw [rangeLoop]
      rcases Nat.lt_or_ge k N with h | h
      · rw [if_pos (hc k h)]
        simp only
        rw [hu k h, ih (k + 1) _ (by omega) (by omega)]
        have : N - k = (N - (k + 1)) + 1 := by omega
        rw [this, List.range'_succ]
        simp
      · have : k = N := by omega
        subst this
        rw [hN]
        simp
  have := key 0 fuel [] (by omega) (by omega)
  rw [this]
  simp [List.range_eq_range']

theorem rangeCond_int (limit : Bool) (start stop x : Int) :
    rangeCond limit (decide ((start : ℚ) < stop)) stop x = true ↔ InRange limit start stop x := by
  have c1 : ((start : ℚ) < stop) ↔ start < stop := by exact_mod_cast Iff.rfl
  have c2 : ((x : ℚ) ≤ stop) ↔ x ≤ stop := by exact_mod_cast Iff.rfl
  have c3 : ((stop : ℚ) ≤ x) ↔ stop ≤ x := by exact_mod_cast Iff.rfl
  have c4 : ((x : ℚ) = stop) ↔ x = stop := by exact_mod_cast Iff.rfl
  unfold rangeCond InRange
  simp only [c1, c2, c3, c4, ne_eq]
  by_cases h : start < stop <;> cases limit <;> simp [h] <;> omega

/-- The number of terms of an integer range. -/
theorem count_exists (limit : Bool) (start stop step : Int) (hs : 0 < step) :
    ∃ N : Nat, ∀ i : Nat, i < N ↔ InRange limit start stop (term start stop step i) := by
  obtain ⟨s, rfl⟩ := Int.eq_ofNat_of_zero_le hs.le
  have hs' : 0 < s := by exact_mod_cast hs
  obtain ⟨D, hD⟩ := Int.eq_ofNat_of_zero_le (show 0 ≤ (if start < stop then stop - start else start - stop) by split <;> omega)
  have hle : ∀ i : Nat, i < D / s + 1 ↔ (i : Int) * s ≤ D := by
    intro i
    rw [Nat.lt_succ_iff, Nat.le_div_iff_mul_le hs']
    exact_mod_cast Iff.rfl
  have hlt : ∀ i : Nat, i < (D + s - 1) / s ↔ (i : Int) * s < D := by
    intro i
    rw [← Nat.succ_le_iff, Nat.le_div_iff_mul_le hs', Nat.succ_mul]
    have : i * s + s ≤ D + s - 1 ↔ i * s < D := by omega
    rw [this]
    exact_mod_cast Iff.rfl
  cases limit with
  | true =>
    refine ⟨D / s + 1, fun i => ?_⟩
    rw [hle]
    unfold InRange term
    generalize (i : Int) * (s : Int) = z
    by_cases h : start < stop
    · simp only [h, if_true] at hD ⊢; omega
    · simp only [h, if_false] at hD ⊢; simp; omega
  | false =>
    refine ⟨(D + s - 1) / s, fun i => ?_⟩
    rw [hlt]
    unfold InRange term
    generalize (i : Int) * (s : Int) = z
    by_cases h : start < stop
    · simp only [h, if_true] at hD ⊢; simp; omega
    · simp only [h, if_false] at hD ⊢; simp; omega

/-- The loop on integers. -/
theorem rangeLoop_int (limit : Bool) (start stop step : Int) {p : Nat} (hp : p ≤ 22) (h1 : |start| * 5 ^ p ≤ 2 ^ 53)
    (h2 : |stop| * 5 ^ p ≤ 2 ^ 53) (hs : 0 < step) (hs' : |stop| + step ≤ 2 ^ 53) :
    ∃ N : Nat, (∀ i : Nat, i < N ↔ InRange limit start stop (term start stop step i)) ∧
      ∀ fuel, N < fuel →
        rangeLoop limit (decide ((start : ℚ) < stop)) stop
          (if (start : ℚ) < stop then (step : ℚ) else -(step : ℚ)) p fuel start [] =
        some ((List.range N).map (fun i => .int (term start stop step i))) := by
  obtain ⟨N, hN⟩ := count_exists limit start stop step hs
  refine ⟨N, hN, fun fuel hf => ?_⟩
  have le53 : ∀ {n : Int}, |n| * 5 ^ p ≤ 2 ^ 53 → |n| ≤ 2 ^ 53 := fun {n} h =>
    le_trans (le_mul_of_one_le_right (abs_nonneg n) (one_le_pow₀ (by norm_num))) h
  have b1 := abs_le.1 (le53 h1)
  have b2 := abs_le.1 (le53 h2)
  have between : ∀ i : Nat, i < N → |term start stop step i| ≤ |start| ∨ |term start stop step i| ≤ |stop| := by
    intro i hi
    have := (hN i).1 hi
    unfold InRange at this
    have hz : 0 ≤ (i : Int) * step := mul_nonneg (by omega) hs.le
    have z0 : start ≤ term start stop step i ∧ term start stop step i ≤ stop ∨ stop ≤ term start stop step i ∧ term start stop step i ≤ start := by
      unfold term at this ⊢
      generalize (i : Int) * step = z at *
      cases limit <;> by_cases h : start < stop <;> simp [h] at this ⊢ <;> omega
    have a1 := abs_le_max_abs_abs (a := start) (b := term start stop step i) (c := stop)
    have a2 := abs_le_max_abs_abs (a := stop) (b := term start stop step i) (c := start)
    rcases z0 with ⟨u, v⟩ | ⟨u, v⟩
    · exact le_max_iff.1 (a1 u v)
    · exact (le_max_iff.1 (a2 u v)).symm
  have bound : ∀ i : Nat, i < N → |term start stop step i| * 5 ^ p ≤ 2 ^ 53 := by
    intro i hi
    have hpos : (0 : Int) ≤ 5 ^ p := by positivity
    rcases between i hi with h | h
    · exact le_trans (mul_le_mul_of_nonneg_right h hpos) h1
    · exact le_trans (mul_le_mul_of_nonneg_right h hpos) h2
  have c1 : ((start : ℚ) < stop) ↔ start < stop := by exact_mod_cast Iff.rfl
  have hstep : (if (start : ℚ) < stop then (step : ℚ) else -(step : ℚ)) = ((if start < stop then step else -step : Int) : ℚ) := by
    simp only [c1]; split <;> push_cast <;> rfl
  have h0 : ((term start stop step 0 : Int) : ℚ) = start := by unfold term; split <;> simp
  have seq := rangeLoop_seq limit (decide ((start : ℚ) < stop)) stop
    (if (start : ℚ) < stop then (step : ℚ) else -(step : ℚ)) p (fun i => ((term start stop step i : Int) : ℚ)) N
    (by
      intro i hi
      have hb := abs_le.1 (le53 (bound i hi))
      have hr := (hN i).1 hi
      have e : term start stop step (i + 1) = term start stop step i + (if start < stop then step else -step) := by
        unfold term; split <;> push_cast <;> ring
      have : |term start stop step i + (if start < stop then step else -step)| ≤ 2 ^ 53 := by
        unfold InRange at hr
        have hst := abs_le.1 (show |stop| ≤ 2 ^ 53 - step by omega)
        rw [abs_le]
        generalize term start stop step i = z at *
        cases limit <;> by_cases h : start < stop <;> simp [h] at hr ⊢ <;> omega
      rw [sprigRound_int hp (bound i hi), hstep, ← Int.cast_add, rnd_int this, e])
    (fun i hi => (rangeCond_int limit start stop _).2 ((hN i).1 hi))
    (by
      have := mt (rangeCond_int limit start stop (term start stop step N)).1 (fun h => absurd ((hN N).2 h) (Nat.lt_irrefl N))
      simpa using this)
    fuel hf
  simp only [h0] at seq
  rw [seq]
  congr 1
  apply List.map_congr_left
  intro i hi
  have hb := bound i (List.mem_range.1 hi)
  rw [sprigRound_int hp hb, simplify_int (le53 hb)]

/-! ## The decimals of the step -/

theorem dot_not_digit {b n : Nat} (hb : b ≤ 10) (hb' : 0 < b) : '.' ∉ Nat.toDigits b n := by
  intro h
  have := Nat.isDigit_of_mem_toDigits hb' hb h
  simp [Char.isDigit] at this

theorem pow10_ofNat (k : Nat) : pow10 (k : Int) = 10 ^ k := by
  show (((10 ^ k : Nat)) : ℚ) = 10 ^ k
  push_cast; rfl

theorem pow10_neg (k : Nat) : pow10 (-(k : Int)) = 1 / 10 ^ k := by
  cases k with
  | zero => show (((10 ^ 0 : Nat)) : ℚ) = 1 / 10 ^ 0; norm_num
  | succ k =>
    show mkRat 1 (10 ^ (k + 1)) = 1 / 10 ^ (k + 1)
    rw [Rat.mkRat_eq_div]; push_cast; rfl

theorem split2_no_dot {s : Text} (h : '.' ∉ s) : Strings.split2 s ['.'] = some (s, []) := by
  unfold Strings.split2
  rw [if_neg (by simp)]
  have : Text.index? ['.'] s = none := by
    by_contra hc
    have : Text.contains ['.'] s = true := by
      unfold Text.contains
      cases hx : Text.index? ['.'] s with
      | none => exact absurd hx hc
      | some _ => rfl
    rw [Text.contains_iff] at this
    exact h (this.subset (by simp))
  rw [this]

theorem split2_dot {a b : Text} (h : '.' ∉ a) : Strings.split2 (a ++ '.' :: b) ['.'] = some (a, b) := by
  unfold Strings.split2
  rw [if_neg (by simp)]
  have key : ∀ a : Text, '.' ∉ a → Text.index? ['.'] (a ++ '.' :: b) = some a.length := by
    intro a
    induction a with
    | nil => intro _; simp [Text.index?, Text.hasPrefix, Text.dropPrefix?]
    | cons c a ih =>
      intro ha
      have hc : c ≠ '.' := fun e => ha (by simp [e])
      have := ih (fun e => ha (by simp [e]))
      simp [Text.index?, Text.hasPrefix, Text.dropPrefix?, this, hc.symm]
  rw [key a h]
  simp

theorem length_le {m k : Nat} (hk : 0 < k) (h : m < 10 ^ k) : (Nat.toDigits 10 m).length ≤ k :=
  (Nat.length_toDigits_le_iff (by omega) hk).2 h

theorem lt_length {m k : Nat} (h : 10 ^ k ≤ m) : k < (Nat.toDigits 10 m).length := by
  rcases Nat.eq_zero_or_pos k with rfl | hk
  · exact Nat.length_toDigits_pos
  · by_contra hc
    have := (Nat.length_toDigits_le_iff (b := 10) (by omega) hk).1 (Nat.le_of_not_lt hc)
    omega

/-- A step which is an integer below 10^6 has no decimals. -/
theorem frac_int {neg : Bool} {m k : Nat} (hm : 0 < m) (h : m * 10 ^ k < 10 ^ 6) :
    ∃ t, Strings.split2 (gText ⟨neg, m, k⟩) ['.'] = some (t, []) := by
  have hk : k < 6 := by
    have : 10 ^ k < 10 ^ 6 := lt_of_le_of_lt (Nat.le_mul_of_pos_left _ hm) h
    exact (Nat.pow_lt_pow_iff_right (by omega)).1 this
  have hl : (Nat.toDigits 10 m).length ≤ 6 - k := by
    apply length_le (by omega)
    have e : 10 ^ 6 = 10 ^ (6 - k) * 10 ^ k := by rw [← Nat.pow_add]; congr 1; omega
    rw [e] at h
    exact Nat.lt_of_mul_lt_mul_right h
  have hp : 0 < (Nat.toDigits 10 m).length := Nat.length_toDigits_pos
  have g : gText ⟨neg, m, k⟩ = Nat.toDigits 10 m ++ List.replicate k '0' := by
    unfold gText
    have c0 : ¬ m = 0 := by omega
    have c1 : ¬ (((Nat.toDigits 10 m).length : Int) + (k : Int) - 1 < -4 ∨
      ((Nat.toDigits 10 m).length : Int) + (k : Int) - 1 ≥ 6) := by omega
    have c2 : ¬ (((Nat.toDigits 10 m).length : Int) + (k : Int) ≤ 0) := by omega
    have c3 : ¬ (((Nat.toDigits 10 m).length : Int) + (k : Int) < ((Nat.toDigits 10 m).length : Int)) := by omega
    simp only [if_neg c0, if_neg c1, if_neg c2, if_neg c3]
    congr 2
    omega
  refine ⟨Nat.toDigits 10 m ++ List.replicate k '0', ?_⟩
  rw [g]
  apply split2_no_dot
  intro hc
  rcases List.mem_append.1 hc with h | h
  · exact dot_not_digit (by omega) (by omega) h
  · have := (List.mem_replicate.1 h).2
    simp at this

theorem exp_length {x : Int} (h0 : 0 ≤ x) (h : x < 100) : (expText x).length = 4 ∧ '.' ∉ expText x := by
  have hp : 0 < (Nat.toDigits 10 x.natAbs).length := Nat.length_toDigits_pos
  have hl : (Nat.toDigits 10 x.natAbs).length ≤ 2 := length_le (by omega) (by omega)
  have nd := dot_not_digit (b := 10) (n := x.natAbs) (by omega) (by omega)
  unfold expText
  simp only [show ¬ x < 0 by omega, if_false]
  split
  · refine ⟨by simp; omega, by simp [nd]⟩
  · refine ⟨by simp; omega, by simp [nd]⟩

/-- The decimals counted for a step which is an integer. -/
theorem frac_any {neg : Bool} {m k : Nat} (hm : 0 < m) (h : m * 10 ^ k ≤ 2 ^ 53) :
    ∃ t f, Strings.split2 (gText ⟨neg, m, k⟩) ['.'] = some (t, f) ∧ f.length = stepDecimals m k := by
  by_cases h6 : m * 10 ^ k < 10 ^ 6
  · obtain ⟨t, ht⟩ := frac_int (neg := neg) hm h6
    exact ⟨t, [], ht, by unfold stepDecimals; rw [if_pos (.inl h6)]; rfl⟩
  have hk : k < 16 := by
    have : 10 ^ k < 10 ^ 16 := lt_of_le_of_lt (Nat.le_mul_of_pos_left _ hm) (lt_of_le_of_lt h (by norm_num))
    exact (Nat.pow_lt_pow_iff_right (by omega)).1 this
  have hl : (Nat.toDigits 10 m).length ≤ 16 - k := by
    apply length_le (by omega)
    have e : 10 ^ 16 = 10 ^ (16 - k) * 10 ^ k := by rw [← Nat.pow_add]; congr 1; omega
    have h' : m * 10 ^ k < 10 ^ 16 := lt_of_le_of_lt h (by norm_num)
    rw [e] at h'
    exact Nat.lt_of_mul_lt_mul_right h'
  have hl6 : 6 < (Nat.toDigits 10 m).length + k := by
    by_contra hc
    apply h6
    have hp : 0 < (Nat.toDigits 10 m).length := Nat.length_toDigits_pos
    have : m < 10 ^ (6 - k) := by
      rcases Nat.lt_or_ge m (10 ^ (6 - k)) with h | h
      · exact h
      · have := lt_length h; omega
    calc m * 10 ^ k < 10 ^ (6 - k) * 10 ^ k := Nat.mul_lt_mul_of_pos_right this (by positivity)
      _ = 10 ^ 6 := by rw [← Nat.pow_add]; congr 1; omega
  have nd := dot_not_digit (b := 10) (n := m) (by omega) (by omega)
  obtain ⟨el, ed⟩ := exp_length (x := ((Nat.toDigits 10 m).length : Int) + (k : Int) - 1) (by omega) (by omega)
  have c0 : ¬ m = 0 := by omega
  have c1 : ((Nat.toDigits 10 m).length : Int) + (k : Int) - 1 < -4 ∨ ((Nat.toDigits 10 m).length : Int) + (k : Int) - 1 ≥ 6 := by omega
  unfold gText
  simp only [if_neg c0, if_pos c1]
  have h10 : m < 10 ↔ (Nat.toDigits 10 m).length ≤ 1 := by
    rw [Nat.length_toDigits_le_iff (by omega) (by omega)]
  unfold stepDecimals
  generalize hD : Nat.toDigits 10 m = D at *
  match D with
  | [] =>
    have hp : 0 < (Nat.toDigits 10 m).length := Nat.length_toDigits_pos
    rw [hD] at hp
    exact absurd hp (by simp)
  | [c] =>
    refine ⟨_, [], split2_no_dot ?_, ?_⟩
    · intro hc
      rcases List.mem_append.1 hc with h | h
      · exact nd h
      · exact ed h
    · rw [if_pos (.inr (h10.2 (by simp)))]; rfl
  | c :: d :: D =>
    refine ⟨[c], d :: D ++ expText (((c :: d :: D).length : Int) + (k : Int) - 1), ?_, ?_⟩
    · exact split2_dot (a := [c]) (fun hc => nd (by simp at hc ⊢; exact .inl hc))
    · have : ¬ (m * 10 ^ k < 10 ^ 6 ∨ m < 10) := by rw [h10]; simp [h6]; omega
      rw [if_neg this, List.length_append, el]
      simp

/-- A step with `p` decimals, from 10^-4 up to 10^6. -/
theorem frac_dec {neg : Bool} {m p : Nat} (hm : 0 < m) (hp : 0 < p) (h1 : m < 10 ^ (p + 6)) (h2 : 10 ^ p ≤ m * 10 ^ 4) :
    ∃ t f, Strings.split2 (gText ⟨neg, m, -(p : Int)⟩) ['.'] = some (t, f) ∧ f.length = p := by
  have hl : (Nat.toDigits 10 m).length ≤ p + 6 := length_le (by omega) h1
  have hl2 : p ≤ (Nat.toDigits 10 m).length + 3 := by
    rcases Nat.lt_or_ge p 4 with h | h
    · omega
    · have e : 10 ^ p = 10 ^ (p - 4) * 10 ^ 4 := by rw [← Nat.pow_add]; congr 1; omega
      rw [e] at h2
      have := lt_length (Nat.le_of_mul_le_mul_right h2 (by norm_num))
      omega
  have hpos : 0 < (Nat.toDigits 10 m).length := Nat.length_toDigits_pos
  have nd := dot_not_digit (b := 10) (n := m) (by omega) (by omega)
  unfold gText
  have c0 : ¬ m = 0 := by omega
  have c1 : ¬ (((Nat.toDigits 10 m).length : Int) + -(p : Int) - 1 < -4 ∨
    ((Nat.toDigits 10 m).length : Int) + -(p : Int) - 1 ≥ 6) := by omega
  simp only [if_neg c0, if_neg c1]
  by_cases hdp : ((Nat.toDigits 10 m).length : Int) + -(p : Int) ≤ 0
  · rw [if_pos hdp]
    refine ⟨['0'], List.replicate (-(((Nat.toDigits 10 m).length : Int) + -(p : Int))).toNat '0' ++ Nat.toDigits 10 m, ?_, ?_⟩
    · exact split2_dot (a := ['0']) (by simp)
    · simp; omega
  · rw [if_neg hdp, if_pos (show ((Nat.toDigits 10 m).length : Int) + -(p : Int) < (Nat.toDigits 10 m).length by omega)]
    refine ⟨_, _, split2_dot (fun hc => nd (List.mem_of_mem_take hc)), ?_⟩
    simp; omega

/-! ## Ranges on a decimal grid -/

theorem rnd_close' (x : ℚ) : |rnd x - x| ≤ |x| * (1 / 9007199254740992) := by
  have := rnd_close x
  rwa [show ((2 : ℚ) ^ (-53 : Int)) = 1 / 9007199254740992 by norm_num] at this

theorem rnd_pow10 {p : Nat} (hp : p ≤ 22) : rnd (((10 ^ p : Nat)) : ℚ) = 10 ^ p := by
  rw [rnd_exact]
  · push_cast; rfl
  · refine ⟨5 ^ p, p, ?_, ?_⟩
    · rw [abs_of_pos (by positivity)]
      calc (5 : Int) ^ p ≤ 5 ^ 22 := pow_le_pow_right₀ (by norm_num) hp
        _ ≤ 2 ^ 53 := by norm_num
    · push_cast
      rw [zpow_natCast, ← mul_pow]
      norm_num

/-- The number nearest to `K / 10 ^ p`. -/
def grid (p : Nat) (K : Int) : ℚ := rnd ((K : ℚ) / 10 ^ p)

theorem grid_close {p : Nat} {K : Int} (h0 : 0 ≤ K) : |10 ^ p * grid p K - K| ≤ K * (1 / 9007199254740992) := by
  have hP : (0 : ℚ) < 10 ^ p := by positivity
  have hK : (0 : ℚ) ≤ K := by exact_mod_cast h0
  have h := rnd_close' ((K : ℚ) / 10 ^ p)
  have e : 10 ^ p * grid p K - K = 10 ^ p * (rnd ((K : ℚ) / 10 ^ p) - (K : ℚ) / 10 ^ p) := by
    unfold grid; field_simp
  rw [e, abs_mul, abs_of_pos hP]
  calc 10 ^ p * |rnd ((K : ℚ) / 10 ^ p) - (K : ℚ) / 10 ^ p|
      ≤ 10 ^ p * (|(K : ℚ) / 10 ^ p| * (1 / 9007199254740992)) := by gcongr
    _ = K * (1 / 9007199254740992) := by
      rw [abs_of_nonneg (by positivity)]; field_simp

theorem rnd_nonneg {x : ℚ} (h : 0 ≤ x) : 0 ≤ rnd x := by
  have := rnd_mono h
  rwa [rnd_zero] at this

theorem sprigRound_grid {p : Nat} (hp : p ≤ 22) {K : Int} (h1 : K ≤ 2 ^ 48) {u : ℚ} (hu : 0 ≤ u)
    (hn : |10 ^ p * u - K| ≤ 1 / 8) : sprigRound u p = grid p K := by
  have hd0 : 0 ≤ rnd (10 ^ p * u) := rnd_nonneg (by positivity)
  have hd := rnd_close' (10 ^ p * u)
  have hK : (K : ℚ) ≤ 2 ^ 48 := by exact_mod_cast h1
  rw [abs_of_nonneg (show 0 ≤ 10 ^ p * u by positivity)] at hd
  have hn' := abs_le.1 hn
  have hd' := abs_le.1 hd
  have hb : 10 ^ p * u ≤ 2 ^ 48 + 1 / 8 := by linarith
  have hd2 : |rnd (10 ^ p * u) - K| ≤ 1 / 4 := by
    rw [abs_le]; constructor <;> linarith [hd'.1, hd'.2, hn'.1, hn'.2]
  have hd3 := abs_le.1 hd2
  unfold sprigRound
  simp only [rnd_pow10 hp]
  generalize rnd (10 ^ p * u) = d at *
  rw [if_neg (show ¬ d < 0 by linarith)]
  have half : (mkRat 1 2 : ℚ) = 1 / 2 := by rw [Rat.mkRat_eq_div]; norm_num
  rw [half]
  rcases le_or_gt (K : ℚ) d with h | h
  · have f : d.floor = K := floor_eq h (by linarith)
    rw [f, if_neg (show ¬ d - (K : ℚ) ≥ 1 / 2 by linarith)]
    rfl
  · have f : d.floor = K - 1 := floor_eq (by push_cast; linarith) (by push_cast; linarith)
    have c : (-d).floor = -K := floor_eq (by push_cast; linarith) (by push_cast; linarith)
    rw [f, c, if_pos (show d - ((K - 1 : Int) : ℚ) ≥ 1 / 2 by push_cast; linarith)]
    simp [grid]

theorem step_close {p : Nat} {K S : Int} (hK : 0 ≤ K) (hS : 0 ≤ S) (h : K + S ≤ 2 ^ 48) (σ : Int) (hσ : σ = 1 ∨ σ = -1) :
    |10 ^ p * rnd (grid p K + σ * grid p S) - (K + σ * S)| ≤ 1 / 8 := by
  have hP : (0 : ℚ) < 10 ^ p := by positivity
  have a := abs_le.1 (grid_close (p := p) hK)
  have b := abs_le.1 (grid_close (p := p) hS)
  have hq : (K : ℚ) + S ≤ 2 ^ 48 := by exact_mod_cast h
  have hK' : (0 : ℚ) ≤ K := by exact_mod_cast hK
  have hS' : (0 : ℚ) ≤ S := by exact_mod_cast hS
  have c := rnd_close' (grid p K + σ * grid p S)
  have e1 : |10 ^ p * (grid p K + σ * grid p S) - (K + σ * S)| ≤ 1 / 32 := by
    rw [abs_le]
    rcases hσ with rfl | rfl <;> push_cast <;> constructor <;> linarith [a.1, a.2, b.1, b.2]
  have e1' := abs_le.1 e1
  have e2 : |10 ^ p * (grid p K + σ * grid p S)| ≤ 2 ^ 48 + 1 / 32 := by
    rw [abs_le]
    rcases hσ with rfl | rfl <;> push_cast at e1' ⊢ <;> constructor <;> linarith [e1'.1, e1'.2]
  have e3 : |10 ^ p * rnd (grid p K + σ * grid p S) - 10 ^ p * (grid p K + σ * grid p S)| ≤ 1 / 16 := by
    rw [← mul_sub, abs_mul, abs_of_pos hP]
    calc 10 ^ p * |rnd (grid p K + σ * grid p S) - (grid p K + σ * grid p S)|
        ≤ 10 ^ p * (|grid p K + σ * grid p S| * (1 / 9007199254740992)) := by gcongr
      _ = |10 ^ p * (grid p K + σ * grid p S)| * (1 / 9007199254740992) := by
        rw [abs_mul, abs_of_pos hP]; ring
      _ ≤ (2 ^ 48 + 1 / 32) * (1 / 9007199254740992) := by gcongr
      _ ≤ 1 / 16 := by norm_num
  have e3' := abs_le.1 e3
  rw [abs_le]
  constructor <;> linarith [e1'.1, e1'.2, e3'.1, e3'.2]

/-- The successive values of the loop, before rounding. -/
def unrounded (p : Nat) (start step : ℚ) : Nat → ℚ
  | 0 => start
  | i + 1 => rnd (sprigRound (unrounded p start step i) p + step)

theorem unrounded_close {p : Nat} (hp : p ≤ 22) {A S σ : Int} (hA : 0 ≤ A) (hA' : A ≤ 2 ^ 47) (hS : 0 < S) (hS' : S ≤ 2 ^ 47)
    (hσ : σ = 1 ∨ σ = -1) (i : Nat)
    (h : ∀ j < i, 0 ≤ A + σ * (j * S) ∧ A + σ * (j * S) ≤ 2 ^ 47) :
    |10 ^ p * unrounded p (grid p A) (σ * grid p S) i - ((A + σ * (i * S) : Int) : ℚ)| ≤ 1 / 8 ∧
      (0 ≤ A + σ * (i * S) → 0 ≤ unrounded p (grid p A) (σ * grid p S) i) := by
  have hP : (0 : ℚ) < 10 ^ p := by positivity
  induction i with
  | zero =>
    constructor
    · have := grid_close (p := p) hA
      have hq : (A : ℚ) ≤ 2 ^ 47 := by exact_mod_cast hA'
      simp only [unrounded, Nat.cast_zero, zero_mul, mul_zero, add_zero]
      exact this.trans (by linarith)
    · intro _
      exact rnd_nonneg (by have : (0 : ℚ) ≤ A := by exact_mod_cast hA
                           positivity)
  | succ i ih =>
    obtain ⟨ih1, ih2⟩ := ih (fun j hj => h j (by omega))
    obtain ⟨k0, k1⟩ := h i (by omega)
    have hr : sprigRound (unrounded p (grid p A) (σ * grid p S) i) p = grid p (A + σ * (i * S)) :=
      sprigRound_grid hp (k1.trans (by norm_num)) (ih2 k0) ih1
    have eK : A + σ * (((i + 1 : Nat) : Int) * S) = (A + σ * (i * S)) + σ * S := by push_cast; ring
    have hclose := step_close (p := p) k0 hS.le (show A + σ * (i * S) + S ≤ 2 ^ 48 by
      have : (2 : Int) ^ 48 = 2 ^ 47 + 2 ^ 47 := by norm_num
      omega) σ hσ
    rw [eK]
    simp only [unrounded, hr]
    generalize hK : A + σ * (i * S) = K at *
    refine ⟨by push_cast; exact hclose, ?_⟩
    intro hn
    rcases lt_or_eq_of_le hn with h1 | h0
    · have h1' : (1 : ℚ) ≤ K + σ * S := by exact_mod_cast h1
      have := (abs_le.1 hclose).1
      have : 0 < 10 ^ p * rnd (grid p K + σ * grid p S) := by linarith
      exact ((mul_pos_iff_of_pos_left hP).1 this).le
    · rcases hσ with rfl | rfl
      · omega
      · have : K = S := by omega
        subst this
        rw [show grid p K + ((-1 : Int) : ℚ) * grid p K = 0 by push_cast; ring, rnd_zero]

theorem grid_order {p : Nat} {u v : ℚ} {K B : Int} (hu : |10 ^ p * u - K| ≤ 1 / 8) (hv : |10 ^ p * v - B| ≤ 1 / 8) (h : K < B) :
    u < v := by
  have hP : (0 : ℚ) < 10 ^ p := by positivity
  have a := abs_le.1 hu
  have b := abs_le.1 hv
  have h' : (K : ℚ) + 1 ≤ B := by exact_mod_cast h
  have : 10 ^ p * u < 10 ^ p * v := by linarith [a.1, a.2, b.1, b.2]
  exact lt_of_mul_lt_mul_left this hP.le

theorem grid_near {p : Nat} {K : Int} (h0 : 0 ≤ K) (h1 : K ≤ 2 ^ 47) : |10 ^ p * grid p K - K| ≤ 1 / 8 := by
  have := grid_close (p := p) h0
  have hq : (K : ℚ) ≤ 2 ^ 47 := by exact_mod_cast h1
  exact this.trans (by linarith)

/-- The loop on a decimal grid. -/
theorem rangeLoop_grid (limit : Bool) {p : Nat} (hp : p ≤ 22) {A B S : Int} (hA : 0 ≤ A) (hA' : A ≤ 2 ^ 47) (hB : 0 ≤ B)
    (hB' : B ≤ 2 ^ 47) (hS : 0 < S) (hS' : S ≤ 2 ^ 47) :
    ∃ N : Nat, (∀ i : Nat, InRange false A B (term A B S i) → i < N) ∧
      (∀ i : Nat, i < N → InRange true A B (term A B S i)) ∧
      ∀ fuel, N < fuel →
        rangeLoop limit (decide (grid p A < grid p B)) (grid p B)
          (if grid p A < grid p B then grid p S else -(grid p S)) p fuel (grid p A) [] =
        some ((List.range N).map (fun i => simplify (grid p (term A B S i)))) := by
  obtain ⟨N0, hN0⟩ := count_exists false A B S hS
  have nA := grid_near (p := p) hA hA'
  have nB := grid_near (p := p) hB hB'
  -- the direction of the loop
  obtain ⟨σ, hσ, hσA, hterm, hstep, hdir⟩ : ∃ σ : Int, (σ = 1 ∨ σ = -1) ∧ (σ = 1 ↔ A < B) ∧
      (∀ i : Nat, term A B S i = A + σ * (i * S)) ∧
      (if grid p A < grid p B then grid p S else -(grid p S)) = σ * grid p S ∧
      (decide (grid p A < grid p B) = decide (A < B)) := by
    by_cases h : A < B
    · have := grid_order nA nB h
      exact ⟨1, Or.inl rfl, by simp [h], by intro i; simp [term, h], by simp [this], by simp [this, h]⟩
    · have : ¬ grid p A < grid p B := by
        rcases eq_or_lt_of_le (not_lt.1 h) with e | l
        · subst e; exact lt_irrefl _
        · exact not_lt.2 (grid_order nB nA l).le
      exact ⟨-1, Or.inr rfl, by simp [h], by intro i; simp [term, h]; ring, by simp [this], by simp [this, h]⟩
  rw [hstep, hdir]
  set u := unrounded p (grid p A) (σ * grid p S) with hu
  have inside : ∀ i : Nat, (i < N0 ∨ term A B S i = B) → 0 ≤ A + σ * (i * S) ∧ A + σ * (i * S) ≤ 2 ^ 47 := by
    intro i hi
    rw [← hterm]
    rcases hi with hi | hi
    · have := (hN0 i).1 hi
      have hz : 0 ≤ (i : Int) * S := mul_nonneg (by omega) hS.le
      unfold InRange at this
      unfold term at this ⊢
      generalize (i : Int) * S = z at *
      by_cases h : A < B <;> simp [h] at this ⊢ <;> omega
    · omega
  have near : ∀ i : Nat, (∀ j < i, j < N0 ∨ term A B S j = B) →
      |10 ^ p * u i - ((term A B S i : Int) : ℚ)| ≤ 1 / 8 ∧ (0 ≤ term A B S i → 0 ≤ u i) := by
    intro i h
    rw [hterm]
    exact unrounded_close hp hA hA' hS hS' hσ i (fun j hj => inside j (h j hj))
  have rounded : ∀ i : Nat, (∀ j ≤ i, j < N0 ∨ term A B S j = B) → sprigRound (u i) p = grid p (term A B S i) := by
    intro i h
    obtain ⟨n1, n2⟩ := near i (fun j hj => h j hj.le)
    obtain ⟨b1, b2⟩ := inside i (h i (le_refl i))
    rw [← hterm] at b1 b2
    exact sprigRound_grid hp (b2.trans (by norm_num)) (n2 b1) n1
  have condIn : ∀ i : Nat, i < N0 → rangeCond limit (decide (A < B)) (grid p B) (u i) = true := by
    intro i hi
    have n1 := (near i (fun j hj => Or.inl (by omega))).1
    have := (hN0 i).1 hi
    unfold InRange at this
    unfold rangeCond
    by_cases h : A < B
    · simp [h] at this
      have l := grid_order n1 nB this
      simp [h, l.le, l.ne]
    · simp [h] at this
      have l := grid_order nB n1 this
      simp [h, l.le, l.ne']
  have condOut : ∀ i : Nat, (∀ j < i, j < N0 ∨ term A B S j = B) → ¬ InRange true A B (term A B S i) →
      rangeCond limit (decide (A < B)) (grid p B) (u i) = false := by
    intro i h hb
    have n1 := (near i h).1
    unfold InRange at hb
    unfold rangeCond
    by_cases hlt : A < B
    · simp [hlt] at hb
      have l := grid_order nB n1 hb
      simp [hlt, l]
    · simp [hlt] at hb
      have l := grid_order n1 nB hb
      simp [hlt, l]
  have hitOrOut : term A B S N0 = B ∨ ¬ InRange true A B (term A B S N0) := by
    have : ¬ InRange false A B (term A B S N0) := fun h => absurd ((hN0 N0).2 h) (Nat.lt_irrefl _)
    unfold InRange at this ⊢
    by_cases h : A < B <;> simp [h] at this ⊢ <;> omega
  have weaken : ∀ x, InRange false A B x → InRange true A B x := by
    intro x h
    unfold InRange at h ⊢
    by_cases hlt : A < B <;> simp [hlt] at h ⊢ <;> omega
  cases hc : rangeCond limit (decide (A < B)) (grid p B) (u N0) with
  | false =>
    refine ⟨N0, fun i hi => (hN0 i).2 hi, fun i hi => weaken _ ((hN0 i).1 hi), fun fuel hf => ?_⟩
    have seq := rangeLoop_seq limit (decide (A < B)) (grid p B) (σ * grid p S) p u N0 (fun i _ => rfl) condIn hc fuel hf
    rw [show grid p A = u 0 from rfl, seq]
    congr 1
    apply List.map_congr_left
    intro i hi
    rw [rounded i (fun j hj => Or.inl (by have := List.mem_range.1 hi; omega))]
  | true =>
    have hit : term A B S N0 = B := by
      rcases hitOrOut with h | h
      · exact h
      · rw [condOut N0 (fun j hj => Or.inl hj) h] at hc; cases hc
    have hits : ∀ j < N0 + 1, j < N0 ∨ term A B S j = B := by
      intro j hj
      rcases Nat.lt_or_ge j N0 with h | h
      · exact Or.inl h
      · have : j = N0 := by omega
        subst this; exact Or.inr hit
    have out : ¬ InRange true A B (term A B S (N0 + 1)) := by
      have e : term A B S (N0 + 1) = term A B S N0 + σ * S := by rw [hterm, hterm]; push_cast; ring
      rw [e, hit]
      unfold InRange
      rcases hσ with rfl | rfl
      · have : A < B := hσA.1 rfl
        simp [this, hS]
      · have : ¬ A < B := fun h => by have := hσA.2 h; omega
        simp [this, hS]
    refine ⟨N0 + 1, fun i hi => Nat.lt_succ_of_lt ((hN0 i).2 hi), fun i hi => ?_, fun fuel hf => ?_⟩
    · rcases hits i hi with h | h
      · exact weaken _ ((hN0 i).1 h)
      · rw [h]; unfold InRange; by_cases hlt : A < B <;> simp [hlt]
    · have seq := rangeLoop_seq limit (decide (A < B)) (grid p B) (σ * grid p S) p u (N0 + 1) (fun i _ => rfl)
        (fun i hi => by
          rcases Nat.lt_or_ge i N0 with h | h
          · exact condIn i h
          · have : i = N0 := by omega
            subst this; exact hc)
        (condOut (N0 + 1) hits out) fuel hf
      rw [show grid p A = u 0 from rfl, seq]
      congr 1
      apply List.map_congr_left
      intro i hi
      rw [rounded i (fun j hj => hits j (by have := List.mem_range.1 hi; omega))]

end Verif.Math
