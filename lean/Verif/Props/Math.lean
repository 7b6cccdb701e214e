import Verif.Lemmas.FloatFor
import Verif.Spec.NumberSpec
/-!
# Properties of arithmetic and numeric ranges

`F64.rnd` is rounding to the nearest floating point number (`Lemmas/FloatFor.lean` proves that it is); the statements say so with `FloatFor`.
-/

namespace Verif.Props
open Math F64 Spec

/-! ## C32: integer arithmetic -/

/-- The exact partial results of a fold. -/
def partials (f : Int → Int → Int) (init : Int) : List Int → List Int
  | [] => [init]
  | v :: vs => init :: partials f (f init v) vs

private theorem fold_exact (f : Int → Int → Int) (g : ℚ → ℚ → ℚ) (hfg : ∀ a b : Int, g a b = ((f a b : Int) : ℚ)) (vs : List Int)
    (init : Int) (hv : ∀ v ∈ vs, |v| ≤ 2 ^ 53) (hp : ∀ r ∈ partials f init vs, |r| ≤ 2 ^ 53) :
    (vs.map (fun v : Int => (v : ℚ))).foldl (fun r v => rnd (g r (toFloat v))) (init : ℚ) = ((vs.foldl f init : Int) : ℚ) ∧
      |vs.foldl f init| ≤ 2 ^ 53 := by
  induction vs generalizing init with
  | nil => exact ⟨rfl, hp _ (by simp [partials])⟩
  | cons v vs ih =>
    have h1 : toFloat (v : ℚ) = v := toFloat_int (hv v (by simp))
    have h2 : |f init v| ≤ 2 ^ 53 := hp _ (by cases vs <;> simp [partials])
    simp only [List.map_cons, List.foldl_cons, h1, hfg, rnd_int h2]
    exact ih (f init v) (fun x hx => hv x (by simp [hx])) (fun r hr => hp r (by simp [partials, hr]))

/-- `add` of integers is the exact sum as long as the numbers and the partial sums are at most 2^53 in absolute value. Missing from
the full property: larger results (see `C32_not_add`). -/
theorem C32_add_partial (vs : List Int) (hv : ∀ v ∈ vs, |v| ≤ 2 ^ 53) (hp : ∀ r ∈ partials (· + ·) 0 vs, |r| ≤ 2 ^ 53) :
    add (vs.map (fun v : Int => (v : ℚ))) = .int vs.sum := by
  have h := fold_exact (· + ·) (· + ·) (by intro a b; push_cast; rfl) vs 0 hv hp
  have e : vs.foldl (· + ·) 0 = vs.sum := List.sum_eq_foldl.symm
  unfold add
  rw [show (0 : ℚ) = ((0 : Int) : ℚ) by norm_num, h.1, simplify_int h.2, e]

example : (∀ v ∈ [9007199254740990, -5, 7], |v| ≤ (2 : Int) ^ 53) ∧
    (∀ r ∈ partials (· + ·) 0 [9007199254740990, -5, 7], |r| ≤ (2 : Int) ^ 53) := by decide

/-- `mul` of integers is the exact product under the same conditions. -/
theorem C32_mul_partial (vs : List Int) (hne : vs ≠ []) (hv : ∀ v ∈ vs, |v| ≤ 2 ^ 53)
    (hp : ∀ r ∈ partials (· * ·) 1 vs, |r| ≤ 2 ^ 53) :
    multiply (vs.map (fun v : Int => (v : ℚ))) = .int vs.prod := by
  have h := fold_exact (· * ·) (· * ·) (by intro a b; push_cast; rfl) vs 1 hv hp
  have e : vs.foldl (· * ·) 1 = vs.prod := List.prod_eq_foldl.symm
  unfold multiply
  rw [if_neg (by simpa using hne), show (1 : ℚ) = ((1 : Int) : ℚ) by norm_num, h.1, simplify_int h.2, e]

example : (∀ r ∈ partials (· * ·) 1 [-123456, 654321, 3], |r| ≤ (2 : Int) ^ 53) := by decide

/-- `sub` of integers is the exact difference under the same conditions. -/
theorem C32_sub_partial (a b : Int) (ha : |a| ≤ 2 ^ 53) (hb : |b| ≤ 2 ^ 53) (hr : |a - b| ≤ 2 ^ 53) :
    subtract a b = .int (a - b) := by
  unfold subtract
  rw [toFloat_int ha, toFloat_int hb, ← Int.cast_sub, rnd_int hr, simplify_int hr]

example : subtract (3 : Int) (10 : Int) = .int (-7) := C32_sub_partial 3 10 (by decide) (by decide) (by decide)

/-- The full property fails: `add 9007199254740992 1` loses the 1. -/
theorem C32_not_add : ¬ ∀ a b : Int, InInt64 a → InInt64 b → InInt64 (a + b) → add [(a : ℚ), (b : ℚ)] = .int (a + b) := by
  intro h
  have := h (2 ^ 53) 1 (by unfold InInt64; omega) (by unfold InInt64; omega) (by unfold InInt64; omega)
  revert this
  decide +kernel

/-- Subtraction too. -/
theorem C32_not_sub : ¬ ∀ a b : Int, InInt64 a → InInt64 b → InInt64 (a - b) → subtract (a : ℚ) (b : ℚ) = .int (a - b) := by
  intro h
  have := h (2 ^ 53 + 1) 1 (by unfold InInt64; omega) (by unfold InInt64; omega) (by unfold InInt64; omega)
  revert this
  decide +kernel

/-- And multiplication. -/
theorem C32_not_mul : ¬ ∀ a b : Int, InInt64 a → InInt64 b → InInt64 (a * b) → multiply [(a : ℚ), (b : ℚ)] = .int (a * b) := by
  intro h
  have := h 94906267 94906267 (by unfold InInt64; omega) (by unfold InInt64; omega) (by unfold InInt64; omega)
  revert this
  decide +kernel

/-! ## C33: integer ranges -/

/-- The integer `n` as a parameter. -/
def intDec (n : Int) : Dec := ⟨decide (n < 0), n.natAbs, 0⟩

private theorem pow10_zero : pow10 0 = 1 := by decide +kernel

private theorem intDec_value (n : Int) : (intDec n).value = n := by
  unfold Dec.value Dec.abs intDec
  simp only [pow10_zero, mul_one]
  by_cases h : n < 0
  · simp only [h, decide_true, if_true]
    have : (n.natAbs : Int) = -n := by omega
    have q : ((n.natAbs : Int) : ℚ) = ((-n : Int) : ℚ) := by rw [this]
    rw [Int.cast_natCast] at q
    rw [q]; push_cast; ring
  · simp only [h, decide_false, Bool.false_eq_true, if_false]
    have : (n.natAbs : Int) = n := by omega
    have q : ((n.natAbs : Int) : ℚ) = (n : ℚ) := by rw [this]
    rw [Int.cast_natCast] at q
    exact q

private theorem bound5 {n : Int} {p : Nat} (h : |n| * 5 ^ p ≤ 2 ^ 53) : |n| ≤ 2 ^ 53 :=
  le_trans (le_mul_of_one_le_right (abs_nonneg n) (one_le_pow₀ (by norm_num))) h

/-- `to start stop step` and `until start stop step` (`limit` is true for `to`) for integers: with `N` numbers, the result is the
progression from `start` by `step` in the direction of `stop`, and the numbers of the progression that are in the range are exactly its
`N` first. The sign of the step is ignored. The bounds may go up to `2 ^ 53`, minus the step for `stop` (see `C34_not_end`); for a step of a million or
more with several significant digits, they must be smaller (see `C33_not_large_step`). -/
theorem C33_range_partial (limit : Bool) (start stop : Int) (neg : Bool) (m k : Nat) (hm : 0 < m)
    (h1 : |start| * 5 ^ stepDecimals m k ≤ 2 ^ 53) (h2 : |stop| * 5 ^ stepDecimals m k ≤ 2 ^ 53)
    (hs : |stop| + (m * 10 ^ k : Nat) ≤ 2 ^ 53) :
    ∃ N : Nat, (∀ i : Nat, i < N ↔ InRange limit start stop (term start stop (m * 10 ^ k : Nat) i)) ∧
      ∀ fuel, N < fuel → generate fuel limit [intDec start, intDec stop, ⟨neg, m, k⟩] =
        .done ((List.range N).map (fun i => .int (term start stop (m * 10 ^ k : Nat) i))) := by
  have hm' : 0 < m * 10 ^ k := Nat.mul_pos hm (by positivity)
  have hmax : m * 10 ^ k ≤ 2 ^ 53 := by
    have := abs_nonneg stop
    have : ((m * 10 ^ k : Nat) : Int) ≤ 2 ^ 53 := by omega
    exact_mod_cast this
  have hp : stepDecimals m k ≤ 22 := by
    unfold stepDecimals
    split
    · omega
    · have : (Nat.toDigits 10 m).length ≤ 16 := length_le (by omega) (lt_of_le_of_lt (Nat.le_mul_of_pos_right m (by positivity)) (lt_of_le_of_lt hmax (by norm_num)))
      omega
  obtain ⟨N, hN, hl⟩ := rangeLoop_int limit start stop ((m * 10 ^ k : Nat) : Int) hp h1 h2 (by exact_mod_cast hm') hs
  refine ⟨N, hN, fun fuel hf => ?_⟩
  obtain ⟨t, f, ht, hlen⟩ := frac_any (neg := neg) hm hmax
  have habs : toFloat (Dec.abs ⟨neg, m, k⟩) = (((m * 10 ^ k : Nat) : Int) : ℚ) := by
    have e : Dec.abs ⟨neg, m, k⟩ = (((m * 10 ^ k : Nat) : Int) : ℚ) := by
      unfold Dec.abs; simp only [pow10_ofNat]; push_cast; rfl
    rw [e]
    apply toFloat_int
    rw [abs_of_nonneg (by positivity)]
    exact_mod_cast hmax
  have hne : ¬ (((m * 10 ^ k : Nat) : Int) : ℚ) = 0 := by
    have : (0 : ℚ) < (((m * 10 ^ k : Nat) : Int) : ℚ) := by exact_mod_cast hm'
    exact this.ne'
  unfold generate
  simp only [ht, habs, hlen, intDec_value, toFloat_int (bound5 h1), toFloat_int (bound5 h2), if_neg hne, decide_eq_true_eq]
  rw [hl fuel hf]

/-- The bounds are met by any integers up to `2 ^ 53` less the step, for a step below one million or with one significant digit, and by ten million for the step 2500000. -/
example : |(2 : Int) ^ 53| * 5 ^ stepDecimals 7 0 ≤ 2 ^ 53 ∧ |(2 : Int) ^ 53 - 7| + ((7 * 10 ^ 0 : Nat) : Int) ≤ 2 ^ 53 ∧
    |(10 : Int) ^ 15| * 5 ^ stepDecimals 3 9 ≤ 2 ^ 53 ∧ |(10 : Int) ^ 7| * 5 ^ stepDecimals 25 5 ≤ 2 ^ 53 := by decide +kernel

/-- A step of a million or more: the exponent of its notation is taken for decimals, and rounding to so many decimals changes large integers. -/
theorem C33_not_large_step : generate 10 true [intDec 0, intDec 12345678901, ⟨false, 12345678901, 0⟩] =
    .done [.int 0, .flt (mkRat 6472691299647489 524288)] ∧ mkRat 6472691299647489 524288 ≠ 12345678901 := by decide +kernel

example : generate 100 true [intDec 10, intDec (-3), ⟨false, 4, 0⟩] = .done [.int 10, .int 6, .int 2, .int (-2)] := by decide +kernel
example : generate 100 false [intDec 0, intDec 6, ⟨true, 3, 0⟩] = .done [.int 0, .int 3] := by decide +kernel

/-- With two parameters the step is one. -/
theorem C33_two_partial (limit : Bool) (start stop : Int) (h1 : |start| ≤ 2 ^ 53) (h2 : |stop| < 2 ^ 53) :
    ∃ N : Nat, (∀ i : Nat, i < N ↔ InRange limit start stop (term start stop 1 i)) ∧
      ∀ fuel, N < fuel → generate fuel limit [intDec start, intDec stop] =
        .done ((List.range N).map (fun i => .int (term start stop 1 i))) := by
  obtain ⟨N, hN, hl⟩ := rangeLoop_int limit start stop 1 (p := 0) (by omega) (by omega) (by omega) (by norm_num) (by omega)
  refine ⟨N, hN, fun fuel hf => ?_⟩
  have := hl fuel hf
  push_cast at this
  unfold generate
  simp only [intDec_value, toFloat_int h1, toFloat_int h2.le, if_neg one_ne_zero, decide_eq_true_eq]
  rw [this]

example : generate 100 false [intDec 2, intDec (-2)] = .done [.int 2, .int 1, .int 0, .int (-1)] := by decide +kernel

/-- With one parameter, `to` starts at 1 and `until` at 0, and the step is one. -/
theorem C33_one_partial (limit : Bool) (stop : Int) (h2 : |stop| < 2 ^ 53) :
    ∃ N : Nat, (∀ i : Nat, i < N ↔ InRange limit (if limit then 1 else 0) stop (term (if limit then 1 else 0) stop 1 i)) ∧
      ∀ fuel, N < fuel → generate fuel limit [intDec stop] =
        .done ((List.range N).map (fun i => .int (term (if limit then 1 else 0) stop 1 i))) := by
  have hs : |(if limit then (1 : Int) else 0)| ≤ 2 ^ 53 := by cases limit <;> norm_num
  obtain ⟨N, hN, hl⟩ := rangeLoop_int limit (if limit then 1 else 0) stop 1 (p := 0) (by omega) (by omega) (by omega) (by norm_num) (by omega)
  refine ⟨N, hN, fun fuel hf => ?_⟩
  have := hl fuel hf
  push_cast at this
  unfold generate
  simp only [intDec_value, toFloat_int h2.le, if_neg one_ne_zero, decide_eq_true_eq]
  rw [this]

example : generate 100 true [intDec 3] = .done [.int 1, .int 2, .int 3] := by decide +kernel
example : generate 100 false [intDec 3] = .done [.int 0, .int 1, .int 2] := by decide +kernel

/-- A zero step is an error, whatever the bounds. -/
theorem C33_zero_step (fuel : Nat) (limit : Bool) (start stop : Dec) (neg : Bool) (e : Int) :
    generate fuel limit [start, stop, ⟨neg, 0, e⟩] = .error := by
  have hg : Strings.split2 (gText ⟨neg, 0, e⟩) ['.'] = some (['0'], []) := by
    show Strings.split2 ['0'] ['.'] = _
    rfl
  have hz : toFloat (Dec.abs ⟨neg, 0, e⟩) = 0 := by
    unfold Dec.abs toFloat
    simp [rnd_zero]
  unfold generate
  simp only [hg, hz, if_true]

/-- Any other number of parameters is an error. -/
theorem C33_parameters (fuel : Nat) (limit : Bool) (params : List Dec) (h : params.length = 0 ∨ 3 < params.length) :
    generate fuel limit params = .error := by
  match params, h with
  | [], _ => rfl
  | [_], h => simp at h
  | [_, _], h => simp at h
  | [_, _, _], h => simp at h
  | _ :: _ :: _ :: _ :: _, _ => rfl

example : generate 5 true [intDec 1, intDec 2, intDec 3, intDec 4] = .error := C33_parameters 5 true _ (by decide)

/-! ## C34: termination -/

private theorem stuck (limit forward : Bool) (stop step : ℚ) (p : Nat) (c : ℚ) (hc : rangeCond limit forward stop c = true)
    (hs : rnd (sprigRound c p + step) = c) (fuel : Nat) (acc : List Num) :
    rangeLoop limit forward stop step p fuel c acc = none := by
  induction fuel generalizing acc with
  | zero => rfl
  | succ fuel ih =>
    rw [rangeLoop, if_pos hc]
    simp only [hs]
    exact ih _

/-- If the loop arrives, after some iterations, at a value that it repeats, it never stops. -/
private theorem reaches (limit forward : Bool) (stop step : ℚ) (p : Nat) (c : ℚ) (hc : rangeCond limit forward stop c = true)
    (hs : rnd (sprigRound c p + step) = c) (k : Nat) (start : ℚ) (hk : unrounded p start step k = c)
    (hin : ∀ i < k, rangeCond limit forward stop (unrounded p start step i) = true) (fuel : Nat) (acc : List Num) :
    rangeLoop limit forward stop step p fuel start acc = none := by
  have key : ∀ (n fuel : Nat) (acc : List Num), n ≤ k →
      rangeLoop limit forward stop step p fuel (unrounded p start step (k - n)) acc = none := by
    intro n
    induction n with
    | zero => intro fuel acc _; rw [Nat.sub_zero, hk]; exact stuck limit forward stop step p c hc hs fuel acc
    | succ n ih =>
      intro fuel acc hn
      cases fuel with
      | zero => rfl
      | succ fuel =>
        rw [rangeLoop, if_pos (hin _ (by omega))]
        have := ih fuel (acc ++ [simplify (sprigRound (unrounded p start step (k - (n + 1))) p)]) (by omega)
        rw [show k - n = (k - (n + 1)) + 1 by omega] at this
        exact this
  have := key k fuel acc (le_refl k)
  rwa [Nat.sub_self] at this

/-- `to 0 1 0.00001` never ends: the step is printed as 1e-05, without decimals, so the numbers are rounded to integers and the loop
stays at zero. -/
theorem C34_not_small_step (fuel : Nat) : generate fuel true [⟨false, 0, 0⟩, ⟨false, 1, 0⟩, ⟨false, 1, -5⟩] = .running := by
  have hg : Strings.split2 (gText ⟨false, 1, -5⟩) ['.'] = some (T "1e-05", []) := by decide
  have h := reaches true true 1 (toFloat (Dec.abs ⟨false, 1, -5⟩)) 0 (toFloat (Dec.abs ⟨false, 1, -5⟩)) (by decide +kernel)
    (by decide +kernel) 1 0 (by decide +kernel) (by decide +kernel) fuel []
  have v0 : toFloat (Dec.value ⟨false, 0, 0⟩) = 0 := by decide +kernel
  have v1 : toFloat (Dec.value ⟨false, 1, 0⟩) = 1 := by decide +kernel
  have hne : ¬ toFloat (Dec.abs ⟨false, 1, -5⟩) = 0 := by decide +kernel
  have d : decide ((0 : ℚ) < 1) = true := by decide +kernel
  unfold generate
  simp only [hg, v0, v1, if_neg hne, d, if_true, List.length_nil]
  rw [h]

/-- `to -1 1 0.1` never ends either: rounding a negative number goes down when the multiplied value is just under an
integer, so the loop comes back to -0.8 for ever. -/
theorem C34_not_negative (fuel : Nat) : generate fuel true [⟨true, 1, 0⟩, ⟨false, 1, 0⟩, ⟨false, 1, -1⟩] = .running := by
  have hg : Strings.split2 (gText ⟨false, 1, -1⟩) ['.'] = some (['0'], ['1']) := by decide
  have v0 : toFloat (Dec.value ⟨true, 1, 0⟩) = -1 := by decide +kernel
  have v1 : toFloat (Dec.value ⟨false, 1, 0⟩) = 1 := by decide +kernel
  have hne : ¬ toFloat (Dec.abs ⟨false, 1, -1⟩) = 0 := by decide +kernel
  have d : decide ((-1 : ℚ) < 1) = true := by decide +kernel
  have h := reaches true true 1 (toFloat (Dec.abs ⟨false, 1, -1⟩)) 1
    (unrounded 1 (-1) (toFloat (Dec.abs ⟨false, 1, -1⟩)) 4) (by decide +kernel)
    (by decide +kernel) 4 (-1) rfl (by decide +kernel) fuel []
  unfold generate
  simp only [hg, v0, v1, if_neg hne, d, if_true, List.length_cons, List.length_nil, Nat.zero_add]
  rw [h]

/-- The bound of `C33_range_partial` on `stop` cannot be raised: `to 9007199254740991 9007199254740992` never ends, since the number after
`2 ^ 53` is rounded to `2 ^ 53`. -/
theorem C34_not_end (fuel : Nat) : generate fuel true [intDec (2 ^ 53 - 1), intDec (2 ^ 53)] = .running := by
  have v0 : toFloat (Dec.value (intDec (2 ^ 53 - 1))) = 2 ^ 53 - 1 := by decide +kernel
  have v1 : toFloat (Dec.value (intDec (2 ^ 53))) = 2 ^ 53 := by decide +kernel
  have hne : ¬ (1 : ℚ) = 0 := by decide +kernel
  have d : ((2 : ℚ) ^ 53 - 1 < 2 ^ 53) := by decide +kernel
  have h := reaches true true (2 ^ 53) 1 0 (2 ^ 53) (by decide +kernel)
    (by decide +kernel) 1 (2 ^ 53 - 1) (by decide +kernel) (by decide +kernel) fuel []
  unfold generate
  simp only [v0, v1, if_neg hne, d, decide_true, if_true]
  rw [h]

/-- So the property does not hold: it is not true that enough iterations always end the loop. -/
theorem C34_not_always_ends : ¬ ∀ (limit : Bool) (start stop step : Dec), step.m ≠ 0 →
    ∃ fuel, generate fuel limit [start, stop, step] ≠ .running := by
  intro h
  obtain ⟨fuel, hf⟩ := h true ⟨true, 1, 0⟩ ⟨false, 1, 0⟩ ⟨false, 1, -1⟩ (by decide)
  exact hf (C34_not_negative fuel)

/-- The proved part: the loop ends when the bounds and the step are integers within the bounds of `C33_range_partial`. (For
steps and non-negative bounds with decimals see `C66_decimal_range_partial`.) -/
theorem C34_integers_partial (limit : Bool) (start stop : Int) (neg : Bool) (m k : Nat) (hm : 0 < m)
    (h1 : |start| * 5 ^ stepDecimals m k ≤ 2 ^ 53) (h2 : |stop| * 5 ^ stepDecimals m k ≤ 2 ^ 53)
    (hs : |stop| + (m * 10 ^ k : Nat) ≤ 2 ^ 53) :
    ∃ n, ∀ fuel, n ≤ fuel → ∃ values, generate fuel limit [intDec start, intDec stop, ⟨neg, m, k⟩] = .done values := by
  obtain ⟨N, _, h⟩ := C33_range_partial limit start stop neg m k hm h1 h2 hs
  exact ⟨N + 1, fun fuel hf => ⟨_, h fuel hf⟩⟩

/-! ## C66: ranges with decimals -/

/-- The number `± n * 10 ^ -p` as a parameter. -/
def decDec (neg : Bool) (n p : Nat) : Dec := ⟨neg, n, -(p : Int)⟩

private theorem decDec_abs (neg : Bool) (n p : Nat) : toFloat (Dec.abs (decDec neg n p)) = grid p n := by
  unfold toFloat grid Dec.abs decDec
  simp only [pow10_neg, Int.cast_natCast, mul_one_div]

private theorem decDec_value (n p : Nat) : toFloat (Dec.value (decDec false n p)) = grid p n := decDec_abs false n p

/-- `to` and `until` for a step with `p` decimals and non-negative bounds with at most `p` decimals: the result is made of the floating
point numbers nearest to the exact terms of the progression, all the terms strictly before `stop` are there and none is
beyond `stop`. Missing from the full property: whether `stop` itself is included (see the two theorems below) and negative bounds, for which
the loop may not end (`C34_not_negative`). -/
theorem C66_decimal_range_partial (limit : Bool) (p : Nat) (A B S : Nat) (neg : Bool) (hp : 0 < p) (hp' : p ≤ 22)
    (hA : A ≤ 2 ^ 47) (hB : B ≤ 2 ^ 47) (hS : S ≤ 2 ^ 47) (hS0 : 0 < S) (hS1 : S < 10 ^ (p + 6)) (hS2 : 10 ^ p ≤ S * 10 ^ 4) :
    ∃ (N : Nat) (values : List Num), (∀ i : Nat, InRange false A B (term A B S i) → i < N) ∧ (∀ i : Nat, i < N → InRange true A B (term A B S i)) ∧
      (∀ fuel, N < fuel → generate fuel limit [decDec false A p, decDec false B p, decDec neg S p] = .done values) ∧
      values.length = N ∧ ∀ i r, values[i]? = some r → ∃ x, NumberIs r x ∧ FloatFor x ((term A B S i : ℚ) / 10 ^ p) := by
  obtain ⟨N, h1, h2, h3⟩ := rangeLoop_grid limit hp' (A := A) (B := B) (S := S) (by positivity) (by exact_mod_cast hA)
    (by positivity) (by exact_mod_cast hB) (by exact_mod_cast hS0) (by exact_mod_cast hS)
  refine ⟨N, (List.range N).map (fun i => simplify (rnd ((term A B S i : ℚ) / 10 ^ p))), h1, h2, fun fuel hf => ?_, by simp, fun i r hr => ?_⟩
  case refine_2 =>
    rw [List.getElem?_map, Option.map_eq_some_iff] at hr
    obtain ⟨j, hj, rfl⟩ := hr
    obtain ⟨hi, rfl⟩ := List.getElem?_eq_some_iff.1 hj
    rw [List.getElem_range]
    rw [List.length_range] at hi
    refine ⟨_, Lemmas.simplify_denotes ?_, Lemmas.rnd_floatFor _⟩
    have hin := h2 i hi
    have ht : 0 ≤ term A B S i ∧ term A B S i ≤ 2 ^ 47 := by
      have hpos : (0 : Int) ≤ i * S := by positivity
      unfold InRange at hin
      unfold term at hin ⊢
      split at hin <;> rename_i hlt <;> simp only [if_true] at hin
      · rw [if_pos hlt]; omega
      · rw [if_neg hlt]; omega
    generalize term A B S i = t at ht
    have h0 : (0 : ℚ) ≤ t := by exact_mod_cast ht.1
    have h1 : (t : ℚ) ≤ 2 ^ 47 := by exact_mod_cast ht.2
    have h10 : (1 : ℚ) ≤ 10 ^ p := one_le_pow₀ (by norm_num)
    have hq0 : (0 : ℚ) ≤ (t : ℚ) / 10 ^ p := by positivity
    have hq : (t : ℚ) / 10 ^ p ≤ 2 ^ 47 := (div_le_self h0 h10).trans h1
    have h := rnd_close' ((t : ℚ) / 10 ^ p)
    have h3 := abs_sub_abs_le_abs_sub (rnd ((t : ℚ) / 10 ^ p)) ((t : ℚ) / 10 ^ p)
    generalize (t : ℚ) / 10 ^ p = q at *
    rw [abs_of_nonneg hq0] at h h3
    norm_num at hq ⊢
    linarith
  obtain ⟨t, f, ht, hfl⟩ := frac_dec (neg := neg) hS0 hp hS1 hS2
  have hne : ¬ grid p S = 0 := by
    have : 0 < grid p (S : Int) := rnd_pos (by
      have : (0 : ℚ) < ((S : Int) : ℚ) := by exact_mod_cast hS0
      positivity)
    exact this.ne'
  have ht' : Strings.split2 (gText (decDec neg S p)) ['.'] = some (t, f) := ht
  unfold generate
  simp only [ht', decDec_value, decDec_abs, if_neg hne, hfl, decide_eq_true_eq]
  rw [h3 fuel hf]
  rfl

example : ∃ A B S p : Nat, 0 < p ∧ p ≤ 22 ∧ A ≤ 2 ^ 47 ∧ B ≤ 2 ^ 47 ∧ S ≤ 2 ^ 47 ∧ 0 < S ∧ S < 10 ^ (p + 6) ∧ 10 ^ p ≤ S * 10 ^ 4 ∧
    generate 100 true [decDec false A p, decDec false B p, decDec false S p] =
      .done [.flt (rnd (mkRat 1 2)), .flt (rnd (mkRat 3 4)), .int 1] :=
  ⟨50, 110, 25, 2, by decide, by decide, by decide, by decide, by decide, by decide, by decide, by decide, by decide +kernel⟩

/-- `to 0 0.3 0.1` does not contain 0.3, although the progression arrives at it. -/
theorem C66_to_misses_stop : generate 100 true [⟨false, 0, 0⟩, ⟨false, 3, -1⟩, ⟨false, 1, -1⟩] =
    .done [.int 0, .flt (rnd (mkRat 1 10)), .flt (rnd (mkRat 2 10))] := by decide +kernel

/-- `until 0 0.8 0.1` contains 0.8, which it should exclude. -/
theorem C66_until_includes_stop : ∃ values, generate 100 false [⟨false, 0, 0⟩, ⟨false, 8, -1⟩, ⟨false, 1, -1⟩] = .done values ∧
    Num.flt (toFloat (mkRat 8 10)) ∈ values := by
  refine ⟨[.int 0, .flt (rnd (mkRat 1 10)), .flt (rnd (mkRat 2 10)), .flt (rnd (mkRat 3 10)), .flt (rnd (mkRat 4 10)),
    .flt (rnd (mkRat 5 10)), .flt (rnd (mkRat 6 10)), .flt (rnd (mkRat 7 10)), .flt (rnd (mkRat 8 10))], ?_, ?_⟩
  · decide +kernel
  · simp [toFloat]

/-! ## C67: division and remainder -/

/-- Dividing by zero is an error. -/
theorem C67_divide_by_zero (a : ℚ) : divide a 0 = none := by
  unfold divide toFloat
  rw [rnd_zero, if_pos rfl]

/-- When the divisor divides the dividend the quotient is exact. -/
theorem C67_divide_exact (a b : Int) (ha : |a| ≤ 2 ^ 53) (hb : |b| ≤ 2 ^ 53) (hb0 : b ≠ 0) (h : b ∣ a) :
    divide a b = some (.int (a / b)) := by
  obtain ⟨k, rfl⟩ := h
  have hbq : (b : ℚ) ≠ 0 := by exact_mod_cast hb0
  have hk : |k| ≤ 2 ^ 53 := by
    refine le_trans ?_ ha
    rw [abs_mul]
    have : 1 ≤ |b| := Int.one_le_abs hb0
    nlinarith [abs_nonneg k]
  unfold divide
  rw [toFloat_int hb, toFloat_int ha, if_neg hbq, Int.mul_ediv_cancel_left k hb0]
  have : ((b * k : Int) : ℚ) / b = k := by push_cast; field_simp
  rw [this, rnd_int hk, simplify_int hk]

example : divide ((-42 : Int) : ℚ) ((6 : Int) : ℚ) = some (.int (-7)) :=
  C67_divide_exact (-42) 6 (by decide) (by decide) (by decide) (by decide)

/-- Otherwise the quotient is the floating point number nearest to the exact one. -/
theorem C67_divide_nearest (a b : Int) (ha : |a| ≤ 2 ^ 53) (hb : |b| ≤ 2 ^ 53) (hb0 : b ≠ 0) :
    ∃ r x, divide a b = some r ∧ NumberIs r x ∧ FloatFor x ((a : ℚ) / b) := by
  have hbq : (b : ℚ) ≠ 0 := by exact_mod_cast hb0
  refine ⟨_, rnd ((a : ℚ) / b), ?_, Lemmas.simplify_denotes ?_, Lemmas.rnd_floatFor _⟩
  · unfold divide
    rw [toFloat_int hb, toFloat_int ha, if_neg hbq]
  · have hq : |(a : ℚ) / b| ≤ 2 ^ 53 := by
      rw [abs_div, div_le_iff₀ (abs_pos.2 hbq)]
      have h1 : (1 : ℚ) ≤ |(b : ℚ)| := by
        have := Int.one_le_abs hb0
        exact_mod_cast this
      have h2 : |(a : ℚ)| ≤ 2 ^ 53 := by exact_mod_cast ha
      nlinarith
    have h := rnd_close' ((a : ℚ) / b)
    have h3 := abs_sub_abs_le_abs_sub (rnd ((a : ℚ) / b)) ((a : ℚ) / b)
    norm_num at hq ⊢
    linarith

example : divide ((1 : Int) : ℚ) ((4 : Int) : ℚ) = some (.flt (mkRat 1 4)) := by decide +kernel

/-- The remainder of two integers is the one of the division truncated toward zero: it has the sign of the dividend and
is smaller than the divisor. -/
theorem C67_modulo (a b : Int) (ha : |a| ≤ 2 ^ 53) (hb : |b| ≤ 2 ^ 53) (hb0 : b ≠ 0) :
    ∃ q r : Int, modulo a b = .int r ∧ a = b * q + r ∧ |r| < |b| ∧ (0 ≤ a → 0 ≤ r) ∧ (a ≤ 0 → r ≤ 0) := by
  have hbq : (b : ℚ) ≠ 0 := by exact_mod_cast hb0
  have hbabs : (0 : ℚ) < |(b : ℚ)| := abs_pos.2 hbq
  set t : Int := if (a : ℚ) / b < 0 then -(-((a : ℚ) / b)).floor else ((a : ℚ) / b).floor with ht
  have hr : (a : ℚ) - b * t = ((a - b * t : Int) : ℚ) := by push_cast; rfl
  have e : (b : ℚ) * ((a : ℚ) / b) = a := by field_simp
  -- the distance between the quotient and its truncation
  have hd : |(a : ℚ) / b - t| < 1 ∧ (0 ≤ (a : ℚ) / b → (t : ℚ) ≤ (a : ℚ) / b) ∧ ((a : ℚ) / b ≤ 0 → (a : ℚ) / b ≤ t) := by
    rw [ht]
    generalize (a : ℚ) / b = q
    have fl : ∀ x : ℚ, (x.floor : ℚ) ≤ x ∧ x < x.floor + 1 := by
      intro x
      refine ⟨Rat.le_floor_iff.1 (le_refl _), ?_⟩
      by_contra hc
      have := Rat.le_floor_iff.2 (show ((x.floor + 1 : Int) : ℚ) ≤ x by push_cast; linarith)
      omega
    split
    · rename_i h
      have f := fl (-q)
      push_cast
      refine ⟨by rw [abs_lt]; constructor <;> linarith [f.1, f.2], fun h' => by linarith, fun _ => by linarith [f.1]⟩
    · rename_i h
      have f := fl q
      refine ⟨by rw [abs_lt]; constructor <;> linarith [f.1, f.2], fun _ => f.1, fun h' => ?_⟩
      have : q = 0 := by linarith
      rw [this]
      have : (0 : ℚ).floor = 0 := by decide +kernel
      rw [this]; norm_num
  have hrb : |a - b * t| < |b| := by
    have : |((a - b * t : Int) : ℚ)| < |(b : ℚ)| := by
      rw [← hr]
      have : (a : ℚ) - b * t = b * ((a : ℚ) / b - t) := by rw [mul_sub, e]
      rw [this, abs_mul]
      nlinarith [hd.1]
    exact_mod_cast this
  have sgn : 0 ≤ ((a : ℚ) / b) * (a - b * t) / b * b ^ 2 := by
    have h1 : ((a : ℚ) / b) * (a - b * t) / b * b ^ 2 = ((a : ℚ) / b) * ((a : ℚ) / b - t) * b ^ 2 := by field_simp
    rw [h1]
    apply mul_nonneg _ (sq_nonneg _)
    rcases le_total 0 ((a : ℚ) / b) with h | h
    · exact mul_nonneg h (by linarith [hd.2.1 h])
    · exact mul_nonneg_of_nonpos_of_nonpos h (by linarith [hd.2.2 h])
  have sgn2 : 0 ≤ (a : ℚ) * (a - b * t) := by
    have : ((a : ℚ) / b) * (a - b * t) / b * b ^ 2 = (a : ℚ) * (a - b * t) := by field_simp
    rwa [this] at sgn
  have sgn3 : 0 ≤ a * (a - b * t) := by exact_mod_cast sgn2
  refine ⟨t, a - b * t, ?_, by ring, hrb, ?_, ?_⟩
  · unfold modulo goMod
    rw [toFloat_int ha, toFloat_int hb]
    simp only
    rw [← ht, hr, simplify_int (hrb.le.trans hb)]
  · intro h
    rcases lt_or_eq_of_le h with h | h
    · exact nonneg_of_mul_nonneg_right sgn3 h
    · have : t = 0 := by rw [ht, ← h]; simp; decide +kernel
      rw [this, ← h]; simp
  · intro h
    rcases lt_or_eq_of_le h with h | h
    · by_contra hc
      nlinarith
    · have : t = 0 := by rw [ht, h]; simp; decide +kernel
      rw [this, h]; simp

example : modulo ((-7 : Int) : ℚ) ((3 : Int) : ℚ) = .int (-1) := by decide +kernel
example : modulo ((7 : Int) : ℚ) ((-3 : Int) : ℚ) = .int 1 := by decide +kernel

/-! ## C68: min and max -/

/-- The smallest (largest) of a list of integers is one of them and bounds them all. -/
theorem C68_min_max (useMin : Bool) (v : Int) (vs : List Int) (h : ∀ x ∈ v :: vs, |x| ≤ 2 ^ 53) :
    ∃ r ∈ v :: vs, compareNumerics useMin ((v :: vs).map (fun x : Int => (x : ℚ))) = some (.int r) ∧
      ∀ x ∈ v :: vs, if useMin then r ≤ x else x ≤ r := by
  have key : ∀ (vs : List Int) (v : Int), (∀ x ∈ v :: vs, |x| ≤ 2 ^ 53) → ∃ r ∈ v :: vs,
      ((vs.map (fun x : Int => (x : ℚ))).map toFloat).foldl (fun result v => if useMin then min result v else max result v) (v : ℚ) = (r : ℚ) ∧
      ∀ x ∈ v :: vs, if useMin then r ≤ x else x ≤ r := by
    intro vs
    induction vs with
    | nil => intro v _; exact ⟨v, by simp, rfl, by intro x hx; simp at hx; subst hx; split <;> exact le_refl _⟩
    | cons w vs ih =>
      intro v h
      have hw : toFloat (w : ℚ) = w := toFloat_int (h w (by simp))
      cases useMin with
      | true =>
        obtain ⟨r, hr, he, hb⟩ := ih (min v w) (by
          intro x hx
          rcases List.mem_cons.1 hx with rfl | hx
          · rcases min_choice v w with e | e <;> rw [e] <;> exact h _ (by simp)
          · exact h x (by simp [hx]))
        refine ⟨r, ?_, ?_, ?_⟩
        · rcases List.mem_cons.1 hr with e | hr
          · rcases min_choice v w with e' | e' <;> rw [e, e'] <;> simp
          · simp [hr]
        · simp only [List.map_cons, List.foldl_cons, hw, if_true] at he ⊢
          rw [← Int.cast_min]; exact he
        · simp only [if_true] at hb ⊢
          have h0 := hb _ (List.mem_cons_self)
          intro x hx
          rcases List.mem_cons.1 hx with rfl | hx
          · exact h0.trans (min_le_left _ _)
          · rcases List.mem_cons.1 hx with rfl | hx
            · exact h0.trans (min_le_right _ _)
            · exact hb x (by simp [hx])
      | false =>
        obtain ⟨r, hr, he, hb⟩ := ih (max v w) (by
          intro x hx
          rcases List.mem_cons.1 hx with rfl | hx
          · rcases max_choice v w with e | e <;> rw [e] <;> exact h _ (by simp)
          · exact h x (by simp [hx]))
        refine ⟨r, ?_, ?_, ?_⟩
        · rcases List.mem_cons.1 hr with e | hr
          · rcases max_choice v w with e' | e' <;> rw [e, e'] <;> simp
          · simp [hr]
        · simp only [List.map_cons, List.foldl_cons, hw, Bool.false_eq_true, if_false] at he ⊢
          rw [← Int.cast_max]; exact he
        · simp only [Bool.false_eq_true, if_false] at hb ⊢
          have h0 := hb _ (List.mem_cons_self)
          intro x hx
          rcases List.mem_cons.1 hx with rfl | hx
          · exact (le_max_left _ _).trans h0
          · rcases List.mem_cons.1 hx with rfl | hx
            · exact (le_max_right _ _).trans h0
            · exact hb x (by simp [hx])
  obtain ⟨r, hr, he, hb⟩ := key vs v h
  refine ⟨r, hr, ?_, hb⟩
  unfold compareNumerics
  simp only [List.map_cons]
  rw [toFloat_int (h v (by simp)), he, simplify_int (h r hr)]

example : compareNumerics true [3, -5, 4] = some (.int (-5)) := by decide +kernel

end Verif.Props
