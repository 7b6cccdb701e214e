import Verif.Model.Numbers
/-!
# Round trips between texts and integers
-/

namespace Verif.Numbers
open Verif Value

theorem digitsLoop_append (base : Nat) (a b : Text) (acc : Nat) :
    digitsLoop base (a ++ b) acc = (digitsLoop base a acc).bind (digitsLoop base b) := by
  induction a generalizing acc with
  | nil => rfl
  | cons c cs ih =>
    simp only [List.cons_append, digitsLoop]
    cases digitVal c with
    | none => rfl
    | some d => by_cases h : d < base <;> simp [h, ih]

theorem digitVal_digitChar {d : Nat} (h : d < 16) : digitVal (Nat.digitChar d) = some d := by
  have : ∀ d : Fin 16, digitVal (Nat.digitChar d) = some d.val := by decide
  exact this ⟨d, h⟩

theorem digitVal_hexDigit {d : Nat} (h : d < 16) : digitVal (hexDigit (Nat.digitChar d)) = some d := by
  have : ∀ d : Fin 16, digitVal (hexDigit (Nat.digitChar d)) = some d.val := by decide
  exact this ⟨d, h⟩

/-- Reading back the digits of a number, each digit possibly rewritten by `f`. -/
theorem digitsLoop_toDigits (base : Nat) (hb : 1 < base) (hb' : base ≤ 16) (f : Char → Char)
    (hf : ∀ d, d < base → digitVal (f (Nat.digitChar d)) = some d) (n : Nat) :
    digitsLoop base ((Nat.toDigits base n).map f) 0 = some n := by
  induction n using Nat.strongRecOn with
  | _ n ih =>
    by_cases h : n < base
    · rw [Nat.toDigits_of_lt_base h]
      simp [digitsLoop, hf n h, h]
    · have hdiv : n / base < n := Nat.div_lt_self (by omega) hb
      rw [Nat.toDigits_of_base_le hb (by omega), List.map_append, digitsLoop_append, ih _ hdiv]
      have hm : n % base < base := Nat.mod_lt _ (by omega)
      simp only [Option.bind_some, List.map_cons, List.map_nil, digitsLoop, hf _ hm, if_pos hm]
      rw [Nat.mul_comm, Nat.div_add_mod]

theorem digit_not_sign {c : Char} {d : Nat} (h : digitVal c = some d) : c ≠ '+' ∧ c ≠ '-' := by
  constructor <;> (rintro rfl; cases h)

theorem parseUint_digits {base : Nat} {s : Text} {n : Nat} (hs : s ≠ []) (h : digitsLoop base s 0 = some n)
    (hn : n < 2 ^ 64) : parseUint base s = some n := by
  unfold parseUint
  rw [if_neg hs, h]
  simp only [if_pos hn]

theorem parseInt_pos {base : Nat} {s : Text} {n : Nat} (hs : s ≠ []) (h : digitsLoop base s 0 = some n)
    (hn : n < 2 ^ 63) : parseInt base s = some (n : Int) := by
  have h1 := parseUint_digits hs h (by omega)
  cases s with
  | nil => exact absurd rfl hs
  | cons c cs =>
    have hc : c ≠ '+' ∧ c ≠ '-' := by
      simp only [digitsLoop] at h
      cases hd : digitVal c with
      | none => rw [hd] at h; cases h
      | some d => exact digit_not_sign hd
    unfold parseInt
    split
    rename_i heq
    split at heq
    · exact absurd ((List.cons.inj ‹_›).1) hc.1
    · exact absurd ((List.cons.inj ‹_›).1) hc.2
    · cases heq
      rw [h1]
      simp only [Bool.false_eq_true, if_false, if_pos hn]

theorem parseInt_neg {base : Nat} {s : Text} {n : Nat} (hs : s ≠ []) (h : digitsLoop base s 0 = some n)
    (hn : n ≤ 2 ^ 63) : parseInt base ('-' :: s) = some (-(n : Int)) := by
  have h1 := parseUint_digits hs h (by omega)
  unfold parseInt
  simp only [h1, if_true, if_pos hn]

/-- The 64-bit signed integers. -/
def Int64Range (n : Int) : Prop := -2 ^ 63 ≤ n ∧ n < 2 ^ 63

theorem toDigits_ne_nil (b n : Nat) : Nat.toDigits b n ≠ [] := Nat.toDigits_ne_nil

theorem parseInt_intText {n : Int} (h : Int64Range n) : parseInt 10 (intText n) = some n := by
  have key : ∀ m, digitsLoop 10 (Nat.toDigits 10 m) 0 = some m := by
    intro m
    have := digitsLoop_toDigits 10 (by omega) (by omega) id (fun d hd => digitVal_digitChar (by omega)) m
    simpa using this
  unfold Int64Range at h
  cases n with
  | ofNat m =>
    simp only [intText]
    rw [parseInt_pos (toDigits_ne_nil _ _) (key m) (by simp at h; omega)]; rfl
  | negSucc m =>
    simp only [intText]
    rw [parseInt_neg (toDigits_ne_nil _ _) (key (m + 1)) (by omega)]
    simp [Int.negSucc_eq]

theorem parseInt_hexText {n : Int} (h : Int64Range n) : parseInt 16 (hexText n) = some n := by
  have key := digitsLoop_toDigits 16 (by omega) (by omega) hexDigit (fun d hd => digitVal_hexDigit hd)
  unfold Int64Range at h
  cases n with
  | ofNat m =>
    simp only [hexText]
    rw [parseInt_pos (by simp) (key m) (by simp at h; omega)]; rfl
  | negSucc m =>
    simp only [hexText]
    rw [parseInt_neg (by simp) (key (m + 1)) (by omega)]
    simp [Int.negSucc_eq]

theorem toInt_int {n : Int} (h : Int64Range n) : toInt (.int n) = some n := by
  unfold toInt; simp only [sprint]; exact parseInt_intText h

theorem parseInt_range {base : Nat} {s : Text} {n : Int} (h : parseInt base s = some n) : Int64Range n := by
  unfold parseInt at h
  unfold Int64Range
  split at h
  split at h
  · cases h
  · rename_i m _
    split at h
    · split at h
      · cases h; omega
      · cases h
    · split at h
      · cases h; omega
      · cases h

theorem toWord_int {n : Int} (h : Int64Range n) : toWord (.int n) = some (BitVec.ofInt 64 n) := by
  unfold toWord; rw [toInt_int h]; rfl

end Verif.Numbers
