import Verif.Lemmas.ListOps
import Verif.Lemmas.DictOps
/-!
# C64, C65: cleaning lists, and dictionaries from key/value arguments
-/

namespace Verif
open Value ListOps

/-- C64. `RemoveEmpty` keeps, in order, exactly the elements that are neither nil, nor an empty text, nor an empty list. (A
number always has a printed form.) -/
theorem C64_remove_empty (l : List Value) (hf : ∀ r, Value.flt r ∈ l → r ≠ []) :
    ∃ keep : Value → Bool, removeEmpty l = l.filter keep ∧
      ∀ x ∈ l, keep x = false ↔ x = .nil ∨ x = .str [] ∨ x = .list [] := by
  refine ⟨fun x => !(isEmptyItem x), ?_, ?_⟩
  · unfold removeEmpty
    rw [foldl_filter_eq (fun x => !(isEmptyItem x))]; simp
  · intro x hx
    cases x with
    | nil => simp [isEmptyItem]
    | bool b => cases b <;> simp [isEmptyItem, sprint, T]
    | int i =>
      have : intText i ≠ [] := by
        cases i with
        | ofNat n => exact Nat.toDigits_ne_nil
        | negSucc n => simp [intText]
      simp [isEmptyItem, sprint, this]
    | flt r => simp [isEmptyItem, sprint, hf r hx]
    | str s => simp [isEmptyItem, sprint]
    | list l => simp [isEmptyItem]
    | dict d => simp [isEmptyItem, sprint, T]

/-- C64. `RemoveNil` keeps, in order, exactly the elements that are not nil. -/
theorem C64_remove_nil (l : List Value) :
    ∃ keep : Value → Bool, removeNil l = l.filter keep ∧ ∀ x, keep x = false ↔ x = .nil := by
  refine ⟨fun x => !(isNil x), ?_, ?_⟩
  · unfold removeNil
    rw [foldl_filter_eq (fun x => !(isNil x))]; simp
  · intro x; cases x <;> simp [isNil]

example : removeEmpty [.int 0, .nil, .str [], .list [], .list [.nil], .bool false] = [.int 0, .list [.nil], .bool false] := by rfl

namespace Spec

/-- The value given last for a key in a sequence of alternating keys and values. -/
def lastValue (key : Text) : List Value → Option Value
  | k :: v :: rest => (lastValue key rest).or (if sprint k = key then some v else none)
  | _ => none

end Spec

open DictOps in
/-- C65. `dict k1 v1 k2 v2 ...` is refused exactly when the number of arguments is odd; otherwise each key has the last
value given for it, and there is no other key. -/
theorem C65_create_dict (v : List Value) :
    (createDict v = none ↔ v.length % 2 = 1) ∧
    ∀ d, createDict v = some d → ∀ key, GoMap.get? d key = Spec.lastValue key v := by
  constructor
  · unfold createDict
    split
    · simp; omega
    · simp; omega
  · intro d h key
    unfold createDict at h
    split at h
    · cases h
    · rename_i hev
      simp only [Option.some.injEq] at h
      subst h
      have key2 : ∀ (n : Nat) (v : List Value), v.length ≤ n → ∀ d : Dict,
          GoMap.get? (createDict.go d v) key = (Spec.lastValue key v).or (GoMap.get? d key) := by
        intro n
        induction n with
        | zero =>
          intro v hv d
          have : v = [] := List.length_eq_zero_iff.1 (by omega)
          subst this; simp [createDict.go, Spec.lastValue]
        | succ n ih =>
          intro v hv d
          match v with
          | [] => simp [createDict.go, Spec.lastValue]
          | [_] => simp [createDict.go, Spec.lastValue]
          | k :: x :: rest =>
            simp only [createDict.go, Spec.lastValue]
            rw [ih rest (by simp at hv; omega), DictOps.set, GoMap.get?_set]
            by_cases hk : sprint k = key
            · cases Spec.lastValue key rest <;> simp [hk]
            · have hk' : ¬ key = sprint k := fun e => hk e.symm
              cases Spec.lastValue key rest <;> simp [hk, hk']
      rw [key2 v.length v (Nat.le_refl _) []]
      cases Spec.lastValue key v <;> simp [GoMap.get?]

open DictOps in
example : createDict [.str ['a'], .int 1, .int 2, .nil, .str ['a'], .int 3] =
    some [(['a'], .int 3), (['2'], .nil)] := by rfl

end Verif
