import Verif.Lemmas.GoVal
import Verif.Lemmas.Quote
import Verif.Model.Hcl
import Verif.Spec.HclSpec
/-!
# C57, C58: HCL data and keys
-/

namespace Verif
namespace Props
open Spec Hcl Lemmas

/-! ## C57 -/

private theorem flattenElems_eq (l : List GoVal) : flattenElems l = l.map flatten := by
  induction l with
  | nil => rfl
  | cons v l ih => simp [flattenElems, ih]

private theorem flattenEntries_eq (l : List (Text × GoVal)) : flattenEntries l = l.map (fun e => (e.1, flatten e.2)) := by
  induction l with
  | nil => rfl
  | cons e l ih => obtain ⟨k, v⟩ := e; simp [flattenEntries, ih]

private theorem flatten_leaf {v : GoVal} (h : Leaf v) : flatten v = v := by
  cases v <;> first | rfl | exact absurd rfl (h.1 _ _) | exact absurd rfl (h.2 _ _)

private theorem flattenMaps_many {es : List GoVal} (h : es.length ≠ 1) : flattenMaps es = .slice .maps es := by
  match es, h with
  | [], _ => rfl
  | [a], h => simp at h
  | _ :: _ :: _, _ => rfl

private theorem length_one {α : Type} {es : List α} (h : es.length = 1) : ∃ a, es = [a] := by
  match es, h with
  | [a], _ => exact ⟨a, rfl⟩

/-- C57. In data decoded from HCL every list of one map is replaced by that map, at every depth; the other lists keep their elements in order, the maps their
keys, and scalars are unchanged. -/
theorem C57_unwrapped (v : GoVal) (h : HclData v) : Unwrapped v (flatten v) := by
  induction h with
  | leaf v h => rw [flatten_leaf h]; exact .leaf v h
  | map es _ ih =>
    simp only [flatten, flattenEntries_eq]
    refine .map _ _ (by simp [Function.comp_def]) (fun i e e' he he' => ?_)
    rw [List.getElem?_map, he] at he'
    simp only [Option.map_some, Option.some.injEq] at he'
    subst he'
    exact ih e (List.mem_of_getElem? he)
  | list es _ ih =>
    simp only [flatten, flattenElems_eq]
    refine .list _ _ (by simp) (fun i e e' he he' => ?_)
    rw [List.getElem?_map, he] at he'
    simp only [Option.map_some, Option.some.injEq] at he'
    subst he'
    exact ih e (List.mem_of_getElem? he)
  | maps es _ _ ih =>
    simp only [flatten, flattenElems_eq]
    by_cases hl : es.length = 1
    · obtain ⟨a, rfl⟩ := length_one hl
      exact .one _ _ (ih a (by simp))
    · rw [flattenMaps_many (by simpa using hl)]
      refine .many _ _ hl (by simp) (fun i e e' he he' => ?_)
      rw [List.getElem?_map, he] at he'
      simp only [Option.map_some, Option.some.injEq] at he'
      subst he'
      exact ih e (List.mem_of_getElem? he)

/-- C57. No data is lost or added: the same scalars are found under the same keys, before and after. -/
theorem C57_kept (v : GoVal) (h : HclData v) (path : List Text) (x : GoVal) : At (flatten v) path x ↔ At v path x := by
  induction h generalizing path x with
  | leaf v h => rw [flatten_leaf h]
  | map es _ ih =>
    simp only [flatten, flattenEntries_eq]
    constructor
    · intro h
      cases h with
      | leaf _ hl => exact absurd rfl (hl.1 _ _)
      | map _ _ k w path _ hm ha =>
        obtain ⟨⟨k', v'⟩, he, heq⟩ := List.mem_map.1 hm
        obtain ⟨rfl, rfl⟩ := Prod.mk.inj heq
        exact .map _ _ _ _ _ _ he ((ih _ he _ _).1 ha)
    · intro h
      cases h with
      | leaf _ hl => exact absurd rfl (hl.1 _ _)
      | map _ _ k w path _ hm ha =>
        exact .map _ _ _ _ _ _ (List.mem_map.2 ⟨_, hm, rfl⟩) ((ih _ hm _ _).2 ha)
  | list es _ ih =>
    simp only [flatten, flattenElems_eq]
    constructor
    · intro h
      cases h with
      | leaf _ hl => exact absurd rfl (hl.2 _ _)
      | slice _ _ w _ _ hm ha =>
        obtain ⟨e, he, rfl⟩ := List.mem_map.1 hm
        exact .slice _ _ _ _ _ he ((ih e he _ _).1 ha)
    · intro h
      cases h with
      | leaf _ hl => exact absurd rfl (hl.2 _ _)
      | slice _ _ w _ _ hm ha => exact .slice _ _ _ _ _ (List.mem_map.2 ⟨w, hm, rfl⟩) ((ih w hm _ _).2 ha)
  | maps es _ _ ih =>
    simp only [flatten, flattenElems_eq]
    by_cases hl : es.length = 1
    · obtain ⟨a, rfl⟩ := length_one hl
      change At (flatten a) path x ↔ _
      rw [ih a (by simp)]
      constructor
      · intro h; exact .slice _ _ _ _ _ (by simp) h
      · intro h
        cases h with
        | leaf _ hl => exact absurd rfl (hl.2 _ _)
        | slice _ _ w _ _ hm ha => obtain rfl := List.mem_singleton.1 hm; exact ha
    · rw [flattenMaps_many (by simpa using hl)]
      constructor
      · intro h
        cases h with
        | leaf _ hl => exact absurd rfl (hl.2 _ _)
        | slice _ _ w _ _ hm ha =>
          obtain ⟨e, he, rfl⟩ := List.mem_map.1 hm
          exact .slice _ _ _ _ _ he ((ih e he _ _).1 ha)
      · intro h
        cases h with
        | leaf _ hl => exact absurd rfl (hl.2 _ _)
        | slice _ _ w _ _ hm ha => exact .slice _ _ _ _ _ (List.mem_map.2 ⟨w, hm, rfl⟩) ((ih w hm _ _).2 ha)

/-- C57. Flattening again changes nothing. -/
theorem C57_again (v : GoVal) (h : HclData v) : flatten (flatten v) = flatten v := by
  have shape : ∀ m, HclData (.map .any m) → ∃ m', flatten (.map .any m) = .map .any m' := fun m _ => ⟨_, rfl⟩
  induction h with
  | leaf v h => rw [flatten_leaf h, flatten_leaf h]
  | map es _ ih =>
    simp only [flatten, flattenEntries_eq, List.map_map, GoVal.map.injEq, true_and]
    exact List.map_congr_left (fun e he => by simp [ih e he])
  | list es _ ih =>
    simp only [flatten, flattenElems_eq, List.map_map, GoVal.slice.injEq, true_and]
    exact List.map_congr_left (fun e he => by simp [ih e he])
  | maps es _ _ ih =>
    simp only [flatten, flattenElems_eq]
    by_cases hl : es.length = 1
    · obtain ⟨a, rfl⟩ := length_one hl
      exact ih a (by simp)
    · rw [flattenMaps_many (by simpa using hl)]
      simp only [flatten, flattenElems_eq]
      have : (es.map flatten).map flatten = es.map flatten := by
        rw [List.map_map]
        exact List.map_congr_left (fun e he => by simp [ih e he])
      rw [this, flattenMaps_many (by simpa using hl)]

/-- C57. The flattened data can not be told from that of a map alone: a list of one map and the map give the same. -/
theorem C57_not_injective (m : List (Text × GoVal)) : flatten (.slice .maps [.map .any m]) = flatten (.map .any m) := rfl

/-- Nested data that satisfies the hypotheses of C57: `a { b { c = 1 } }` with two blocks `b`. -/
example : let v := GoVal.map .any [(T "a", .slice .maps [.map .any [(T "b", .slice .maps [.map .any [(T "c", .int .int 1)], .map .any []])]])]
    HclData v ∧ flatten v = .map .any [(T "a", .map .any [(T "b", .slice .maps [.map .any [(T "c", .int .int 1)], .map .any []])])] ∧
      At v [T "a", T "b", T "c"] (.int .int 1) := by
  have l : Leaf (.int .int 1) := ⟨by simp, by simp⟩
  refine ⟨?_, rfl, ?_⟩
  · refine .map _ ?_
    simp only [List.mem_cons, List.not_mem_nil, or_false, forall_eq]
    refine .maps _ (by simp) ?_
    simp only [List.mem_cons, List.not_mem_nil, or_false, forall_eq]
    refine .map _ ?_
    simp only [List.mem_cons, List.not_mem_nil, or_false, forall_eq]
    refine .maps _ (by simp) ?_
    simp only [List.mem_cons, List.not_mem_nil, or_false, forall_eq_or_imp, forall_eq]
    refine ⟨.map _ ?_, .map _ (by simp)⟩
    simp only [List.mem_cons, List.not_mem_nil, or_false, forall_eq]
    exact .leaf _ l
  · exact .map _ _ _ _ _ _ (List.mem_singleton.2 rfl) (.slice _ _ _ _ _ (List.mem_singleton.2 rfl) (.map _ _ _ _ _ _ (List.mem_singleton.2 rfl)
      (.slice _ _ _ _ _ (List.mem_cons_self ..) (.map _ _ _ _ _ _ (List.mem_singleton.2 rfl) (.leaf _ l)))))

/-! ## C58 -/

private theorem word_iff (c : Char) : (isWord c || c == '-') = true ↔ Letter c ∨ '0' ≤ c ∧ c ≤ '9' ∨ c = '_' ∨ c = '-' := by
  simp only [isWord, Letter, Bool.or_eq_true, Bool.and_eq_true, decide_eq_true_eq, beq_iff_eq]
  constructor
  · rintro ((((h | h) | h) | h) | h) <;> simp [h]
  · rintro ((h | h) | h | h | h) <;> simp [h]

/-- C58. A key that is an identifier is written as it is. -/
theorem C58_bare (pr : Char → Bool) (key : Text) (h : Identifier key) : Hcl.id pr key = key := by
  obtain ⟨c, t, hc, ht⟩ := h
  have h1 : isIdentifier (c :: t) = true := by
    simp only [isIdentifier, Bool.and_eq_true, Bool.or_eq_true, decide_eq_true_eq, List.all_eq_true]
    refine ⟨?_, fun d hd => by simpa using (word_iff d).2 (ht d hd)⟩
    rcases hc with (h | h) | rfl
    · exact .inr h
    · exact .inl ⟨h.1, Char.le_trans h.2 (by decide)⟩
    · exact .inl (by decide)
  simp only [Hcl.id, h1, if_true]

/-- C58. A key that is not an identifier is written quoted, and reading the quoted text gives the key. Missing: keys that begin with one of the characters
between `Z` and `a`, see `C58_not_identifier`. -/
theorem C58_quoted_partial (pr : Char → Bool) (key : Text) (h : ¬ Identifier key) (hc : ∀ c ∈ T "[\\]^`", key.head? ≠ some c) :
    readLiteral (Hcl.id pr key) = some key := by
  have h1 : isIdentifier key = false := by
    rw [Bool.eq_false_iff]
    intro hi
    cases key with
    | nil => simp [isIdentifier] at hi
    | cons c t =>
      simp only [isIdentifier, Bool.and_eq_true, Bool.or_eq_true, decide_eq_true_eq, List.all_eq_true] at hi
      refine h (.mk c t ?_ (fun d hd => (word_iff d).1 (by simpa using hi.2 d hd)))
      have hr : 'A' ≤ c ∧ c ≤ 'z' := by
        rcases hi.1 with h | h
        · exact h
        · exact ⟨Char.le_trans (by decide) h.1, h.2⟩
      have hn : 65 ≤ c.toNat ∧ c.toNat ≤ 122 := ⟨hr.1, hr.2⟩
      by_cases h2 : c ≤ 'Z'
      · exact .inl (.inr ⟨hr.1, h2⟩)
      · by_cases h3 : 'a' ≤ c
        · exact .inl (.inl ⟨h3, hr.2⟩)
        · have h2' : ¬ c.toNat ≤ 90 := h2
          have h3' : ¬ 97 ≤ c.toNat := h3
          have : c.toNat = 91 ∨ c.toNat = 92 ∨ c.toNat = 93 ∨ c.toNat = 94 ∨ c.toNat = 95 ∨ c.toNat = 96 := by omega
          rcases this with h | h | h | h | h | h
          · exact (hc '[' (by decide) (by rw [List.head?_cons, char_of_toNat (d := '[') h])).elim
          · exact (hc '\\' (by decide) (by rw [List.head?_cons, char_of_toNat (d := '\\') h])).elim
          · exact (hc ']' (by decide) (by rw [List.head?_cons, char_of_toNat (d := ']') h])).elim
          · exact (hc '^' (by decide) (by rw [List.head?_cons, char_of_toNat (d := '^') h])).elim
          · exact .inr (char_of_toNat (d := '_') h)
          · exact (hc '`' (by decide) (by rw [List.head?_cons, char_of_toNat (d := '`') h])).elim
  simp only [Hcl.id, h1, Bool.false_eq_true, if_false]
  exact readLiteral_quote pr key

/-- C58. Different keys are written differently. -/
theorem C58_distinct (pr : Char → Bool) (key key' : Text) (h : Hcl.id pr key = Hcl.id pr key') : key = key' := by
  have hq : ∀ k k', isIdentifier k = true → k ≠ Quote.quote pr k' := by
    rintro k k' hi rfl
    simp [isIdentifier, Quote.quote] at hi
  unfold Hcl.id at h
  split at h <;> split at h
  · exact h
  · rename_i h1 _; exact absurd h (hq _ _ h1)
  · rename_i _ h2; exact absurd h.symm (hq _ _ h2)
  · have := readLiteral_quote pr key
    rw [h, readLiteral_quote] at this
    exact (Option.some.inj this).symm

/-- C58 does not hold for keys that begin with `[`, `\`, `]`, `^` or a backquote and go on as identifiers: they are written bare, because `A-z` in the pattern
covers the characters between the capital and the small letters. -/
theorem C58_not_identifier (pr : Char → Bool) : ∀ c ∈ T "[\\]^`", ¬ Identifier [c, 'a'] ∧ Hcl.id pr [c, 'a'] = [c, 'a'] := by
  intro c hc
  have : c = '[' ∨ c = '\\' ∨ c = ']' ∨ c = '^' ∨ c = '`' := by simpa [T] using hc
  rcases this with rfl | rfl | rfl | rfl | rfl <;>
    exact ⟨by rintro ⟨_, _, h, _⟩; revert h; simp [Letter], rfl⟩

/-- Keys of C58: an identifier, and keys with a dot, a blank or a quote. -/
example : Identifier (T "my-key_1") ∧ Hcl.id (fun _ => true) (T "my key") = T "\"my key\"" ∧ ¬ Identifier (T "my key") ∧
    Hcl.id (fun _ => true) (T "a.\"b\"") = T "\"a.\\\"b\\\"\"" ∧ Hcl.id (fun _ => true) [] = T "\"\"" := by
  refine ⟨.mk 'm' (T "y-key_1") (by simp [Letter]) (by simp [T, Letter]), by decide, ?_, by decide, by decide⟩
  rintro ⟨_, _, _, h⟩
  have := h ' ' (by decide)
  revert this
  simp [Letter]

end Props
end Verif
