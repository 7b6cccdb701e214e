import Verif.Lemmas.GoVal
/-!
# C61, C62: conditional helpers, conversion of values to collections
-/

namespace Verif
namespace Props
open Spec GoVal Lemmas

/-! ## C61 -/

private theorem isEmpty_iff (v : GoVal) : v.isEmpty = true ↔ EmptyValue v := by
  constructor
  · intro h
    cases v <;> simp only [isEmpty, Bool.not_eq_true', decide_eq_true_eq, List.length_eq_zero_iff, reduceCtorEq] at h <;> (try subst h) <;> constructor
  · intro h
    cases h <;> rfl

/-- C61. `IIf` gives its third argument when the tested value is empty and its second one otherwise. -/
theorem C61_iif (test a b : GoVal) : (EmptyValue test → iif test a b = b) ∧ (¬ EmptyValue test → iif test a b = a) := by
  rw [← isEmpty_iff]
  unfold iif
  exact ⟨fun h => if_pos h, fun h => if_neg h⟩

/-- C61. `Default` gives the value unless it is empty. -/
theorem C61_default (value dflt : GoVal) :
    (EmptyValue value → GoVal.default value dflt = dflt) ∧ (¬ EmptyValue value → GoVal.default value dflt = value) :=
  C61_iif value value dflt

/-- C61. `IfUndef` gives the default for no value, nil and a nil pointer, and otherwise exactly what it was given: even an empty text or zero. -/
theorem C61_undef (dflt : GoVal) :
    ifUndef dflt [] = dflt ∧ ifUndef dflt [.nil] = dflt ∧ ifUndef dflt [.nilptr] = dflt ∧
      (∀ v, v ≠ .nil → v ≠ .nilptr → ifUndef dflt [v] = v) ∧ ∀ v w vs, ifUndef dflt (v :: w :: vs) = .slice .any (v :: w :: vs) := by
  refine ⟨rfl, rfl, rfl, ?_, fun _ _ _ => rfl⟩
  intro v h1 h2
  cases v <;> first | rfl | exact absurd rfl h1 | exact absurd rfl h2

/-- C61. Being empty is being the zero value of its type, for every value but structures, functions and channels. -/
theorem C61_zero_partial (v : GoVal) (hs : ∀ fs, v ≠ .struct fs) (ho : ∀ n s, v ≠ .opaque n s) : EmptyValue v ↔ ZeroValue v := by
  constructor
  · intro h; cases h <;> constructor
  · intro h
    cases h <;> first | constructor | exact absurd rfl (hs _) | exact absurd rfl (ho _ _)

/-- C61 does not hold for structures, nil functions and nil channels: a zero value is not considered empty. -/
theorem C61_not_zero (a b : GoVal) :
    ZeroValue (.struct [({ name := T "A" }, .int .int 0)]) ∧ iif (.struct [({ name := T "A" }, .int .int 0)]) a b = a ∧
      ZeroValue (.opaque true (T "<nil>")) ∧ iif (.opaque true (T "<nil>")) a b = a := by
  refine ⟨.struct _ (by simp; exact .int _), rfl, .opaque _, rfl⟩

/-- The cases of C61: an empty text, a text, zero and nil. -/
example : iif (.str false []) (.int .int 1) (.int .int 2) = .int .int 2 ∧ GoVal.default (.str false (T "x")) (.int .int 1) = .str false (T "x") ∧
    ¬ EmptyValue (.str false (T "x")) ∧ ifUndef (.int .int 1) [.str false []] = .str false [] :=
  ⟨rfl, rfl, by rw [← isEmpty_iff]; decide, rfl⟩

/-! ## C62 -/

/-- C62. A value stored in a list or a dictionary has no native map or slice left, at any depth. -/
theorem C62_converted (v r : GoVal) (h : convert v = some r) : Converted r := convert_converted v r h

/-- C62. Converting a converted value changes nothing. -/
theorem C62_again (v r : GoVal) (h : convert v = some r) : convert r = some r := by
  by_cases hl : Leaf r
  · rw [convert_leaf h hl]; rw [convert_leaf h hl] at h; exact h
  · exact convert_coll (convert_converted v r h) hl

/-- C62. A scalar, a structure or a function is left as it is. -/
theorem C62_scalar (v : GoVal) (hl : Leaf v) (h1 : v ≠ .nilptr) (h2 : ∀ o, v ≠ .ptr o) : convert v = some v := by
  cases v <;> first | rfl | exact absurd rfl h1 | exact absurd rfl (h2 _) | exact absurd rfl (hl.1 _ _) | exact absurd rfl (hl.2 _ _)

/-- C62. The conversion succeeds and keeps the content: the same elements in the same order, the same keys with the same values. Missing: pointers, see
`C62_not_pointer` and `C62_not_nil`, and maps with several keys printed alike, see `C62_not_keys`. -/
theorem C62_content_partial (v : GoVal) (hp : PointerFree v) (hk : KeysDiffer v) : ∃ r, convert v = some r ∧ SameGoContent v r := by
  revert hp hk
  refine goVal_induct (P := fun v => PointerFree v → KeysDiffer v → ∃ r, convert v = some r ∧ SameGoContent v r) ?_ ?_ ?_ ?_ v
  · intro v hl hnp hp hk
    refine ⟨v, C62_scalar v hl ?_ hnp, .leaf v hl⟩
    cases hp with
    | leaf _ _ h _ => exact h
    | slice _ _ _ => simp
    | map _ _ _ => simp
  · intro o _ hp
    cases hp with
    | leaf _ _ _ h => exact absurd rfl (h o)
  · intro ty es ih hp hk
    have hp' : ∀ e ∈ es, PointerFree e := by
      cases hp with
      | leaf _ h _ _ => exact absurd rfl (h.2 _ _)
      | slice _ _ h => exact h
    have hk' : ∀ e ∈ es, KeysDiffer e := by
      cases hk with
      | leaf _ h => exact absurd rfl (h.2 _ _)
      | slice _ _ h => exact h
    simp only [convert, convertSlice]
    split
    · obtain ⟨rs, hrs⟩ := convertElems_total (es := es) (fun e he => (ih e he (hp' e he) (hk' e he)).imp (fun _ h => h.1))
      obtain ⟨h1, h2⟩ := convertElems_spec hrs
      refine ⟨.slice .coll rs, by simp [hrs], .slice _ _ _ _ h1 (fun i e e' he he' => ?_)⟩
      have hm := List.mem_of_getElem? he
      obtain ⟨r, hr, hs⟩ := ih e hm (hp' e hm) (hk' e hm)
      rw [h2 i e e' he he'] at hr
      obtain rfl := Option.some.inj hr
      exact hs
    · refine ⟨_, rfl, ?_⟩
      have := sameContent_refl (.slice ty es) hk
      cases this with
      | leaf _ h => exact absurd rfl (h.2 _ _)
      | slice _ _ _ _ h1 h2 => exact .slice _ _ _ _ h1 h2
  · intro ty es ih hp hk
    have hp' : ∀ e ∈ es, PointerFree e.2 := by
      cases hp with
      | leaf _ h _ _ => exact absurd rfl (h.1 _ _)
      | map _ _ h => exact h
    have hk' : (es.map Prod.fst).Nodup ∧ ∀ e ∈ es, KeysDiffer e.2 := by
      cases hk with
      | leaf _ h => exact absurd rfl (h.1 _ _)
      | map _ _ h h' => exact ⟨h, h'⟩
    simp only [convert, convertMap]
    split
    · obtain ⟨rs, hrs⟩ := convertEntries_total (es := es) (fun e he => (ih e he (hp' e he) (hk'.2 e he)).imp (fun _ h => h.1))
      have hkeys := convertEntries_keys hrs
      refine ⟨.map .coll rs, by simp [hrs, setAll_nodup (hkeys ▸ hk'.1)], .map _ _ _ _ (fun k => by rw [hkeys]) (fun k v v' hv hv' => ?_)⟩
      obtain ⟨w, hw, hc⟩ := convertEntries_mem hrs hv'
      have e1 := GoMap.get?_of_mem (m := es) hk'.1 hv
      rw [GoMap.get?_of_mem (m := es) hk'.1 hw] at e1
      obtain rfl := Option.some.inj e1
      obtain ⟨r, hr, hs⟩ := ih (k, w) hv (hp' _ hv) (hk'.2 _ hv)
      simp only at hr
      rw [hc] at hr
      obtain rfl := Option.some.inj hr
      exact hs
    · refine ⟨_, rfl, ?_⟩
      have := sameContent_refl (.map ty es) hk
      cases this with
      | leaf _ h => exact absurd rfl (h.1 _ _)
      | map _ _ _ _ h1 h2 => exact .map _ _ _ _ h1 h2

private theorem printElems_eq (ff : Rat → Text) (l : List GoVal) : printElems ff l = l.map (print ff) := by
  induction l with
  | nil => rfl
  | cons v l ih => simp [printElems, ih]

private theorem printEntries_eq (ff : Rat → Text) (l : List (Text × GoVal)) : printEntries ff l = l.map (fun e => (e.1, print ff e.2)) := by
  induction l with
  | nil => rfl
  | cons e l ih => obtain ⟨k, v⟩ := e; simp [printEntries, ih]

/-- C62. The printed form of a map does not depend on the order of its entries. -/
theorem C62_print_order (ff : Rat → Text) (ty : NodeTy) (es es' : List (Text × GoVal)) (hd : (es.map Prod.fst).Nodup) (hp : es.Perm es') :
    print ff (.map ty es) = print ff (.map ty es') := by
  simp only [print, printEntries_eq]
  rw [Text.sortBy_perm_invariant Prod.fst (hp.map _)]
  rw [List.map_map]
  exact hd

private theorem convertEntries_print (ff : Rat → Text) {es rs : List (Text × GoVal)} (h : convertEntries es = some rs)
    (ih : ∀ e ∈ es, ∀ r, convert e.2 = some r → print ff r = print ff e.2) : printEntries ff rs = printEntries ff es := by
  induction es generalizing rs with
  | nil => simp only [convertEntries, Option.some.injEq] at h; subst h; rfl
  | cons e l ih' =>
    obtain ⟨k, v⟩ := e
    obtain ⟨x, l', hx, hl, rfl⟩ := consM_some h
    simp only [Option.map_eq_some_iff] at hx
    obtain ⟨w, hw, rfl⟩ := hx
    simp only [printEntries]
    rw [ih' hl (fun e he => ih e (List.mem_cons_of_mem _ he)), ih (k, v) (by simp) w hw]

/-- C62. The printed form of a value without native maps is the same after the conversion. Missing: native maps, see `C62_not_print`. -/
theorem C62_print_partial (ff : Rat → Text) (v : GoVal) (hp : PointerFree v) (hm : NativeMapFree v) (r : GoVal) (h : convert v = some r) :
    print ff r = print ff v := by
  revert hp hm r
  refine goVal_induct (P := fun v => PointerFree v → NativeMapFree v → ∀ r, convert v = some r → print ff r = print ff v) ?_ ?_ ?_ ?_ v
  · intro v hl hnp hp hm r h
    have : v ≠ .nilptr := by
      cases hp with
      | leaf _ _ h _ => exact h
      | slice _ _ _ => simp
      | map _ _ _ => simp
    rw [C62_scalar v hl this hnp] at h
    obtain rfl := Option.some.inj h
    rfl
  · intro o _ hp
    cases hp with
    | leaf _ _ _ h => exact absurd rfl (h o)
  · intro ty es ih hp hm r h
    have hp' : ∀ e ∈ es, PointerFree e := by
      cases hp with
      | leaf _ h _ _ => exact absurd rfl (h.2 _ _)
      | slice _ _ h => exact h
    have hm' : ∀ e ∈ es, NativeMapFree e := by
      cases hm with
      | leaf _ h => exact absurd rfl (h.2 _ _)
      | slice _ _ h => exact h
    simp only [convert, convertSlice] at h
    split at h
    · simp only [Option.map_eq_some_iff] at h
      obtain ⟨rs, hrs, rfl⟩ := h
      obtain ⟨h1, h2⟩ := convertElems_spec hrs
      have : printElems ff rs = printElems ff es := by
        rw [printElems_eq, printElems_eq]
        refine List.ext_getElem (by simp [h1]) (fun i hi hi' => ?_)
        simp only [List.length_map] at hi hi'
        rw [List.getElem_map, List.getElem_map]
        exact ih _ (List.getElem_mem hi') (hp' _ (List.getElem_mem hi')) (hm' _ (List.getElem_mem hi')) _
          (h2 i _ _ (List.getElem?_eq_getElem hi') (List.getElem?_eq_getElem hi))
      simp only [print, this]
    · simp only [Option.some.injEq] at h
      subst h
      rfl
  · intro ty es ih hp hm r h
    have hp' : ∀ e ∈ es, PointerFree e.2 := by
      cases hp with
      | leaf _ h _ _ => exact absurd rfl (h.1 _ _)
      | map _ _ h => exact h
    cases hm with
    | leaf _ h => exact absurd rfl (h.1 _ _)
    | dict _ hd hm' =>
      simp only [convert, convertMap] at h
      split at h
      · simp only [Option.map_eq_some_iff] at h
        obtain ⟨rs, hrs, rfl⟩ := h
        rw [setAll_nodup (convertEntries_keys hrs ▸ hd)]
        have := convertEntries_print ff hrs (fun e he r hr => ih e he (hp' e he) (hm' e he) r hr)
        simp only [print, this]
      · simp only [Option.some.injEq] at h
        subst h
        rfl

/-- C62 does not hold for the printed form of native maps: `map[a:1]` becomes `dict[a:1]`. -/
theorem C62_not_print : ∃ v r, PointerFree v ∧ KeysDiffer v ∧ convert v = some r ∧ ∀ ff, print ff v = T "map[a:1]" ∧ print ff r = T "dict[a:1]" := by
  refine ⟨.map .any [(T "a", .int .int 1)], .map .coll [(T "a", .int .int 1)], .map _ _ ?_, .map _ _ (by decide) ?_, rfl, fun ff => ⟨rfl, rfl⟩⟩
  · simp only [List.mem_cons, List.not_mem_nil, or_false, forall_eq]
    exact .leaf _ ⟨by simp, by simp⟩ (by simp) (by simp)
  · simp only [List.mem_cons, List.not_mem_nil, or_false, forall_eq]
    exact .leaf _ ⟨by simp, by simp⟩

/-- C62 does not hold for pointers: whether a pointer to a map is converted depends on the other elements of the list. -/
theorem C62_not_pointer (m : List (Text × GoVal)) (hm : needsEntries m = false) :
    convert (.slice .any [.ptr (.map .any m)]) = some (.slice .coll [.ptr (.map .any m)]) ∧
      convert (.slice .any [.ptr (.map .any m), .slice .any []]) = some (.slice .coll [.map .coll m, .slice .coll []]) := by
  constructor
  · rfl
  · simp [convert, convertSlice, convertElems, convertMap, needsElems, needs, hm, consM]

/-- C62 does not hold for nil pointers: storing one panics. -/
theorem C62_not_nil : convert .nilptr = none := rfl

/-- C62 does not hold for maps with keys printed alike: `map[interface{}]interface{}{1: "x", "1": "y"}` loses one of its values. -/
theorem C62_not_keys (x y : GoVal) (hx : convert x = some x) (hy : convert y = some y) :
    convert (.map .typed [(T "1", x), (T "1", y)]) = some (.map .coll [(T "1", y)]) := by
  simp [convert, convertMap, convertEntries, hx, hy, consM, setAll, GoMap.set]

/-- A nested value that satisfies the hypotheses of C62. -/
example : let v := GoVal.map .any [(T "a", .slice .typed [.str false (T "x"), .nil]), (T "b", .map .typed [(T "1", .bool true)])]
    PointerFree v ∧ KeysDiffer v ∧
      convert v = some (.map .coll [(T "a", .slice .coll [.str false (T "x"), .nil]), (T "b", .map .coll [(T "1", .bool true)])]) := by
  refine ⟨.map _ _ ?_, .map _ _ (by decide) ?_, rfl⟩
  · simp only [List.mem_cons, List.not_mem_nil, or_false, forall_eq_or_imp, forall_eq]
    refine ⟨.slice _ _ ?_, .map _ _ ?_⟩
    · simp only [List.mem_cons, List.not_mem_nil, or_false, forall_eq_or_imp, forall_eq]
      exact ⟨.leaf _ ⟨by simp, by simp⟩ (by simp) (by simp), .leaf _ ⟨by simp, by simp⟩ (by simp) (by simp)⟩
    · simp only [List.mem_cons, List.not_mem_nil, or_false, forall_eq]
      exact .leaf _ ⟨by simp, by simp⟩ (by simp) (by simp)
  · simp only [List.mem_cons, List.not_mem_nil, or_false, forall_eq_or_imp, forall_eq]
    refine ⟨.slice _ _ ?_, .map _ _ (by decide) ?_⟩
    · simp only [List.mem_cons, List.not_mem_nil, or_false, forall_eq_or_imp, forall_eq]
      exact ⟨.leaf _ ⟨by simp, by simp⟩, .leaf _ ⟨by simp, by simp⟩⟩
    · simp only [List.mem_cons, List.not_mem_nil, or_false, forall_eq]
      exact .leaf _ ⟨by simp, by simp⟩

/-- Entries in another order. -/
example : ([(T "b", GoVal.nil), (T "a", .bool true)].map Prod.fst).Nodup ∧ [(T "b", GoVal.nil), (T "a", .bool true)].Perm [(T "a", .bool true), (T "b", GoVal.nil)] :=
  ⟨by decide, List.Perm.swap _ _ _⟩

/-- A dictionary that satisfies the hypotheses of `C62_print_partial`. -/
example : NativeMapFree (.map .coll [(T "k", .slice .typed [.int .i8 3])]) :=
  .dict _ (by decide) (by
    simp only [List.mem_cons, List.not_mem_nil, or_false, forall_eq]
    refine .slice _ _ ?_
    simp only [List.mem_cons, List.not_mem_nil, or_false, forall_eq]
    exact .leaf _ ⟨by simp, by simp⟩)

/-- A list that satisfies the hypotheses of `C62_print_partial`. -/
example : NativeMapFree (.slice .any [.str false (T "x"), .slice .typed [.int .i8 3]]) ∧
    convert (.slice .any [.str false (T "x"), .slice .typed [.int .i8 3]]) = some (.slice .coll [.str false (T "x"), .slice .coll [.int .i8 3]]) := by
  refine ⟨.slice _ _ ?_, rfl⟩
  simp only [List.mem_cons, List.not_mem_nil, or_false, forall_eq_or_imp, forall_eq]
  refine ⟨.leaf _ ⟨by simp, by simp⟩, .slice _ _ ?_⟩
  simp only [List.mem_cons, List.not_mem_nil, or_false, forall_eq]
  exact .leaf _ ⟨by simp, by simp⟩

end Props
end Verif
