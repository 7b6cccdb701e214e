import Verif.Lemmas.DictOps
/-! # Lemmas about merging dictionaries -/

namespace Verif
open Value Spec

namespace Spec

theorem seenAt_cons (k : Text) (p : List Text) (d : Dict) :
    seenAt (k :: p) d =
    match GoMap.get? d k with
    | none => none
    | some (.dict d') => seenAt p d'
    | some v => if p = [] then some (.leaf v) else none := rfl

theorem seenAt_eq_resolve (p : List Text) (d : Dict) : seenAt p d = resolve p [d] := by
  induction p generalizing d with
  | nil => rfl
  | cons k rest ih =>
    rw [seenAt_cons]
    unfold resolve
    cases h : GoMap.get? d k with
    | none => simp [h]
    | some v =>
      simp only [List.filterMap_cons, h, List.filterMap_nil]
      cases v <;> simp [ih]

end Spec

namespace DictOps

/-- Value of a key after merging, from its values in the target and in the source. -/
def combine : Option Value → Option Value → Option Value
  | none, s => s
  | some t, none => some t
  | some (.dict a), some (.dict b) => some (.dict (deepMerge a b))
  | some t, some _ => some t

theorem combine_none (o : Option Value) : combine o none = o := by
  cases o with
  | none => rfl
  | some v => cases v <;> rfl

/-- One iteration of the loop of `deepMerge`. -/
def mergeEntry (target : Dict) (k : Text) (sv : Value) : Dict :=
  match GoMap.get? target k with
  | none => GoMap.set target k sv
  | some tv =>
    match tv, sv with
    | .dict a, .dict b => GoMap.set target k (.dict (deepMerge a b))
    | _, _ => target

theorem deepMerge_cons (t : Dict) (k : Text) (v : Value) (s : Dict) :
    deepMerge t ((k, v) :: s) = deepMerge (mergeEntry t k v) s := by
  conv => lhs; unfold deepMerge
  unfold mergeEntry
  cases h : GoMap.get? t k with
  | none => rfl
  | some tv => cases tv <;> cases v <;> simp [mergeValue]

@[simp] theorem deepMerge_nil (t : Dict) : deepMerge t [] = t := by unfold deepMerge; rfl

theorem get?_mergeEntry (t : Dict) (k : Text) (v : Value) (k' : Text) :
    GoMap.get? (mergeEntry t k v) k' = if k = k' then combine (GoMap.get? t k) (some v) else GoMap.get? t k' := by
  unfold mergeEntry
  cases h : GoMap.get? t k with
  | none => rw [GoMap.get?_set]; rfl
  | some tv =>
    have same : GoMap.get? t k' = if k = k' then some tv else GoMap.get? t k' := by
      split
      · rename_i e; rw [← e, h]
      · rfl
    cases tv <;> cases v <;> first | exact same | (rw [GoMap.get?_set]; rfl)

theorem get?_deepMerge (t s : Dict) (hw : GoMap.WF s) (k : Text) :
    GoMap.get? (deepMerge t s) k = combine (GoMap.get? t k) (GoMap.get? s k) := by
  induction s generalizing t with
  | nil => rw [deepMerge_nil, GoMap.get?_nil, combine_none]
  | cons e s ih =>
    obtain ⟨k0, v⟩ := e
    rw [deepMerge_cons, ih _ hw.tail, get?_mergeEntry, GoMap.get?_cons]
    by_cases h : k0 = k
    · subst h
      simp only [if_true]
      rw [GoMap.get?_eq_none_iff.2 hw.head, combine_none]
    · simp [h]

theorem WF_mergeEntry {t : Dict} (hw : GoMap.WF t) (k : Text) (v : Value) : GoMap.WF (mergeEntry t k v) := by
  unfold mergeEntry
  split
  · exact hw.set _ _
  · split
    · exact hw.set _ _
    · exact hw

theorem WF_deepMerge {t s : Dict} (ht : GoMap.WF t) : GoMap.WF (deepMerge t s) := by
  induction s generalizing t with
  | nil => simpa using ht
  | cons e s ih => obtain ⟨k, v⟩ := e; rw [deepMerge_cons]; exact ih (WF_mergeEntry ht k v)

theorem WFValue_get? {d : Dict} (h : WFValue (.dict d)) {k : Text} {v : Value} (hg : GoMap.get? d k = some v) :
    WFValue v := by
  simp only [WFValue] at h
  exact (WFEntries_iff d).1 h.2 (k, v) (GoMap.mem_of_get? hg)

theorem WFValue_dict_iff {d : Dict} : WFValue (.dict d) ↔ GoMap.WF d ∧ ∀ k v, GoMap.get? d k = some v → WFValue v := by
  constructor
  · intro h
    exact ⟨by simp only [WFValue] at h; exact h.1, fun k v => WFValue_get? h⟩
  · rintro ⟨h1, h2⟩
    simp only [WFValue]
    refine ⟨h1, (WFEntries_iff d).2 ?_⟩
    rintro ⟨k, v⟩ he
    exact h2 k v (GoMap.get?_of_mem h1 he)

theorem WFValue_deepMerge_aux (sv : Value) : ∀ (t s : Dict), sv = .dict s → WFValue (.dict t) → WFValue (.dict s) →
    WFValue (.dict (deepMerge t s)) := by
  induction sv using Value.ind with
  | dict d ih =>
    rintro t s e ht hs
    cases e
    rw [WFValue_dict_iff] at *
    refine ⟨WF_deepMerge ht.1, ?_⟩
    intro k v hv
    rw [get?_deepMerge t d hs.1] at hv
    cases h1 : GoMap.get? t k with
    | none => rw [h1] at hv; exact hs.2 k v hv
    | some tv =>
      cases h2 : GoMap.get? d k with
      | none => rw [h1, h2, combine_none] at hv; cases hv; exact ht.2 k _ h1
      | some dv =>
        rw [h1, h2] at hv
        cases tv with
        | dict a =>
          cases dv with
          | dict b =>
            simp only [combine, Option.some.injEq] at hv
            subst hv
            exact ih (k, .dict b) (GoMap.mem_of_get? h2) a b rfl (ht.2 k _ h1) (hs.2 k _ h2)
          | _ => simp only [combine, Option.some.injEq] at hv; subst hv; exact ht.2 k _ h1
        | _ => simp only [combine, Option.some.injEq] at hv; subst hv; exact ht.2 k _ h1
  | _ => intros; contradiction

theorem WFValue_deepMerge {t s : Dict} (ht : WFValue (.dict t)) (hs : WFValue (.dict s)) :
    WFValue (.dict (deepMerge t s)) := WFValue_deepMerge_aux _ t s rfl ht hs

theorem asDict_leaf {v : Value} (h : ∀ d, v ≠ .dict d) : asDict v = none := by
  cases v <;> first | rfl | exact absurd rfl (h _)

theorem resolve_deepMerge (p : List Text) (t s : Dict) (ds : List Dict) (hs : WFValue (.dict s)) :
    resolve p (deepMerge t s :: ds) = resolve p (t :: s :: ds) := by
  induction p generalizing t s ds with
  | nil => rfl
  | cons k rest ih =>
    unfold resolve
    simp only [List.filterMap_cons, get?_deepMerge t s (WFValue_dict_iff.1 hs).1]
    cases h1 : GoMap.get? t k with
    | none => simp [combine]
    | some tv =>
      cases h2 : GoMap.get? s k with
      | none => simp [combine_none]
      | some sv =>
        cases tv with
        | dict a =>
          cases sv with
          | dict b =>
            simp only [combine, List.filterMap_cons, asDict]
            exact ih a b _ (WFValue_get? hs h2)
          | _ => simp only [combine]; rw [List.filterMap_cons_none (by rfl)]
        | _ => simp [combine]

end DictOps
end Verif
