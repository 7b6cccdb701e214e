import Verif.Lemmas.DictOps
import Verif.Spec.GoValSpec
/-!
# Lemmas on Go values and their conversion
-/

namespace Verif
namespace Lemmas
open Spec GoVal

mutual
/-- Induction on the maps and slices of a value. -/
theorem goVal_induct {P : GoVal → Prop} (leaf : ∀ v, Leaf v → (∀ o, v ≠ .ptr o) → P v) (ptr : ∀ o, P o → P (.ptr o))
    (slice : ∀ ty es, (∀ e ∈ es, P e) → P (.slice ty es)) (map : ∀ ty es, (∀ e ∈ es, P e.2) → P (.map ty es)) : ∀ v, P v
  | .nil => leaf _ ⟨by simp, by simp⟩ (by simp)
  | .bool _ => leaf _ ⟨by simp, by simp⟩ (by simp)
  | .int _ _ => leaf _ ⟨by simp, by simp⟩ (by simp)
  | .uint _ _ => leaf _ ⟨by simp, by simp⟩ (by simp)
  | .flt _ _ => leaf _ ⟨by simp, by simp⟩ (by simp)
  | .str _ _ => leaf _ ⟨by simp, by simp⟩ (by simp)
  | .slice ty es => slice ty es (goVal_elems leaf ptr slice map es)
  | .map ty es => map ty es (goVal_entries leaf ptr slice map es)
  | .nilptr => leaf _ ⟨by simp, by simp⟩ (by simp)
  | .ptr o => ptr o (goVal_induct leaf ptr slice map o)
  | .struct _ => leaf _ ⟨by simp, by simp⟩ (by simp)
  | .opaque _ _ => leaf _ ⟨by simp, by simp⟩ (by simp)
theorem goVal_elems {P : GoVal → Prop} (leaf : ∀ v, Leaf v → (∀ o, v ≠ .ptr o) → P v) (ptr : ∀ o, P o → P (.ptr o))
    (slice : ∀ ty es, (∀ e ∈ es, P e) → P (.slice ty es)) (map : ∀ ty es, (∀ e ∈ es, P e.2) → P (.map ty es)) : ∀ (l : List GoVal), ∀ e ∈ l, P e
  | [] => by simp
  | v :: l => by
    intro e he
    rcases List.mem_cons.1 he with h | h
    · rw [h]; exact goVal_induct leaf ptr slice map v
    · exact goVal_elems leaf ptr slice map l e h
theorem goVal_entries {P : GoVal → Prop} (leaf : ∀ v, Leaf v → (∀ o, v ≠ .ptr o) → P v) (ptr : ∀ o, P o → P (.ptr o))
    (slice : ∀ ty es, (∀ e ∈ es, P e) → P (.slice ty es)) (map : ∀ ty es, (∀ e ∈ es, P e.2) → P (.map ty es)) :
    ∀ (l : List (Text × GoVal)), ∀ e ∈ l, P e.2
  | [] => by simp
  | (k, v) :: l => by
    intro e he
    rcases List.mem_cons.1 he with h | h
    · rw [h]; exact goVal_induct leaf ptr slice map v
    · exact goVal_entries leaf ptr slice map l e h
end

theorem needsElems_eq (l : List GoVal) : needsElems l = l.any needs := by
  induction l with
  | nil => rfl
  | cons v l ih => simp [needsElems, ih]

theorem needsEntries_eq (l : List (Text × GoVal)) : needsEntries l = l.any (fun e => needs e.2) := by
  induction l with
  | nil => rfl
  | cons e l ih => obtain ⟨k, v⟩ := e; simp [needsEntries, ih]

theorem needs_leaf {v : GoVal} (h : Leaf v) : needs v = false := by
  cases v <;> first | rfl | exact absurd rfl (h.1 _ _) | exact absurd rfl (h.2 _ _)

theorem needs_of_converted {v : GoVal} (h : Converted v) : needs v = false := by
  induction h with
  | leaf v h => exact needs_leaf h
  | slice es _ ih => simp only [needs, needsElems_eq]; simpa using ih
  | map es _ ih =>
    simp only [needs, needsEntries_eq]
    have : es.any (fun e => needs e.2) = false := by
      rw [List.any_eq_false]; intro e he; simp [ih e he]
    simp [this]

theorem converted_of_needs (v : GoVal) : needs v = false → Converted v := by
  refine goVal_induct (P := fun v => needs v = false → Converted v) (fun v h _ _ => .leaf v h) (fun o _ _ => .leaf _ ⟨by simp, by simp⟩) ?_ ?_ v
  · intro ty es ih h
    simp only [needs, needsElems_eq, Bool.or_eq_false_iff, decide_eq_false_iff_not, ne_eq, Decidable.not_not, List.any_eq_false] at h
    obtain ⟨rfl, h2⟩ := h
    exact .slice es (fun e he => ih e he (by simpa using h2 e he))
  · intro ty es ih h
    simp only [needs, needsEntries_eq, Bool.or_eq_false_iff, decide_eq_false_iff_not, ne_eq, Decidable.not_not, List.any_eq_false] at h
    obtain ⟨rfl, h2⟩ := h
    exact .map es (fun e he => ih e he (by simpa using h2 e he))

theorem consM_some {α : Type} {o : Option α} {ol : Option (List α)} {r : List α} (h : consM o ol = some r) :
    ∃ x l, o = some x ∧ ol = some l ∧ r = x :: l := by
  cases o with
  | none => cases ol <;> simp [consM] at h
  | some x =>
    cases ol with
    | none => simp [consM] at h
    | some l => simp only [consM, Option.some.injEq] at h; exact ⟨x, l, rfl, rfl, h.symm⟩

/-- What `convertElems` gives, element by element. -/
theorem convertElems_spec {es rs : List GoVal} (h : convertElems es = some rs) :
    es.length = rs.length ∧ ∀ (i : Nat) e r, es[i]? = some e → rs[i]? = some r → convert e = some r := by
  induction es generalizing rs with
  | nil => simp only [convertElems, Option.some.injEq] at h; subst h; simp
  | cons v l ih =>
    obtain ⟨x, l', hx, hl, rfl⟩ := consM_some h
    obtain ⟨h1, h2⟩ := ih hl
    refine ⟨by simp [h1], ?_⟩
    intro i e r he hr
    cases i with
    | zero => simp only [List.getElem?_cons_zero, Option.some.injEq] at he hr; subst he hr; exact hx
    | succ i => simp only [List.getElem?_cons_succ] at he hr; exact h2 i e r he hr

theorem convertElems_total {es : List GoVal} (h : ∀ e ∈ es, ∃ r, convert e = some r) : ∃ rs, convertElems es = some rs := by
  induction es with
  | nil => exact ⟨[], rfl⟩
  | cons v l ih =>
    obtain ⟨r, hr⟩ := h v (by simp)
    obtain ⟨rs, hrs⟩ := ih (fun e he => h e (List.mem_cons_of_mem _ he))
    exact ⟨r :: rs, by simp [convertElems, hr, hrs, consM]⟩

theorem convertEntries_keys {es rs : List (Text × GoVal)} (h : convertEntries es = some rs) : rs.map Prod.fst = es.map Prod.fst := by
  induction es generalizing rs with
  | nil => simp only [convertEntries, Option.some.injEq] at h; subst h; rfl
  | cons e l ih =>
    obtain ⟨k, v⟩ := e
    obtain ⟨x, l', hx, hl, rfl⟩ := consM_some h
    simp only [Option.map_eq_some_iff] at hx
    obtain ⟨w, _, rfl⟩ := hx
    simp [ih hl]

theorem convertEntries_mem {es rs : List (Text × GoVal)} (h : convertEntries es = some rs) {k : Text} {r : GoVal} (hm : (k, r) ∈ rs) :
    ∃ v, (k, v) ∈ es ∧ convert v = some r := by
  induction es generalizing rs with
  | nil => simp only [convertEntries, Option.some.injEq] at h; subst h; simp at hm
  | cons e l ih =>
    obtain ⟨k', v⟩ := e
    obtain ⟨x, l', hx, hl, rfl⟩ := consM_some h
    simp only [Option.map_eq_some_iff] at hx
    obtain ⟨w, hw, rfl⟩ := hx
    rcases List.mem_cons.1 hm with h1 | h1
    · obtain ⟨rfl, rfl⟩ := Prod.mk.inj h1
      exact ⟨v, by simp, hw⟩
    · obtain ⟨v', hv', hc⟩ := ih hl h1
      exact ⟨v', List.mem_cons_of_mem _ hv', hc⟩

theorem convertEntries_total {es : List (Text × GoVal)} (h : ∀ e ∈ es, ∃ r, convert e.2 = some r) : ∃ rs, convertEntries es = some rs := by
  induction es with
  | nil => exact ⟨[], rfl⟩
  | cons e l ih =>
    obtain ⟨k, v⟩ := e
    obtain ⟨r, hr⟩ := h (k, v) (by simp)
    obtain ⟨rs, hrs⟩ := ih (fun e he => h e (List.mem_cons_of_mem _ he))
    exact ⟨(k, r) :: rs, by simp only at hr; simp [convertEntries, hr, hrs, consM]⟩

theorem foldSet_mem {rs : List (Text × GoVal)} {acc : GoMap GoVal} {e : Text × GoVal}
    (h : e ∈ rs.foldl (fun (m : GoMap GoVal) e => m.set e.1 e.2) acc) : e ∈ rs ∨ e ∈ acc := by
  induction rs generalizing acc with
  | nil => exact .inr h
  | cons x l ih =>
    rcases ih h with h1 | h1
    · exact .inl (List.mem_cons_of_mem _ h1)
    · have : ∀ m : GoMap GoVal, e ∈ m.set x.1 x.2 → e = x ∨ e ∈ m := by
        intro m
        induction m with
        | nil => intro hm; simpa [GoMap.set] using hm
        | cons y m ihm =>
          obtain ⟨k', v'⟩ := y
          intro hm
          simp only [GoMap.set] at hm
          split at hm
          · rcases List.mem_cons.1 hm with h | h
            · exact .inl h
            · exact .inr (List.mem_cons_of_mem _ h)
          · rcases List.mem_cons.1 hm with h | h
            · exact .inr (by simp [h])
            · rcases ihm h with h | h
              · exact .inl h
              · exact .inr (List.mem_cons_of_mem _ h)
      rcases this acc h1 with h2 | h2
      · exact .inl (by simp [h2])
      · exact .inr h2

theorem setAll_mem {rs : List (Text × GoVal)} {e : Text × GoVal} (h : e ∈ setAll rs) : e ∈ rs := by
  rcases foldSet_mem h with h | h
  · exact h
  · simp at h

theorem foldSet_nodup {rs : List (Text × GoVal)} {acc : GoMap GoVal} (hn : (rs.map Prod.fst).Nodup) (hd : ∀ k ∈ rs.map Prod.fst, k ∉ acc.keys) :
    rs.foldl (fun (m : GoMap GoVal) e => m.set e.1 e.2) acc = acc ++ rs := by
  induction rs generalizing acc with
  | nil => simp
  | cons e l ih =>
    obtain ⟨k, v⟩ := e
    simp only [List.map_cons, List.nodup_cons] at hn
    rw [List.foldl_cons, GoMap.set_of_not_mem _ (hd k (by simp)), ih hn.2]
    · simp
    · intro k' hk' hm
      simp only [GoMap.keys, List.map_append, List.map_cons, List.map_nil, List.mem_append, List.mem_singleton] at hm
      rcases hm with hm | rfl
      · exact hd k' (by simp only [List.map_cons]; exact List.mem_cons_of_mem _ hk') hm
      · exact hn.1 hk'

theorem setAll_nodup {rs : List (Text × GoVal)} (hn : (rs.map Prod.fst).Nodup) : setAll rs = rs := by
  unfold setAll
  rw [foldSet_nodup hn (by simp [GoMap.keys])]
  rfl

theorem foldSet_WF (rs : List (Text × GoVal)) {acc : GoMap GoVal} (h : acc.WF) : GoMap.WF (rs.foldl (fun (m : GoMap GoVal) e => m.set e.1 e.2) acc) := by
  induction rs generalizing acc with
  | nil => exact h
  | cons e l ih => exact ih (h.set _ _)

theorem setAll_WF (rs : List (Text × GoVal)) : (setAll rs).WF := foldSet_WF rs GoMap.WF_nil

/-- Conversion gives a value that needs no further conversion. -/
theorem convert_converted (v : GoVal) : ∀ r, convert v = some r → Converted r := by
  have hm : ∀ ty (es : List (Text × GoVal)), (∀ e ∈ es, ∀ r, convert e.2 = some r → Converted r) →
      ∀ r, convertMap ty es (convertEntries es) = some r → Converted r := by
    intro ty es ih r h
    unfold convertMap at h
    split at h
    · simp only [Option.map_eq_some_iff] at h
      obtain ⟨rs, hrs, rfl⟩ := h
      refine .map _ (fun e he => ?_)
      obtain ⟨k, w⟩ := e
      obtain ⟨v', hv', hc⟩ := convertEntries_mem hrs (setAll_mem he)
      exact ih _ hv' _ hc
    · rename_i hc
      simp only [Option.some.injEq] at h
      subst h
      have : needsEntries es = false := by simpa using fun h => hc (.inr (.inr h))
      refine converted_of_needs _ ?_
      simp [needs, this]
  have hs : ∀ ty (es : List GoVal), (∀ e ∈ es, ∀ r, convert e = some r → Converted r) →
      ∀ r, convertSlice ty es (convertElems es) = some r → Converted r := by
    intro ty es ih r h
    unfold convertSlice at h
    split at h
    · simp only [Option.map_eq_some_iff] at h
      obtain ⟨rs, hrs, rfl⟩ := h
      obtain ⟨h1, h2⟩ := convertElems_spec hrs
      refine .slice _ (fun e he => ?_)
      obtain ⟨i, hi, rfl⟩ := List.getElem_of_mem he
      have hi' : i < es.length := by omega
      exact ih _ (List.getElem_mem hi') _ (h2 i _ _ (List.getElem?_eq_getElem hi') (List.getElem?_eq_getElem hi))
    · rename_i hc
      simp only [Option.some.injEq] at h
      subst h
      have : needsElems es = false := by simpa using fun h => hc (.inr (.inr h))
      refine converted_of_needs _ ?_
      simp [needs, this]
  refine goVal_induct (P := fun v => ∀ r, convert v = some r → Converted r) ?_ ?_ (fun ty es ih r h => hs ty es ih r h) (fun ty es ih r h => hm ty es ih r h) v
  · intro v hl hp r h
    cases v <;> simp only [convert, Option.some.injEq, reduceCtorEq] at h <;>
      first | (subst h; exact .leaf _ hl) | exact absurd rfl (hl.1 _ _) | exact absurd rfl (hl.2 _ _) | exact absurd rfl (hp _)
  · intro o ih r h
    cases o <;> simp only [convert, Option.some.injEq] at h <;>
      first | (subst h; exact .leaf _ ⟨by simp, by simp⟩) | (exact ih r (by simpa only [convert] using h))

theorem needs_convert {v r : GoVal} (h : convert v = some r) : needs r = false := needs_of_converted (convert_converted v r h)

theorem convert_coll {r : GoVal} (h : Converted r) (hn : ¬ Leaf r) : convert r = some r := by
  cases h with
  | leaf _ hl => exact absurd hl hn
  | slice es he =>
    have : needsElems es = false := by
      have := needs_of_converted (.slice es he)
      simpa [needs] using this
    simp [convert, convertSlice, this]
  | map es he =>
    have : needsEntries es = false := by
      have := needs_of_converted (.map es he)
      simpa [needs] using this
    simp [convert, convertMap, this]

/-- A leaf comes only from itself. -/
theorem convert_leaf {v r : GoVal} (h : convert v = some r) (hl : Leaf r) : r = v := by
  have hm : ∀ ty es conv, convertMap ty es conv = some r → False := by
    intro ty es conv h
    unfold convertMap at h
    split at h
    · simp only [Option.map_eq_some_iff] at h
      obtain ⟨x, _, rfl⟩ := h
      exact hl.1 _ _ rfl
    · simp only [Option.some.injEq] at h
      exact hl.1 _ _ h.symm
  have hs : ∀ ty es conv, convertSlice ty es conv = some r → False := by
    intro ty es conv h
    unfold convertSlice at h
    split at h
    · simp only [Option.map_eq_some_iff] at h
      obtain ⟨x, _, rfl⟩ := h
      exact hl.2 _ _ rfl
    · simp only [Option.some.injEq] at h
      exact hl.2 _ _ h.symm
  cases v with
  | ptr o =>
    cases o <;> simp only [convert, Option.some.injEq] at h <;> first | exact h.symm | exact (hm _ _ _ h).elim | exact (hs _ _ _ h).elim
  | _ => simp only [convert, Option.some.injEq, reduceCtorEq] at h <;> first | exact h.symm | exact (hm _ _ _ h).elim | exact (hs _ _ _ h).elim

theorem sameContent_refl (v : GoVal) (hk : KeysDiffer v) : SameGoContent v v := by
  induction hk with
  | leaf v h => exact .leaf v h
  | slice ty es _ ih =>
    refine .slice _ _ _ _ rfl (fun i e e' h1 h2 => ?_)
    rw [h1] at h2
    obtain rfl := Option.some.inj h2
    exact ih e (List.mem_of_getElem? h1)
  | map ty es hn _ ih =>
    refine .map _ _ _ _ (fun _ => Iff.rfl) (fun k v v' h1 h2 => ?_)
    have e1 := GoMap.get?_of_mem (m := es) hn h1
    rw [GoMap.get?_of_mem (m := es) hn h2] at e1
    obtain rfl := Option.some.inj e1
    exact ih (k, v') h2

end Lemmas
end Verif
