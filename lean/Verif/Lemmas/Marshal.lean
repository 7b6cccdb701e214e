import Verif.Lemmas.GoVal
import Verif.Model.Marshal
import Verif.Spec.NativeSpec
/-!
# Lemmas on native values and decoded data
-/

namespace Verif
namespace Lemmas
open Spec GoVal

mutual
/-- Induction on the maps, slices, pointers and structures of a value. -/
theorem goVal_full {P : GoVal → Prop} (leaf : ∀ v, Leaf v → (∀ o, v ≠ .ptr o) → (∀ fs, v ≠ .struct fs) → P v) (ptr : ∀ o, P o → P (.ptr o))
    (slice : ∀ ty es, (∀ e ∈ es, P e) → P (.slice ty es)) (map : ∀ ty es, (∀ e ∈ es, P e.2) → P (.map ty es))
    (struct : ∀ fs, (∀ f ∈ fs, P f.2) → P (.struct fs)) : ∀ v, P v
  | .nil => leaf _ ⟨by simp, by simp⟩ (by simp) (by simp)
  | .bool _ => leaf _ ⟨by simp, by simp⟩ (by simp) (by simp)
  | .int _ _ => leaf _ ⟨by simp, by simp⟩ (by simp) (by simp)
  | .uint _ _ => leaf _ ⟨by simp, by simp⟩ (by simp) (by simp)
  | .flt _ _ => leaf _ ⟨by simp, by simp⟩ (by simp) (by simp)
  | .str _ _ => leaf _ ⟨by simp, by simp⟩ (by simp) (by simp)
  | .slice ty es => slice ty es (goVal_full1 leaf ptr slice map struct es)
  | .map ty es => map ty es (goVal_full2 leaf ptr slice map struct es)
  | .nilptr => leaf _ ⟨by simp, by simp⟩ (by simp) (by simp)
  | .ptr o => ptr o (goVal_full leaf ptr slice map struct o)
  | .struct fs => struct fs (goVal_full3 leaf ptr slice map struct fs)
  | .opaque _ _ => leaf _ ⟨by simp, by simp⟩ (by simp) (by simp)
theorem goVal_full1 {P : GoVal → Prop} (leaf : ∀ v, Leaf v → (∀ o, v ≠ .ptr o) → (∀ fs, v ≠ .struct fs) → P v) (ptr : ∀ o, P o → P (.ptr o))
    (slice : ∀ ty es, (∀ e ∈ es, P e) → P (.slice ty es)) (map : ∀ ty es, (∀ e ∈ es, P e.2) → P (.map ty es))
    (struct : ∀ fs, (∀ f ∈ fs, P f.2) → P (.struct fs)) : ∀ (l : List GoVal), ∀ e ∈ l, P e
  | [] => by simp
  | v :: l => by
    intro e he
    rcases List.mem_cons.1 he with h | h
    · rw [h]; exact goVal_full leaf ptr slice map struct v
    · exact goVal_full1 leaf ptr slice map struct l e h
theorem goVal_full2 {P : GoVal → Prop} (leaf : ∀ v, Leaf v → (∀ o, v ≠ .ptr o) → (∀ fs, v ≠ .struct fs) → P v) (ptr : ∀ o, P o → P (.ptr o))
    (slice : ∀ ty es, (∀ e ∈ es, P e) → P (.slice ty es)) (map : ∀ ty es, (∀ e ∈ es, P e.2) → P (.map ty es))
    (struct : ∀ fs, (∀ f ∈ fs, P f.2) → P (.struct fs)) : ∀ (l : List (Text × GoVal)), ∀ e ∈ l, P e.2
  | [] => by simp
  | (k, v) :: l => by
    intro e he
    rcases List.mem_cons.1 he with h | h
    · rw [h]; exact goVal_full leaf ptr slice map struct v
    · exact goVal_full2 leaf ptr slice map struct l e h
theorem goVal_full3 {P : GoVal → Prop} (leaf : ∀ v, Leaf v → (∀ o, v ≠ .ptr o) → (∀ fs, v ≠ .struct fs) → P v) (ptr : ∀ o, P o → P (.ptr o))
    (slice : ∀ ty es, (∀ e ∈ es, P e) → P (.slice ty es)) (map : ∀ ty es, (∀ e ∈ es, P e.2) → P (.map ty es))
    (struct : ∀ fs, (∀ f ∈ fs, P f.2) → P (.struct fs)) : ∀ (l : List (FieldInfo × GoVal)), ∀ e ∈ l, P e.2
  | [] => by simp
  | (k, v) :: l => by
    intro e he
    rcases List.mem_cons.1 he with h | h
    · rw [h]; exact goVal_full leaf ptr slice map struct v
    · exact goVal_full3 leaf ptr slice map struct l e h
end

theorem MRes_cons_ok {α : Type} {o : MRes α} {ol : MRes (List α)} {r : List α} (h : o.cons ol = .ok r) :
    ∃ x l, o = .ok x ∧ ol = .ok l ∧ r = x :: l := by
  cases o with
  | error => cases ol <;> simp [MRes.cons] at h
  | panic => cases ol <;> simp [MRes.cons] at h
  | ok x =>
    cases ol with
    | error => simp [MRes.cons] at h
    | panic => simp [MRes.cons] at h
    | ok l => simp only [MRes.cons, MRes.ok.injEq] at h; exact ⟨x, l, rfl, rfl, h.symm⟩

theorem MRes_map_ok {α β : Type} {f : α → β} {o : MRes α} {r : β} : o.map f = .ok r ↔ ∃ x, o = .ok x ∧ f x = r := by
  cases o <;> simp [MRes.map]

theorem marshalElems_spec {es rs : List GoVal} (h : marshalElems es = .ok rs) :
    es.length = rs.length ∧ ∀ (i : Nat) e r, es[i]? = some e → rs[i]? = some r → marshal e = .ok r := by
  induction es generalizing rs with
  | nil => simp only [marshalElems, MRes.ok.injEq] at h; subst h; simp
  | cons v l ih =>
    obtain ⟨x, l', hx, hl, rfl⟩ := MRes_cons_ok h
    obtain ⟨h1, h2⟩ := ih hl
    refine ⟨by simp [h1], ?_⟩
    intro i e r he hr
    cases i with
    | zero => simp only [List.getElem?_cons_zero, Option.some.injEq] at he hr; subst he hr; exact hx
    | succ i => simp only [List.getElem?_cons_succ] at he hr; exact h2 i e r he hr

theorem marshalElems_mem {es rs : List GoVal} (h : marshalElems es = .ok rs) {r : GoVal} (hm : r ∈ rs) : ∃ e ∈ es, marshal e = .ok r := by
  obtain ⟨h1, h2⟩ := marshalElems_spec h
  obtain ⟨i, hi, rfl⟩ := List.getElem_of_mem hm
  have hi' : i < es.length := by omega
  exact ⟨es[i], List.getElem_mem hi', h2 i _ _ (List.getElem?_eq_getElem hi') (List.getElem?_eq_getElem hi)⟩

theorem marshalElems_total {es : List GoVal} (h : ∀ e ∈ es, ∃ r, marshal e = .ok r) : ∃ rs, marshalElems es = .ok rs := by
  induction es with
  | nil => exact ⟨[], rfl⟩
  | cons v l ih =>
    obtain ⟨r, hr⟩ := h v (by simp)
    obtain ⟨rs, hrs⟩ := ih (fun e he => h e (List.mem_cons_of_mem _ he))
    exact ⟨r :: rs, by simp [marshalElems, hr, hrs, MRes.cons]⟩

theorem marshalEntries_keys {es rs : List (Text × GoVal)} (h : marshalEntries es = .ok rs) : rs.map Prod.fst = es.map Prod.fst := by
  induction es generalizing rs with
  | nil => simp only [marshalEntries, MRes.ok.injEq] at h; subst h; rfl
  | cons e l ih =>
    obtain ⟨k, v⟩ := e
    obtain ⟨x, l', hx, hl, rfl⟩ := MRes_cons_ok h
    obtain ⟨w, _, rfl⟩ := MRes_map_ok.1 hx
    simp [ih hl]

theorem marshalEntries_mem {es rs : List (Text × GoVal)} (h : marshalEntries es = .ok rs) {k : Text} {r : GoVal} (hm : (k, r) ∈ rs) :
    ∃ v, (k, v) ∈ es ∧ marshal v = .ok r := by
  induction es generalizing rs with
  | nil => simp only [marshalEntries, MRes.ok.injEq] at h; subst h; simp at hm
  | cons e l ih =>
    obtain ⟨k', v⟩ := e
    obtain ⟨x, l', hx, hl, rfl⟩ := MRes_cons_ok h
    obtain ⟨w, hw, rfl⟩ := MRes_map_ok.1 hx
    rcases List.mem_cons.1 hm with h1 | h1
    · obtain ⟨rfl, rfl⟩ := Prod.mk.inj h1
      exact ⟨v, by simp, hw⟩
    · obtain ⟨v', hv', hc⟩ := ih hl h1
      exact ⟨v', List.mem_cons_of_mem _ hv', hc⟩

theorem marshalEntries_total {es : List (Text × GoVal)} (h : ∀ e ∈ es, ∃ r, marshal e.2 = .ok r) : ∃ rs, marshalEntries es = .ok rs := by
  induction es with
  | nil => exact ⟨[], rfl⟩
  | cons e l ih =>
    obtain ⟨k, v⟩ := e
    obtain ⟨r, hr⟩ := h (k, v) (by simp)
    obtain ⟨rs, hrs⟩ := ih (fun e he => h e (List.mem_cons_of_mem _ he))
    exact ⟨(k, r) :: rs, by simp only at hr; simp [marshalEntries, hr, hrs, MRes.cons, MRes.map]⟩

/-- A map with native values. -/
def NativeMap (m : GoMap GoVal) : Prop := m.WF ∧ ∀ e ∈ m, NativeGo e.2

theorem NativeMap.nil : NativeMap [] := ⟨GoMap.WF_nil, by simp⟩

theorem set_mem {m : GoMap GoVal} {k : Text} {v : GoVal} {e : Text × GoVal} (h : e ∈ m.set k v) : e = (k, v) ∨ e ∈ m := by
  rcases foldSet_mem (rs := [(k, v)]) (acc := m) (e := e) h with h | h
  · exact .inl (by simpa using h)
  · exact .inr h

theorem NativeMap.set {m : GoMap GoVal} (h : NativeMap m) (k : Text) {v : GoVal} (hv : NativeGo v) : NativeMap (m.set k v) := by
  refine ⟨h.1.set k v, fun e he => ?_⟩
  rcases set_mem he with rfl | he
  · exact hv
  · exact h.2 e he

theorem NativeMap.merge {m : GoMap GoVal} (h : NativeMap m) {es : List (Text × GoVal)} (hes : ∀ e ∈ es, NativeGo e.2) : NativeMap (mergeEntries m es) := by
  induction es generalizing m with
  | nil => exact h
  | cons e l ih => exact ih (h.set e.1 (hes e (by simp))) (fun e he => hes e (List.mem_cons_of_mem _ he))

theorem fieldStep_native {key : Option Text} {f : FieldInfo} {v : GoVal} {r : MRes GoVal} {m m' : GoMap GoVal} (hm : NativeMap m)
    (hr : ∀ w, r = .ok w → NativeGo w) (h : fieldStep key f v r m = .ok m') : NativeMap m' := by
  unfold fieldStep at h
  split at h
  · obtain rfl := MRes.ok.inj h; exact hm
  · split at h
    · cases h
    · cases h
    · rename_i w
      have hw := hr w rfl
      have hput : ∀ x, NativeGo x → ∀ m'', (match key with
          | some k => MRes.ok (m.set k (.map .any [(fieldName f, x)]))
          | none => MRes.ok (m.set (fieldName f) x)) = MRes.ok m'' → NativeMap m'' := by
        intro x hx m'' h
        split at h <;> obtain rfl := MRes.ok.inj h
        · exact hm.set _ (.map _ (by simp) (by simpa using hx))
        · exact hm.set _ hx
      split at h
      · unfold inlineField at h
        split at h
        · obtain rfl := MRes.ok.inj h
          cases hw with
          | map es _ he => exact hm.merge he
        · cases h
      · unfold putField at h
        split at h
        · cases h
        · split at h
          · obtain rfl := MRes.ok.inj h; exact hm
          · exact hput _ hw _ h
        · exact hput _ hw _ h

theorem fieldSteps_native {key : Option Text} {l : List ((FieldInfo × GoVal) × MRes GoVal)} {m m' : GoMap GoVal} (hm : NativeMap m)
    (hr : ∀ x ∈ l, ∀ w, x.2 = .ok w → NativeGo w) (h : fieldSteps key l m = .ok m') : NativeMap m' := by
  induction l generalizing m with
  | nil => obtain rfl := MRes.ok.inj h; exact hm
  | cons x l ih =>
    obtain ⟨f, r⟩ := x
    simp only [fieldSteps] at h
    split at h
    · rename_i m1 h1
      exact ih (fieldStep_native hm (hr (f, r) (by simp)) h1) (fun x hx => hr x (List.mem_cons_of_mem _ hx)) h
    · cases h
    · cases h

theorem marshalFields_zip {fs : List (FieldInfo × GoVal)} {x : (FieldInfo × GoVal) × MRes GoVal} (h : x ∈ fs.zip (marshalFields fs)) :
    x.1 ∈ fs ∧ x.2 = marshal x.1.2 := by
  induction fs with
  | nil => simp at h
  | cons f l ih =>
    obtain ⟨i, v⟩ := f
    simp only [marshalFields, List.zip_cons_cons, List.mem_cons] at h
    rcases h with rfl | h
    · simp
    · exact ⟨List.mem_cons_of_mem _ (ih h).1, (ih h).2⟩

theorem marshal_ptr {o : GoVal} (h1 : o ≠ .nilptr) (h2 : ∀ p, o ≠ .ptr p) : marshal (.ptr o) = marshal o := by
  cases o <;> first | rfl | exact absurd rfl h1 | exact absurd rfl (h2 _)

theorem marshal_native (v : GoVal) : ∀ r, marshal v = .ok r → NativeGo r := by
  refine goVal_full (P := fun v => ∀ r, marshal v = .ok r → NativeGo r) ?_ ?_ ?_ ?_ ?_ v
  · intro v hl hp hs r h
    cases v <;> (try simp only [marshal, MRes.ok.injEq] at h)
    case slice => exact absurd rfl (hl.2 _ _)
    case map => exact absurd rfl (hl.1 _ _)
    case ptr => exact absurd rfl (hp _)
    case struct => exact absurd rfl (hs _)
    case int ty i => subst h; refine .int _ _ ?_; split <;> simp
    case uint ty i => subst h; refine .uint _ _ ?_; split <;> simp
    all_goals subst h; constructor
  · intro o ih r h
    by_cases h1 : o = .nilptr
    · subst h1; simp only [marshal, MRes.ok.injEq] at h; subst h; constructor
    · by_cases h2 : ∃ p, o = .ptr p
      · obtain ⟨p, rfl⟩ := h2; simp only [marshal, MRes.ok.injEq] at h; subst h; constructor
      · rw [marshal_ptr h1 (fun p hp => h2 ⟨p, hp⟩)] at h
        exact ih r h
  · intro ty es ih r h
    simp only [marshal] at h
    obtain ⟨rs, hrs, rfl⟩ := MRes_map_ok.1 h
    refine .slice _ (fun e he => ?_)
    obtain ⟨e', he', hm⟩ := marshalElems_mem hrs he
    exact ih e' he' e hm
  · intro ty es ih r h
    simp only [marshal] at h
    obtain ⟨rs, hrs, rfl⟩ := MRes_map_ok.1 h
    refine .map _ (setAll_WF rs) (fun e he => ?_)
    obtain ⟨k, w⟩ := e
    obtain ⟨v', hv', hm⟩ := marshalEntries_mem hrs (setAll_mem he)
    exact ih _ hv' _ hm
  · intro fs ih r h
    simp only [marshal, marshalStruct] at h
    split at h
    · cases h
    · cases h
    · obtain ⟨m, hm, rfl⟩ := MRes_map_ok.1 h
      obtain ⟨h1, h2⟩ := fieldSteps_native NativeMap.nil (fun x hx w hw => by
        obtain ⟨ha, hb⟩ := marshalFields_zip hx
        exact ih _ ha w (hb ▸ hw)) hm
      exact .map _ h1 h2

theorem marshalElems_id {es : List GoVal} (h : ∀ e ∈ es, marshal e = .ok e) : marshalElems es = .ok es := by
  induction es with
  | nil => rfl
  | cons v l ih => simp [marshalElems, h v (by simp), ih (fun e he => h e (List.mem_cons_of_mem _ he)), MRes.cons]

theorem marshalEntries_id {es : List (Text × GoVal)} (h : ∀ e ∈ es, marshal e.2 = .ok e.2) : marshalEntries es = .ok es := by
  induction es with
  | nil => rfl
  | cons e l ih =>
    obtain ⟨k, v⟩ := e
    have := h (k, v) (by simp)
    simp only at this
    simp [marshalEntries, this, ih (fun e he => h e (List.mem_cons_of_mem _ he)), MRes.cons, MRes.map]

theorem marshal_of_native {v : GoVal} (h : NativeGo v) : marshal v = .ok v := by
  induction h with
  | nil => rfl
  | bool => rfl
  | int ty i h => rcases h with rfl | rfl <;> rfl
  | uint ty n h => rcases h with rfl | rfl <;> rfl
  | flt => rfl
  | str => rfl
  | slice es _ ih => simp only [marshal, marshalElems_id ih, MRes.map]
  | map es hn _ ih => simp only [marshal, marshalEntries_id ih, MRes.map, setAll_nodup hn]

theorem jsonElems_eq (l : List GoVal) : jsonElems l = l.map jsonElement := by
  induction l with
  | nil => rfl
  | cons v l ih => simp [jsonElems, ih]

theorem jsonEntries_eq (l : List (Text × GoVal)) : jsonEntries l = l.map (fun e => (e.1, jsonElement e.2)) := by
  induction l with
  | nil => rfl
  | cons e l ih => obtain ⟨k, v⟩ := e; simp [jsonEntries, ih]

theorem yamlElems_eq (l : List GoVal) : yamlElems l = l.map yamlElement := by
  induction l with
  | nil => rfl
  | cons v l ih => simp [yamlElems, ih]

theorem yamlEntries_eq (l : List (Text × GoVal)) : yamlEntries l = l.map (fun e => (e.1, yamlElement e.2)) := by
  induction l with
  | nil => rfl
  | cons e l ih => obtain ⟨k, v⟩ := e; simp [yamlEntries, ih]

theorem toInt64_int {i : Int} (h : -2 ^ 63 ≤ i ∧ i < 2 ^ 63) : F64.toInt64 (i : Rat) = i := by
  unfold F64.toInt64
  have h1 : (if (i : Rat) < 0 then -(-(i : Rat)).floor else (i : Rat).floor) = i := by
    split
    · have : (-(i : Rat)) = ((-i : Int) : Rat) := by simp
      rw [this, Rat.floor_intCast]; omega
    · exact Rat.floor_intCast i
  simp only [h1]
  exact if_pos h

end Lemmas
end Verif
