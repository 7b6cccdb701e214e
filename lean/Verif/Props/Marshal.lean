import Verif.Lemmas.Marshal
import Verif.Props.GoVal
/-!
# C59: native Go values and decoded data
-/

namespace Verif
namespace Props
open Spec GoVal Lemmas

/-- C59. Converting to native types gives only native lists, maps and scalars, from any value including pointers, structures and functions. -/
theorem C59_native (v r : GoVal) (h : marshal v = .ok r) : NativeGo r := marshal_native v r h

/-- C59. Converting again changes nothing. -/
theorem C59_again (v r : GoVal) (h : marshal v = .ok r) : marshal r = .ok r := marshal_of_native (marshal_native v r h)

/-- C59. Without structures the conversion never fails. Missing: structures, see `C59_not_total`. -/
theorem C59_total_partial (v : GoVal) (h : StructFree v) : ∃ r, marshal v = .ok r := by
  induction h with
  | leaf v hl hs hp =>
    cases v
    case slice => exact absurd rfl (hl.2 _ _)
    case map => exact absurd rfl (hl.1 _ _)
    case ptr => exact absurd rfl (hp _)
    case struct => exact absurd rfl (hs _)
    all_goals exact ⟨_, rfl⟩
  | ptr o _ ih =>
    by_cases h1 : o = .nilptr
    · subst h1; exact ⟨_, rfl⟩
    · by_cases h2 : ∃ p, o = .ptr p
      · obtain ⟨p, rfl⟩ := h2; exact ⟨_, rfl⟩
      · rw [marshal_ptr h1 (fun p hp => h2 ⟨p, hp⟩)]; exact ih
  | slice ty es _ ih =>
    obtain ⟨rs, h⟩ := marshalElems_total ih
    exact ⟨.slice .any rs, by simp [marshal, h, MRes.map]⟩
  | map ty es _ ih =>
    obtain ⟨rs, h⟩ := marshalEntries_total ih
    exact ⟨.map .any (setAll rs), by simp [marshal, h, MRes.map]⟩

/-- C59. The conversion keeps the content of scalars, pointers, lists and maps. Missing: functions and channels, pointers to pointers, and maps with several
keys printed alike (see `C62_not_keys`). -/
theorem C59_content_partial (v : GoVal) (h : PlainData v) : ∃ r, marshal v = .ok r ∧ NativeOf v r := by
  induction h with
  | nil => exact ⟨_, rfl, .nil⟩
  | nilptr => exact ⟨_, rfl, .nilptr⟩
  | ptr o h1 h2 _ ih =>
    obtain ⟨r, hr, hn⟩ := ih
    exact ⟨r, by rw [marshal_ptr h1 h2]; exact hr, .ptr _ _ hn⟩
  | bool b => exact ⟨_, rfl, .bool b⟩
  | int ty i => exact ⟨_, rfl, .int _ _ _⟩
  | uint ty n => exact ⟨_, rfl, .uint _ _ _⟩
  | flt s q => exact ⟨_, rfl, .flt _ _ _⟩
  | str n s => exact ⟨_, rfl, .str _ _ _⟩
  | slice ty es _ ih =>
    obtain ⟨rs, hrs⟩ := marshalElems_total (fun e he => (ih e he).imp (fun _ h => h.1))
    obtain ⟨h1, h2⟩ := marshalElems_spec hrs
    refine ⟨.slice .any rs, by simp [marshal, hrs, MRes.map], .slice _ _ _ _ h1 (fun i e e' he he' => ?_)⟩
    obtain ⟨r, hr, hn⟩ := ih e (List.mem_of_getElem? he)
    rw [h2 i e e' he he'] at hr
    obtain rfl := MRes.ok.inj hr
    exact hn
  | map ty es hd _ ih =>
    obtain ⟨rs, hrs⟩ := marshalEntries_total (fun e he => (ih e he).imp (fun _ h => h.1))
    have hk := marshalEntries_keys hrs
    refine ⟨.map .any rs, by simp [marshal, hrs, MRes.map, setAll_nodup (hk ▸ hd)], .map _ _ _ _ (fun k => by rw [hk]) (fun k v v' hv hv' => ?_)⟩
    obtain ⟨w, hw, hc⟩ := marshalEntries_mem hrs hv'
    have e1 := GoMap.get?_of_mem (m := es) hd hv
    rw [GoMap.get?_of_mem (m := es) hd hw] at e1
    obtain rfl := Option.some.inj e1
    obtain ⟨r, hr, hn⟩ := ih (k, w) hv
    simp only at hr
    rw [hc] at hr
    obtain rfl := MRes.ok.inj hr
    exact hn

/-! ### Structures -/

private theorem find_first {f : FieldInfo} {before after : List Text} {c t : Text} (hb : ∀ b ∈ before, GoMap.get? f.tags b = none)
    (hc : GoMap.get? f.tags c = some t) (ht : t ≠ []) :
    (((before ++ c :: after).map (fun c => (GoMap.get? f.tags c).getD [])).find? (fun t => t ≠ [])).getD [] = t := by
  induction before with
  | nil => simp [hc, ht]
  | cons b l ih =>
    have h1 := hb b (by simp)
    rw [List.cons_append, List.map_cons, List.find?_cons, h1]
    simp only [Option.getD_none, ne_eq, not_true_eq_false, decide_false]
    exact ih (fun b hm => hb b (List.mem_cons_of_mem _ hm))

private theorem tag_of {f : FieldInfo} {name : Text} {opts : List Text} (h : HasTag f name opts) : tagName f = name ∧ tagOptions f = opts := by
  cases h with
  | none hn =>
    have : tagText f = [] := by simp [tagText, hn]
    simp [tagName, tagOptions, this, Text.splitC]
  | first before after c _ _ hl hb hc ht hs =>
    have : tagText f = Text.join [','] (name :: opts) := by
      unfold tagText
      rw [← hl]
      exact find_first hb hc ht
    simp [tagName, tagOptions, this, Text.splitC_join (by simp) hs]

private theorem skipped_iff {f : FieldInfo} {v : GoVal} {name : Text} {opts : List Text} (h : HasTag f name opts) :
    ¬ skipped f v ↔ ShownField f v name opts := by
  obtain ⟨h1, h2⟩ := tag_of h
  have he : v.isEmpty = true ↔ EmptyValue v := by
    have := C61_iif v (.int .int 1) (.int .int 0)
    constructor
    · intro hv
      by_cases hc : EmptyValue v
      · exact hc
      · have := this.2 hc; simp [iif, hv] at this
    · intro hv
      have := this.1 hv
      simp only [iif] at this
      split at this
      · assumption
      · simp at this
  have hx : isExported f.name = true ↔ ∃ c rest, f.name = c :: rest ∧ c.isUpper = true := by
    cases hn : f.name with
    | nil => simp [isExported]
    | cons c rest => simp [isExported]
  simp only [skipped, ShownField, h1, h2, not_or, ← hx, ← he, Bool.not_eq_false, ne_eq]

/-- C59. A structure becomes a map with one entry for each field that is exported, not excluded by its tag and not both empty and marked `omitempty`; the entry
has the name of the tag or of the field, and the converted value. The fields have no other option than `omitempty`, their names are different, and none of them
is converted to nil, or to an empty map when it is marked `omitempty`. Missing: the options `key`, `inline` and `squash` (see `C59_inline` and `C59_not_key`), and nil pointers
(see `C59_not_total`). -/
theorem C59_struct_partial (fs : List (FieldInfo × GoVal)) (tag : FieldInfo → Text × List Text) (ht : ∀ f ∈ fs, HasTag f.1 (tag f.1).1 (tag f.1).2)
    (ho : ∀ f ∈ fs, ∀ o ∈ (tag f.1).2, o = T "omitempty") (hn : (fs.map (fun f => shownName f.1 (tag f.1).1)).Nodup)
    (hv : ∀ f ∈ fs, ∃ r, marshal f.2 = .ok r ∧ r ≠ .nil ∧ (T "omitempty" ∈ (tag f.1).2 → ∀ ty, r ≠ .map ty [])) :
    ∃ es, marshal (.struct fs) = .ok (.map .any es) ∧
      ∀ k r, (k, r) ∈ es ↔ ∃ f ∈ fs, ShownField f.1 f.2 (tag f.1).1 (tag f.1).2 ∧ k = shownName f.1 (tag f.1).1 ∧ marshal f.2 = .ok r := by
  have key : keyOf fs = .ok none := by
    unfold keyOf
    have : fs.filter (fun f => T "key" ∈ tagOptions f.1) = [] := by
      rw [List.filter_eq_nil_iff]
      intro f hf
      rw [(tag_of (ht f hf)).2]
      intro hk
      have := ho f hf _ (by simpa using hk)
      exact absurd this (by decide)
    rw [this]
  have steps : ∀ (l : List (FieldInfo × GoVal)) (acc : GoMap GoVal), (∀ f ∈ l, f ∈ fs) → (l.map (fun f => shownName f.1 (tag f.1).1)).Nodup →
      (∀ f ∈ l, shownName f.1 (tag f.1).1 ∉ acc.keys) → ∃ es, fieldSteps none (l.zip (marshalFields l)) acc = .ok (acc ++ es) ∧
      ∀ k r, (k, r) ∈ es ↔ ∃ f ∈ l, ShownField f.1 f.2 (tag f.1).1 (tag f.1).2 ∧ k = shownName f.1 (tag f.1).1 ∧ marshal f.2 = .ok r := by
    intro l
    induction l with
    | nil => intro acc _ _ _; exact ⟨[], by simp [fieldSteps], by simp⟩
    | cons f l ih =>
      obtain ⟨i, v⟩ := f
      intro acc hl hd hk
      simp only [List.map_cons, List.nodup_cons] at hd
      have hf := hl (i, v) (by simp)
      have htag := tag_of (ht _ hf)
      have hl' : ∀ f ∈ l, f ∈ fs := fun f h => hl f (List.mem_cons_of_mem _ h)
      simp only [marshalFields, List.zip_cons_cons, fieldSteps]
      by_cases hs : skipped i v
      · have hstep : fieldStep none i v (marshal v) acc = .ok acc := by simp [fieldStep, hs]
        obtain ⟨es, h1, h2⟩ := ih acc hl' hd.2 (fun f h => hk f (List.mem_cons_of_mem _ h))
        refine ⟨es, by rw [hstep]; exact h1, fun k r => ?_⟩
        rw [h2]
        constructor
        · rintro ⟨f, hf, h⟩; exact ⟨f, List.mem_cons_of_mem _ hf, h⟩
        · rintro ⟨f, hf', h⟩
          rcases List.mem_cons.1 hf' with rfl | hf'
          · exact absurd hs ((skipped_iff (ht _ hf)).2 h.1)
          · exact ⟨f, hf', h⟩
      · obtain ⟨r, hr, hrn, hrm⟩ := hv _ hf
        simp only at hr
        have hname : fieldName i = shownName i (tag i).1 := by simp only [fieldName, htag.1, shownName]
        have hstep : fieldStep none i v (marshal v) acc = .ok (acc.set (shownName i (tag i).1) r) := by
          have hi : ¬ (T "inline" ∈ tagOptions i ∨ T "squash" ∈ tagOptions i) := by
            rw [htag.2]
            rintro (h | h)
            · exact absurd (ho _ hf _ h) (by decide)
            · exact absurd (ho _ hf _ h) (by decide)
          simp only [fieldStep, if_neg hs, hr, if_neg hi]
          cases r <;> first | exact absurd rfl hrn | (simp only [putField, hname])
          rename_i ty es
          have : ¬ (es = [] ∧ T "omitempty" ∈ tagOptions i) := by
            rintro ⟨rfl, hom⟩
            rw [htag.2] at hom
            exact hrm hom ty rfl
          rw [if_neg this]
        have hset : acc.set (shownName i (tag i).1) r = acc ++ [(shownName i (tag i).1, r)] := GoMap.set_of_not_mem _ (hk (i, v) (by simp))
        obtain ⟨es, h1, h2⟩ := ih (acc ++ [(shownName i (tag i).1, r)]) hl' hd.2 (by
          intro f hf' hm
          simp only [GoMap.keys, List.map_append, List.map_cons, List.map_nil, List.mem_append, List.mem_singleton] at hm
          rcases hm with hm | hm
          · exact hk f (List.mem_cons_of_mem _ hf') hm
          · exact hd.1 (hm ▸ List.mem_map_of_mem (f := fun f => shownName f.1 (tag f.1).1) hf'))
        refine ⟨(shownName i (tag i).1, r) :: es, by rw [hstep, hset]; simpa using h1, fun k w => ?_⟩
        rw [List.mem_cons, h2]
        constructor
        · rintro (h | ⟨f, hf', h⟩)
          · obtain ⟨rfl, rfl⟩ := Prod.mk.inj h
            exact ⟨(i, v), by simp, (skipped_iff (ht _ hf)).1 hs, rfl, hr⟩
          · exact ⟨f, List.mem_cons_of_mem _ hf', h⟩
        · rintro ⟨f, hf', h⟩
          rcases List.mem_cons.1 hf' with rfl | hf'
          · left
            have := h.2.2
            simp only at this
            rw [hr] at this
            rw [h.2.1, MRes.ok.inj this]
          · exact .inr ⟨f, hf', h⟩
  obtain ⟨es, h1, h2⟩ := steps fs [] (fun _ h => h) hn (by simp [GoMap.keys])
  refine ⟨es, ?_, h2⟩
  simp only [marshal, marshalStruct, key, h1, MRes.map, List.nil_append]

/-- C59. The entries of a field with the option `inline` or `squash` are those of the enclosing structure; a field that does not become a map is an error. -/
theorem C59_inline (f : FieldInfo) (v : GoVal) (name opt : Text) (ht : HasTag f name [opt]) (ho : opt = T "inline" ∨ opt = T "squash")
    (hs : ShownField f v name [opt]) :
    (∀ es, marshal v = .ok (.map .any es) → marshal (.struct [(f, v)]) = .ok (.map .any es)) ∧
      ((∃ r, marshal v = .ok r ∧ ∀ es, r ≠ .map .any es) → marshal (.struct [(f, v)]) = .error) := by
  obtain ⟨h1, h2⟩ := tag_of ht
  have hsk : ¬ skipped f v := (skipped_iff ht).2 hs
  have hkey : keyOf [(f, v)] = .ok none := by
    unfold keyOf
    have : [(f, v)].filter (fun f => T "key" ∈ tagOptions f.1) = [] := by
      rw [List.filter_eq_nil_iff]
      intro g hg
      simp only [List.mem_singleton] at hg
      subst hg
      rw [h2]
      rcases ho with rfl | rfl <;> decide
    rw [this]
  have hin : T "inline" ∈ tagOptions f ∨ T "squash" ∈ tagOptions f := by
    rw [h2]; rcases ho with rfl | rfl <;> simp
  constructor
  · intro es hm
    have hw : (es.map Prod.fst).Nodup := by
      cases marshal_native _ _ hm with
      | map _ h _ => exact h
    have := foldSet_nodup (acc := []) hw (by simp [GoMap.keys])
    simp only [List.nil_append] at this
    simp [marshal, marshalStruct, hkey, marshalFields, fieldSteps, fieldStep, hsk, hm, hin, inlineField, mergeEntries, this, MRes.map]
  · rintro ⟨r, hr, hne⟩
    have : inlineField [] r = .error := by
      have hn := marshal_native _ _ hr
      cases hn with
      | map es _ _ => exact absurd rfl (hne es)
      | _ => rfl
    simp [marshal, marshalStruct, hkey, marshalFields, fieldSteps, fieldStep, hsk, hr, hin, this, MRes.map]

/-- C59. A structure with two fields marked `key` is an error. -/
theorem C59_keys (f g : FieldInfo) (v w : GoVal) (rest : List (FieldInfo × GoVal)) (name name' : Text) (opts opts' : List Text) (hf : HasTag f name opts)
    (hg : HasTag g name' opts') (hk : T "key" ∈ opts) (hk' : T "key" ∈ opts') : marshal (.struct ((f, v) :: (g, w) :: rest)) = .error := by
  have : keyOf ((f, v) :: (g, w) :: rest) = .error := by
    unfold keyOf
    rw [List.filter_cons_of_pos (by simp [(tag_of hf).2, hk]), List.filter_cons_of_pos (by simp [(tag_of hg).2, hk'])]
    cases v <;> rfl
  simp [marshal, marshalStruct, this]

/-- C59 does not hold for structures: an exported field that is a nil pointer is a panic, unless it is marked `omitempty`. -/
theorem C59_not_total : marshal (.struct [({ name := T "Next" }, .nilptr)]) = .panic ∧
    marshal (.struct [({ name := T "Next", tags := [(T "json", T "next,omitempty")] }, .nilptr)]) = .ok (.map .any []) := by
  constructor <;> rfl

/-- C59 does not hold for structures with a field marked `key`: each field replaces the one before, and only the last one is left. -/
theorem C59_not_key : marshal (.struct [({ name := T "Name", tags := [(T "hcl", T ",key")] }, .str false (T "x")), ({ name := T "A" }, .int .int 1),
    ({ name := T "B" }, .int .int 2)]) = .ok (.map .any [(T "x", .map .any [(T "B", .int .int 2)])]) := by
  rfl

/-! ### Decoded data -/

private theorem floor_iff (q : Rat) : (q.floor : Rat) = q ↔ ∃ i : Int, q = i := by
  constructor
  · intro h; exact ⟨q.floor, h.symm⟩
  · rintro ⟨i, rfl⟩; rw [Rat.floor_intCast]

/-- C59. Reading JSON keeps all the data; numbers without fraction are integers. Missing: null, see `C59_null`, and integers of more than 64 bits, see
`C59_not_big`. -/
theorem C59_json_partial (v : GoVal) (h : JsonData v) : JsonOf v (jsonElement v) := by
  induction h with
  | flt q hq =>
    simp only [jsonElement, jsonNumber]
    split
    · rename_i hf
      obtain ⟨i, rfl⟩ := (floor_iff q).1 hf
      rw [toInt64_int (hq i rfl)]
      exact .integer i
    · rename_i hf
      exact .number q (fun i hi => hf ((floor_iff q).2 ⟨i, hi⟩))
  | bool b => exact .bool b
  | str s => exact .str s
  | slice es _ ih =>
    simp only [jsonElement, jsonElems_eq]
    refine .slice _ _ _ (by simp) (fun i e e' he he' => ?_)
    rw [List.getElem?_map, he] at he'
    simp only [Option.map_some, Option.some.injEq] at he'
    subst he'
    exact ih e (List.mem_of_getElem? he)
  | map es _ ih =>
    simp only [jsonElement, jsonEntries_eq]
    refine .map _ _ _ (by simp [Function.comp_def]) (fun i e e' he he' => ?_)
    rw [List.getElem?_map, he] at he'
    simp only [Option.map_some, Option.some.injEq] at he'
    subst he'
    exact ih e (List.mem_of_getElem? he)

/-- C59. What is read from JSON or YAML holds no nil: null becomes an empty dictionary. -/
theorem C59_null (v : GoVal) : jsonElement .nil = .map .coll [] ∧ yamlElement .nil = .map .coll [] ∧ NilFree (jsonElement v) ∧ NilFree (yamlElement v) := by
  refine ⟨rfl, rfl, ?_, ?_⟩
  · refine goVal_induct (P := fun v => NilFree (jsonElement v)) ?_ ?_ ?_ ?_ v
    · intro v hl hp
      cases v
      case nil => exact .map _ _ (by simp)
      case slice => exact absurd rfl (hl.2 _ _)
      case map => exact absurd rfl (hl.1 _ _)
      case flt s q =>
        cases s
        · simp only [jsonElement, jsonNumber]
          split <;> exact .leaf _ ⟨by simp, by simp⟩ (by simp)
        · exact .leaf _ ⟨by simp [jsonElement], by simp [jsonElement]⟩ (by simp [jsonElement])
      all_goals exact .leaf _ ⟨by simp [jsonElement], by simp [jsonElement]⟩ (by simp [jsonElement])
    · intro o _; exact .leaf _ ⟨by simp [jsonElement], by simp [jsonElement]⟩ (by simp [jsonElement])
    · intro ty es ih
      simp only [jsonElement, jsonElems_eq]
      refine .slice _ _ (fun e he => ?_)
      obtain ⟨e', he', rfl⟩ := List.mem_map.1 he
      exact ih e' he'
    · intro ty es ih
      simp only [jsonElement, jsonEntries_eq]
      refine .map _ _ (fun e he => ?_)
      obtain ⟨e', he', rfl⟩ := List.mem_map.1 he
      exact ih e' he'
  · refine goVal_induct (P := fun v => NilFree (yamlElement v)) ?_ ?_ ?_ ?_ v
    · intro v hl hp
      cases v
      case nil => exact .map _ _ (by simp)
      case slice => exact absurd rfl (hl.2 _ _)
      case map => exact absurd rfl (hl.1 _ _)
      all_goals exact .leaf _ ⟨by simp [yamlElement], by simp [yamlElement]⟩ (by simp [yamlElement])
    · intro o _; exact .leaf _ ⟨by simp [yamlElement], by simp [yamlElement]⟩ (by simp [yamlElement])
    · intro ty es ih
      simp only [yamlElement, yamlElems_eq]
      refine .slice _ _ (fun e he => ?_)
      obtain ⟨e', he', rfl⟩ := List.mem_map.1 he
      exact ih e' he'
    · intro ty es ih
      simp only [yamlElement, yamlEntries_eq]
      refine .map _ _ (fun e he => ?_)
      obtain ⟨e', he', rfl⟩ := List.mem_map.1 he
      exact ih e' he'

/-- C59. What is read from JSON or YAML is made of the collections of the tool at every depth. -/
theorem C59_collections (v : GoVal) : Converted (jsonElement v) ∧ Converted (yamlElement v) := by
  constructor
  · refine goVal_induct (P := fun v => Converted (jsonElement v)) ?_ ?_ ?_ ?_ v
    · intro v hl hp
      cases v
      case nil => exact .map _ (by simp)
      case slice => exact absurd rfl (hl.2 _ _)
      case map => exact absurd rfl (hl.1 _ _)
      case flt s q =>
        cases s
        · simp only [jsonElement, jsonNumber]
          split <;> exact .leaf _ ⟨by simp, by simp⟩
        · exact .leaf _ ⟨by simp [jsonElement], by simp [jsonElement]⟩
      all_goals exact .leaf _ ⟨by simp [jsonElement], by simp [jsonElement]⟩
    · intro o _; exact .leaf _ ⟨by simp [jsonElement], by simp [jsonElement]⟩
    · intro ty es ih
      simp only [jsonElement, jsonElems_eq]
      refine .slice _ (fun e he => ?_)
      obtain ⟨e', he', rfl⟩ := List.mem_map.1 he
      exact ih e' he'
    · intro ty es ih
      simp only [jsonElement, jsonEntries_eq]
      refine .map _ (fun e he => ?_)
      obtain ⟨e', he', rfl⟩ := List.mem_map.1 he
      exact ih e' he'
  · refine goVal_induct (P := fun v => Converted (yamlElement v)) ?_ ?_ ?_ ?_ v
    · intro v hl hp
      cases v
      case nil => exact .map _ (by simp)
      case slice => exact absurd rfl (hl.2 _ _)
      case map => exact absurd rfl (hl.1 _ _)
      all_goals exact .leaf _ ⟨by simp [yamlElement], by simp [yamlElement]⟩
    · intro o _; exact .leaf _ ⟨by simp [yamlElement], by simp [yamlElement]⟩
    · intro ty es ih
      simp only [yamlElement, yamlElems_eq]
      refine .slice _ (fun e he => ?_)
      obtain ⟨e', he', rfl⟩ := List.mem_map.1 he
      exact ih e' he'
    · intro ty es ih
      simp only [yamlElement, yamlEntries_eq]
      refine .map _ (fun e he => ?_)
      obtain ⟨e', he', rfl⟩ := List.mem_map.1 he
      exact ih e' he'

/-- C59. Reading YAML changes nothing but null: all the other data is kept. -/
theorem C59_yaml_partial (v : GoVal) (hn : NilFree v) (hk : KeysDiffer v) : SameGoContent v (yamlElement v) := by
  induction hn with
  | leaf v hl hnil =>
    have : yamlElement v = v := by
      cases v <;> first | rfl | exact absurd rfl hnil | exact absurd rfl (hl.1 _ _) | exact absurd rfl (hl.2 _ _)
    rw [this]; exact .leaf v hl
  | slice ty es _ ih =>
    have hk' : ∀ e ∈ es, KeysDiffer e := by
      cases hk with
      | leaf _ h => exact absurd rfl (h.2 _ _)
      | slice _ _ h => exact h
    simp only [yamlElement, yamlElems_eq]
    refine .slice _ _ _ _ (by simp) (fun i e e' he he' => ?_)
    rw [List.getElem?_map, he] at he'
    simp only [Option.map_some, Option.some.injEq] at he'
    subst he'
    exact ih e (List.mem_of_getElem? he) (hk' e (List.mem_of_getElem? he))
  | map ty es _ ih =>
    have hk' : (es.map Prod.fst).Nodup ∧ ∀ e ∈ es, KeysDiffer e.2 := by
      cases hk with
      | leaf _ h => exact absurd rfl (h.1 _ _)
      | map _ _ h h' => exact ⟨h, h'⟩
    simp only [yamlElement, yamlEntries_eq]
    refine .map _ _ _ _ (fun k => by simp [Function.comp_def]) (fun k v v' hv hv' => ?_)
    obtain ⟨e', he', h⟩ := List.mem_map.1 hv'
    obtain ⟨k', w⟩ := e'
    obtain ⟨rfl, rfl⟩ := Prod.mk.inj h
    have e1 := GoMap.get?_of_mem (m := es) hk'.1 hv
    rw [GoMap.get?_of_mem (m := es) hk'.1 he'] at e1
    obtain rfl := Option.some.inj e1
    exact ih _ hv (hk'.2 _ hv)

/-- C59 does not hold for null: data with null and data with an empty dictionary cannot be told apart. -/
theorem C59_not_null : jsonElement (.map .any [(T "a", .nil)]) = jsonElement (.map .any [(T "a", .map .any [])]) ∧
    yamlElement (.map .any [(T "a", .nil)]) = yamlElement (.map .any [(T "a", .map .any [])]) := ⟨rfl, rfl⟩

/-- C59 does not hold for big numbers: `1e19` is read as the smallest 64 bits integer (on amd64). -/
theorem C59_not_big : jsonElement (.flt false (10 ^ 19)) = .int .int (-2 ^ 63) := by
  have h1 : ((10 ^ 19 : Rat).floor : Rat) = 10 ^ 19 := by decide +kernel
  have h2 : F64.toInt64 (10 ^ 19 : Rat) = -2 ^ 63 := by decide +kernel
  simp only [jsonElement, jsonNumber, if_pos h1, h2]

/-- Cases of C59: a nested value with a pointer, a structure with tags, and decoded JSON. -/
example : let v := GoVal.map .coll [(T "a", .slice .typed [.int .i8 3, .ptr (.str true (T "x"))]), (T "b", .nilptr)]
    PlainData v ∧ StructFree v ∧ marshal v = .ok (.map .any [(T "a", .slice .any [.int .int 3, .str false (T "x")]), (T "b", .nil)]) := by
  refine ⟨.map _ _ (by decide) ?_, .map _ _ ?_, rfl⟩
  · simp only [List.mem_cons, List.not_mem_nil, or_false, forall_eq_or_imp, forall_eq]
    refine ⟨.slice _ _ ?_, .nilptr⟩
    simp only [List.mem_cons, List.not_mem_nil, or_false, forall_eq_or_imp, forall_eq]
    exact ⟨.int _ _, .ptr _ (by simp) (by simp) (.str _ _)⟩
  · simp only [List.mem_cons, List.not_mem_nil, or_false, forall_eq_or_imp, forall_eq]
    refine ⟨.slice _ _ ?_, .leaf _ ⟨by simp, by simp⟩ (by simp) (by simp)⟩
    simp only [List.mem_cons, List.not_mem_nil, or_false, forall_eq_or_imp, forall_eq]
    exact ⟨.leaf _ ⟨by simp, by simp⟩ (by simp) (by simp), .ptr _ (.leaf _ ⟨by simp, by simp⟩ (by simp) (by simp))⟩

example : HasTag { name := T "Count", tags := [(T "json", T "count,omitempty")] } (T "count") [T "omitempty"] ∧
    ShownField { name := T "Count", tags := [(T "json", T "count,omitempty")] } (.int .int 2) (T "count") [T "omitempty"] ∧
    marshal (.struct [({ name := T "Count", tags := [(T "json", T "count,omitempty")] }, .int .int 2), ({ name := T "hidden" }, .bool true)]) =
      .ok (.map .any [(T "count", .int .int 2)]) := by
  refine ⟨.first _ [T "hcl"] [T "yaml", T "xml", T "toml"] (T "json") _ _ rfl (by decide) rfl (by decide) (by decide),
    ⟨by decide, ⟨'C', T "ount", rfl, by decide⟩, ?_⟩, rfl⟩
  rintro ⟨_, h⟩
  cases h

example : JsonData (.map .any [(T "a", .slice .any [.flt false 2, .bool true])]) ∧
    jsonElement (.map .any [(T "a", .slice .any [.flt false 2, .flt false (1 / 2)])]) = .map .coll [(T "a", .slice .coll [.int .int 2, .flt false (1 / 2)])] := by
  refine ⟨.map _ ?_, ?_⟩
  · simp only [List.mem_cons, List.not_mem_nil, or_false, forall_eq]
    refine .slice _ ?_
    simp only [List.mem_cons, List.not_mem_nil, or_false, forall_eq_or_imp, forall_eq]
    refine ⟨.flt _ (fun i hi => ?_), .bool _⟩
    have : (2 : Int) = i := by exact_mod_cast hi
    omega
  · have h1 : jsonNumber 2 = .int .int 2 := by
      rw [jsonNumber, if_pos (by decide +kernel)]
      rfl
    have h2 : jsonNumber (1 / 2) = .flt false (1 / 2) := by
      rw [jsonNumber, if_neg (by decide +kernel)]
    simp only [jsonElement, jsonEntries, jsonElems, h1, h2]

private abbrev countField : FieldInfo := { name := T "Count", tags := [(T "json", T "count,omitempty")] }
private abbrev innerField : FieldInfo := { name := T "Inner", tags := [(T "hcl", T ",squash")] }
private abbrev keyField : FieldInfo := { name := T "Key", tags := [(T "hcl", T ",key")] }

private theorem countField_tag : HasTag countField (T "count") [T "omitempty"] :=
  .first _ [T "hcl"] [T "yaml", T "xml", T "toml"] (T "json") _ _ rfl (by decide) rfl (by decide) (by decide)

private theorem keyField_tag : HasTag keyField [] [T "key"] :=
  .first _ [] [T "json", T "yaml", T "xml", T "toml"] (T "hcl") _ _ rfl (by decide) rfl (by decide) (by decide)

example := C59_struct_partial [(countField, .int .int 2), ({ name := T "hidden" }, .bool true)]
  (fun f => if f = countField then (T "count", [T "omitempty"]) else ([], []))
  (by simp only [List.mem_cons, List.not_mem_nil, or_false, forall_eq_or_imp, forall_eq]; exact ⟨countField_tag, .none _ (fun _ => rfl)⟩)
  (by simp only [List.mem_cons, List.not_mem_nil, or_false, forall_eq_or_imp, forall_eq]; exact ⟨by decide, by decide⟩)
  (by decide)
  (by
    simp only [List.mem_cons, List.not_mem_nil, or_false, forall_eq_or_imp, forall_eq]
    exact ⟨⟨_, rfl, by simp, by simp⟩, ⟨_, rfl, by simp, by simp⟩⟩)

example : marshal (.struct [(innerField, .map .coll [(T "a", .int .int 1)])]) = .ok (.map .any [(T "a", .int .int 1)]) :=
  (C59_inline innerField (.map .coll [(T "a", .int .int 1)]) [] (T "squash")
    (.first _ [] [T "json", T "yaml", T "xml", T "toml"] (T "hcl") _ _ rfl (by decide) rfl (by decide) (by decide)) (.inr rfl)
    ⟨by decide, ⟨'I', T "nner", rfl, by decide⟩, by simp [T]⟩).1 _ rfl

example : marshal (.struct [(keyField, .str false (T "a")), (keyField, .str false (T "b"))]) = .error :=
  C59_keys keyField keyField _ _ [] [] [] [T "key"] [T "key"] keyField_tag keyField_tag (by simp) (by simp)

example : SameGoContent (.map .any [(T "a", .slice .any [.int .int 1])]) (yamlElement (.map .any [(T "a", .slice .any [.int .int 1])])) := by
  refine C59_yaml_partial _ (.map _ _ ?_) (.map _ _ (by decide) ?_)
  · simp only [List.mem_cons, List.not_mem_nil, or_false, forall_eq]
    refine .slice _ _ ?_
    simp only [List.mem_cons, List.not_mem_nil, or_false, forall_eq]
    exact .leaf _ ⟨by simp, by simp⟩ (by simp)
  · simp only [List.mem_cons, List.not_mem_nil, or_false, forall_eq]
    refine .slice _ _ ?_
    simp only [List.mem_cons, List.not_mem_nil, or_false, forall_eq]
    exact .leaf _ ⟨by simp, by simp⟩


end Props
end Verif
