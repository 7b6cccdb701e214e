import Verif.Lemmas.Load
import Verif.Props.HclOut
/-!
# Loading YAML and HCL (C96)
-/

namespace Verif
namespace Props
open Spec Lemmas Text Load HclOut

/-! ## HCL -/

/-- C96. A text that is an HCL file (entries) is loaded as the data it says, whatever blanks are around it. -/
theorem C96_hcl_file (t : Text) (d : HData) (h : readFile t = some d) : (hcl readEntries t).map loadedData = some d := by
  unfold readFile at h
  obtain ⟨ts, ht, hb⟩ := Option.bind_eq_some_iff.1 h
  obtain ⟨es, he, rfl⟩ := Option.map_eq_some_iff.1 hb
  have h1 : readEntries (trimSpace t ++ T "\n") = some es := by
    unfold readEntries
    rw [tokens_trim ht]
    exact he
  unfold hcl
  simp only [h1]
  rfl

/-- C96. A text that is one HCL value (a number, a text, a list, an object) is loaded as this value. -/
theorem C96_hcl_value (t : Text) (d : HData) (h : readExpr t = some d) : (hcl readEntries t).map loadedData = some d := by
  unfold readExpr at h
  obtain ⟨ts, ht, hb⟩ := Option.bind_eq_some_iff.1 h
  have hv : readValue (2 * ts.length + 2) ts = some (d, []) := by
    split at hb
    · rename_i d' he; cases hb; exact he
    · cases hb
  have h1 : readEntries (trimSpace t ++ T "\n") = none := by
    unfold readEntries
    rw [tokens_trim ht]
    exact readBody_value hv
  have h2 : readEntries (T "_=" ++ (trimSpace t ++ T "\n")) = some [(T "_", d)] := by
    unfold readEntries
    rw [tokens_underscore, tokens_trim ht, Option.map_some, Option.bind_some, List.length_cons, List.length_cons]
    have e : 2 * (ts.length + 1 + 1) + 2 = (2 * ts.length + 4) + 1 + 1 := by omega
    rw [e, readBody]
    have hk : keyOf (.word (T "_")) = some (T "_") := rfl
    rw [hk, Option.bind_some, readTail, readValue_more (by omega) hv, Option.bind_some, readBody]
    rfl
  unfold hcl
  simp only [h1, h2]
  rfl

/-- C96. Whatever the library of HCL does: what is loaded from a text, and that nothing is loaded from the other texts. -/
theorem C96_hcl_means {α : Type} (lib : Text → Option (List (Text × α))) (t : Text) (r : HclResult α) :
    hcl lib t = some r ↔ HclMeans lib (trimSpace t ++ T "\n") r := by
  unfold hcl
  simp only
  constructor
  · intro h
    split at h
    · rename_i es he
      cases h
      exact .file es he
    · rename_i hn
      split at h
      · cases h
      · rename_i es he
        obtain ⟨e, hf, rfl⟩ := Option.map_eq_some_iff.1 h
        obtain ⟨hk, as, bs, hab, hno⟩ := List.find?_eq_some_iff_append.1 hf
        have hes : es = bs.reverse ++ e :: as.reverse := by
          rw [← List.reverse_reverse es, hab]
          simp
        have hek : e = (T "_", e.2) := by
          rw [← of_decide_eq_true hk]
        refine .value bs.reverse as.reverse e.2 hn (by rw [he, hes, ← hek]) (fun x hx => ?_)
        have := hno x (List.mem_reverse.1 hx)
        simpa using this
  · intro h
    cases h with
    | file es he => rw [he]
    | value before after v hn he hl =>
      rw [hn]
      simp only [he]
      have : (before ++ (T "_", v) :: after).reverse.find? (fun e => decide (e.1 = T "_")) = some (T "_", v) := by
        refine List.find?_eq_some_iff_append.2 ⟨by simp, after.reverse, before.reverse, by simp, fun x hx => ?_⟩
        simpa using hl x (List.mem_reverse.1 hx)
      rw [this]
      rfl

/-- A value, and a text that is neither a file nor a value. -/
example : (∃ v, HclMeans readEntries (T "3\n") (.value v)) ∧ ∀ r, ¬ HclMeans readEntries (trimSpace (T "\"a") ++ T "\n") r := by
  refine ⟨⟨_, .value [] [] (.num (T "3")) (by rw [← Option.isNone_iff_eq_none]; decide +kernel) (by rfl) (by simp)⟩, fun r h => ?_⟩
  have h1 := (C96_hcl_means readEntries (T "\"a") r).2 h
  have h2 : (hcl readEntries (T "\"a")).isNone = true := by decide +kernel
  rw [h1] at h2
  cases h2

/-- C96. Data written in HCL, in any of the forms and with any indentation, is the same when it is loaded again. Missing: the values that are not written
faithfully (`Writable`, see C72). -/
theorem C96_hcl_roundtrip_partial (pr : Char → Bool) (pre indent : Text) (hp : ∀ c ∈ pre ++ indent, c = ' ' ∨ c = '\t') (v : Value) :
    (Writable true (decide (indent ≠ [])) v → Denotes ((hcl readEntries (toHcl pr pre indent v)).map loadedData) v) ∧
    (Writable false (decide (indent ≠ [])) v → Denotes ((hcl readEntries (toTFVars pr pre indent v)).map loadedData) v) ∧
    (Writable false false v → Denotes ((hcl readEntries (toInternal pr v)).map loadedData) v) := by
  have lift : ∀ t, Denotes (readFile t) v ∨ Denotes (readExpr t) v → Denotes ((hcl readEntries t).map loadedData) v := by
    rintro t (h | h) <;> unfold Denotes at h ⊢
    · obtain ⟨d, hd, hc⟩ := Option.map_eq_some_iff.1 h
      rw [C96_hcl_file t d hd, ← hc]
      rfl
    · obtain ⟨d, hd, hc⟩ := Option.map_eq_some_iff.1 h
      rw [C96_hcl_value t d hd, ← hc]
      rfl
  refine ⟨fun h => lift _ ?_, fun h => lift _ ?_, fun h => lift _ (.inr (C72_internal_partial pr v h))⟩
  · by_cases hf : IsFile v
    · exact .inl ((C72_blocks_partial pr pre indent hp v h).1 hf)
    · exact .inr ((C72_blocks_partial pr pre indent hp v h).2 hf)
  · by_cases hf : IsFile v
    · exact .inl ((C72_tfvars_partial pr pre indent hp v h).1 hf)
    · exact .inr ((C72_tfvars_partial pr pre indent hp v h).2 hf)

/-- C96 does not hold for texts that are no HCL: a value followed by entries is accepted, and the entries are lost. -/
theorem C96_not_hcl_rest : isNumber ((hcl readEntries (T "1\nb = 2")).map loadedData) (T "1") = true ∧ (readFile (T "1\nb = 2")).isNone = true ∧
    (readExpr (T "1\nb = 2")).isNone = true := by decide +kernel

/-- A file and a list, with blanks around, that are loaded as they are. -/
example : ∃ d, readFile (T " a = 1\nb { c = [true] }\n\n") = some d :=
  Option.isSome_iff_exists.1 (by decide +kernel)
example : ∃ d, readExpr (T "[1, {a = \"x\"}]") = some d := Option.isSome_iff_exists.1 (by decide +kernel)

/-! ## YAML -/

/-- C96. The YAML library receives the document with four spaces for each tab, and nothing else changed. -/
theorem C96_yaml_text (t : Text) : yamlText t = t.flatMap (fun c => if c = '\t' then T "    " else [c]) := replaceAll_char '\t' (T "    ") t

/-- C96. A document without tabs is read as it is. Missing: documents with tabs, see `C96_not_yaml_tabs`. -/
theorem C96_yaml_text_partial (t : Text) (h : '\t' ∉ t) : yamlText t = t := by
  rw [C96_yaml_text]
  induction t with
  | nil => rfl
  | cons c t ih =>
    simp only [List.mem_cons, not_or] at h
    rw [List.flatMap_cons, ih h.2, if_neg (fun hc => h.1 hc.symm)]
    rfl

/-- C96 does not hold for a tab in a text: it is loaded as four spaces. -/
theorem C96_not_yaml_tabs : readSingle (T "'x\ty'") = some (T "x\ty") ∧ readSingle (yamlText (T "'x\ty'")) = some (T "x    y") := by decide +kernel

/-- C96. The keys of a mapping, in words: what each of them is once it is loaded. -/
theorem C96_yaml_key (k : YKey) (t : Text) : k.print = t ↔ KeyText k t := by
  constructor
  · rintro rfl
    cases k with
    | null => exact .null
    | bool b => cases b <;> first | exact .no | exact .yes
    | int i => exact .int i
    | str s => exact .str s
  · intro h
    cases h <;> rfl

example : KeyText (.bool true) (T "true") := .yes

/-- C96. Any decoded document is loaded. -/
theorem C96_yaml_total {α : Type} (d : YDoc α) : ∃ v, Loads d v := ⟨_, loads_loadDoc d⟩

/-- C96. A mapping is loaded as a dictionary; what it has under a key is loaded from an entry whose key is printed so; and if no two keys are printed the same
way, each entry is there. Missing: mappings with two keys that are printed the same way, see `C96_not_yaml_keys`. -/
theorem C96_yaml_mapping_partial {α : Type} (es : List (YKey × YDoc α)) (v : Loaded α) (h : Loads (.map es) v) :
    ∃ d : GoMap (Loaded α), v = .dict d ∧ d.WF ∧
      (∀ k w, d.get? k = some w → ∃ e ∈ es, e.1.print = k ∧ Loads e.2 w) ∧
      (∀ e ∈ es, ∃ w, d.get? e.1.print = some w) ∧
      ((es.map (fun e => e.1.print)).Nodup → ∀ e ∈ es, ∃ w, d.get? e.1.print = some w ∧ Loads e.2 w) := by
  cases h with
  | map _ es' vs hp hl hv =>
    have h1 : ∀ k w, GoMap.get? (((es'.map (fun e => e.1.print)).zip vs).foldl (fun m e => GoMap.set m e.1 e.2) []) k = some w →
        ∃ e ∈ es, e.1.print = k ∧ Loads e.2 w := by
      intro k w hw
      obtain ⟨e, he, hk⟩ := loads_from hv hw
      exact ⟨e, hp.mem_iff.2 he, hk⟩
    refine ⟨_, rfl, foldl_set_wf _ _ GoMap.WF_nil, h1, fun e he => loads_has hl (hp.mem_iff.1 he), ?_⟩
    intro hn e he
    obtain ⟨w, hw⟩ := loads_has hl (hp.mem_iff.1 he)
    refine ⟨w, hw, ?_⟩
    obtain ⟨e', he', hk, hload⟩ := h1 _ w hw
    have : e' = e := by
      obtain ⟨i, hi⟩ := List.mem_iff_getElem?.1 he'
      obtain ⟨j, hj⟩ := List.mem_iff_getElem?.1 he
      have hi' : (es.map (fun e => e.1.print))[i]? = some e.1.print := by rw [List.getElem?_map, hi, Option.map_some, hk]
      have hj' : (es.map (fun e => e.1.print))[j]? = some e.1.print := by rw [List.getElem?_map, hj, Option.map_some]
      have hlt : i < (es.map (fun e => e.1.print)).length :=
        Nat.lt_of_not_le (fun hc => by rw [List.getElem?_eq_none hc] at hi'; cases hi')
      have hij : i = j := (List.getElem?_inj hlt hn).1 (hi'.trans hj'.symm)
      subst hij
      rw [hi] at hj
      exact Option.some.inj hj
    rw [← this]
    exact hload

/-- C96. In particular when all keys are texts (different, as YAML demands). -/
theorem C96_yaml_texts {α : Type} (es : List (Text × YDoc α)) (hn : (es.map Prod.fst).Nodup) (v : Loaded α)
    (h : Loads (.map (es.map (fun e => (.str e.1, e.2)))) v) :
    ∃ d : GoMap (Loaded α), v = .dict d ∧ (∀ k, k ∈ d.keys ↔ k ∈ es.map Prod.fst) ∧ ∀ e ∈ es, ∃ w, d.get? e.1 = some w ∧ Loads e.2 w := by
  obtain ⟨d, hd, hwf, h1, h2, h3⟩ := C96_yaml_mapping_partial _ v h
  have e : (es.map (fun e => ((YKey.str e.1 : YKey), e.2))).map (fun e => e.1.print) = es.map Prod.fst := by
    rw [List.map_map]; rfl
  rw [e] at h3
  have h3 := h3 hn
  refine ⟨d, hd, fun k => ?_, fun e he => h3 (.str e.1, e.2) (List.mem_map.2 ⟨e, he, rfl⟩)⟩
  constructor
  · intro hk
    obtain ⟨w, hw⟩ := Option.isSome_iff_exists.1 (GoMap.mem_keys_iff.1 hk)
    obtain ⟨e, he, hp, _⟩ := h1 k w hw
    obtain ⟨e0, he0, rfl⟩ := List.mem_map.1 he
    exact List.mem_map.2 ⟨e0, he0, hp⟩
  · intro hk
    obtain ⟨e, he, rfl⟩ := List.mem_map.1 hk
    obtain ⟨w, hw, _⟩ := h3 (.str e.1, e.2) (List.mem_map.2 ⟨e, he, rfl⟩)
    exact GoMap.mem_keys_iff.2 (Option.isSome_iff_exists.2 ⟨w, hw⟩)

/-- A mapping with a text, a number and nothing as keys: they are printed in different ways. -/
example : ([(.str (T "a"), .leaf 1), (.int 2, .seq [.null]), (.null, .null)] : List (YKey × YDoc Nat)).map (fun e => e.1.print) = [T "a", T "2", T "<nil>"] := by
  decide

/-- C96. A list is loaded as the list of its elements. -/
theorem C96_yaml_list {α : Type} (l : List (YDoc α)) (v : Loaded α) (h : Loads (.seq l) v) :
    ∃ l', v = .list l' ∧ l'.length = l.length ∧ ∀ (i : Nat) x y, l[i]? = some x → l'[i]? = some y → Loads x y := by
  cases h with
  | seq _ l' hl hi => exact ⟨l', rfl, hl.symm, hi⟩

/-- C96 does not hold for two keys that are printed the same way: `{1: a, "1": b}` is loaded with one of the values, which one depends on the order of the
enumeration. -/
theorem C96_not_yaml_keys : ∃ (d : YDoc Bool) (v w : Loaded Bool), Loads d v ∧ Loads d w ∧ v ≠ w ∧
    d = .map [(.int 1, .leaf true), (.str (T "1"), .leaf false)] := by
  refine ⟨_, .dict [(T "1", .leaf false)], .dict [(T "1", .leaf true)], ?_, ?_, by simp, rfl⟩
  · exact .map _ [(.int 1, .leaf true), (.str (T "1"), .leaf false)] [.leaf true, .leaf false] (List.Perm.refl _) rfl (by
      intro i e y he hy
      match i with
      | 0 => simp at he hy; subst he; subst hy; exact .leaf _
      | 1 => simp at he hy; subst he; subst hy; exact .leaf _
      | i + 2 => simp at he)
  · exact .map _ [(.str (T "1"), .leaf false), (.int 1, .leaf true)] [.leaf false, .leaf true] (List.Perm.swap _ _ _) rfl (by
      intro i e y he hy
      match i with
      | 0 => simp at he hy; subst he; subst hy; exact .leaf _
      | 1 => simp at he hy; subst he; subst hy; exact .leaf _
      | i + 2 => simp at he)

end Props
end Verif
