import Verif.Lemmas.JsonOut
import Verif.Lemmas.FloatFor
import Verif.Spec.HclTextSpec
import Verif.Lemmas.HclOut

/-!
C98: JSON written by the tool denotes the data, and can be put in quotes.
-/

namespace Verif.Props
open Verif Verif.Text Verif.Spec Verif.Value Verif.JsonOut Verif.JsonIn

/-- The samples write floats as they are printed. -/
private def number : Text → Text := fun r => if isJsonNumber r then r else ['0']

private theorem number_ok (r : Text) : isJsonNumber (number r) = true := by
  unfold number
  split
  · assumption
  · rfl

private def sample : Value :=
  .dict [(T "b", .list [.int (-12), .flt (T "1.5e+30"), .nil, .bool true]), (T "a<\"\n", .str (T "x\\&\ty")), (T "", .dict []), (T "c", .list [])]

/-- C98. What `toJson` writes, read as JSON, is the data: same nesting, texts, numbers, and keys in increasing order. `fl` is how the library writes floats. -/
theorem C98_compact (fl : Text → Text) (hfl : ∀ r, isJsonNumber (fl r) = true) (v : Value) : readJson (toJson fl v) = some (jsonData fl v) :=
  readJson_write hfl (nl := fun _ => []) (sp := []) (by simp) (by simp) 0 v

example : toJson number sample =
    T "{\"\":{},\"a\\u003c\\\"\\n\":\"x\\\\\\u0026\\ty\",\"b\":[-12,1.5e+30,null,true],\"c\":[]}" := by decide +kernel

/-- C98. The same for `toPrettyJson`. -/
theorem C98_pretty (fl : Text → Text) (hfl : ∀ r, isJsonNumber (fl r) = true) (v : Value) : readJson (toPrettyJson fl v) = some (jsonData fl v) := by
  refine readJson_write hfl (nl := fun d => '\n' :: List.replicate (2 * d) ' ') (sp := [' ']) ?_ ?_ 0 v
  · intro d c hc
    rcases List.mem_cons.1 hc with rfl | hc
    · rfl
    · rw [(List.mem_replicate.1 hc).2]; rfl
  · intro c hc
    rw [List.mem_singleton] at hc
    subst hc; rfl

example : toPrettyJson number (.dict [(T "k", .list [.int 1, .dict []])]) = T "{\n  \"k\": [\n    1,\n    {}\n  ]\n}" := by decide +kernel
example : (∀ r, isJsonNumber (number r) = true) ∧ number (T "1.5e+30") = T "1.5e+30" := ⟨number_ok, by decide +kernel⟩

/-- C98. The result of `toJson` is one line without control characters, and has none of the characters that open something in HTML. -/
theorem C98_line (fl : Text → Text) (hfl : ∀ r, isJsonNumber (fl r) = true) (v : Value) :
    ∀ c ∈ toJson fl v, 32 ≤ c.toNat ∧ c ≠ '<' ∧ c ≠ '>' ∧ c ≠ '&' := plain_toJson hfl 0 v

private theorem write_order (fl : Text → Text) (nl : Nat → Text) (colon : Text) {v v' : Value} (h : Reordered v v') : ∀ n, write fl nl colon n v = write fl nl colon n v' := by
  induction h with
  | refl => intro n; rfl
  | list l l' hl _ ih =>
    intro n
    have e : writeElems fl nl colon (n + 1) l = writeElems fl nl colon (n + 1) l' := by
      rw [writeElems_eq, writeElems_eq]
      exact Lemmas.map_eq_of_getElem hl (fun i v v' hv hv' => ih i v v' hv hv' _)
    cases l with
    | nil => cases l' with
      | nil => rfl
      | cons => cases hl
    | cons => cases l' with
      | nil => cases hl
      | cons => simp only [write, e]
  | dict d d' hk _ ih =>
    intro n
    have hl : d.length = d'.length := by simpa using congrArg List.length hk
    have e : writeEntries fl nl colon (n + 1) d = writeEntries fl nl colon (n + 1) d' := by
      rw [writeEntries_eq, writeEntries_eq]
      refine Lemmas.map_eq_of_getElem hl (fun i e e' he he' => ?_)
      have hke : e.1 = e'.1 := by
        have := congrArg (fun l => l[i]?) hk
        simpa [List.getElem?_map, he, he'] using this
      rw [hke, ih i e e' he he']
    cases d with
    | nil => cases d' with
      | nil => rfl
      | cons => cases hl
    | cons => cases d' with
      | nil => cases hl
      | cons => simp only [write, e]
  | perm d d' hn hp =>
    intro n
    cases d with
    | nil => rw [hp.nil_eq]
    | cons e l =>
      cases d' with
      | nil => exact absurd hp.length_eq (by simp)
      | cons e' l' => rw [write_dict, write_dict, sortBy_perm_invariant Prod.fst hp hn]
  | trans a b c _ _ h1 h2 => intro n; rw [h1 n, h2 n]

/-- C98. The order in which Go enumerates the maps does not matter. -/
theorem C98_order (fl : Text → Text) (v v' : Value) (h : Reordered v v') : toJson fl v = toJson fl v' ∧ toPrettyJson fl v = toPrettyJson fl v' :=
  ⟨write_order fl _ _ h 0, write_order fl _ _ h 0⟩

example : Reordered (.dict [(T "b", .int 1), (T "a", .int 2)]) (.dict [(T "a", .int 2), (T "b", .int 1)]) := .perm _ _ (by decide) (.swap _ _ _)
example : toJson number (.dict [(T "b", .int 1), (T "a", .int 2)]) = T "{\"a\":2,\"b\":1}" := by decide +kernel

/-! ### Quoted forms -/

private theorem literal_escape (pr : Char → Bool) (s : Text) : readLiteral ('"' :: (AutoWrap.escape pr s ++ ['"'])) = some s := by
  rw [escape_quote]
  exact Lemmas.readLiteral_quote pr s

/-- C98. Between quotes, the quoted forms are literals (of Go, or of HCL) whose value is what the functions that are not quoted write. -/
theorem C98_quoted (pr : Char → Bool) (fl : Text → Text) (v : Value) :
    readLiteral ('"' :: (toQuotedJson pr fl v ++ ['"'])) = some (toJson fl v) ∧
    readLiteral ('"' :: (toQuotedHcl pr v ++ ['"'])) = some (HclOut.toHcl pr [] [] v) ∧
    readLiteral ('"' :: (toQuotedTFVars pr v ++ ['"'])) = some (HclOut.toTFVars pr [] [] v) :=
  ⟨literal_escape pr _, literal_escape pr _, literal_escape pr _⟩

example : toQuotedJson (fun _ => true) number (.dict [(T "a", .str (T "b\"c"))]) = T "{\\\"a\\\":\\\"b\\\\\\\"c\\\"}" := by decide +kernel

/-- C98. As a text of JSON, the quoted JSON is the JSON exactly when no character is a delete character, or above 65535 and not printable. Missing: the
other texts, for which it is refused. -/
theorem C98_quoted_json_partial (pr : Char → Bool) (fl : Text → Text) (hfl : ∀ r, isJsonNumber (fl r) = true) (v : Value) :
    ((∀ c ∈ toJson fl v, QuotedAlike pr c) → ∃ d, readJson ('"' :: (toQuotedJson pr fl v ++ ['"'])) = some d ∧ d = .str (toJson fl v)) ∧
    ((∃ c ∈ toJson fl v, ¬ QuotedAlike pr c) → readJson ('"' :: (toQuotedJson pr fl v ++ ['"'])) = none) := by
  obtain ⟨h1, h2⟩ := readChars_goQuoted pr (toJson fl v) [] (fun c hc => (plain_toJson hfl 0 v c hc).1)
  have key : ∀ n t, readJValue (n + 1) ('"' :: t) = (readChars t).map (fun r => (.str r.1, r.2)) := by
    intro n t
    rw [readJValue, skip_cons (by decide)]
    rfl
  have hlen : ∀ t : Text, 2 * ('"' :: t).length = (2 * t.length + 1) + 1 := by intro t; simp; omega
  unfold toQuotedJson
  rw [escape_quote]
  refine ⟨fun h => ⟨_, ?_, rfl⟩, fun h => ?_⟩
  · unfold readJson
    rw [hlen, key, h1 h]
    rfl
  · unfold readJson
    rw [hlen, key, h2 h]
    rfl

example : (∀ c ∈ toJson number sample, QuotedAlike (fun _ => true) c) := by
  intro c hc
  have h : ∀ c ∈ toJson number sample, c.toNat ≠ 127 := by decide +kernel
  exact ⟨h c hc, .inr rfl⟩

/-- C98 does not hold for a text with a delete character: `toQuotedJson` writes `\x7f`, which is not JSON. -/
theorem C98_not_quoted_json : toQuotedJson (fun _ => true) number (.str [Char.ofNat 127]) = T "\\\"\\x7f\\\"" ∧
    (readJson (T "\"\\\"\\x7f\\\"\"")).isNone = true ∧ (readJson (toJson number (.str [Char.ofNat 127]))).isSome = true := by decide +kernel

/-! ### Reading again -/

private theorem decodedElems_eq (num : Text → Rat) (l : List JData) : decodedElems num l = l.map (decoded num) := by
  induction l with
  | nil => rfl
  | cons v l ih => simp [decodedElems, ih]

private theorem decodedEntries_eq (num : Text → Rat) (l : List (Text × JData)) : decodedEntries num l = l.map (fun e => (e.1, decoded num e.2)) := by
  induction l with
  | nil => rfl
  | cons e l ih => obtain ⟨k, v⟩ := e; simp [decodedEntries, ih]

private theorem reload {num : Text → Rat} (hnum : ∀ i : Int, num (toString i).toList = F64.rnd i) {fl : Text → Text} (hr : ∀ r, num (fl r) = num r) (v : Value) (h : Reloadable num v) :
    SameData num v (GoVal.jsonElement (decoded num (jsonData fl v))) := by
  induction h with
  | bool b => simp only [jsonData, decoded, GoVal.jsonElement]; exact .bool b
  | int i h1 h2 =>
    simp only [jsonData, decoded, GoVal.jsonElement, hnum, GoVal.jsonNumber]
    rw [F64.rnd_int (abs_le.2 ⟨h1, h2⟩), if_pos (by rw [Rat.floor_intCast]), Lemmas.toInt64_int ⟨by omega, by omega⟩]
    exact .int i
  | flt r h =>
    simp only [jsonData, decoded, GoVal.jsonElement, hr, GoVal.jsonNumber]
    rw [if_neg fun e => h _ e.symm]
    exact .flt r
  | str s => simp only [jsonData, decoded, GoVal.jsonElement]; exact .str s
  | list l _ ih =>
    simp only [jsonData, decoded, GoVal.jsonElement, jsonDataElems_eq, decodedElems_eq, Lemmas.jsonElems_eq, List.map_map]
    refine .list _ _ (by simp) (fun i v w hv hw => ?_)
    rw [List.getElem?_map, hv] at hw
    simp only [Option.map_some, Option.some.injEq] at hw
    subst hw
    exact ih v (List.mem_of_getElem? hv)
  | dict d hn _ ih =>
    rw [data_dict]
    simp only [decoded, GoVal.jsonElement, decodedEntries_eq, List.map_map]
    have hp := sortBy_perm Prod.fst d
    rw [Lemmas.setAll_nodup, Lemmas.jsonEntries_eq, List.map_map]
    · refine .dict _ _ ?_ ?_
      · rw [List.map_map]
        exact (hp.map Prod.fst).symm
      · intro k v w hv hw
        obtain ⟨e, he, hew⟩ := List.mem_map.1 hw
        simp only [Function.comp, Prod.mk.injEq] at hew
        obtain ⟨rfl, rfl⟩ := hew
        have he := hp.mem_iff.1 he
        have hev : (e.1, v) = e := by
          have hw : GoMap.WF d := hn
          have h1 := GoMap.get?_of_mem hw hv
          have h2 := GoMap.get?_of_mem hw (show (e.1, e.2) ∈ d from he)
          rw [h1] at h2
          cases h2
          rfl
        have : v = e.2 := congrArg Prod.snd hev
        subst this
        exact ih e he
    · rw [List.map_map]
      exact ((hp.map Prod.fst).nodup_iff).2 hn

/-- C98. Reading what `toJson` or `toPrettyJson` writes gives the data again, for data without nil, with floats that have a fraction and integers of at most 53 bits. `num`
is how the library reads numbers: the nearest floating point number for an integer; a float is written as a number that is read as this float. Missing: nil and larger
integers, see the two theorems below, and floats without a fraction, which become integers. -/
theorem C98_reload_partial (num : Text → Rat) (hnum : ∀ i : Int, FloatFor (num (toString i).toList) i) (fl : Text → Text)
    (hfl : ∀ r, isJsonNumber (fl r) = true ∧ num (fl r) = num r) (v : Value) (h : Reloadable num v) :
    (∃ w, unmarshal num (toJson fl v) = some w ∧ SameData num v w) ∧ ∃ w, unmarshal num (toPrettyJson fl v) = some w ∧ SameData num v w := by
  have hnum := fun i => Lemmas.floatFor_iff.1 (hnum i)
  unfold unmarshal
  rw [C98_compact fl fun r => (hfl r).1, C98_pretty fl fun r => (hfl r).1]
  exact ⟨⟨_, rfl, reload hnum (fun r => (hfl r).2) v h⟩, ⟨_, rfl, reload hnum (fun r => (hfl r).2) v h⟩⟩

private theorem number_value : ∃ num : Text → Rat, (∀ i : Int, num (toString i).toList = F64.rnd i) ∧ (∀ r, num (number r) = num r) ∧ num (T "1.5") = mkRat 3 2 := by
  have inj : ∀ i j : Int, (toString i).toList = (toString j).toList → i = j := by
    intro i j h
    rw [← intText_toString, ← intText_toString] at h
    exact intText_inj h
  have dot : ∀ i : Int, '.' ∉ (toString i).toList := by
    intro i
    rw [← intText_toString]
    cases i with
    | ofNat n => exact fun h => absurd (digits_all n _ h) (by decide)
    | negSucc n => exact fun h => (List.mem_cons.1 h).elim (fun e => absurd e (by decide)) (fun h => absurd (digits_all _ _ h) (by decide))
  classical
  let num : Text → Rat := fun t =>
    if isJsonNumber t then (if h : ∃ i : Int, (toString i).toList = t then F64.rnd ((Classical.choose h : Int) : Rat) else mkRat 3 2) else 0
  have hint : ∀ i : Int, num (toString i).toList = F64.rnd i := by
    intro i
    have h : ∃ j : Int, (toString j).toList = (toString i).toList := ⟨i, rfl⟩
    have e := inj _ _ (Classical.choose_spec h)
    show (if isJsonNumber _ then (if h : ∃ j : Int, (toString j).toList = (toString i).toList then F64.rnd ((Classical.choose h : Int) : Rat) else mkRat 3 2) else 0) = _
    rw [if_pos (by rw [← intText_toString]; exact number_int i), dif_pos h, e]
  refine ⟨num, hint, fun r => ?_, ?_⟩
  · unfold number
    split
    · rfl
    · rename_i h
      have h0 : num ['0'] = 0 := (hint 0).trans F64.rnd_zero
      rw [h0]
      exact (if_neg h).symm
  · refine (if_pos (by decide)).trans (dif_neg fun ⟨i, h⟩ => dot i ?_)
    rw [h]
    decide

/-- Numbers can be written and read so, and some nested data is restored. -/
example : ∃ num : Text → Rat, (∀ i : Int, FloatFor (num (toString i).toList) i) ∧ (∀ r, isJsonNumber (number r) = true ∧ num (number r) = num r) ∧
    Reloadable num (.dict [(T "a", .list [.int (2 ^ 53), .bool false, .str (T "x"), .flt (T "1.5")]), (T "b", .dict [])]) := by
  obtain ⟨num, h1, h2, h3⟩ := number_value
  refine ⟨num, fun i => Lemmas.floatFor_iff.2 (h1 i), fun r => ⟨number_ok r, h2 r⟩, .dict _ (by decide) (fun e he => ?_)⟩
  simp only [List.mem_cons, List.not_mem_nil, or_false] at he
  rcases he with rfl | rfl
  · refine .list _ (fun v hv => ?_)
    simp only [List.mem_cons, List.not_mem_nil, or_false] at hv
    rcases hv with rfl | rfl | rfl | rfl
    · exact .int _ (by norm_num) (by norm_num)
    · exact .bool _
    · exact .str _
    · refine .flt _ fun n hn => ?_
      rw [h3] at hn
      have : (mkRat 3 2).den = ((n : Int) : Rat).den := by rw [hn]
      exact absurd this (by rw [Rat.den_intCast]; decide)
  · exact .dict _ (by decide) (by simp)

/-- C98. A float without a fraction is read again as the integer with its value. -/
theorem C98_whole_float (num : Text → Rat) (fl : Text → Text) (hfl : ∀ r, isJsonNumber (fl r) = true ∧ num (fl r) = num r) (r : Text) (n : Int)
    (hn : num r = n) (h1 : -2 ^ 63 ≤ n) (h2 : n < 2 ^ 63) : unmarshal num (toJson fl (.flt r)) = some (.int .int n) := by
  unfold unmarshal
  rw [C98_compact fl fun r => (hfl r).1]
  simp only [jsonData, decoded, GoVal.jsonElement, (hfl r).2, hn, GoVal.jsonNumber, Option.map_some]
  rw [if_pos (by rw [Rat.floor_intCast]), Lemmas.toInt64_int ⟨by omega, by omega⟩]

example : ∃ num : Text → Rat, (∀ r, isJsonNumber (number r) = true ∧ num (number r) = num r) ∧ num (T "12") = (12 : Int) := by
  obtain ⟨num, h1, h2, _⟩ := number_value
  exact ⟨num, fun r => ⟨number_ok r, h2 r⟩, (h1 12).trans (by decide +kernel)⟩

/-- C98 does not hold for nil: it is read again as an empty dictionary. -/
theorem C98_not_null (num : Text → Rat) (fl : Text → Text) : toJson fl .nil = T "null" ∧ unmarshal num (toJson fl .nil) = some (.map .coll []) := ⟨rfl, rfl⟩

/-- C98 does not hold for integers of more than 53 bits: `2 ^ 53 + 1` is read again as `2 ^ 53`. -/
theorem C98_not_large (num : Text → Rat) (hnum : ∀ i : Int, FloatFor (num (toString i).toList) i) (fl : Text → Text) (hfl : ∀ r, isJsonNumber (fl r) = true) :
    unmarshal num (toJson fl (.int (2 ^ 53 + 1))) = some (.int .int (2 ^ 53)) := by
  have hnum := fun i => Lemmas.floatFor_iff.1 (hnum i)
  unfold unmarshal
  rw [C98_compact fl hfl]
  simp only [jsonData, decoded, GoVal.jsonElement, hnum, GoVal.jsonNumber, Option.map_some]
  have h : F64.rnd ((2 ^ 53 + 1 : Int) : Rat) = ((2 ^ 53 : Int) : Rat) := by decide +kernel
  rw [h, if_pos (by rw [Rat.floor_intCast]), Lemmas.toInt64_int ⟨by omega, by omega⟩]

end Verif.Props
