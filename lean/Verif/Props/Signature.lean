import Verif.Spec.SignatureSpec
import Verif.Base.Chars
/-!
# C105: the signatures shown in the help
-/

namespace Verif.Props
open Verif Verif.Text Verif.Spec Verif.Signature

private theorem parameters_length (col : Colors) (m : Bool) (names : List Text) (f : FuncType) (i : Nat) (ts : List Text) :
    (parameters col m names f i ts).length = ts.length := by
  induction ts generalizing i with
  | nil => rfl
  | cons t ts ih => simp [parameters, ih]

private theorem typeName_slice (e : Text) : typeName (T "[]" ++ e) = T "[]" ++ typeName e := by
  have h : ∀ (old new : Text) (s : Text), old.head? ≠ some '[' → old.head? ≠ some ']' → old ≠ [] → replaceAll old new (T "[]" ++ s) = T "[]" ++ replaceAll old new s := by
    intro old new s h1 h2 h3
    cases old with
    | nil => exact absurd rfl h3
    | cons c cs =>
      have e1 : c ≠ '[' := by rintro rfl; exact h1 rfl
      have e2 : c ≠ ']' := by rintro rfl; exact h2 rfl
      show replaceAll (c :: cs) new ('[' :: ']' :: s) = '[' :: ']' :: replaceAll (c :: cs) new s
      rw [replaceAll_skip (by simp [hasPrefix, dropPrefix?, e1]), replaceAll_skip (by simp [hasPrefix, dropPrefix?, e2])]
  unfold typeName
  rw [h _ _ _ (by decide) (by decide) (by decide), h _ _ _ (by decide) (by decide) (by decide)]

private theorem parameters_get (col : Colors) (m : Bool) (names : List Text) (f : FuncType) (i k : Nat) (ts : List Text) (t : Text) (ht : ts[k]? = some t)
    (hf : f.variadic = true → ∃ before e, ts = before ++ [T "[]" ++ e]) :
    ∃ n s, ParameterName names (i + k) (f.variadic && k + 1 == ts.length) n ∧ ParameterType (f.variadic && k + 1 == ts.length) t s ∧
      (parameters col m names f i ts)[k]? = some (if m then col.cyan s else n ++ ' ' :: col.cyan s) := by
  induction ts generalizing i k with
  | nil => simp at ht
  | cons x xs ih =>
    cases k with
    | zero =>
      have hx : x = t := by simpa using ht
      subst hx
      have hb : (f.variadic && 0 + 1 == (x :: xs).length) = (f.variadic && xs.isEmpty) := by cases xs <;> simp
      rw [hb]
      refine ⟨_, _, ?_, ?_, rfl⟩
      · cases h : names[i]? with
        | some n => exact .declared _ _ (by simpa using h)
        | none =>
          have hl : names.length ≤ i + 0 := by simpa using h
          dsimp only
          split
          · rename_i h'; rw [h']; exact .rest hl
          · rename_i h'; rw [Bool.not_eq_true] at h'; rw [h']; exact .position hl
      · split
        · rename_i h'
          rw [h']
          simp only [Bool.and_eq_true, List.isEmpty_iff] at h'
          obtain ⟨before, e, hbe⟩ := hf h'.1
          rw [h'.2] at hbe
          have : before = [] := by
            cases before with
            | nil => rfl
            | cons _ _ => simp at hbe
          subst this
          have hx : x = T "[]" ++ e := by simpa using hbe
          subst hx
          rw [typeName_slice]
          exact .rest e
        · rename_i h'; rw [Bool.not_eq_true] at h'; rw [h']; exact .plain x
    | succ k =>
      have ht' : xs[k]? = some t := by simpa using ht
      obtain ⟨n, s, h1, h2, h3⟩ := ih (i + 1) k ht' (fun hv => by
        obtain ⟨before, e, hbe⟩ := hf hv
        cases before with
        | nil => have : xs = [] := by simpa using (List.cons.inj hbe).2
                 rw [this] at ht'; simp at ht'
        | cons b bs => exact ⟨bs, e, (List.cons.inj hbe).2⟩)
      rw [show i + 1 + k = i + (k + 1) by omega] at h1
      have hb : (k + 1 + 1 == (x :: xs).length) = (k + 1 == xs.length) := by simp
      refine ⟨n, s, by rw [hb]; exact h1, by rw [hb]; exact h2, ?_⟩
      rw [parameters, List.getElem?_cons_succ]
      exact h3

private theorem outputs_shown (rs out : List Text) (h : ShownResults rs out) : outputs rs = out := by
  have hplain : ∀ rs : List Text, rs.getLast? ≠ some (T "error") → outputs rs = rs.map shownType := by
    intro rs
    induction rs with
    | nil => intro _; rfl
    | cons r rs ih =>
      intro h
      cases rs with
      | nil => rw [outputs, if_neg (by simpa using h)]; rfl
      | cons r' rs => rw [outputs, ih (by simpa using h)]; rfl
  have herr : ∀ rs : List Text, outputs (rs ++ [T "error"]) = rs.map shownType := by
    intro rs
    induction rs with
    | nil => rfl
    | cons r rs ih =>
      cases rs with
      | nil => rfl
      | cons r' rs => rw [List.cons_append, List.cons_append, outputs, ← List.cons_append, ih]; rfl
  cases h with
  | error rs => exact herr rs
  | plain rs h => exact hplain rs h

/-- C105. The arguments of a function without a description of its own are shown in order, separated by commas, each with its name and its type. -/
theorem C105_parameters (col : Colors) (f : Info) (g : FuncType) (hf : f.function = some g) (hi : f.ins = []) (hg : FunctionType g) :
    ∃ ps : List Text, arguments col { own := f } = join (T ", ") ps ∧ ps.length = g.ins.length ∧
      ∀ (i : Nat) (t : Text), g.ins[i]? = some t → ∃ n s, ParameterName f.arguments i (g.variadic && i + 1 == g.ins.length) n ∧
        ParameterType (g.variadic && i + 1 == g.ins.length) t s ∧ ps[i]? = some (n ++ T " " ++ col.cyan s) := by
  refine ⟨parameters col false f.arguments g 0 g.ins, ?_, parameters_length _ _ _ _ _ _, fun i t h => ?_⟩
  · unfold arguments getArguments
    simp [hf, hi]
  · obtain ⟨n, s, h1, h2, h3⟩ := parameters_get col false f.arguments g 0 i g.ins t h hg
    rw [Nat.zero_add] at h1
    exact ⟨n, s, h1, h2, by rw [h3]; simp [T]⟩

/-- C105. The results are shown in order, without the error at the end; there are parentheses unless there is one result. -/
theorem C105_results (f : Info) (g : FuncType) (hf : f.function = some g) (ho : f.outs = []) (rs : List Text) (h : ShownResults g.outs rs) :
    (∀ r, rs = [r] → result { own := f } = r) ∧ (rs.length ≠ 1 → result { own := f } = T "(" ++ join (T ", ") rs ++ T ")") := by
  unfold result
  simp only [hf, ho, outputs_shown _ _ h]
  refine ⟨fun r hr => by rw [hr], fun hl => ?_⟩
  split
  · exact absurd rfl hl
  · rfl

/-- C105. A description of the arguments or of the results is shown as it is. -/
theorem C105_described (col : Colors) (f : Info) :
    (f.ins ≠ [] → arguments col { own := f } = f.ins) ∧ (f.outs ≠ [] → result { own := f } = f.outs) := by
  unfold arguments getArguments result
  refine ⟨fun h => ?_, fun h => ?_⟩
  · dsimp only
    split
    · rename_i h' _; exact absurd h' h
    · rfl
  · dsimp only
    split
    · rename_i h' _; exact absurd h' h
    · rfl

/-- C105. A function is shown with its name, its arguments in parentheses and its results. -/
theorem C105_signature (col : Colors) (f : Info) :
    signature col { own := f } = col.hiBlue f.name ++ T "(" ++ arguments col { own := f } ++ T ") " ++ col.hiBlack (result { own := f }) := rfl

/-- C105. An alias is shown as the function, under the name of the alias and in another colour; it has the description, the group and the aliases of the function. -/
theorem C105_alias (col : Colors) (f : Info) (name : Text) :
    signature col (aliasOf f name) = col.hiBlack name ++ T "(" ++ arguments col { own := f } ++ T ") " ++ col.hiBlack (result { own := f }) ∧
    description (aliasOf f name) = f.description ∧ group (aliasOf f name) = f.group ∧ aliases (aliasOf f name) = f.aliases := ⟨rfl, rfl, rfl, rfl⟩

/-- C105. Asked for its arguments or its results alone, an alias gives those of a function without description. Missing: functions with a description of their own
(`C105_not_alias_arguments`, `C105_not_alias_results`). -/
theorem C105_alias_arguments_partial (col : Colors) (f : Info) (name : Text) (hi : f.ins = []) (ho : f.outs = []) :
    arguments col (aliasOf f name) = arguments col { own := f } ∧ result (aliasOf f name) = result { own := f } := by
  refine ⟨?_, ?_⟩
  · unfold arguments getArguments aliasOf
    cases h : f.function <;> simp [hi, h]
  · unfold result aliasOf
    cases h : f.function <;> simp [ho]

/-- C105. The arguments of an alias of a function that describes them, which a function defined in a template does, are not the arguments of the function. -/
theorem C105_not_alias_arguments :
    ∃ (f : Info) (name : Text), arguments ⟨id, id, id, id⟩ { own := f } = T "name, size int" ∧ arguments ⟨id, id, id, id⟩ (aliasOf f name) = T "name ...interface{}" :=
  ⟨{ name := T "f", function := some ⟨[T "[]interface {}"], true, [T "interface {}", T "error"]⟩, arguments := [T "name", T "size"], ins := T "name, size int" }, T "g",
    by decide +kernel, by decide +kernel⟩

/-- C105. Nor are the results those of the function, when it describes them. -/
theorem C105_not_alias_results : ∃ (f : Info) (name : Text), result { own := f } = T "bool" ∧ result (aliasOf f name) = [] :=
  ⟨{ name := T "f", outs := T "bool" }, T "g", by decide +kernel, by decide +kernel⟩

/-- C105. What is printed for a function: its group and its description, each one if there is one, then its signature; an alias has those of its function. -/
theorem C105_text (col : Colors) (f : Info) (name : Text) : ∃ g d : Text,
    (f.group = [] → g = []) ∧ (f.group ≠ [] → g = col.green (T "Group: " ++ f.group ++ T "\n")) ∧
    (f.description = [] → d = []) ∧ (f.description ≠ [] → d = col.green (f.description ++ T "\n")) ∧
    toText col { own := f } = g ++ d ++ signature col { own := f } ∧ toText col (aliasOf f name) = g ++ d ++ signature col (aliasOf f name) := by
  refine ⟨_, _, fun h => ?_, fun h => ?_, fun h => ?_, fun h => ?_, rfl, rfl⟩
  · exact if_neg (by simpa using h)
  · exact if_pos h
  · exact if_neg (by simpa using h)
  · exact if_pos h

/-- C105. The signature of an object is its attributes, an empty line and its methods; without attributes or without methods there is no empty line. -/
theorem C105_object (attributes methods : Text) :
    (attributes ≠ [] → methods ≠ [] → objectSignature attributes methods = attributes ++ T "\n\n" ++ methods) ∧
    (attributes = [] → objectSignature attributes methods = methods) ∧ (methods = [] → objectSignature attributes methods = attributes) := by
  refine ⟨fun h1 h2 => if_pos ⟨h1, h2⟩, ?_, ?_⟩ <;> rintro rfl <;> simp [objectSignature]

/-- C105. The methods of an object are shown one on each line, without the object itself among the arguments and without names. -/
theorem C105_methods (col : Colors) (methods : List (Text × FuncType)) (hm : ∀ m ∈ methods, FunctionType m.2 ∧ ∃ self others, m.2.ins = self :: others ∧ (m.2.variadic = true → others ≠ [])) :
    ∃ rows : List Text, getMethods col methods = join (T "\n") rows ∧ rows.length = methods.length ∧
      ∀ (i : Nat) (m : Text × FuncType), methods[i]? = some m → ∃ ps : List Text, ps.length + 1 = m.2.ins.length ∧
        (∀ (k : Nat) (t : Text), m.2.ins[k + 1]? = some t → ∃ s, ParameterType (m.2.variadic && k + 2 == m.2.ins.length) t s ∧ ps[k]? = some (col.cyan s)) ∧
        rows[i]? = some (col.hiBlue m.1 ++ T "(" ++ join (T ", ") ps ++ T ") " ++ col.hiBlack (result { own := { name := m.1, function := some m.2 } })) := by
  refine ⟨_, rfl, List.length_map _, fun i m h => ?_⟩
  obtain ⟨hf, self, others, he, hv⟩ := hm m (List.mem_of_getElem? h)
  refine ⟨parameters col true [] m.2 1 others, by rw [parameters_length, he]; rfl, fun k t ht => ?_, ?_⟩
  · rw [he, List.getElem?_cons_succ] at ht
    obtain ⟨n, s, _, h2, h3⟩ := parameters_get col true [] m.2 1 k others t ht (fun hvar => by
      obtain ⟨before, e, hbe⟩ := hf hvar
      rw [he] at hbe
      cases before with
      | nil => exact absurd (by simpa using (List.cons.inj hbe).2) (hv hvar)
      | cons b bs => exact ⟨bs, e, (List.cons.inj hbe).2⟩)
    refine ⟨s, ?_, by rw [h3]; rfl⟩
    rw [he]
    simpa using h2
  · rw [List.getElem?_map, h, Option.map_some]
    unfold getSignature getArguments
    simp [he]

private def plainColors : Colors := ⟨id, id, id, id⟩
private def sampleFunc : Info := { name := T "substr", function := some ⟨[T "int", T "collections.String", T "[]interface {}"], true, [T "interface {}", T "error"]⟩, arguments := [T "start"] }

example : signature plainColors { own := sampleFunc } = c!"substr(start int, arg2 String, args ...interface{}) interface{}" := by decide +kernel
example : signature plainColors (aliasOf sampleFunc (T "sub")) = c!"sub(start int, arg2 String, args ...interface{}) interface{}" := by decide +kernel
example : FunctionType ⟨[T "int", T "collections.String", T "[]interface {}"], true, [T "interface {}", T "error"]⟩ := fun _ => ⟨[T "int", T "collections.String"], T "interface {}", rfl⟩
example : ShownResults [T "int", T "error"] [shownType (T "int")] := .error [T "int"]
example : getMethods plainColors [(T "Len", ⟨[T "list"], false, [T "int"]⟩), (T "Get", ⟨[T "list", T "[]int"], true, []⟩)] = T "Len() int\nGet(...int) ()" := by decide +kernel

end Verif.Props
