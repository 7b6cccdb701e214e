import Verif.Spec.LookupSpec
import Verif.Lemmas.Content2
/-!
# C86: what a source designates
-/

namespace Verif.Props
open Verif Spec Lookup Text Lemmas

variable {Tree : Type}

theorem fileName_iff {folder source path : Text} : FileOf folder source path ↔ '\n' ∉ source ∧ fileName folder source = path := by
  have habs : ∀ p : Text, Path.isAbs p = true ↔ ∃ q, p = '/' :: q := by
    intro p
    rw [Path.isAbs, hasPrefix_iff]
    exact ⟨fun ⟨t, h⟩ => ⟨t, h.symm⟩, fun ⟨q, h⟩ => ⟨q, h.symm⟩⟩
  constructor
  · intro h
    cases h with
    | absolute p h => exact ⟨h, by rw [fileName, if_pos ((habs _).2 ⟨p, rfl⟩)]⟩
    | relative _ h hn => exact ⟨h, by rw [fileName, if_neg (fun h' => hn ((habs _).1 h'))]⟩
  · rintro ⟨h, rfl⟩
    by_cases ha : Path.isAbs source = true
    · obtain ⟨q, rfl⟩ := (habs _).1 ha
      rw [fileName, if_pos ha]
      exact .absolute q h
    · rw [fileName, if_neg ha]
      exact .relative _ h (fun h' => ha ((habs _).2 h'))

/-- C86. Every source designates something. -/
theorem C86_total (w : World Tree) (table : GoMap Tree) (source : Text) : ∃ c, StandsFor w table source c := by
  cases ht : table.get? source with
  | some tree => exact ⟨_, .named _ _ ht⟩
  | none =>
    by_cases hn : '\n' ∈ source
    · exact ⟨_, .lines _ ht hn⟩
    · have hf : FileOf w.folder source (fileName w.folder source) := fileName_iff.2 ⟨hn, rfl⟩
      cases hr : w.read (fileName w.folder source) with
      | content c => exact ⟨_, .file _ _ c ht hf hr⟩
      | missing => exact ⟨_, .noFile _ _ ht hf hr⟩
      | broken e => exact ⟨_, .failure _ _ e ht hf hr⟩

/-- C86. What is executed is what the source designates: the template of that name as it is, otherwise the translation by razor of the content of the file,
otherwise the translation of the source. -/
theorem C86_found (w : World Tree) (table : GoMap Tree) (source : Text) (c : Meaning Tree) (h : StandsFor w table source c) :
    (locate w table source).1 =
      match c with
      | .named tree => .ok ⟨tree, source, []⟩
      | .file path content => (w.parse (w.razor content)).map (fun p => ⟨p.1, w.razor content, path⟩)
      | .inline text => (w.parse (w.razor text)).map (fun p => ⟨p.1, w.razor text, []⟩)
      | .failure e => .error e := by
  have hc : ∀ code file, (compile w table code file).1 = (w.parse code).map (fun p => ⟨p.1, code, file⟩) := by
    intro code file
    unfold compile
    cases w.parse code <;> rfl
  cases h with
  | named tree ht => simp [locate, ht]
  | file path content ht hf hr =>
    obtain ⟨hn, hf⟩ := fileName_iff.1 hf
    simp [locate, ht, contentOf, hn, hf, hr, hc]
  | noFile path ht hf hr =>
    obtain ⟨hn, hf⟩ := fileName_iff.1 hf
    simp [locate, ht, contentOf, hn, hf, hr, hc]
  | lines ht hn => simp [locate, ht, contentOf, hn, hc]
  | failure path e ht hf hr =>
    obtain ⟨hn, hf⟩ := fileName_iff.1 hf
    simp [locate, ht, contentOf, hn, hf, hr]

/-- C86. A source designates one thing only. -/
theorem C86_unique (w : World Tree) (table : GoMap Tree) (source : Text) (c c' : Meaning Tree) (h : StandsFor w table source c)
    (h' : StandsFor w table source c') : c = c' := by
  have hf : ∀ {p p' : Text}, FileOf w.folder source p → FileOf w.folder source p' → p = p' :=
    fun h h' => (fileName_iff.1 h).2.symm.trans (fileName_iff.1 h').2
  have hl : ∀ {p : Text}, FileOf w.folder source p → '\n' ∉ source := fun h => (fileName_iff.1 h).1
  cases h with
  | named tree ht => cases h' <;> simp_all
  | file path content ht hp hr =>
    cases h' with
    | named => simp_all
    | file _ _ _ hp' hr' => obtain rfl := hf hp hp'; simp_all
    | noFile _ _ hp' hr' => obtain rfl := hf hp hp'; simp_all
    | lines _ hn => exact absurd hn (hl hp)
    | failure _ _ _ hp' hr' => obtain rfl := hf hp hp'; simp_all
  | noFile path ht hp hr =>
    cases h' with
    | named => simp_all
    | file _ _ _ hp' hr' => obtain rfl := hf hp hp'; simp_all
    | noFile => rfl
    | lines => rfl
    | failure _ _ _ hp' hr' => obtain rfl := hf hp hp'; simp_all
  | lines ht hn =>
    cases h' with
    | named => simp_all
    | file _ _ _ hp' => exact absurd hn (hl hp')
    | noFile => rfl
    | lines => rfl
    | failure _ _ _ hp' => exact absurd hn (hl hp')
  | failure path e ht hp hr =>
    cases h' with
    | named => simp_all
    | file _ _ _ hp' hr' => obtain rfl := hf hp hp'; simp_all
    | noFile _ _ hp' hr' => obtain rfl := hf hp hp'; simp_all
    | lines _ hn => exact absurd hn (hl hp)
    | failure _ _ _ hp' hr' => obtain rfl := hf hp hp'; simp_all

/-! ## The table -/

theorem get?_associate (isEmpty : Tree → Bool) (table : GoMap Tree) (e : Text × Tree) (name : Text) :
    (associate isEmpty table e).get? name =
      if name = e.1 then (if isEmpty e.2 then (table.get? name).or (some e.2) else some e.2) else table.get? name := by
  unfold associate
  by_cases hn : name = e.1
  · subst hn
    rw [if_pos rfl]
    by_cases he : isEmpty e.2 = true
    · rw [if_pos he]
      cases ht : table.get? e.1 with
      | none => simp [GoMap.get?_set]
      | some t => simp [he, ht]
    · simp [he, GoMap.get?_set]
  · rw [if_neg hn]
    split
    · rfl
    · rw [GoMap.get?_set, if_neg (fun h => hn h.symm)]

theorem get?_fold (isEmpty : Tree → Bool) (entries : List (Text × Tree)) : ∀ (table : GoMap Tree) (name : Text),
    (entries.map Prod.fst).Nodup →
    (name ∉ entries.map Prod.fst → (entries.foldl (associate isEmpty) table).get? name = table.get? name) ∧
    (∀ tree, (name, tree) ∈ entries → (entries.foldl (associate isEmpty) table).get? name =
      if isEmpty tree then (table.get? name).or (some tree) else some tree) := by
  induction entries with
  | nil => exact fun table name _ => ⟨fun _ => rfl, fun tree h => absurd h (by simp)⟩
  | cons e es ih =>
    intro table name hd
    rw [List.map_cons, List.nodup_cons] at hd
    obtain ⟨i1, i2⟩ := ih (associate isEmpty table e) name hd.2
    rw [List.foldl_cons]
    constructor
    · intro h
      rw [List.map_cons, List.mem_cons, not_or] at h
      rw [i1 h.2, get?_associate, if_neg h.1]
    · intro tree h
      rcases List.mem_cons.1 h with rfl | h
      · rw [i1 hd.1, get?_associate, if_pos rfl]
      · have hne : name ≠ e.1 := by
          rintro rfl
          exact hd.1 (List.mem_map.2 ⟨_, h, rfl⟩)
        rw [i2 tree h, get?_associate, if_neg hne]

/-- C86. Using a template that has a name changes no definition. -/
theorem C86_named_table (w : World Tree) (table : GoMap Tree) (source : Text) (tree : Tree) (h : StandsFor w table source (.named tree)) :
    (locate w table source).2 = table := by
  cases h with
  | named _ ht => simp [locate, ht]

/-- The code that is parsed for something that has no name. -/
def parsedCode (w : World Tree) : Meaning Tree → Option Text
  | .file _ content => some (w.razor content)
  | .inline text => some (w.razor text)
  | _ => none

theorem locate_compile (w : World Tree) (table : GoMap Tree) (source : Text) (c : Meaning Tree) (code : Text) (h : StandsFor w table source c)
    (hc : parsedCode w c = some code) : ∃ file, locate w table source = compile w table code file := by
  cases h with
  | named => simp [parsedCode] at hc
  | file path content ht hf hr =>
    obtain ⟨hn, hf⟩ := fileName_iff.1 hf
    simp only [parsedCode, Option.some.injEq] at hc
    subst hc
    exact ⟨path, by simp [locate, ht, contentOf, hn, hf, hr]⟩
  | noFile path ht hf hr =>
    obtain ⟨hn, hf⟩ := fileName_iff.1 hf
    simp only [parsedCode, Option.some.injEq] at hc
    subst hc
    exact ⟨[], by simp [locate, ht, contentOf, hn, hf, hr]⟩
  | lines ht hn =>
    simp only [parsedCode, Option.some.injEq] at hc
    subst hc
    exact ⟨[], by simp [locate, ht, contentOf, hn]⟩
  | failure => simp [parsedCode] at hc

/-- C86. The definitions of a code (and the code itself, under the name `inline`) remain after it has been used: they replace those of the same names, unless
they are empty; nothing else changes. The order in which they are made does not count. -/
theorem C86_definitions (w : World Tree) (table : GoMap Tree) (source : Text) (c : Meaning Tree) (code : Text) (main : Tree) (defs : List (Text × Tree))
    (h : StandsFor w table source c) (hc : parsedCode w c = some code) (hp : w.parse code = .ok (main, defs)) (hd : DefinedOnce defs) (name : Text) :
    (∀ tree, Defines main defs name tree → (locate w table source).2.get? name =
      if w.isEmpty tree ∧ (table.get? name).isSome then table.get? name else some tree) ∧
    ((∀ tree, ¬ Defines main defs name tree) → (locate w table source).2.get? name = table.get? name) := by
  obtain ⟨file, hl⟩ := locate_compile w table source c code h hc
  have ht : (locate w table source).2 = ((inlineName, main) :: defs).foldl (associate w.isEmpty) table := by
    rw [hl, compile, hp]
  obtain ⟨i1, i2⟩ := get?_fold w.isEmpty ((inlineName, main) :: defs) table name hd
  rw [ht]
  constructor
  · intro tree hdef
    rw [i2 tree (by
      rcases hdef with ⟨rfl, rfl⟩ | hdef
      · exact List.mem_cons_self
      · exact List.mem_cons_of_mem _ hdef)]
    cases w.isEmpty tree <;> cases table.get? name <;> simp
  · intro hdef
    refine i1 ?_
    rw [List.map_cons, List.mem_cons, not_or]
    refine ⟨fun h => hdef main (.inl ⟨h, rfl⟩), fun h => ?_⟩
    obtain ⟨⟨n, t⟩, hm, rfl⟩ := List.mem_map.1 h
    exact hdef t (.inr hm)

/-- C86. Code that cannot be parsed changes no definition. -/
theorem C86_error_table (w : World Tree) (table : GoMap Tree) (source : Text) (e : Text) (h : (locate w table source).1 = .error e) :
    (locate w table source).2 = table := by
  unfold locate at h ⊢
  cases ht : table.get? source with
  | some tree => rfl
  | none =>
    rw [ht] at h
    cases hc : contentOf w source with
    | error e => rfl
    | ok p =>
      simp only [hc] at h ⊢
      unfold compile at h ⊢
      cases hp : w.parse (w.razor p.1) with
      | error e => rfl
      | ok q => simp [hp] at h

/-- C86. What a source designates remains the same, as long as the codes that are used define neither its name nor are named `inline` themselves. -/
theorem C86_stable_partial (w : World Tree) (table : GoMap Tree) (sources : List Text) (source : Text) (c : Meaning Tree)
    (hd : ∀ code main defs, w.parse code = .ok (main, defs) → DefinedOnce defs ∧ source ∉ defs.map Prod.fst) (hi : source ≠ T "inline")
    (h : StandsFor w table source c) : StandsFor w (tableAfter w table sources) source c := by
  have key : ∀ (sources : List Text) (table : GoMap Tree), (tableAfter w table sources).get? source = table.get? source := by
    intro sources
    induction sources with
    | nil => exact fun _ => rfl
    | cons s ss ih =>
      intro table
      show (tableAfter w (locate w table s).2 ss).get? source = _
      rw [ih]
      obtain ⟨c, hc⟩ := C86_total w table s
      rcases hp : parsedCode w c with _ | code
      · cases hc with
        | named tree ht => rw [C86_named_table w table s tree (.named _ _ ht)]
        | file => simp [parsedCode] at hp
        | noFile => simp [parsedCode] at hp
        | lines => simp [parsedCode] at hp
        | failure path e ht hf hr =>
          rw [C86_error_table w table s e (C86_found w table s _ (.failure s path e ht hf hr))]
      · rcases hq : w.parse code with e | ⟨main, defs⟩
        · have : (locate w table s).1 = .error e := by
            obtain ⟨file, hl⟩ := locate_compile w table s c code hc hp
            rw [hl, compile, hq]
          rw [C86_error_table w table s e this]
        · obtain ⟨q1, q2⟩ := hd code main defs hq
          refine (C86_definitions w table s c code main defs hc hp hq q1 source).2 ?_
          rintro tree (⟨h, _⟩ | h)
          · exact hi h
          · exact q2 (List.mem_map.2 ⟨_, h, rfl⟩)
  have hk := key sources table
  cases h with
  | named tree ht => exact .named _ _ (hk.trans ht)
  | file path content ht hf hr => exact .file _ _ _ (hk.trans ht) hf hr
  | noFile path ht hf hr => exact .noFile _ _ (hk.trans ht) hf hr
  | lines ht hn => exact .lines _ (hk.trans ht) hn
  | failure path e ht hf hr => exact .failure _ _ _ (hk.trans ht) hf hr

/-! ## The second attempt -/

/-- C86. The second attempt executes the same code as the first one, provided that the code found by the first one is not changed by razor, and is neither the
name of a template nor that of a file. (The property wanted: the same code in any case.) -/
theorem C86_again_partial (w : World Tree) (table table' : GoMap Tree) (source : Text) (c : Meaning Tree) (code : Text) (found : Located Tree)
    (h : StandsFor w table source c) (hc : parsedCode w c = some code) (hf : (locate w table source).1 = .ok found)
    (hr : w.razor code = code) (hd : StandsFor w table' code (.inline code)) :
    ∃ again, (locateAgain w table' found).1 = .ok again ∧ again.tree = found.tree ∧ again.source = found.source := by
  obtain ⟨file, hl⟩ := locate_compile w table source c code h hc
  rw [hl, compile] at hf
  rcases hp : w.parse code with e | ⟨main, defs⟩
  · simp [hp] at hf
  · simp only [hp, Except.ok.injEq] at hf
    subst hf
    refine ⟨⟨main, code, []⟩, ?_, rfl, rfl⟩
    show (locate w table' code).1 = _
    rw [C86_found w table' code _ hd]
    simp [hr, hp, Except.map]

/-- C86. The second attempt executes the template of the same name, if it is still the same. -/
theorem C86_again_named (w : World Tree) (table table' : GoMap Tree) (source : Text) (tree : Tree) (found : Located Tree)
    (h : StandsFor w table source (.named tree)) (hf : (locate w table source).1 = .ok found) (h' : StandsFor w table' source (.named tree)) :
    (locateAgain w table' found).1 = .ok found := by
  rw [C86_found w table source _ h] at hf
  simp only [Except.ok.injEq] at hf
  subst hf
  exact C86_found w table' source _ h'

/-! ## `include` -/

/-- C86. `include` of a text whose execution gives the text itself is an error, whatever it designates; other results are returned as they are. -/
theorem C86_include (accept : Bool) (source code file out : Text) (h : accept = true ∨ (¬ T "<no value>" <:+: out ∧ ¬ T "<nil>" <:+: out)) :
    (out = source → ∃ e, included true source (Include.conclude accept code file out) = .error e) ∧
    (out ≠ source → included true source (Include.conclude accept code file out) = .text out []) ∧
    included false source (Include.conclude accept code file out) = .text out [] := by
  have hc : ∃ f, Include.conclude accept code file out = .text out f := by
    rcases h with rfl | ⟨h1, h2⟩
    · exact ⟨_, rfl⟩
    · have e1 : replaceAll Content.nilValue Content.noValue out = out :=
        replaceAll_of_not_contains (by rw [Bool.eq_false_iff, ne_eq, contains_iff]; exact h2)
      have e2 : contains Content.noValue out = false := by rw [Bool.eq_false_iff, ne_eq, contains_iff]; exact h1
      cases accept with
      | true => exact ⟨_, rfl⟩
      | false =>
        refine ⟨if out ≠ code then [] else file, ?_⟩
        unfold Include.conclude
        simp [e1, e2]
  obtain ⟨f, hc⟩ := hc
  rw [hc]
  refine ⟨?_, ?_, by simp [included]⟩
  · rintro rfl
    exact ⟨_, by simp [included]; rfl⟩
  · intro hne
    simp [included, hne]

/-- C86. When the execution fails or the result has undefined values, `include` fails. -/
theorem C86_include_error (accept : Bool) (isText : Bool) (source code file out e : Text) :
    included isText source (.error e) = .error e ∧ included isText source .panic = .panic ∧
    (accept = false → (T "<no value>" <:+: out ∨ T "<nil>" <:+: out) → ∃ e, included isText source (Include.conclude accept code file out) = .error e) := by
  refine ⟨rfl, rfl, ?_⟩
  rintro rfl h
  have hc : contains Content.noValue (replaceAll Content.nilValue Content.noValue out) = true := (detect_iff out).2 h
  refine ⟨Content.noValueError, ?_⟩
  unfold Include.conclude
  simp [hc, included]

/-! ## Where the code differs from what is wanted -/

/-- The rules of razor about a doubled sign and a variable of one letter (template/razor.go:79-146). -/
def smallRazor : Text → Text
  | '@' :: '@' :: t => '@' :: smallRazor t
  | '@' :: c :: t => T "{{ $." ++ c :: T " }}" ++ smallRazor t
  | c :: t => c :: smallRazor t
  | [] => []

/-- Files given by their paths; the trees are the codes themselves. -/
def smallWorld (files : List (Text × Text)) : World Text where
  folder := T "/d"
  read p := match GoMap.get? files p with
    | some c => .content c
    | none => .missing
  razor := smallRazor
  parse code := .ok (code, [])
  isEmpty code := code.isEmpty

/-- C86. The second attempt translates the code again: a literal sign becomes a variable. -/
theorem C86_not_again : ∃ (w : World Text) (found again : Located Text), (locate w [] (T "f")).1 = .ok found ∧ found.tree = T "to @b {{ .m }}" ∧
    (locateAgain w (locate w [] (T "f")).2 found).1 = .ok again ∧ again.tree = T "to {{ $.b }} {{ .m }}" :=
  ⟨smallWorld [(T "/d/f", T "to @@b {{ .m }}")], _, _, rfl, by decide +kernel, rfl, by decide +kernel⟩

/-- C86. Once any code has been used, a file called `inline` is not found any more: the name designates the last code. -/
theorem C86_not_stable : ∃ w : World Text, StandsFor w [] (T "inline") (.file (T "/d/inline") (T "x")) ∧
    StandsFor w (tableAfter w [] [T "1\n2"]) (T "inline") (.named (T "1\n2")) := by
  refine ⟨smallWorld [(T "/d/inline", T "x")], .file _ _ _ rfl ?_ rfl, .named _ _ rfl⟩
  exact fileName_iff.2 ⟨by decide, by decide +kernel⟩

/-- C86. A file that contains its own name cannot be included. -/
theorem C86_not_include : ∃ (w : World Text) (found : Located Text) (e : Text), StandsFor w [] (T "f") (.file (T "/d/f") (T "f")) ∧
    (locate w [] (T "f")).1 = .ok found ∧ included true (T "f") (Include.conclude false found.source found.file (T "f")) = .error e := by
  refine ⟨smallWorld [(T "/d/f", T "f")], _, _, .file _ _ _ rfl ?_ rfl, rfl, rfl⟩
  exact fileName_iff.2 ⟨by decide, by decide +kernel⟩

/-! ## Cases that meet the hypotheses -/

example : StandsFor (smallWorld [(T "/d/f", T "x")]) [(T "t", T "y")] (T "t") (.named (T "y")) := .named _ _ rfl
example : StandsFor (smallWorld [(T "/d/f", T "x")]) [(T "t", T "y")] (T "f") (.file (T "/d/f") (T "x")) :=
  .file _ _ _ rfl (fileName_iff.2 ⟨by decide, by decide +kernel⟩) rfl
example : StandsFor (smallWorld [(T "/e/f", T "x")]) [] (T "/e/f") (.file (T "/e/f") (T "x")) :=
  .file _ _ _ rfl (.absolute _ (by decide)) rfl
example : StandsFor (smallWorld [(T "/d/f", T "x")]) [(T "t", T "y")] (T "g") (.inline (T "g")) :=
  .noFile _ _ rfl (fileName_iff.2 ⟨by decide, rfl⟩) rfl
example : StandsFor { smallWorld [] with read := fun _ => .broken (T "bad") } [] (T "g") (.failure (T "bad")) :=
  .failure _ _ _ rfl (fileName_iff.2 ⟨by decide, rfl⟩) rfl
example : DefinedOnce [(T "a", T "1"), (T "b", T "2")] := by unfold DefinedOnce; decide
example : Defines (T "m") [(T "a", T "1")] (T "a") (T "1") := .inr (by simp)
example : ∀ code main defs, (smallWorld []).parse code = .ok (main, defs) → DefinedOnce defs ∧ T "g" ∉ defs.map Prod.fst := by
  rintro code main defs h
  simp only [smallWorld, Except.ok.injEq, Prod.mk.injEq] at h
  rw [← h.2]
  exact ⟨by unfold DefinedOnce; decide, by simp⟩
example : (smallWorld []).razor (T "a\nb") = T "a\nb" ∧ StandsFor (smallWorld []) [] (T "a\nb") (.inline (T "a\nb")) :=
  ⟨by decide +kernel, .lines _ rfl (by decide)⟩
example : ¬ T "<no value>" <:+: T "hello" ∧ ¬ T "<nil>" <:+: T "hello" := by
  constructor <;> (rw [← contains_iff]; decide)

end Verif.Props
