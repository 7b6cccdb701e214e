import Verif.Props.Content
import Verif.Props.Strings
/-!
# C44: errors that are ignored or returned; C45: values that are not defined; C63: retries; C69: the context of the template
-/

namespace Verif.Props
open Text Razor Spec Lemmas Verif.Content

/-- The code given to the engine at the first try. -/
def givenCode {σ : Type} (c : Config σ) (content : Text) : Text :=
  if c.acceptNoValue then prepare c content else hideNoValue (prepare c content)

/-- The content has code to be rendered. -/
def Rendered {σ : Type} (c : Config σ) (content : Text) : Prop := c.renderingDisabled = false ∧ isCode c.delims (prepare c content) = true

theorem process_rendered {σ : Type} {c : Config σ} {content : Text} (h : Rendered c content) (filename : Text) (n : Nat) (ctx : σ) :
    process c filename n ctx content = settle c filename content (firstTry c filename n ctx content (givenCode c content)) := by
  simp [process, givenCode, h.1, h.2]

theorem process_not_rendered {σ : Type} {c : Config σ} {content : Text} (h : ¬ Rendered c content) (filename : Text) (n : Nat) (ctx : σ) :
    process c filename n ctx content = .done (revert c.delims (pausing content) (prepare c content)) false none ctx := by
  unfold process
  simp only
  split
  · rfl
  · rename_i hc
    exact absurd (by simpa [Rendered] using hc) h

/-! ## C44 -/

/-- The extension of a file name: what follows the last dot of the last part. -/
theorem C44_ext (p e : Text) (h1 : '.' ∉ e) (h2 : '/' ∉ e) : ext (p ++ '.' :: e) = '.' :: e := by
  have last : ∀ (sep : Char) (a b : Text), sep ∉ b → ∃ l, splitC sep (a ++ sep :: b) = l ++ [b] ∧ l ≠ [] := by
    intro sep a b hb
    induction a with
    | nil => exact ⟨[[]], by simp [splitC, splitC_of_not_mem hb], by simp⟩
    | cons c a ih =>
      obtain ⟨l, hl, hn⟩ := ih
      by_cases hc : c = sep
      · subst hc
        exact ⟨[] :: l, by simp [splitC, hl], by simp⟩
      · obtain ⟨x, l', rfl⟩ := List.exists_cons_of_ne_nil hn
        refine ⟨(c :: x) :: l', ?_, by simp⟩
        simp [splitC, hl, hc]
  have base : ∃ q, (splitC '/' (p ++ '.' :: e)).getLastD [] = q ++ '.' :: e := by
    by_cases hp : '/' ∈ p
    · obtain ⟨a, b, rfl, hb⟩ : ∃ a b, p = a ++ '/' :: b ∧ '/' ∉ b := by
        clear h1 h2
        induction p with
        | nil => simp at hp
        | cons c p ih =>
          by_cases hp' : '/' ∈ p
          · obtain ⟨a, b, rfl, hb⟩ := ih hp'
            exact ⟨c :: a, b, rfl, hb⟩
          · have : c = '/' := by
              rcases List.mem_cons.1 hp with h | h
              · exact h.symm
              · exact absurd h hp'
            exact ⟨[], p, by rw [this]; rfl, hp'⟩
      have hb' : '/' ∉ b ++ '.' :: e := by
        simp only [List.mem_append, List.mem_cons, not_or]
        exact ⟨hb, by decide, h2⟩
      obtain ⟨l, hl, _⟩ := last '/' a (b ++ '.' :: e) hb'
      refine ⟨b, ?_⟩
      rw [List.append_assoc, List.cons_append, hl]
      simp [List.getLastD_eq_getLast?]
    · have hb' : '/' ∉ p ++ '.' :: e := by
        simp only [List.mem_append, List.mem_cons, not_or]
        exact ⟨hp, by decide, h2⟩
      exact ⟨p, by rw [splitC_of_not_mem hb']; rfl⟩
  obtain ⟨q, hq⟩ := base
  unfold ext
  simp only [hq]
  obtain ⟨l, hl, hn⟩ := last '.' q e h1
  obtain ⟨x, l', rfl⟩ := List.exists_cons_of_ne_nil hn
  rw [hl]
  cases l' with
  | nil => rfl
  | cons y l' =>
    have : (y :: (l' ++ [e])).getLast? = some e := by rw [← List.cons_append]; exact List.getLast?_concat ..
    simp [List.getLastD_eq_getLast?, this]

example : ext (T "dir.d/file.tar.gt") = T ".gt" ∧ ext (T "dir.d/file") = [] := by decide +kernel

/-- The conditions under which errors are returned. -/
def StrictFor {σ : Type} (c : Config σ) (filename content : Text) : Prop :=
  c.strict = true ∨ T "force-gotemplate!" <:+: content ∨ TemplateExtension (ext filename)

instance {σ : Type} (c : Config σ) (filename content : Text) : Decidable (StrictFor c filename content) := by
  unfold StrictFor TemplateExtension
  exact inferInstance

theorem strictMode_iff {σ : Type} (c : Config σ) (filename content : Text) :
    strictMode c filename content = true ↔ c.strict = true ∨ T "force-gotemplate!" <:+: content ∨
      (ext filename ≠ [] ∧ ext filename <:+: T ".gt,.gte,.template") := by
  unfold strictMode
  rw [Bool.or_eq_true, Bool.or_eq_true, Bool.and_eq_true, contains_iff, contains_iff, bne_iff_ne, or_assoc]
  exact Iff.rfl

/-- The conditions under which they are not. -/
def LenientFor {σ : Type} (c : Config σ) (filename content : Text) : Prop :=
  c.strict = false ∧ ¬ T "force-gotemplate!" <:+: content ∧ (ext filename = [] ∨ ¬ ext filename <:+: T ".gt,.gte,.template")

theorem strictMode_of {σ : Type} {c : Config σ} {filename content : Text} (hs : StrictFor c filename content) : strictMode c filename content = true := by
  rw [strictMode_iff]
  rcases hs with h | h | h
  · exact Or.inl h
  · exact Or.inr (Or.inl h)
  · refine Or.inr (Or.inr ?_)
    rcases h with h | h | h <;> rw [h] <;> decide +kernel

theorem strictMode_not {σ : Type} {c : Config σ} {filename content : Text} (h : LenientFor c filename content) : strictMode c filename content = false := by
  obtain ⟨h1, h2, h3⟩ := h
  cases hc : strictMode c filename content with
  | false => rfl
  | true =>
    rcases (strictMode_iff c filename content).1 hc with h | h | ⟨h, h'⟩
    · rw [h1] at h; cases h
    · exact absurd h h2
    · rcases h3 with h3 | h3
      · exact absurd h3 h
      · exact absurd h' h3

/-- The same template in strict mode. -/
def strictly {σ : Type} (c : Config σ) : Config σ := { c with strict := true }

theorem retries_strictly {σ : Type} (c : Config σ) (filename : Text) (source : List Text) (n : Nat) :
    retries (strictly c) filename source n = retries c filename source n := by
  induction n with
  | zero => rfl
  | succ n ih =>
    funext ctx code
    rw [retries, retries, ih]
    rfl

theorem firstTry_strictly {σ : Type} (c : Config σ) (filename : Text) (n : Nat) (ctx : σ) (content code : Text) :
    firstTry (strictly c) filename n ctx content code = firstTry c filename n ctx content code := by
  unfold firstTry
  rw [retries_strictly]
  rfl

theorem process_strictly {σ : Type} (c : Config σ) (filename : Text) (n : Nat) (ctx : σ) (content : Text) :
    Rendered c content ∧ process (strictly c) filename n ctx content = firstTry c filename n ctx content (givenCode c content) ∨
    ¬ Rendered c content ∧ process (strictly c) filename n ctx content = process c filename n ctx content ∧
      ∃ result, process c filename n ctx content = .done result false none ctx := by
  by_cases hr : Rendered c content
  · refine .inl ⟨hr, ?_⟩
    have hr' : Rendered (strictly c) content := hr
    rw [process_rendered hr', firstTry_strictly]
    have h1 : strictMode (strictly c) filename content = true := strictMode_of (.inl rfl)
    have h2 : givenCode (strictly c) content = givenCode c content := rfl
    rw [h2]
    cases firstTry c filename n ctx content (givenCode c content) with
    | done r ch e x => cases e <;> simp [settle, h1]
    | panic => rfl
    | unfinished => rfl
  · have hr' : ¬ Rendered (strictly c) content := hr
    refine .inr ⟨hr, ?_, _, process_not_rendered hr filename n ctx⟩
    rw [process_not_rendered hr', process_not_rendered hr]
    rfl

/-- When the content has the explicit marker or the file has an extension of template, the processing is the one of the strict mode. -/
theorem C44_strict {σ : Type} (c : Config σ) (filename : Text) (n : Nat) (ctx : σ) (content : Text) (hs : StrictFor c filename content) :
    process c filename n ctx content = process (strictly c) filename n ctx content := by
  rcases process_strictly c filename n ctx content with ⟨hr, h⟩ | ⟨_, h, _⟩
  · rw [h, process_rendered hr]
    cases firstTry c filename n ctx content (givenCode c content) with
    | done r ch e x => cases e <;> simp [settle, strictMode_of hs]
    | panic => rfl
    | unfinished => rfl
  · exact h.symm

/-- Otherwise no error is returned: where the strict mode reports an error the content is given back as it is, and is not said to be changed; where it
reports none, the result is the same. Partial: extensions that are a part of ".gt,.gte,.template" are left out. -/
theorem C44_lenient_partial {σ : Type} (c : Config σ) (filename : Text) (n : Nat) (ctx : σ) (content : Text) (hl : LenientFor c filename content) :
    (∀ result changed e ctx', process (strictly c) filename n ctx content = .done result changed (some e) ctx' →
      process c filename n ctx content = .done content false none ctx') ∧
    (∀ result changed ctx', process (strictly c) filename n ctx content = .done result changed none ctx' →
      process c filename n ctx content = .done result changed none ctx') ∧
    ∀ result changed err ctx', process c filename n ctx content = .done result changed err ctx' → err = none := by
  have hs := strictMode_not hl
  rcases process_strictly c filename n ctx content with ⟨hr, h⟩ | ⟨_, h, r, hd⟩
  · rw [h, process_rendered hr]
    refine ⟨fun result changed e ctx' hf => ?_, fun result changed ctx' hf => ?_, fun result changed err ctx' hp => ?_⟩
    · rw [hf]
      simp only [settle, hs, Bool.false_eq_true, if_false]
    · rw [hf]
      rfl
    · cases hf : firstTry c filename n ctx content (givenCode c content) with
      | done r ch e x =>
        rw [hf] at hp
        cases e with
        | none =>
          simp only [settle, Outcome.done.injEq] at hp
          exact hp.2.2.1.symm
        | some e =>
          simp only [settle, hs, Bool.false_eq_true, if_false, Outcome.done.injEq] at hp
          exact hp.2.2.1.symm
      | panic => rw [hf] at hp; cases hp
      | unfinished => rw [hf] at hp; cases hp
  · rw [h, hd]
    refine ⟨fun result changed e ctx' hf => ?_, fun result changed ctx' hf => hf, fun result changed err ctx' hp => ?_⟩
    · cases hf
    · cases hp
      rfl

/-- A failing template for the examples: every rendering fails. -/
def failing (e : EngineError) : Config Unit := { copying with engine := fun u _ => (.error e, u) }

/-- An error that is not in the form of the errors of `text/template`. -/
def plainError : EngineError := ⟨T "error", none⟩

example : ext (T "a/b.txt") = T ".txt" ∧ ¬ ext (T "a/b.txt") <:+: T ".gt,.gte,.template" ∧
    process { failing plainError with strict := false } (T "a/b.txt") 5 () (T "{{ a }}") = .done (T "{{ a }}") false none () ∧
    process (failing plainError) (T "a/b.txt") 5 () (T "{{ a }}") = .done [] true (some (T "error")) () ∧
    process { failing plainError with strict := false } (T "a/b.gt") 5 () (T "{{ a }}") = .done [] true (some (T "error")) () ∧
    process { failing plainError with strict := false } (T "a/b") 5 () (T "{{ a }} force-gotemplate!") = .done [] true (some (T "error")) () := by
  decide +kernel

/-- Violation: the error is returned for files whose extension is not one of a template. -/
theorem C44_not_extension : ∃ (c : Config Unit) (filename content : Text), ¬ StrictFor c filename content ∧
    process c filename 0 () content = .done [] true (some (T "error")) () := by
  refine ⟨{ failing plainError with strict := false }, T "book.te", T "{{ a }}", ?_, by decide +kernel⟩
  rintro (h | h | h)
  · cases h
  · exact absurd h (by decide +kernel)
  · have : ext (T "book.te") = T ".te" := by decide +kernel
    rw [this] at h
    rcases h with h | h | h <;> exact absurd h (by decide +kernel)

/-- Violation: an error on a line that a substitution added ends in a panic, strict mode or not. -/
theorem C44_not_panic : ∃ (c : Config Unit) (content : Text), c.strict = false ∧ process c (T "f") 0 () content = .panic :=
  ⟨{ failing ⟨T "template: f:2: unexpected EOF", some { file := T "f", location := T "template: f:2: ", line := 2, err := T "unexpected EOF" }⟩ with
      strict := false, sub := replaceAll (T "NL") (T "\n") }, T "aNL{{", rfl, by decide +kernel⟩

/-! ## C45 -/

/-- Unless undefined values are accepted, the code given to the engine does not have the texts of undefined values: when the engine writes
one, it has made it. -/
theorem C45_code {σ : Type} (c : Config σ) (content : Text) (h : c.acceptNoValue = false) :
    ¬ T "<no value>" <:+: givenCode c content ∧ ¬ T "<nil>" <:+: givenCode c content := by
  simp only [givenCode, h, Bool.false_eq_true, if_false]
  exact hide_free _

example : givenCode copying (T "{{ a }} <no value> <nil>") = T "{{ a }} !NO_VALUE! !NIL_VALUE!" := by decide +kernel

/-- What is written after an engine that succeeds, once the pauses are reverted. -/
def written {σ : Type} (c : Config σ) (content out : Text) : Text := revert c.delims (pausing content) (c.sub out)

theorem firstTry_ok {σ : Type} {c : Config σ} {filename : Text} {n : Nat} {ctx : σ} {content code out : Text}
    (he : (c.engine ctx code).1 = .ok out) :
    firstTry c filename n ctx content code =
      (let r := if c.acceptNoValue then (written c content out, none) else detect filename (written c content out)
       .done r.1 (decide (r.1 ≠ content)) r.2 ctx) := by
  unfold firstTry written
  rw [he]

/-- A rendering that succeeds reports an error exactly when it wrote the text of an undefined value, in strict mode. Otherwise the content
is given back. -/
theorem C45_detected {σ : Type} (c : Config σ) (filename : Text) (n : Nat) (ctx : σ) (content out : Text) (h : Rendered c content)
    (ha : c.acceptNoValue = false) (he : (c.engine ctx (givenCode c content)).1 = .ok out) :
    ((T "<no value>" <:+: written c content out ∨ T "<nil>" <:+: written c content out) →
      (StrictFor c filename content → ∃ result changed e, process c filename n ctx content = .done result changed (some e) ctx) ∧
      (LenientFor c filename content → process c filename n ctx content = .done content false none ctx)) ∧
    (¬ (T "<no value>" <:+: written c content out ∨ T "<nil>" <:+: written c content out) →
      process c filename n ctx content = .done (restoreValues (written c content out)) (decide (restoreValues (written c content out) ≠ content)) none ctx) := by
  have hres : restoreValues (written c content out) = showNoValue (written c content out) := rfl
  rw [process_rendered h, firstTry_ok he, hres]
  simp only [ha, Bool.false_eq_true, if_false, detect]
  constructor
  · intro hi
    rw [if_pos ((detect_iff _).2 hi)]
    constructor
    · intro hs
      exact ⟨_, _, _, by simp only [settle, strictMode_of hs, if_true]; rfl⟩
    · intro hs
      simp only [settle, strictMode_not hs, Bool.false_eq_true, if_false]
  · intro hi
    have : contains noValue (replaceAll nilValue noValue (written c content out)) = false := by
      cases hc : contains noValue (replaceAll nilValue noValue (written c content out)) with
      | false => rfl
      | true => exact absurd ((detect_iff _).1 hc) hi
    simp only [this, Bool.false_eq_true, if_false, settle]

/-- With `AcceptNoValue`, what a successful rendering wrote is the result. -/
theorem C45_accepted {σ : Type} (c : Config σ) (filename : Text) (n : Nat) (ctx : σ) (content out : Text) (h : Rendered c content)
    (ha : c.acceptNoValue = true) (he : (c.engine ctx (givenCode c content)).1 = .ok out) :
    process c filename n ctx content = .done (written c content out) (decide (written c content out ≠ content)) none ctx := by
  rw [process_rendered h, firstTry_ok he]
  simp only [ha, if_true, settle]

/-- The texts of undefined values that were written in the content are restored and cause no error: if the engine writes a text `y` as it
stands in the code (where these texts are hidden), the result is `y`. Partial: `y` has neither "NO_VALUE" nor "NIL_VALUE". -/
theorem C45_restored_partial {σ : Type} (c : Config σ) (filename : Text) (n : Nat) (ctx : σ) (content out y : Text) (h : Rendered c content)
    (ha : c.acceptNoValue = false) (he : (c.engine ctx (givenCode c content)).1 = .ok out) (hy : written c content out = hideValues y)
    (h1 : ¬ T "NO_VALUE" <:+: y) (h2 : ¬ T "NIL_VALUE" <:+: y) :
    process c filename n ctx content = .done y (decide (y ≠ content)) none ctx := by
  have hhide : hideValues y = hideNoValue y := rfl
  have hres : restoreValues (hideNoValue y) = showNoValue (hideNoValue y) := rfl
  rw [hhide] at hy
  have := (C45_detected c filename n ctx content out h ha he).2 (by
    rw [hy]
    rintro (hi | hi)
    · exact (hide_free y).1 hi
    · exact (hide_free y).2 hi)
  rw [this, hy, hres, show_hide h1 h2]

/-- Every code without marks is found again, wherever the texts are. -/
theorem C45_round_partial (y : Text) (h1 : ¬ T "NO_VALUE" <:+: y) (h2 : ¬ T "NIL_VALUE" <:+: y) : restoreValues (hideValues y) = y :=
  show_hide h1 h2

example : restoreValues (hideValues (T "a <no value> <nil>")) = T "a <no value> <nil>" := C45_round_partial _ (by decide +kernel) (by decide +kernel)
example : process copying (T "f") 0 () (T "{{ a }} <no value>") = .done (T "{{ a }} <no value>") false none () := by
  rw [C45_restored_partial copying (T "f") 0 () (T "{{ a }} <no value>") (T "{{ a }} !NO_VALUE!") (T "{{ a }} <no value>") ⟨rfl, by decide +kernel⟩ rfl
    (congrArg Except.ok (by decide +kernel : givenCode copying (T "{{ a }} <no value>") = _)) (by decide +kernel) (by decide +kernel) (by decide +kernel)]
  rfl
example : process { copying with acceptNoValue := true, engine := fun u _ => (.ok (T "<no value>"), u) } (T "f") 0 () (T "{{ a }}") = .done (T "<no value>") true none () := by
  rw [C45_accepted { copying with acceptNoValue := true, engine := fun u _ => (.ok (T "<no value>"), u) } (T "f") 0 () (T "{{ a }}") (T "<no value>") ⟨rfl, by decide +kernel⟩ rfl rfl]
  decide +kernel
example : ∃ result changed e, process { copying with engine := fun u _ => (.ok (T "x <nil>"), u) } (T "f") 0 () (T "{{ a }}") = .done result changed (some e) () :=
  ((C45_detected { copying with engine := fun u _ => (.ok (T "x <nil>"), u) } (T "f") 0 () (T "{{ a }}") (T "x <nil>") ⟨rfl, by decide +kernel⟩ rfl rfl).1
    (.inr (by decide +kernel))).1 (by decide +kernel)

example : process copying (T "f") 0 () (T "{{ a }} <no <nil>value> <no value>") = .done (T "{{ a }} <no <nil>value> <no value>") false none () ∧
    process { copying with engine := fun u _ => (.ok (T "x <no value>"), u) } (T "f") 0 () (T "{{ a }}") =
      .done (T "x <no value>") true (some (T "template: f:: contains undefined value(s)")) () ∧
    ¬ T "NO_VALUE" <:+: T "{{ a }} <no <nil>value> <no value>" := by decide +kernel

/-- Violation: the marks, when they are written in the content, become the texts of undefined values. -/
theorem C45_not_mark : process copying (T "f") 0 () (T "{{ a }} !NO_VALUE!") = .done (T "{{ a }} <no value>") true none () := by
  decide +kernel

/-- Violation: the code does not see the texts that it has. -/
theorem C45_not_literal : givenCode copying (T "{{ len \"<nil>\" }}") = T "{{ len \"!NIL_VALUE!\" }}" := by decide +kernel

/-- An engine for the examples: the first code fails with the given error, the other ones give the result. -/
def failingOnce (e : EngineError) (code result : Text) : Config Unit :=
  { copying with engine := fun u s => if s = code then (.error e, u) else (.ok result, u) }

/-- The error of the execution of some code, at a column of the first line of the file "f". -/
def execError (col : Nat) (code err : Text) : EngineError :=
  ⟨T "template: f:1:", some { file := T "f", location := T "template: f:1: ", line := 1, col := some col, code := code, err := err }⟩

/-- Violation: undefined values are not searched for after a retry, and a line that has the text "<RUN_ERROR>" has no error. -/
theorem C45_not_retry : ∃ content result : Text, T "<no value>" <:+: result ∧
    process (failingOnce (execError 18 (T "call") (T "failed")) content result) (T "f") 9 () content = .done result true none () :=
  ⟨T "\"<RUN_ERROR>\" {{ call }} {{ .x }}", T "\"<RUN_ERROR>\" \"<RUN_ERROR>\" <no value>", by decide +kernel, by decide +kernel⟩

/-! ## C63 -/

/-- The number of a faulty line, and the line. -/
def FaultyLine (m : Match) (code line : Text) : Prop := ∃ i : Nat, m.actualLine.getD m.line = i + 1 ∧ (splitC '\n' code)[i]? = some line

/-- An error of the engine that the handler can get rid of: it has no known place, or it is in another file, or its line has code, and the
text that takes the place of the line has none. -/
def Removable (left filename code : Text) (e : EngineError) : Prop :=
  ∀ m, e.found = some m → m.file ≠ filename ∨
    ((m.message ≠ [] ∨ m.code ≠ [] ∨ m.value = []) ∧ ¬ left <:+: T "ERROR " ++ m.err ∧ ∀ line, FaultyLine m code line → left <:+: line)

/-- Left delimiters that are not in the texts that take the place of code. -/
def SafeLeft (left : Text) : Prop := left ≠ [] ∧ '"' ∉ left ∧ '\n' ∉ left ∧ ¬ left <:+: T "\"<RUN_ERROR>\""

theorem sum_set_lt (ls : List Nat) (i v x : Nat) (h : ls[i]? = some x) (hv : v < x) : (ls.set i v).sum < ls.sum := by
  induction ls generalizing i with
  | nil => simp at h
  | cons a ls ih =>
    cases i with
    | zero =>
      simp only [List.getElem?_cons_zero, Option.some.injEq] at h
      simp only [List.set_cons_zero, List.sum_cons]; omega
    | succ i =>
      simp only [List.getElem?_cons_succ] at h
      have := ih i h
      simp only [List.set_cons_succ, List.sum_cons]; omega

theorem goIndex_some {l : List Text} {i : Int} {x : Text} (h : goIndex l i = some x) : 0 ≤ i ∧ l[i.toNat]? = some x := by
  unfold goIndex at h
  split at h
  · cases h
  · exact ⟨by omega, h⟩

/-- The new text of a faulty line has less code. -/
theorem newLine_less {d : Delims} (hd : SafeLeft d.left) {m : Match} {col : Int} {line new text : Text}
    (hm : m.message ≠ [] ∨ m.code ≠ [] ∨ m.value = []) (he : ¬ d.left <:+: T "ERROR " ++ m.err) (hl : d.left <:+: line)
    (h : newLine d m col line = some (new, text)) : occurrences d.left new < occurrences d.left line := by
  have pos := occurrences_pos hd.1 hl
  have wiped : new = T "ERROR " ++ m.err → occurrences d.left new < occurrences d.left line := by
    intro e
    rw [e, occurrences_zero he]; exact pos
  unfold newLine at h
  split at h
  · simp only [Option.some.injEq, Prod.mk.injEq] at h
    exact wiped h.1.symm
  · rename_i h1
    split at h
    · obtain ⟨r, b, hc, hr⟩ := Strings.context_delimited line d.left d.right col
      rw [hc] at h
      simp only [Option.map_some, Option.some.injEq, Prod.mk.injEq] at h
      split at h
      · exact wiped h.1.symm
      · rename_i hne
        rcases hr with ⟨hr, _⟩ | ⟨k, _, _, hr⟩
        · exact absurd hr hne
        · rw [← h.1]
          obtain ⟨pre, mid, post, h4, h5, _⟩ := hr
          have hi : d.left <:+: r := by rw [h4]; exact ⟨[], mid ++ d.right, by simp⟩
          have hri : r <:+: line := ⟨pre, post, h5.symm⟩
          exact (occurrences_replaceAll hne hd.1 hd.2.1 hd.2.2.2 hi line).2 hri
    · rename_i h2
      split at h
      · rename_i h3
        rcases hm with hm | hm | hm
        · exact absurd hm h1
        · exact absurd hm h2
        · exact absurd hm h3
      · simp only [Option.some.injEq, Prod.mk.injEq] at h
        exact wiped h.1.symm

theorem addError_unfinished {σ : Type} {err : Option Text} {o : Outcome σ} (h : o ≠ .unfinished) : addError err o ≠ .unfinished := by
  cases o with
  | done => simp [addError]
  | panic => simp [addError]
  | unfinished => exact absurd rfl h

/-- The handler ends if a retry on a code with fewer left delimiters ends. -/
theorem handler_ends {σ : Type} {c : Config σ} (hd : SafeLeft c.delims.left) {filename code : Text} {sourceLines : List Text} {ctx : σ}
    {e : EngineError} (he : Removable c.delims.left filename code e) {retry : Text → Outcome σ}
    (hr : ∀ code', occurrences c.delims.left code' < occurrences c.delims.left code → retry code' ≠ .unfinished) :
    handler c filename sourceLines code ctx e retry ≠ .unfinished := by
  unfold handler
  split
  · simp
  · rename_i m hm
    split
    · split <;> simp
    · rename_i hfile
      rcases he m hm with h | ⟨h1, h2, h3⟩
      · exact absurd h hfile
      · simp only
        split
        · rename_i line sourceLine hl hs
          split
          · simp
          · rename_i new text hn
            obtain ⟨col, _, hn⟩ := Option.bind_eq_some_iff.1 hn
            obtain ⟨h4, h5⟩ := goIndex_some hl
            have hf : FaultyLine m code line := by
              refine ⟨(faultyLine m).toNat, ?_, h5⟩
              unfold faultyLine at h4 ⊢
              omega
            have less := newLine_less hd h1 h2 (h3 line hf) hn
            have hne : new ≠ line := fun e => by rw [e] at less; omega
            rw [if_pos hne]
            apply addError_unfinished
            apply hr
            have e1 : occurrences c.delims.left code = ((splitC '\n' code).map (occurrences c.delims.left)).sum := by
              rw [← occurrences_join hd.1 hd.2.2.1, join_splitC]
            rw [e1, occurrences_join hd.1 hd.2.2.1, List.map_set]
            refine sum_set_lt _ _ _ (occurrences c.delims.left line) ?_ less
            rw [List.getElem?_map, h5]; rfl
        · simp

theorem retries_end {σ : Type} {c : Config σ} (hd : SafeLeft c.delims.left) {filename : Text} {sourceLines : List Text}
    (he : ∀ ctx code e ctx', c.engine ctx code = (.error e, ctx') → Removable c.delims.left filename code e) (n : Nat) (ctx : σ) (code : Text)
    (h : occurrences c.delims.left code < n) : retries c filename sourceLines n ctx code ≠ .unfinished := by
  induction n generalizing ctx code with
  | zero => omega
  | succ n ih =>
    unfold retries
    cases hc : c.engine ctx code with
    | mk res ctx' =>
      cases res with
      | ok out => simp
      | error e =>
        simp only
        exact handler_ends hd (he _ _ _ _ hc) (fun code' hlt => ih ctx' code' (by omega))

/-- The processing of a content whose errors are on lines with code ends: it needs no more retries than the code has left delimiters.
Partial: an error on a line without code (for example the second error of a line that was replaced), an unknown function, and an error text with
a left delimiter are left out. -/
theorem C63_terminates_partial {σ : Type} (c : Config σ) (hd : SafeLeft c.delims.left) (filename : Text) (n : Nat) (ctx : σ) (content : Text)
    (he : ∀ ctx code e ctx', c.engine ctx code = (.error e, ctx') → Removable c.delims.left filename code e)
    (hn : occurrences c.delims.left (givenCode c content) ≤ n) : process c filename n ctx content ≠ .unfinished := by
  by_cases hr : Rendered c content
  · rw [process_rendered hr]
    have key : firstTry c filename n ctx content (givenCode c content) ≠ .unfinished := by
      unfold firstTry
      cases hc : c.engine ctx (givenCode c content) with
      | mk res ctx' =>
        cases res with
        | ok out => simp
        | error e =>
          simp only
          exact handler_ends hd (he _ _ _ _ hc) (fun code' hlt => retries_end hd he n ctx code' (by omega))
    cases hf : firstTry c filename n ctx content (givenCode c content) with
    | done r ch err x =>
      cases err with
      | none => simp [settle]
      | some e => simp only [settle]; split <;> simp
    | panic => simp [settle]
    | unfinished => exact absurd hf key
  · rw [process_not_rendered hr]
    simp

/-- An engine for the examples: every code with a left delimiter fails, at its first one, on the only line of the code. -/
def failingCode : Config Unit :=
  { copying with engine := fun u s => if contains (T "{{") s then (.error (execError 5 (T "x") (T "failed")), u) else (.ok s, u) }

example : SafeLeft (T "{{") ∧ occurrences (T "{{") (T "{{ a }} {{ b }}") = 2 := by unfold SafeLeft; decide +kernel

example : process failingCode (T "f") 2 () (T "{{ a }} {{ b }}") = .done (T "ERROR failed") false
    (some (T "template: f:1: failed (x) in: {{ a }} {{ b }}")) () := by
  decide +kernel

theorem if_error {b : Bool} {e e' : EngineError} {s : Text} {u u' : Unit}
    (h : (if b then (Except.error e, u) else (Except.ok s, u)) = (Except.error e', u')) : b = true ∧ e = e' := by
  cases b with
  | true => simpa using h
  | false => simp at h

theorem failingCode_engine (u : Unit) (s : Text) : failingCode.engine u s =
    if contains (T "{{") s then (.error (execError 5 (T "x") (T "failed")), u) else (.ok s, u) := rfl

/-- The errors of this engine on one line can all be removed. -/
example : ∀ (ctx : Unit) (code : Text) (e : EngineError) (ctx' : Unit), '\n' ∉ code → failingCode.engine ctx code = (.error e, ctx') →
    Removable (T "{{") (T "f") code e := by
  intro ctx code e ctx' hn he m hm
  rw [failingCode_engine] at he
  obtain ⟨hc, he⟩ := if_error he
  rw [← he] at hm
  have hm := Option.some.inj hm
  subst hm
  refine Or.inr ⟨Or.inr (Or.inl (by decide +kernel)), by decide +kernel, ?_⟩
  rintro line ⟨i, hi, hl⟩
  have : i = 0 := by
    have h1 : (none : Option Nat).getD 1 = i + 1 := hi
    simp at h1; omega
  subst this
  rw [splitC_of_not_mem hn] at hl
  simp only [List.getElem?_cons_zero, Option.some.injEq] at hl
  rw [← hl]; exact contains_iff.1 hc

/-- The handler with a retry that ends where the other one ends. -/
theorem handler_stable {σ : Type} {c : Config σ} {filename code : Text} {sourceLines : List Text} {ctx : σ} {e : EngineError}
    {retry retry' : Text → Outcome σ} (h : handler c filename sourceLines code ctx e retry ≠ .unfinished)
    (hr : ∀ code', retry code' ≠ .unfinished → retry' code' = retry code') :
    handler c filename sourceLines code ctx e retry' = handler c filename sourceLines code ctx e retry := by
  have add : ∀ err code', addError err (retry code') ≠ .unfinished → addError err (retry' code') = addError err (retry code') := by
    intro err code' ha
    rw [hr code' (fun e => ha (by rw [e]; rfl))]
  unfold handler at h ⊢
  split
  · rfl
  · rename_i m hm
    rw [hm] at h
    simp only at h
    split
    · rfl
    · rename_i hf
      rw [if_neg hf] at h
      simp only at h ⊢
      split
      · rename_i line sourceLine hl hs
        rw [hl, hs] at h
        simp only at h ⊢
        split
        · rfl
        · rename_i new text hn
          rw [hn] at h
          simp only at h
          split
          · rename_i hne
            rw [if_pos hne] at h
            exact add _ _ h
          · rename_i hne
            rw [if_neg hne] at h
            split
            · rfl
            · rename_i t ht
              rw [ht] at h ⊢
              simp only at h ⊢
              split
              · rename_i hc
                rw [if_pos hc] at h
                exact add _ _ h
              · rfl
      · rfl

theorem retries_stable {σ : Type} (c : Config σ) (filename : Text) (sourceLines : List Text) (n : Nat) (ctx : σ) (code : Text)
    (h : retries c filename sourceLines n ctx code ≠ .unfinished) :
    retries c filename sourceLines (n + 1) ctx code = retries c filename sourceLines n ctx code := by
  induction n generalizing ctx code with
  | zero => exact absurd rfl h
  | succ n ih =>
    unfold retries at h
    rw [retries, retries]
    cases hc : c.engine ctx code with
    | mk res ctx' =>
      cases res with
      | ok out => rfl
      | error e =>
        rw [hc] at h
        simp only at h ⊢
        exact handler_stable h (fun code' hr => ih ctx' code' hr)

/-- The number of retries that is allowed in the model does not matter: a processing that ends with one ends in the same way with more. -/
theorem C63_stable {σ : Type} (c : Config σ) (filename : Text) (n k : Nat) (ctx : σ) (content : Text)
    (h : process c filename n ctx content ≠ .unfinished) : process c filename (n + k) ctx content = process c filename n ctx content := by
  induction k with
  | zero => rfl
  | succ k ih =>
    rw [← ih] at h ⊢
    rw [← Nat.add_assoc]
    generalize n + k = n at h ⊢
    by_cases hr : Rendered c content
    · rw [process_rendered hr] at h ⊢
      rw [process_rendered hr]
      have hf : firstTry c filename n ctx content (givenCode c content) ≠ .unfinished := fun e => h (by rw [e]; rfl)
      have : firstTry c filename (n + 1) ctx content (givenCode c content) = firstTry c filename n ctx content (givenCode c content) := by
        unfold firstTry at hf ⊢
        cases hc : c.engine ctx (givenCode c content) with
        | mk res ctx' =>
          rw [hc] at hf
          cases res with
          | ok out => rfl
          | error e => exact handler_stable hf (fun code' => retries_stable c filename _ n ctx code')
      rw [this]
    · rw [process_not_rendered hr, process_not_rendered hr]

/-- A line in error is reported: a processing in strict mode whose first try fails ends with an error, if it ends. Partial: the code does not
have the text "<RUN_ERROR>" and the faulty code does not have the text of an undefined value. -/
theorem C63_reported_partial {σ : Type} (c : Config σ) (filename : Text) (n : Nat) (ctx : σ) (content : Text) (h : Rendered c content)
    (hst : StrictFor c filename content) {e : EngineError} (he : (c.engine ctx (givenCode c content)).1 = .error e)
    (h1 : ¬ T "\"<RUN_ERROR>\"" <:+: givenCode c content) (h2 : ∀ m, e.found = some m → ¬ T "\"<no value>\"" <:+: m.code)
    {result : Text} {changed : Bool} {err : Option Text} {ctx' : σ} (hp : process c filename n ctx content = .done result changed err ctx') :
    err ≠ none := by
  have hs := strictMode_of hst
  have add : ∀ (t : Text) (o : Outcome σ) r ch er x, addError (some t) o = .done r ch er x → er ≠ none := by
    intro t o r ch er x ho
    cases o with
    | done r' ch' er' x' =>
      simp only [addError, Outcome.done.injEq] at ho
      rw [← ho.2.2.1]
      cases er' with
      | none => simp [joinErrors]
      | some e' => simp only [joinErrors]; split <;> simp
    | panic => cases ho
    | unfinished => cases ho
  have key : ∀ r ch er x, firstTry c filename n ctx content (givenCode c content) = .done r ch er x → er ≠ none := by
    intro r ch er x hf
    unfold firstTry at hf
    rw [he] at hf
    simp only at hf
    unfold handler at hf
    split at hf
    · simp only [Outcome.done.injEq] at hf
      rw [← hf.2.2.1]; simp
    · rename_i m hm
      split at hf
      · split at hf
        · cases hf
        · simp only [Outcome.done.injEq] at hf
          rw [← hf.2.2.1]; simp
      · simp only at hf
        split at hf
        · rename_i line sourceLine hl hs
          have hline : line ∈ splitC '\n' (givenCode c content) := List.mem_of_getElem? (goIndex_some hl).2
          have c1 : contains runError line = false := contains_false (fun hi => h1 (List.IsInfix.trans hi (infix_splitC hline)))
          have c2 : contains undefError m.code = false := contains_false (h2 m hm)
          split at hf
          · cases hf
          · simp only [c1, c2, Bool.or_self, Bool.false_eq_true, if_false] at hf
            split at hf
            · exact add _ _ _ _ _ _ hf
            · split at hf
              · exact add _ _ _ _ _ _ hf
              · simp only [Outcome.done.injEq] at hf
                rw [← hf.2.2.1]; simp
        · cases hf
  rw [process_rendered h] at hp
  cases hf : firstTry c filename n ctx content (givenCode c content) with
  | done r ch er x =>
    rw [hf] at hp
    have := key r ch er x hf
    cases er with
    | none => exact absurd rfl this
    | some e =>
      simp only [settle, hs, if_true, Outcome.done.injEq] at hp
      rw [← hp.2.2.1]; simp
  | panic => rw [hf] at hp; cases hp
  | unfinished => rw [hf] at hp; cases hp

example : Rendered failingCode (T "{{ a }}") ∧ StrictFor failingCode (T "f") (T "{{ a }}") ∧
    ¬ T "\"<RUN_ERROR>\"" <:+: givenCode failingCode (T "{{ a }}") := by unfold Rendered; decide +kernel

/-- Violation: the error of a line that has the text "<RUN_ERROR>" is not reported. -/
theorem C63_not_reported : ∃ content : Text,
    process (failingOnce (execError 18 (T "call") (T "failed")) content (T "done")) (T "f") 9 () content = .done (T "done") true none () :=
  ⟨T "\"<RUN_ERROR>\" {{ call }}", by decide +kernel⟩

/-- The place of the action with a given position: the context found by the handler. -/
theorem action_context {d : Delims} {before inner after : Text} (hl : d.left ≠ []) (hr : d.right ≠ []) (ha : PlainAction d inner) {j : Nat}
    (hj : j ≤ inner.length) :
    Strings.context (before ++ d.left ++ inner ++ d.right ++ after) ((before.length + d.left.length + j : Nat) : Int) d.left d.right =
      some (d.left ++ inner ++ d.right, (before.length : Int)) := by
  have hrl : 0 < d.right.length := List.length_pos_iff.2 hr
  have hll : 0 < d.left.length := List.length_pos_iff.2 hl
  rw [C25_simple _ d.left d.right _ before.length (before.length + d.left.length + inner.length) (by simp; omega) hl hr
    ⟨before, inner ++ d.right ++ after, by simp, rfl⟩ (by omega) ?_ ⟨before ++ d.left ++ inner, after, by simp, by simp; omega⟩ (by omega) ?_]
  · congr 2
    have e : before ++ d.left ++ inner ++ d.right ++ after = before ++ ((d.left ++ inner ++ d.right) ++ after) := by simp
    have e2 : before.length + d.left.length + inner.length + d.right.length - before.length = (d.left ++ inner ++ d.right).length := by simp; omega
    rw [e, List.drop_left, e2, List.take_left]
  · rintro i h1 h2 ⟨x, y, h3, rfl⟩
    obtain ⟨x', rfl⟩ : ∃ x', x = before ++ x' := by
      have : before <+: x := List.prefix_of_prefix_length_le (l₃ := x ++ d.left ++ y) (h3 ▸ ⟨d.left ++ inner ++ d.right ++ after, by simp⟩)
        ⟨d.left ++ y, by simp⟩ (by omega)
      obtain ⟨t, ht⟩ := this
      exact ⟨t, ht.symm⟩
    have h4 : x' ++ (d.left ++ y) = (d.left ++ inner) ++ (d.right ++ after) := by simpa using h3.symm
    have h5 : x' ++ d.left <+: d.left ++ inner := List.prefix_of_prefix_length_le (l₃ := x' ++ (d.left ++ y)) ⟨y, by simp⟩ (h4 ▸ ⟨d.right ++ after, rfl⟩)
      (by simp at h1 h2 ⊢; omega)
    obtain ⟨t, ht⟩ := h5
    exact ha.1 x'.length (by simp at h1; omega) ⟨x', t, ht.symm, rfl⟩
  · rintro i h1 h2 ⟨x, y, h3, rfl⟩
    obtain ⟨x', rfl⟩ : ∃ x', x = before ++ d.left ++ x' := by
      have : before ++ d.left <+: x := List.prefix_of_prefix_length_le (l₃ := x ++ d.right ++ y) (h3 ▸ ⟨inner ++ d.right ++ after, by simp⟩)
        ⟨d.right ++ y, by simp⟩ (by simp; omega)
      obtain ⟨t, ht⟩ := this
      exact ⟨t, ht.symm⟩
    have h4 : x' ++ (d.right ++ y) = (inner ++ d.right) ++ after := by simpa using h3.symm
    have h5 : x' ++ d.right <+: inner ++ d.right := List.prefix_of_prefix_length_le (l₃ := x' ++ (d.right ++ y)) ⟨y, by simp⟩ (h4 ▸ ⟨after, rfl⟩)
      (by simp at h1 h2 ⊢; omega)
    obtain ⟨t, ht⟩ := h5
    exact ha.2 x'.length (by simp at h2; omega) ⟨x', t, ht.symm, rfl⟩

/-- C63. An error that happens while an action is executed, at a column between its delimiters: the code is processed again with the text of this
action, wherever it is in the line, replaced by "<RUN_ERROR>", all the rest being as it was. -/
theorem C63_replaced {σ : Type} (c : Config σ) (hd : SafeLeft c.delims.left) (hr : c.delims.right ≠ [])
    (hh : ∀ ch ∈ c.delims.right.head?, ch ≠ ' ' ∧ ch ≠ '(') (filename : Text) (source : List Text) (code : Text) (ctx : σ) (e : EngineError) (m : Match)
    (retry : Text → Outcome σ) (hm : e.found = some m) (hf : m.file = filename) (h1 : m.message = []) (h2 : m.code ≠ [])
    (i : Nat) (hi : m.actualLine.getD m.line = i + 1) (before inner after sourceLine : Text)
    (hl : (splitC '\n' code)[i]? = some (before ++ c.delims.left ++ inner ++ c.delims.right ++ after)) (hs : source[i]? = some sourceLine)
    (ha : PlainAction c.delims inner) (j : Nat) (hj : j ≤ inner.length) (hc : m.col = some (before.length + c.delims.left.length + j + 1)) :
    ∃ err, (err = none ∨ err = some (m.location ++ (m.err ++ T " (" ++ m.code ++ T ")") ++ T " in: " ++ sourceLine)) ∧
      handler c filename source code ctx e retry = addError err (retry (join ['\n'] ((splitC '\n' code).set i
        (replaceAll (c.delims.left ++ inner ++ c.delims.right) (T "\"<RUN_ERROR>\"") (before ++ c.delims.left ++ inner ++ c.delims.right ++ after))))) := by
  have hfl : faultyLine m = (i : Int) := by unfold faultyLine; omega
  have hll : 0 < c.delims.left.length := List.length_pos_iff.2 hd.1
  have hrl : 0 < c.delims.right.length := List.length_pos_iff.2 hr
  have gi : ∀ (l : List Text) (x : Text), l[i]? = some x → goIndex l (i : Int) = some x := by
    intro l x h
    unfold goIndex
    rw [if_neg (by omega)]
    simpa using h
  have hcol : ∃ j', j' ≤ inner.length ∧ faultyColumn m (before ++ c.delims.left ++ inner ++ c.delims.right ++ after) =
      some ((before.length + c.delims.left.length + j' : Nat) : Int) := by
    unfold faultyColumn
    rw [hc]
    have e1 : ((before.length + c.delims.left.length + j + 1 : Nat) : Int) - 1 = ((before.length + c.delims.left.length + j : Nat) : Int) := by omega
    simp only [e1]
    rw [if_neg (by omega)]
    have e2 : ((before.length + c.delims.left.length + j : Nat) : Int) + 1 = ((before.length + c.delims.left.length + j + 1 : Nat) : Int) := by omega
    rw [e2, Strings.goSlice_some (by omega) (by simp; omega)]
    simp only [Option.map_some, Option.some.injEq]
    have e3 : before ++ c.delims.left ++ inner ++ c.delims.right ++ after = (before ++ c.delims.left) ++ (inner ++ (c.delims.right ++ after)) := by simp
    rw [e3, show before.length + c.delims.left.length + j = (before ++ c.delims.left).length + j by simp, List.drop_append]
    simp only [List.drop_eq_nil_of_le (as := before ++ c.delims.left) (i := (before ++ c.delims.left).length + j) (by omega), List.nil_append,
      Nat.add_sub_cancel_left]
    rcases Nat.lt_or_ge j inner.length with h | h
    · split
      · exact ⟨j + 1, by omega, by simp; omega⟩
      · exact ⟨j, hj, by simp⟩
    · have : j = inner.length := by omega
      subst this
      refine ⟨inner.length, Nat.le_refl _, ?_⟩
      rw [List.drop_left, if_neg]
      · simp
      · cases hrr : c.delims.right with
        | nil => exact absurd hrr hr
        | cons ch rest =>
          have := hh ch (by rw [hrr]; rfl)
          have e5 : (before ++ c.delims.left).length + inner.length + 1 - ((before ++ c.delims.left).length + inner.length) = 1 := by omega
          simp [this.1, this.2]
  obtain ⟨j', hj', hcol⟩ := hcol
  have hctx := action_context (before := before) (after := after) hd.1 hr ha hj'
  have hne : c.delims.left ++ inner ++ c.delims.right ≠ [] := by simp [hr]
  have hnew : replaceAll (c.delims.left ++ inner ++ c.delims.right) runError (before ++ c.delims.left ++ inner ++ c.delims.right ++ after) ≠
      before ++ c.delims.left ++ inner ++ c.delims.right ++ after := by
    intro h
    have := (occurrences_replaceAll hne hd.1 hd.2.1 hd.2.2.2 ⟨[], inner ++ c.delims.right, by simp⟩
      (before ++ c.delims.left ++ inner ++ c.delims.right ++ after)).2 ⟨before, after, by simp⟩
    rw [h] at this
    omega
  have hnl : newLine c.delims m ((before.length + c.delims.left.length + j' : Nat) : Int) (before ++ c.delims.left ++ inner ++ c.delims.right ++ after) =
      some (replaceAll (c.delims.left ++ inner ++ c.delims.right) runError (before ++ c.delims.left ++ inner ++ c.delims.right ++ after),
        m.err ++ T " (" ++ m.code ++ T ")") := by
    unfold newLine
    rw [if_neg (by simp [h1]), if_pos h2, hctx]
    simp only [Option.map_some, if_neg hne]
  refine ⟨if contains runError (before ++ c.delims.left ++ inner ++ c.delims.right ++ after) || contains undefError m.code then none
    else some (m.location ++ (m.err ++ T " (" ++ m.code ++ T ")") ++ T " in: " ++ sourceLine), ?_, ?_⟩
  · split
    · exact .inl rfl
    · exact .inr rfl
  · unfold handler
    rw [hm]
    simp only [hf, ne_eq, not_true_eq_false, if_false, hfl, gi _ _ hl, gi _ _ hs]
    rw [hcol]
    simp only [Option.bind_some, hnl]
    rw [if_pos hnew]
    rfl

example : PlainAction defaultDelims (T " call ") := by
  constructor
  · rintro i hi ⟨a, b, h, rfl⟩
    have hl := congrArg List.length h
    have : a.length < 9 := by
      have : (defaultDelims.left ++ T " call ").length = 8 := by decide +kernel
      simp only [List.length_append] at hl this; omega
    have hp : defaultDelims.left <+: (defaultDelims.left ++ T " call ").drop a.length := by rw [h]; simp
    have key : ∀ k : Fin 9, 0 < k.1 → ¬ T "{{" <+: (T "{{ call ").drop k.1 := by decide +kernel
    exact key ⟨a.length, this⟩ hi hp
  · rintro i hi ⟨a, b, h, rfl⟩
    have hp : defaultDelims.right <+: (T " call " ++ defaultDelims.right).drop a.length := by rw [h]; simp
    have key : ∀ k : Fin 6, ¬ T "}}" <+: (T " call }}").drop k.1 := by decide +kernel
    exact key ⟨a.length, hi⟩ hp

example : SafeLeft (T "{{") ∧ process (failingOnce (execError 7 (T "call") (T "failed")) (T "a {{ call }} b") (T "done")) (T "f") 9 () (T "a {{ call }} b") =
    .done (T "done") true (some (T "template: f:1: failed (call) in: a {{ call }} b")) () := by unfold SafeLeft; decide +kernel

/-- The error of a text where a block is closed but not opened, in the first line of the file "f". -/
def unexpectedEnd : EngineError :=
  ⟨T "template: f:1: unexpected {{end}}", some { file := T "f", location := T "template: f:1: ", line := 1, err := T "unexpected {{end}}" }⟩

theorem failing_retry (e : EngineError) (filename : Text) (sourceLines : List Text) (n : Nat) (code : Text) :
    retries (failing e) filename sourceLines (n + 1) () code =
      handler (failing e) filename sourceLines code () e (retries (failing e) filename sourceLines n ()) := rfl

/-- What the handler does to the first line of a code that has one line, when the text of the error is the one of an undefined value. -/
theorem handler_line {σ : Type} (c : Config σ) (ctx : σ) (file loc err text source line : Text) (hs : '\n' ∉ source) (hl : '\n' ∉ line)
    (hi : contains runError line = false) (hv : contains noValueError (loc ++ err ++ T " in: " ++ source) = true) (retry : Text → Outcome σ) :
    handler c file (splitC '\n' source) line ctx ⟨text, some { file := file, location := loc, line := 1, err := err }⟩ retry =
      addError (some (loc ++ err ++ T " in: " ++ source)) (retry (T "ERROR " ++ err)) := by
  have hc : contains undefError ([] : Text) = false := by decide +kernel
  unfold handler
  rw [splitC_of_not_mem hs, splitC_of_not_mem hl]
  generalize T " in: " = sep at hv ⊢
  have n1 : newLine c.delims { file := file, location := loc, line := 1, err := err } 0 line = some (T "ERROR " ++ err, err) := rfl
  generalize T "ERROR " ++ err = new at n1 ⊢
  have f1 : faultyLine { file := file, location := loc, line := 1, err := err } = 0 := rfl
  have f2 : faultyColumn { file := file, location := loc, line := 1, err := err } line = some 0 := rfl
  have g : ∀ x, goIndex [x] 0 = some x := fun _ => rfl
  simp only [ne_eq, not_true_eq_false, if_false, f1, g]
  simp only [f2, Option.bind_some, n1, hi, hc, Bool.or_self, Bool.false_eq_true, if_false, hv, if_true]
  have j : join ['\n'] ([line].set (0 : Int).toNat new) = new := rfl
  simp only [j, ite_self]

/-- Violation: the content `contains undefined value(s) {{end}}` is retried for ever. The line becomes `ERROR unexpected {{end}}`, which fails
with the same error; it is not changed any more, but the text of the error quotes the line of the content, so that it has the text by which
the handler recognises undefined values. -/
theorem C63_not_terminates : ∃ content : Text, ∀ n, process (failing unexpectedEnd) (T "f") n () content = .unfinished := by
  refine ⟨T "contains undefined value(s) {{end}}", fun n => ?_⟩
  have step : ∀ line retry, '\n' ∉ line → contains runError line = false →
      handler (failing unexpectedEnd) (T "f") (splitC '\n' (T "contains undefined value(s) {{end}}")) line () unexpectedEnd retry = _ :=
    fun line retry h1 h2 => handler_line (failing unexpectedEnd) () (T "f") (T "template: f:1: ") (T "unexpected {{end}}")
      (T "template: f:1: unexpected {{end}}") (T "contains undefined value(s) {{end}}") line (by decide +kernel) h1 h2 (by decide +kernel) retry
  have stuck : ∀ n, retries (failing unexpectedEnd) (T "f") (splitC '\n' (T "contains undefined value(s) {{end}}")) n ()
      (T "ERROR " ++ T "unexpected {{end}}") = .unfinished := by
    intro n
    induction n with
    | zero => rfl
    | succ n ih =>
      rw [failing_retry, step _ _ (by decide +kernel) (by decide +kernel), ih]; rfl
  have hr : Rendered (failing unexpectedEnd) (T "contains undefined value(s) {{end}}") := by unfold Rendered; decide +kernel
  have hg : givenCode (failing unexpectedEnd) (T "contains undefined value(s) {{end}}") = T "contains undefined value(s) {{end}}" := by
    decide +kernel
  rw [process_rendered hr, hg]
  have : firstTry (failing unexpectedEnd) (T "f") n () (T "contains undefined value(s) {{end}}") (T "contains undefined value(s) {{end}}") =
    handler (failing unexpectedEnd) (T "f") (splitC '\n' (T "contains undefined value(s) {{end}}")) (T "contains undefined value(s) {{end}}") ()
      unexpectedEnd (retries (failing unexpectedEnd) (T "f") (splitC '\n' (T "contains undefined value(s) {{end}}")) n ()) := rfl
  rw [this, step _ _ (by decide +kernel) (by decide +kernel), stuck]
  rfl

/-! ## C69 -/

/-- The context of the template is not changed by a rendering that does not have to be retried: it succeeds, or its error has no known place or
is in another file. Partial: nothing is said of the retries. -/
theorem C69_kept_partial {σ : Type} (c : Config σ) (filename : Text) (n : Nat) (ctx : σ) (content : Text)
    (he : ∀ e m, (c.engine ctx (givenCode c content)).1 = .error e → e.found = some m → m.file ≠ filename)
    {result : Text} {changed : Bool} {err : Option Text} {ctx' : σ} (hp : process c filename n ctx content = .done result changed err ctx') :
    ctx' = ctx := by
  by_cases hr : Rendered c content
  · have key : ∀ r ch er x, firstTry c filename n ctx content (givenCode c content) = .done r ch er x → x = ctx := by
      intro r ch er x hf
      unfold firstTry at hf
      cases hc : (c.engine ctx (givenCode c content)).1 with
      | ok out =>
        rw [hc] at hf
        simp only [Outcome.done.injEq] at hf
        exact hf.2.2.2.symm
      | error e =>
        rw [hc] at hf
        simp only at hf
        unfold handler at hf
        split at hf
        · simp only [Outcome.done.injEq] at hf
          exact hf.2.2.2.symm
        · rename_i m hm
          rw [if_pos (he e m hc hm)] at hf
          split at hf
          · cases hf
          · simp only [Outcome.done.injEq] at hf
            exact hf.2.2.2.symm
    rw [process_rendered hr] at hp
    cases hf : firstTry c filename n ctx content (givenCode c content) with
    | done r ch er x =>
      rw [hf] at hp
      have hx := key r ch er x hf
      cases er with
      | none =>
        simp only [settle, Outcome.done.injEq] at hp
        rw [← hp.2.2.2]; exact hx
      | some e =>
        simp only [settle] at hp
        split at hp <;> simp only [Outcome.done.injEq] at hp <;> rw [← hp.2.2.2] <;> exact hx
    | panic => rw [hf] at hp; cases hp
    | unfinished => rw [hf] at hp; cases hp
  · rw [process_not_rendered hr] at hp
    simp only [Outcome.done.injEq] at hp
    exact hp.2.2.2.symm

/-- A template for the examples whose rendering counts in the context, and fails at the first code. -/
def counting (content : Text) : Config Nat :=
  ⟨defaultDelims, true, false, false, true, id, id,
    fun n s => if s = content then (.error (execError 11 (T "x") (T "failed")), n + 1) else (.ok s, n + 1), fun _ _ => none⟩

example : process (counting (T "?")) (T "f") 9 5 (T "{{ a }}") = .done (T "{{ a }}") false none 5 := by decide +kernel

/-- Violation: the retries work on the context of the template itself, so that the templates that come next find another one. Here the
content is given back and no error is returned, but the context is changed. -/
theorem C69_not_kept : process { counting (T "{{ a }} {{ b }}") with strict := false } (T "f") 9 5 (T "{{ a }} {{ b }}") =
    .done (T "{{ a }} {{ b }}") false none 6 := by decide +kernel

/-- An engine that fails on the first line that has code, and gives its text back otherwise. -/
def failingLine : Config Unit :=
  { copying with engine := fun u s => match (splitC '\n' s).findIdx? (contains (T "{{")) with
      | some i => (.error ⟨T "failed", some { file := T "f", location := T "template: f: ", line := i + 1, err := T "failed" }⟩, u)
      | none => (.ok s, u) }

/-- All the errors of this engine can be removed. -/
theorem failingLine_removable (ctx : Unit) (code : Text) (e : EngineError) (ctx' : Unit) (h : failingLine.engine ctx code = (.error e, ctx')) :
    Removable (T "{{") (T "f") code e := by
  have h' : (match (splitC '\n' code).findIdx? (contains (T "{{")) with
      | some i => (Except.error ⟨T "failed", some { file := T "f", location := T "template: f: ", line := i + 1, err := T "failed" }⟩, ctx)
      | none => (Except.ok code, ctx)) = ((Except.error e : Except EngineError Text), ctx') := h
  cases hi : (splitC '\n' code).findIdx? (contains (T "{{")) with
  | none => rw [hi] at h'; cases h'
  | some i =>
    rw [hi] at h'
    simp only [Prod.mk.injEq, Except.error.injEq] at h'
    obtain ⟨rfl, _⟩ := h'
    intro m hm
    simp only [Option.some.injEq] at hm
    subst hm
    refine .inr ⟨.inr (.inr rfl), (by decide +kernel : ¬ T "{{" <:+: T "ERROR " ++ T "failed"), ?_⟩
    rintro line ⟨j, hj, hl⟩
    have : i = j := by
      have h1 : i + 1 = j + 1 := hj
      omega
    subst this
    obtain ⟨hlt, hc, _⟩ := List.findIdx?_eq_some_iff_getElem.1 hi
    rw [List.getElem?_eq_getElem hlt] at hl
    rw [← Option.some.inj hl]
    exact contains_iff.1 hc

example : process failingLine (T "f") 3 () (T "a {{ a }}\n{{ b }} {{ c }}") ≠ .unfinished :=
  C63_terminates_partial failingLine (by show SafeLeft (T "{{"); unfold SafeLeft; decide +kernel) (T "f") 3 () _ failingLine_removable (by decide +kernel)
example : process failingLine (T "f") 9 () (T "a {{ a }}\n{{ b }} {{ c }}") = process failingLine (T "f") 3 () (T "a {{ a }}\n{{ b }} {{ c }}") :=
  C63_stable failingLine (T "f") 3 6 () _ (C63_terminates_partial failingLine (by show SafeLeft (T "{{"); unfold SafeLeft; decide +kernel) (T "f") 3 () _ failingLine_removable (by decide +kernel))
example : ∃ e, process failingLine (T "f") 3 () (T "a {{ a }}") = .done (T "ERROR failed") false (some e) () ∧ some e ≠ none := by
  have h : process failingLine (T "f") 3 () (T "a {{ a }}") = .done (T "ERROR failed") false (some (T "template: f: failed in: a {{ a }}")) () := by decide +kernel
  have he : (failingLine.engine () (givenCode failingLine (T "a {{ a }}"))).1 =
      .error ⟨T "failed", some { file := T "f", location := T "template: f: ", line := 1, err := T "failed" }⟩ := by
    have h : (splitC '\n' (givenCode failingLine (T "a {{ a }}"))).findIdx? (contains (T "{{")) = some 0 := by decide +kernel
    show (match (splitC '\n' (givenCode failingLine (T "a {{ a }}"))).findIdx? (contains (T "{{")) with
      | some i => (Except.error (⟨T "failed", some { file := T "f", location := T "template: f: ", line := i + 1, err := T "failed" }⟩ : EngineError), ())
      | none => (Except.ok (givenCode failingLine (T "a {{ a }}")), ())).1 = _
    rw [h]
  have := C63_reported_partial (ctx' := ()) failingLine (T "f") 3 () (T "a {{ a }}") ⟨rfl, by decide +kernel⟩ (by decide +kernel) he (by decide +kernel)
    (by intro m hm; injection hm with hm; subst hm; decide +kernel) h
  exact ⟨_, h, this⟩
example : ∀ ctx', process (counting (T "?")) (T "f") 9 5 (T "{{ a }}") = .done (T "{{ a }}") false none ctx' → ctx' = 5 := fun ctx' h =>
  C69_kept_partial (counting (T "?")) (T "f") 9 5 (T "{{ a }}") (by
    intro e m he
    have : ((counting (T "?")).engine 5 (givenCode (counting (T "?")) (T "{{ a }}"))).1 = .ok (T "{{ a }}") := by
      have h1 : givenCode (counting (T "?")) (T "{{ a }}") = T "{{ a }}" := by decide +kernel
      rw [h1]
      rfl
    rw [this] at he; cases he) h


end Verif.Props
