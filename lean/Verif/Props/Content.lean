import Verif.Lemmas.Content2
/-!
# C42: contents without code; C43: pauses
-/

namespace Verif.Props
open Text Razor Spec Lemmas Verif.Content

/-! ## C42 -/

/-- A small template for the examples: the default delimiters, no substitution, no rule, an engine that writes its text. -/
def copying : Config Unit :=
  ⟨defaultDelims, true, false, false, true, id, id, fun u s => (.ok s, u), fun _ _ => none⟩

/-- The first line of the content calls gotemplate. -/
def Script (content : Text) : Prop := T "#!" <+: content ∧ ∃ first ∈ (splitC '\n' content).head?, T "gotemplate" <:+: first

theorem shebang_none {content : Text} (h : ¬ Script content) : shebang content = (content, false) := by
  unfold shebang
  split
  · rename_i hp
    split
    · rename_i first rest e
      split
      · rename_i hg
        exact absurd ⟨hasPrefix_iff.1 hp, first, by rw [e]; rfl, contains_iff.1 hg⟩ h
      · rfl
    · rfl
  · rfl

theorem contains_false {p s : Text} (h : ¬ p <:+: s) : contains p s = false := by
  cases hc : contains p s with
  | false => rfl
  | true => exact absurd (contains_iff.1 hc) h

theorem pausing_iff {content : Text} : pausing content = true ↔ Pauses content := by
  simp only [pausing, Bool.or_eq_true, contains_iff]; rfl

theorem pausing_false {content : Text} (h : ¬ Pauses content) : pausing content = false := by
  rw [← pausing_iff] at h; exact eq_false_of_ne_true h

theorem revert_free {d : Delims} {b : Bool} {s : Text} (h : ¬ T "$&paused-" <:+: s) : revert d b s = s := by
  have sub : ∀ m ∈ [pausedLeft, pausedRight, pausedRazor], ¬ m <:+: s := by
    intro m hm hi
    apply h
    refine List.IsInfix.trans ?_ hi
    have : ∀ m ∈ [pausedLeft, pausedRight, pausedRazor], T "$&paused-" <:+: m := by decide +kernel
    exact this m hm
  unfold revert
  split
  · rw [replaceAll_free (sub pausedLeft (by simp)), replaceAll_free (sub pausedRight (by simp)), replaceAll_free (sub pausedRazor (by simp))]
  · rfl

theorem infix_splitC {sep : Char} {s l : Text} (h : l ∈ splitC sep s) : l <:+: s := by
  rw [← join_splitC sep s]
  generalize splitC sep s = ls at h
  induction ls with
  | nil => simp at h
  | cons x ls ih =>
    cases ls with
    | nil =>
      simp only [List.mem_singleton] at h
      subst h; exact List.infix_refl _
    | cons y ls =>
      rw [join_cons_cons]
      rcases List.mem_cons.1 h with rfl | h
      · exact ⟨[], [sep] ++ join [sep] (y :: ls), by simp⟩
      · exact (ih h).trans ⟨x ++ [sep], [], by simp⟩

theorem pauseCode_free {d : Delims} {b : Bool} {code : Text} (h : NoCode d code) : pauseCode d b code = code := by
  unfold pauseCode
  split
  · have : ∀ (ls : List Text) (g r : Bool), (∀ l ∈ ls, l <:+: code) → pauseLines d g r ls = ls := by
      intro ls
      induction ls with
      | nil => intros; rfl
      | cons l ls ih =>
        intro g r hl
        simp only [pauseLines]
        rw [ih _ _ (fun x hx => hl x (by simp [hx]))]
        have n := hl l (by simp)
        have h1 : ¬ d.left <:+: l := fun hi => h.1 (hi.trans n)
        have h2 : ¬ d.right <:+: l := fun hi => h.2.1 (hi.trans n)
        have h3 : ¬ d.razor <:+: l := fun hi => h.2.2 (hi.trans n)
        simp only [pauseLine, replaceAll_free h1, replaceAll_free h2, replaceAll_free h3, ite_self]
    rw [this _ _ _ (fun l hl => infix_splitC hl), join_splitC]
  · rfl

/-- A content without delimiter is given back as it is and is not said to be changed, whatever the options, the engine and the context are.
Partial: the content has no substitution, its first line does not call gotemplate, and it does not have the texts that stand for paused
delimiters. -/
theorem C42_untouched_partial {σ : Type} (c : Config σ) (filename : Text) (n : Nat) (ctx : σ) (content : Text) (hn : NoCode c.delims content)
    (hs : c.sub content = content) (hb : ¬ Script content) (hp : ¬ T "$&paused-" <:+: content) :
    process c filename n ctx content = .done content false none ctx := by
  have hr : isRazor c.delims content = false := by simp [isRazor, contains_false hn.2.2]
  have hc : isCode c.delims content = false := by simp [isCode, hr, contains_false hn.1, contains_false hn.2.1]
  have e : prepare c content = content := by
    unfold prepare
    rw [hs, shebang_none hb]
    simp only [pauseCode_free hn, applyRazor, hr, Bool.not_false, Bool.or_true, if_true]
  simp only [process, e, hc, Bool.not_false, Bool.or_true, if_true]
  rw [revert_free hp]

example : process copying (T "f") 0 () (T "Hello { world }\n# gotemplate-pause!") = .done (T "Hello { world }\n# gotemplate-pause!") false none () :=
  C42_untouched_partial copying _ _ _ _ (by unfold NoCode; decide +kernel) rfl (by rintro ⟨h, _⟩; exact absurd h (by decide +kernel)) (by decide +kernel)

example : NoCode defaultDelims (T "Hello { world }\n# gotemplate-pause!") ∧ ¬ Script (T "Hello { world }\n# gotemplate-pause!") ∧
    ¬ T "$&paused-" <:+: T "Hello { world }\n# gotemplate-pause!" ∧
    copying.sub (T "Hello { world }\n# gotemplate-pause!") = T "Hello { world }\n# gotemplate-pause!" := by
  refine ⟨by unfold NoCode; decide +kernel, ?_, by decide +kernel, rfl⟩
  rintro ⟨h, _⟩
  exact absurd h (by decide +kernel)

/-- A content with right delimiters only is given back as it is, if the engine copies a text without left delimiter (as `text/template` does).
Partial: no substitution, no pause, no call of gotemplate in the first line, and no mark of values that are not defined. -/
theorem C42_right_partial {σ : Type} (c : Config σ) (filename : Text) (n : Nat) (ctx : σ) (content : Text)
    (hl : ¬ c.delims.left <:+: content) (hz : ¬ c.delims.razor <:+: content) (hlm : '!' ∉ c.delims.left)
    (hlv : ¬ c.delims.left <:+: T "!NO_VALUE!" ∧ ¬ c.delims.left <:+: T "!NIL_VALUE!")
    (he : ∀ ctx code, ¬ c.delims.left <:+: code → c.engine ctx code = (.ok code, ctx))
    (hs : ∀ s, c.sub s = s) (hb : ¬ Script content) (hp : ¬ Pauses content)
    (hm1 : ¬ T "NO_VALUE" <:+: content) (hm2 : ¬ T "NIL_VALUE" <:+: content) :
    process c filename n ctx content = .done content false none ctx := by
  have hp := pausing_false hp
  have hr : isRazor c.delims content = false := by simp [isRazor, contains_false hz]
  have e : prepare c content = content := by
    unfold prepare
    rw [hs, shebang_none hb]
    simp only [hp, pauseCode, applyRazor, hr, Bool.not_false, Bool.or_true, if_true, Bool.false_eq_true, if_false]
  have rv : ∀ s, revert c.delims false s = s := fun s => rfl
  simp only [process, e]
  split
  · rw [hp, rv]
  · cases ha : c.acceptNoValue with
    | true =>
      simp only [if_true, firstTry, he ctx content hl, hp, rv, hs, ha, settle]
      simp
    | false =>
      have hl' : ¬ c.delims.left <:+: hideNoValue content := fun hi => hl (infix_hide hlm hlv.1 hlv.2 hi)
      have hd : contains noValue (replaceAll nilValue noValue (hideNoValue content)) = false := by
        cases hc : contains noValue (replaceAll nilValue noValue (hideNoValue content)) with
        | false => rfl
        | true =>
          rcases (detect_iff _).1 hc with h | h
          · exact absurd h (hide_free content).1
          · exact absurd h (hide_free content).2
      simp only [firstTry, he ctx _ hl', hp, rv, hs, ha, settle, detect, hd, show_hide hm1 hm2, Bool.false_eq_true, if_false]
      simp

example : process copying (T "f") 0 () (T "a }} <nil>") = .done (T "a }} <nil>") false none () :=
  C42_right_partial copying _ _ _ _ (by decide +kernel) (by decide +kernel) (by decide +kernel) (by decide +kernel) (fun _ _ _ => rfl) (fun _ => rfl)
    (by rintro ⟨h, _⟩; exact absurd h (by decide +kernel)) (by decide +kernel) (by decide +kernel) (by decide +kernel)

example : ¬ T "{{" <:+: T "a }} <nil>" ∧ ¬ T "@" <:+: T "a }} <nil>" ∧ isCode defaultDelims (T "a }} <nil>") = true ∧
    pausing (T "a }} <nil>") = false ∧ ¬ T "NO_VALUE" <:+: T "a }} <nil>" ∧
    process copying (T "f") 0 () (T "a }} <nil>") = .done (T "a }} <nil>") false none () := by
  decide +kernel

/-- A content with the text `no-gotemplate!` is given back as it is, whatever code it has. Partial: no substitution, no pause, and its first line
does not call gotemplate. -/
theorem C42_disabled_partial {σ : Type} (c : Config σ) (filename : Text) (n : Nat) (ctx : σ) (content : Text) (hn : T "no-gotemplate!" <:+: content)
    (hs : c.sub content = content) (hb : ¬ Script content) (hp : ¬ Pauses content) :
    process c filename n ctx content = .done content false none ctx := by
  have hp := pausing_false hp
  have hg : contains noGoTemplate content = true := contains_iff.2 hn
  have hr : isRazor c.delims content = false := by simp [isRazor, hg]
  have hc : isCode c.delims content = false := by simp [isCode, hg]
  have e : prepare c content = content := by
    unfold prepare
    rw [hs, shebang_none hb]
    simp only [hp, pauseCode, applyRazor, hr, Bool.not_false, Bool.or_true, if_true, Bool.false_eq_true, if_false]
  simp only [process, e, hc, Bool.not_false, Bool.or_true, if_true, hp]
  rfl

example : process copying (T "f") 0 () (T "# no-gotemplate!\n{{ .a }} @b") = .done (T "# no-gotemplate!\n{{ .a }} @b") false none () :=
  C42_disabled_partial copying _ _ _ _ (by decide +kernel) rfl (by rintro ⟨h, _⟩; exact absurd h (by decide +kernel)) (by decide +kernel)

example : T "no-gotemplate!" <:+: T "# no-gotemplate!\n{{ .a }} @b" ∧ pausing (T "# no-gotemplate!\n{{ .a }} @b") = false ∧
    isCode defaultDelims (T "# no-gotemplate!\n{{ .a }} @b") = false := by decide +kernel

theorem process_text {σ : Type} (c : Config σ) (filename : Text) (n : Nat) (ctx : σ) {content result : Text}
    (h : isCode c.delims (prepare c content) = false) (hr : revert c.delims (pausing content) (prepare c content) = result) :
    process c filename n ctx content = .done result false none ctx := by
  simp only [process, h, Bool.not_false, Bool.or_true, if_true, hr]

/-- A text is code when it has a delimiter, unless it says the contrary: `no-gotemplate!` for all of them, `no-razor!` for the one of razor.
(`IsCode` decides if a content is rendered, and if an argument of the command line is code instead of the name of a file.) -/
theorem C42_code (d : Delims) (s : Text) : isCode d s = true ↔
    ¬ T "no-gotemplate!" <:+: s ∧ (d.left <:+: s ∨ d.right <:+: s ∨ (d.razor <:+: s ∧ ¬ T "no-razor!" <:+: s)) := by
  have h1 : contains noGoTemplate s = true ↔ T "no-gotemplate!" <:+: s := contains_iff
  have h2 : contains noRazor s = true ↔ T "no-razor!" <:+: s := contains_iff
  simp only [isCode, isRazor, Bool.and_eq_true, Bool.not_eq_true', Bool.or_eq_true, ← Bool.not_eq_true, h1, h2, contains_iff]
  constructor
  · rintro ⟨h, (⟨⟨a, _⟩, b⟩ | a) | a⟩
    · exact ⟨h, .inr (.inr ⟨a, b⟩)⟩
    · exact ⟨h, .inl a⟩
    · exact ⟨h, .inr (.inl a)⟩
  · rintro ⟨h, a | a | ⟨a, b⟩⟩
    · exact ⟨h, .inl (.inr a)⟩
    · exact ⟨h, .inr a⟩
    · exact ⟨h, .inl (.inl ⟨⟨a, h⟩, b⟩)⟩

example : isCode defaultDelims (T "hello @name") = true ∧ isCode defaultDelims (T "hello") = false ∧ isCode defaultDelims (T "no-razor! @name") = false := by
  decide +kernel

/-- C42. Without the option razor, the code of razor is text: the rules of razor have no effect at all. -/
theorem C42_razor_off {σ : Type} (c : Config σ) (h : c.razorOn = false) (rules : Text → Text) (filename : Text) (n : Nat) (ctx : σ) (content : Text) :
    process { c with razor := rules } filename n ctx content = process c filename n ctx content := by
  have key : ∀ code, applyRazor { c with razor := rules } code = applyRazor c code := fun code => by simp [applyRazor, h]
  have hh : ∀ (ctx : σ) code e (r : Text → Outcome σ), handler { c with razor := rules } filename (splitC '\n' content) code ctx e r =
      handler c filename (splitC '\n' content) code ctx e r := fun _ _ _ _ => rfl
  have hr : ∀ n ctx code, retries { c with razor := rules } filename (splitC '\n' content) n ctx code = retries c filename (splitC '\n' content) n ctx code := by
    intro n
    induction n with
    | zero => intros; rfl
    | succ n ih =>
      intro ctx code
      simp only [retries]
      have : retries { c with razor := rules } filename (splitC '\n' content) n = retries c filename (splitC '\n' content) n := by
        funext ctx code; exact ih ctx code
      rw [this]
      rfl
  have hr' : ∀ n ctx, retries { c with razor := rules } filename (splitC '\n' content) n ctx = retries c filename (splitC '\n' content) n ctx :=
    fun n ctx => funext (hr n ctx)
  have hp : prepare { c with razor := rules } content = prepare c content := key _
  unfold process
  rw [hp]
  simp only [firstTry, hr', hh]
  rfl

example : process { copying with razorOn := false, razor := fun _ => T "changed" } (T "f") 0 () (T "a @b") = .done (T "a @b") false none () := by
  rw [C42_razor_off { copying with razorOn := false } rfl]; decide +kernel

example : process { copying with razor := fun _ => T "{{ changed }}" } (T "f") 0 () (T "a @b") = .done (T "{{ changed }}") true none () := by decide +kernel

/-- Violation: a content without code on which a substitution acts is changed, and reported as unchanged. -/
theorem C42_not_substitution : ∃ (c : Config Unit) (content : Text), NoCode c.delims content ∧ ¬ Script content ∧
    ∃ result, result ≠ content ∧ ∀ filename n, process c filename n () content = .done result false none () := by
  refine ⟨{ copying with sub := replaceAll (T "foo") (T "bar") }, T "a foo", by unfold NoCode; decide +kernel, ?_, T "a bar", by decide +kernel, ?_⟩
  · rintro ⟨h, _⟩; exact absurd h (by decide +kernel)
  · intro filename n; exact process_text _ _ _ _ (by decide +kernel) (by decide +kernel)

/-- Violation: the first line of a script is removed, and the content is reported as unchanged. -/
theorem C42_not_script : ∃ content : Text, NoCode defaultDelims content ∧ ∃ result, result ≠ content ∧
    ∀ filename n, process copying filename n () content = .done result false none () :=
  ⟨T "#! /bin/gotemplate\nhello", by unfold NoCode; decide +kernel, T "hello", by decide +kernel,
    fun _ _ => process_text _ _ _ _ (by decide +kernel) (by decide +kernel)⟩

/-- Violation: in a content that speaks of pauses, the texts that stand for delimiters become delimiters. -/
theorem C42_not_paused : ∃ content : Text, NoCode defaultDelims content ∧ ¬ Script content ∧ ∃ result, result ≠ content ∧
    ∀ filename n, process copying filename n () content = .done result false none () := by
  refine ⟨T "gotemplate-pause! $&paused-left&$", by unfold NoCode; decide +kernel, ?_, T "gotemplate-pause! {{", by decide +kernel,
    fun _ _ => process_text _ _ _ _ (by decide +kernel) (by decide +kernel)⟩
  rintro ⟨h, _⟩; exact absurd h (by decide +kernel)

/-! ## C43 -/

/-- The lines given to the engine when pauses are used, before the rules of razor. -/
def givenLines (d : Delims) (content : Text) : List Text := splitC '\n' (pauseCode d true content)

theorem pauseLine_newline {d : Delims} (h : Compatible d) {g r : Bool} {l : Text} (hl : '\n' ∉ l) : '\n' ∉ pauseLine d g r l := by
  intro hm
  have hi : ['\n'] <:+: pauseLine d g r l := by
    obtain ⟨a, b, e⟩ := List.append_of_mem hm
    exact ⟨a, b, by rw [e]; simp⟩
  have := infix_pauseLine h g r (by decide +kernel) (by decide +kernel) hi
  exact hl (this.subset (by simp))

theorem givenLines_eq {d : Delims} (h : Compatible d) (content : Text) : givenLines d content = pauseLines d false false (splitC '\n' content) := by
  unfold givenLines pauseCode
  simp only [if_true]
  apply splitC_join
  · intro hn
    have := congrArg List.length hn
    rw [pauseLines_length] at this
    exact splitC_ne_nil '\n' content (List.length_eq_zero_iff.1 this)
  · intro l hl
    obtain ⟨i, hi⟩ := List.mem_iff_getElem?.1 hl
    rw [pauseLines_get] at hi
    cases hs : (splitC '\n' content)[i]? with
    | none => rw [hs] at hi; simp at hi
    | some x =>
      rw [hs] at hi
      simp only [Option.map_some, Option.some.injEq] at hi
      rw [← hi]
      exact pauseLine_newline h (splitC_no_sep _ _ _ (List.mem_of_getElem? hs))

theorem pauseLine_off (d : Delims) (line : Text) : pauseLine d false false line = line := rfl

/-- Every line of a content with pauses is given to the engine as one line. A line in a pause of go template has no delimiter left; in a pause
of razor, it has no razor delimiter left; out of any pause it is given as it is. In any case the delimiters are found again when the result
is written. -/
theorem C43_lines {d : Delims} (h : Compatible d) (content : Text) :
    (givenLines d content).length = (splitC '\n' content).length ∧
    ∀ (i : Nat) (line : Text), (splitC '\n' content)[i]? = some line → ∃ given, (givenLines d content)[i]? = some given ∧
      (GoPaused (splitC '\n' content) i → NoCode d given) ∧
      (RazorPaused (splitC '\n' content) i → ¬ d.razor <:+: given) ∧
      (¬ GoPaused (splitC '\n' content) i → given = line ∨ given = replaceAll d.razor (T "$&paused-razor&$") line) ∧
      (¬ RazorPaused (splitC '\n' content) i → given = line) ∧
      (¬ T "&paused" <:+: line → revert d true given = line) := by
  rw [givenLines_eq h]
  refine ⟨pauseLines_length _ _ _ _, ?_⟩
  intro i line hi
  have hlt : i < (splitC '\n' content).length := (List.getElem?_eq_some_iff.1 hi).1
  refine ⟨_, by rw [pauseLines_get, hi]; rfl, ?_, ?_, ?_, ?_, ?_⟩
  · intro hg
    have hg' := (flagAt_false hlt).2 hg
    have := pauseLine_free h (flagAt pauseGoTemplate resumeGoTemplate false (splitC '\n' content) i) (flagAt pauseRazor resumeRazor false (splitC '\n' content) i) line
    exact ⟨(this.2 hg').1, (this.2 hg').2, this.1 (by rw [show flagAt pauseGoTemplate resumeGoTemplate false (splitC '\n' content) i = true from hg', Bool.or_true])⟩
  · intro hr
    refine (pauseLine_free h _ _ line).1 ?_
    rw [Bool.or_eq_true]
    rcases hr with hr | hr
    · exact Or.inl ((flagAt_false hlt).2 hr)
    · exact Or.inr ((flagAt_false hlt).2 hr)
  · intro hg
    have hg' : flagAt pauseGoTemplate resumeGoTemplate false (splitC '\n' content) i = false := by
      cases hf : flagAt pauseGoTemplate resumeGoTemplate false (splitC '\n' content) i with
      | false => rfl
      | true => exact absurd ((flagAt_false hlt).1 hf) hg
    rw [hg']
    cases flagAt pauseRazor resumeRazor false (splitC '\n' content) i with
    | false => exact Or.inl rfl
    | true => exact Or.inr rfl
  · intro hr
    simp only [RazorPaused, not_or] at hr
    have hg' : flagAt pauseGoTemplate resumeGoTemplate false (splitC '\n' content) i = false := by
      cases hf : flagAt pauseGoTemplate resumeGoTemplate false (splitC '\n' content) i with
      | false => rfl
      | true => exact absurd ((flagAt_false hlt).1 hf) hr.2
    have hr' : flagAt pauseRazor resumeRazor false (splitC '\n' content) i = false := by
      cases hf : flagAt pauseRazor resumeRazor false (splitC '\n' content) i with
      | false => rfl
      | true => exact absurd ((flagAt_false hlt).1 hf) hr.1
    rw [hg', hr']
    rfl
  · exact revert_pauseLine h _ _

example : Compatible defaultDelims ∧ Compatible ⟨T "<<", T ">>", T "~"⟩ ∧
    givenLines defaultDelims (T "{{ a }} @b\nrazor-pause! {{ a }} @b\ngotemplate-pause!\n{{ a }} @b\ngotemplate-resume! razor-resume! @b") =
      [T "{{ a }} @b", T "razor-pause! {{ a }} $&paused-razor&$b", T "gotemplate-pause!", T "$&paused-left&$ a $&paused-right&$ $&paused-razor&$b",
        T "gotemplate-resume! razor-resume! @b"] := by decide +kernel

theorem final_line {d : Delims} (h : Compatible d) {g r : Bool} {line : Text} (ho : Ordinary line) (a : Bool) :
    (if a then revert d true (pauseLine d g r line) else showNoValue (revert d true (pauseLine d g r line))) = line := by
  rw [revert_pauseLine h g r ho.1]
  cases a with
  | true => rfl
  | false =>
    simp only [Bool.false_eq_true, if_false, showNoValue]
    have h1 : ¬ noValueRepl <:+: line := ho.2.2.2.1
    have h2 : ¬ nilValueRepl <:+: line := ho.2.2.2.2
    rw [replaceAll_free h1, replaceAll_free h2]

/-- The lines of a content with pauses that the engine copies to its output are written exactly as they are in the content, delimiters
included. Partial: the errors are not ignored (strict mode) or undefined values are accepted, the rendering needs no retry, and the line does not
have the texts used by the processing. That the engine copies a line without delimiter is not a fact of the model: the lines of the output
that are copies are those such that `outs[j]? = given[i]?`. -/
theorem C43_emitted_partial {σ : Type} (c : Config σ) (hd : Compatible c.delims) (filename : Text) (n : Nat) (ctx : σ) (content out : Text)
    (outs : List Text) (hp : Pauses content) (ha : c.acceptNoValue = true ∨ c.strict = true)
    (hc : c.renderingDisabled = false ∧ isCode c.delims (prepare c content) = true)
    (he : (c.engine ctx (if c.acceptNoValue then prepare c content else hideNoValue (prepare c content))).1 = .ok out)
    (ho : c.sub out = join ['\n'] outs) :
    ∃ finals changed err, process c filename n ctx content = .done (join ['\n'] finals) changed err ctx ∧ finals.length = outs.length ∧
      ∀ (i j : Nat) (line : Text), (splitC '\n' content)[i]? = some line → Ordinary line →
        outs[j]? = (givenLines c.delims content)[i]? → finals[j]? = some line := by
  refine ⟨outs.map (fun o => if c.acceptNoValue then revert c.delims true o else showNoValue (revert c.delims true o)), ?_⟩
  have key : ∀ (i j : Nat) (line : Text), (splitC '\n' content)[i]? = some line → Ordinary line →
      outs[j]? = (givenLines c.delims content)[i]? →
      (outs.map (fun o => if c.acceptNoValue then revert c.delims true o else showNoValue (revert c.delims true o)))[j]? = some line := by
    intro i j line hi hl hj
    rw [List.getElem?_map, hj, givenLines_eq hd, pauseLines_get, hi]
    simp only [Option.map_some, Option.some.injEq]
    exact final_line hd hl _
  have e : process c filename n ctx content = settle c filename content (firstTry c filename n ctx content
      (if c.acceptNoValue then prepare c content else hideNoValue (prepare c content))) := by
    simp [process, hc.1, hc.2]
  rw [e]
  unfold firstTry
  rw [he, pausing_iff.2 hp]
  simp only [ho, revert_join]
  cases hv : c.acceptNoValue with
  | true =>
    rw [hv] at key
    simp only [if_true] at key ⊢
    exact ⟨_, none, rfl, by simp, key⟩
  | false =>
    have hst : c.strict = true := by
      rcases ha with ha | ha
      · rw [hv] at ha; cases ha
      · exact ha
    have hsm : strictMode c filename content = true := by simp [strictMode, hst]
    rw [hv] at key
    simp only [detect, Bool.false_eq_true, if_false, showNoValue_join, List.map_map] at key ⊢
    cases hcv : contains noValue (replaceAll nilValue noValue (join ['\n'] (List.map (revert c.delims true) outs))) with
    | false => exact ⟨_, none, rfl, by simp, key⟩
    | true => exact ⟨_, _, by simp only [settle, if_true, hsm]; rfl, by simp, key⟩

example : Ordinary (T "# gotemplate-pause! {{ a }} @b") ∧
    process { copying with razorOn := false } (T "f") 0 () (T "{{ 1 }}\n# gotemplate-pause! {{ a }} @b") =
      .done (T "{{ 1 }}\n# gotemplate-pause! {{ a }} @b") false none () ∧
    isCode defaultDelims (prepare { copying with razorOn := false } (T "{{ 1 }}\n# gotemplate-pause! {{ a }} @b")) = true := by
  decide +kernel

/-- C43 (partial). After an error the code is processed again without its faulty line or action: the lines that are copied come out as they
are written too, provided the text that begins a pause is still in the code. -/
theorem C43_retried_partial {σ : Type} (c : Config σ) (hd : Compatible c.delims) (filename : Text) (source : List Text) (n : Nat) (ctx ctx' : σ)
    (content code out : Text) (outs : List Text) (hp : Pauses code) (he : c.engine ctx code = (.ok out, ctx')) (ho : c.sub out = join ['\n'] outs) :
    ∃ finals changed, retries c filename source (n + 1) ctx code = .done (join ['\n'] finals) changed none ctx' ∧ finals.length = outs.length ∧
      ∀ (i j : Nat) (line : Text), (splitC '\n' content)[i]? = some line → ¬ T "&paused" <:+: line →
        outs[j]? = (givenLines c.delims content)[i]? → finals[j]? = some line := by
  refine ⟨outs.map (revert c.delims true), decide (join ['\n'] (outs.map (revert c.delims true)) ≠ code), ?_, by simp, ?_⟩
  · simp only [retries, he, ho, pausing_iff.2 hp, revert_join]
  · intro i j line hi hl hj
    rw [List.getElem?_map, hj, givenLines_eq hd, pauseLines_get, hi]
    simp only [Option.map_some, Option.some.injEq]
    exact revert_pauseLine hd _ _ hl

example : retries copying (T "f") [] 1 () (T "ERROR x\ngotemplate-pause! $&paused-left&$ a $&paused-right&$") =
    .done (T "ERROR x\ngotemplate-pause! {{ a }}") true none () := by decide +kernel

/-- Violation: when the line with the text that begins the pause is the faulty one, it is replaced and the other lines keep the texts that
stand for the delimiters. -/
theorem C43_not_retried : ∃ (c : Config Unit) (content result : Text) (err : Text), Compatible c.delims ∧
    (splitC '\n' content)[1]? = some (T "@b") ∧ RazorPaused (splitC '\n' content) 1 ∧
    process c (T "f") 3 () content = .done result false (some err) () ∧ (splitC '\n' result)[1]? = some (T "$&paused-razor&$b") := by
  refine ⟨{ copying with engine := fun u s => if contains (T "{{") s then
      (.error ⟨T "failed", some { file := T "f", location := T "f: ", line := 1, message := T "no", err := T "failed" }⟩, u) else (.ok s, u) },
    T "{{ fail }} razor-pause!\n@b", T "ERROR failed\n$&paused-razor&$b", T "f: no in: {{ fail }} razor-pause!", by decide +kernel, by decide +kernel,
    .inl ⟨0, by decide, ⟨T "{{ fail }} razor-pause!", by decide +kernel, by decide +kernel⟩, ?_⟩, by decide +kernel, by decide +kernel⟩
  intro k _ hk l hl
  have e : splitC '\n' (T "{{ fail }} razor-pause!\n@b") = [T "{{ fail }} razor-pause!", T "@b"] := by decide +kernel
  rw [e] at hl
  have : k = 0 ∨ k = 1 := by omega
  rcases this with rfl | rfl
  · simp only [List.getElem?_cons_zero, Option.some.injEq] at hl
    rw [← hl]; decide +kernel
  · simp only [List.getElem?_cons_succ, List.getElem?_cons_zero, Option.some.injEq] at hl
    rw [← hl]; decide +kernel

/-- Violation: in a pause of razor, go template code is active but the texts it works on are not those that are written. -/
theorem C43_not_code : ∃ content : Text, (splitC '\n' content)[0]? = some (T "{{ len \"@\" }} razor-pause!") ∧
    ¬ GoPaused (splitC '\n' content) 0 ∧ (givenLines defaultDelims content)[0]? = some (T "{{ len \"$&paused-razor&$\" }} razor-pause!") := by
  refine ⟨T "{{ len \"@\" }} razor-pause!", by decide +kernel, ?_, by decide +kernel⟩
  rintro ⟨j, hj, ⟨l, hl, hp⟩, _⟩
  have e : splitC '\n' (T "{{ len \"@\" }} razor-pause!") = [T "{{ len \"@\" }} razor-pause!"] := by decide +kernel
  rw [e, Nat.le_zero.1 hj] at hl
  simp only [List.getElem?_cons_zero, Option.some.injEq] at hl
  rw [← hl] at hp
  exact absurd hp (by decide +kernel)

/-- Violation: a paused line that has one of the texts that stand for delimiters is not written as it is. -/
theorem C43_not_written : ∃ line : Text, ¬ Ordinary line ∧ revert defaultDelims true (pauseLine defaultDelims true false line) ≠ line :=
  ⟨T "gotemplate-pause! $&paused-left&$", by decide +kernel, by decide +kernel⟩

example : ∃ finals changed err, process { copying with razorOn := false } (T "f") 0 () (T "{{ 1 }}\n# gotemplate-pause! {{ a }}") = .done (join ['\n'] finals) changed err () ∧
    finals.length = 2 ∧ finals[1]? = some (T "# gotemplate-pause! {{ a }}") := by
  obtain ⟨finals, changed, err, h1, h2, h3⟩ := C43_emitted_partial { copying with razorOn := false } (by decide +kernel : Compatible defaultDelims) (T "f") 0 ()
    (T "{{ 1 }}\n# gotemplate-pause! {{ a }}") (prepare { copying with razorOn := false } (T "{{ 1 }}\n# gotemplate-pause! {{ a }}"))
    [T "{{ 1 }}", T "# gotemplate-pause! $&paused-left&$ a $&paused-right&$"] (by decide +kernel) (.inr rfl) ⟨rfl, by decide +kernel⟩
    (congrArg Except.ok (by decide +kernel : hideNoValue (prepare { copying with razorOn := false } (T "{{ 1 }}\n# gotemplate-pause! {{ a }}")) = _)) (by decide +kernel)
  exact ⟨finals, changed, err, h1, h2, h3 1 1 _ (by decide +kernel) (by decide +kernel) (by decide +kernel)⟩


end Verif.Props
