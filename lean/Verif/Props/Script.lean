import Verif.Lemmas.Script

/-!
C80 and C81: what a text given to `run` or `exec` starts.
-/

namespace Verif.Props
open Verif Verif.Text Verif.Files Verif.Script Verif.Lemmas Verif.Spec

theorem trim_head (content : Text) : ∀ c, (trimSpace content).head? = some c → reSpace c = false := by
  intro c hc
  obtain ⟨_, _, _, _, _, h, _⟩ := trimmed_trimSpace content
  have := h c hc
  cases hr : reSpace c with
  | false => rfl
  | true => rw [reSpace_isSpace hr] at this; cases this

theorem getLast_append_ne (a : Text) {b : Text} (h : b ≠ []) : (a ++ b).getLast? = b.getLast? := by
  rw [List.getLast?_append]
  cases hb : b.getLast? with
  | none => exact absurd (List.getLast?_eq_none_iff.1 hb) h
  | some c => rfl

theorem trim_trim (content : Text) : trimSpace (trimSpace content) = trimSpace content := trimSpace_of_trimmed (trimmed_self (trimmed_trimSpace content))

/-- **C80**: the program, its argument and the source of a script are those of its text. -/
theorem C80_script (content p a src : Text) (h : ScriptLine (trimSpace content) p a src) : scriptParts content = (p, a, src) := by
  unfold scriptParts submatch
  rw [header_found h]
  rfl

/-- **C80**: a text that does not begin with `#!` has no program, and all of it is the source. -/
theorem C80_plain (content : Text) (h : ¬ T "#!" <+: trimSpace content) : scriptParts content = ([], [], trimSpace content) := by
  have hs : ¬ ScriptText (trimSpace content) := by
    rintro ⟨b, p, g, a, u, v, e, _⟩
    exact h ⟨b ++ p ++ g ++ a ++ u ++ v, by rw [e]; simp⟩
  unfold scriptParts submatch
  cases hh : header (trimSpace content) sourcePart with
  | some r =>
    obtain ⟨bl, e, _⟩ := header_not (trim_head content) hs hh
    exact absurd ⟨bl ++ r.2.2, by rw [e]; simp⟩ h
  | none =>
    rw [Option.none_or, sourcePart_eq, dropWhile_head (trim_head content)]
    rfl

/-- **C80**: another text has no program; the source is all of it, or what follows `#!` and blanks with an end of line. -/
theorem C80_no_script (content : Text) (h : ¬ ScriptText (trimSpace content)) :
    ∃ src, scriptParts content = ([], [], src) ∧
      (src = trimSpace content ∨ ∃ blanks, trimSpace content = T "#!" ++ blanks ++ src ∧ (∀ c ∈ blanks, IsGap c) ∧ ('\n' ∈ blanks ∨ src = [])) := by
  unfold scriptParts submatch
  cases hh : header (trimSpace content) sourcePart with
  | some r =>
    obtain ⟨bl, e, h1, h2, h3, h4⟩ := header_not (trim_head content) h hh
    obtain ⟨r1, r2, r3⟩ := r
    simp only at e h1 h2 h3 h4
    subst h3 h4
    exact ⟨r3, rfl, .inr ⟨bl, e, h1, h2⟩⟩
  | none =>
    refine ⟨trimSpace content, ?_, .inl rfl⟩
    rw [Option.none_or, sourcePart_eq, dropWhile_head (trim_head content)]
    rfl

/-- **C80**: a result is made executable exactly if its text names a program. -/
theorem C80_executable (content : Text) : isScript content = true ↔ (scriptParts content).1 ≠ [] := by
  rw [isScript_iff]
  constructor
  · intro h
    obtain ⟨p, a, src, hl⟩ := scriptText_iff.1 h
    rw [C80_script content p a src hl]
    obtain ⟨_, _, _, _, _, _, _, hp, _⟩ := hl
    exact hp
  · intro h
    apply Classical.byContradiction
    intro hn
    obtain ⟨src, e, _⟩ := C80_no_script content hn
    rw [e] at h
    exact h rfl

/-- **C80**, not for every script: with more than one argument on the first line no program is recognised. -/
theorem C80_not_arguments : scriptParts (T "#! /usr/bin/env python -u\nx") = ([], [], T "#! /usr/bin/env python -u\nx") := by decide +kernel

/-- **C80**, not for every text: after `#!` alone on its line, a second line of one or two words is taken for the program. -/
theorem C80_not_empty : scriptParts (T "#!\nls -l") = (T "ls", T "-l", []) ∧ scriptParts (T "#!\nls -l a") = ([], [], T "ls -l a") := by
  refine ⟨by decide +kernel, by decide +kernel⟩

/-! ## Commands -/

/-- What becomes of an argument of a command. -/
def Expanded (env : Env) (trim : Bool) (a : Text) (l : List Text) : Prop :=
  ((∃ c ∈ a, IsWild c) → (env.glob a ≠ [] → l = env.glob a) ∧ (env.glob a = [] → l = if trim then [] else [a])) ∧ ((∀ c ∈ a, ¬ IsWild c) → l = [a])

theorem hasWild_iff (a : Text) : hasWild a = true ↔ ∃ c ∈ a, IsWild c := by
  simp [hasWild, IsWild, or_assoc]

/-- **C81**: each argument is replaced, in order, by the files that it matches; without wildcard or match it stays, or is dropped by `glob`. -/
theorem C81_glob (env : Env) (trim : Bool) (args : List Text) :
    ∃ f : Text → List Text, globFunc env trim args = args.flatMap f ∧ ∀ a, Expanded env trim a (f a) := by
  refine ⟨fun a => if hasWild a then (if env.glob a ≠ [] then env.glob a else if trim then [] else [a]) else [a], ?_, ?_⟩
  · induction args with
    | nil => rfl
    | cons a args ih =>
      rw [globFunc, List.flatMap_cons, ← ih]
      split
      · split
        · rfl
        · split <;> rfl
      · rfl
  · intro a
    refine ⟨fun h => ?_, fun h => ?_⟩ <;> dsimp only
    · rw [if_pos ((hasWild_iff a).2 h)]
      exact ⟨fun h => if_pos h, fun h => if_neg (by simp [h])⟩
    · rw [if_neg]
      intro hw
      obtain ⟨c, hc, hc'⟩ := (hasWild_iff a).1 hw
      exact h c hc hc'

theorem glob_plain (env : Env) (trim : Bool) (args : List Text) (h : ∀ a ∈ args, ∀ c ∈ a, ¬ IsWild c) : globFunc env trim args = args := by
  obtain ⟨f, e, hf⟩ := C81_glob env trim args
  rw [e]
  clear e
  induction args with
  | nil => rfl
  | cons a args ih =>
    rw [List.flatMap_cons, (hf a).2 (h a (by simp)), ih fun b hb => h b (by simp [hb])]
    rfl

/-- **C81**: a script in a file is started with its program, the argument of its first line, the name of the file and the arguments. -/
theorem C81_file (env : Env) (name content p a src : Text) (args : List Text) (h : ScriptLine (trimSpace content) p a src)
    (ha : ∀ x ∈ args, ∀ c ∈ x, ¬ IsWild c) :
    fromFile env name content args = some ⟨p, (if a = [] then [] else [a]) ++ name :: args⟩ := by
  have e := C80_script (trimSpace content) p a src (by rw [trim_trim]; exact h)
  have hp : p ≠ [] := by obtain ⟨_, _, _, _, _, _, _, hp, _⟩ := h; exact hp
  unfold fromFile
  simp only [e, if_pos hp, glob_plain env false args ha]
  by_cases ha' : a = [] <;> simp [ha']

/-- The text of a temporary file names the program with which it was written. -/
theorem temp_line {p a x : Text} (hp : IsWord p) (ha : ∀ c ∈ a, isSpace c = false) :
    ∃ src, ScriptLine (trimSpace (T "#! " ++ p ++ T " " ++ a ++ '\n' :: x)) p a src := by
  have unb : ∀ {w : Text}, (∀ c ∈ w, isSpace c = false) → Unbroken w := by
    intro w hw
    rw [unbroken_iff]
    intro c hc
    cases hr : reSpace c with
    | false => rfl
    | true => have := hw c hc; rw [reSpace_isSpace hr] at this; cases this
  -- the first line without its blanks
  have hT : T "#! " = ['#', '!', ' '] := by decide
  have hT2 : T "#!" = ['#', '!'] := by decide
  have hT3 : T " " = [' '] := by decide
  obtain ⟨b0, b, e, hb0, hb, h1, h2⟩ := trimmed_trimSpace (T "#! " ++ p ++ T " " ++ a ++ '\n' :: x)
  have hb0' : b0 = [] := by
    cases b0 with
    | nil => rfl
    | cons c b0 =>
      rw [hT] at e
      simp only [List.cons_append, List.cons.injEq] at e
      have := hb0 c (by simp)
      rw [← e.1] at this
      exact absurd this (by decide)
  subst hb0'
  rw [List.nil_append] at e
  generalize ht : trimSpace (T "#! " ++ p ++ T " " ++ a ++ '\n' :: x) = t at *
  have e' : (T "#! " ++ p ++ T " " ++ a ++ ['\n']) ++ x = t ++ b := by rw [← e]; simp
  rcases List.append_eq_append_iff.1 e' with ⟨c', h3, h4⟩ | ⟨c', h3, h4⟩
  · -- there is a source
    obtain ⟨bl, src, e6, hbl, hsrc⟩ := split_source c'
    by_cases ha0 : a = []
    · subst ha0
      refine ⟨src, [' '], [], [' '], '\n' :: c', '\n' :: bl, ?_, by simp [IsGap], hp.1, unb hp.2, by simp, unb ha, by simp, by simp [LineBlank], .inr ⟨_, rfl⟩, by rw [e6]; rfl, ?_, hsrc⟩
      · rw [h3, hT, hT2, hT3]; simp
      · intro c hc
        rcases List.mem_cons.1 hc with rfl | hc
        · simp [IsGap]
        · exact hbl c hc
    · refine ⟨src, [' '], [' '], [], '\n' :: c', '\n' :: bl, ?_, by simp [IsGap], hp.1, unb hp.2, by simp, unb ha, by simp [ha0], by simp [LineBlank], .inr ⟨_, rfl⟩, by rw [e6]; rfl, ?_, hsrc⟩
      · rw [h3, hT, hT2, hT3]; simp
      · intro c hc
        rcases List.mem_cons.1 hc with rfl | hc
        · simp [IsGap]
        · exact hbl c hc
  · -- there is none: the first line without the blanks at its end
    have hc' : ∀ c ∈ c', isSpace c = true := fun c hc => hb c (by rw [h4]; simp [hc])
    have ht1 : Trimmed (T "#! " ++ p ++ T " " ++ a ++ ['\n']) t := ⟨[], c', by rw [h3]; rfl, by simp, hc', h1, h2⟩
    have lastp : ∀ (pre w : Text), w ≠ [] → (∀ c ∈ w, isSpace c = false) → ∀ c, (pre ++ w).getLast? = some c → isSpace c = false := by
      intro pre w hw hs c hc
      rw [getLast_append_ne _ hw] at hc
      exact hs c (List.mem_of_getLast? hc)
    by_cases ha0 : a = []
    · subst ha0
      have ht2 : Trimmed (T "#! " ++ p ++ T " " ++ [] ++ ['\n']) (T "#! " ++ p) := by
        refine ⟨[], [' ', '\n'], by rw [hT3]; simp, by simp, ?_, ?_, lastp _ _ hp.1 hp.2⟩
        · intro c hc; simp only [List.mem_cons, List.not_mem_nil, or_false] at hc
          rcases hc with rfl | rfl <;> decide
        · intro c hc
          rw [hT] at hc
          simp only [List.cons_append, List.head?_cons, Option.some.injEq] at hc
          subst hc; decide
      have : t = T "#! " ++ p := by rw [← trimSpace_of_trimmed ht1, trimSpace_of_trimmed ht2]
      subst this
      refine ⟨[], [' '], [], [], [], [], by rw [hT, hT2]; simp, by simp [IsGap], hp.1, unb hp.2, by simp, unb ha, by simp, by simp [LineBlank], .inl rfl, rfl, by simp, by simp⟩
    · have ht2 : Trimmed (T "#! " ++ p ++ T " " ++ a ++ ['\n']) (T "#! " ++ p ++ T " " ++ a) := by
        refine ⟨[], ['\n'], by simp, by simp, ?_, ?_, lastp _ _ ha0 ha⟩
        · intro c hc; simp only [List.mem_cons, List.not_mem_nil, or_false] at hc
          subst hc; decide
        · intro c hc
          rw [hT] at hc
          simp only [List.cons_append, List.head?_cons, Option.some.injEq] at hc
          subst hc; decide
      have : t = T "#! " ++ p ++ T " " ++ a := by rw [← trimSpace_of_trimmed ht1, trimSpace_of_trimmed ht2]
      subst this
      refine ⟨[], [' '], [' '], [], [], [], by rw [hT, hT2, hT3]; simp, by simp [IsGap], hp.1, unb hp.2, by simp, unb ha, by simp [ha0], by simp [LineBlank], .inl rfl, rfl, by simp, by simp⟩

/-- **C81**: a script given as text is written to a temporary file, with its arguments after its source, and started with its program, the argument of its first line and the file. -/
theorem C81_text_script (env : Env) (temp script p a src : Text) (args : List Text) (h : ScriptLine (trimSpace script) p a src)
    (hp : IsWord p) (ha : ∀ c ∈ a, isSpace c = false) :
    fromString env temp script args =
      .viaFile (T "#! " ++ p ++ T " " ++ a ++ T "\n" ++ src ++ (if args = [] then [] else T " " ++ join (T " ") args ++ T "\n"))
        (some ⟨p, (if a = [] then [] else [a]) ++ [temp]⟩) := by
  have e := C80_script (trimSpace script) p a src (by rw [trim_trim]; exact h)
  have hc : withArgs (T "#! " ++ p ++ T " " ++ a ++ ['\n'] ++ src) args =
      T "#! " ++ p ++ T " " ++ a ++ '\n' :: (src ++ (if args = [] then [] else T " " ++ join (T " ") args ++ T "\n")) := by
    unfold withArgs
    have h1 : T " " = [' '] := by decide
    have h2 : T "\n" = ['\n'] := by decide
    by_cases ha : args = [] <;> simp [ha, h1, h2]
  unfold fromString
  simp only [e, if_pos hp.1, viaTemp]
  rw [hc]
  obtain ⟨src', hl⟩ := temp_line (x := src ++ (if args = [] then [] else T " " ++ join (T " ") args ++ T "\n")) hp ha
  rw [C81_file env temp _ p a src' [] hl (by simp)]
  have h2 : T "\n" = ['\n'] := by decide
  rw [h2]
  simp

/-- **C81**: a text that is the name of a command is started with each argument as one argument. -/
theorem C81_command (env : Env) (temp script : Text) (args : List Text) (hs : ¬ T "#!" <+: trimSpace script)
    (hf : env.found (trimSpace script) = true) (ha : ∀ x ∈ args, ∀ c ∈ x, ¬ IsWild c) :
    fromString env temp script args = .direct ⟨trimSpace script, args⟩ := by
  have e := C80_plain (trimSpace script) (by rw [trim_trim]; exact hs)
  rw [trim_trim] at e
  unfold fromString
  simp only [e, ne_eq, not_true_eq_false, if_false, hf, if_true, glob_plain env false args ha]

/-- **C81**: a single word that is not a command is an error. -/
theorem C81_unknown (env : Env) (temp script : Text) (args : List Text) (hs : ¬ T "#!" <+: trimSpace script)
    (hf : env.found (trimSpace script) = false) (hw : ∀ c ∈ trimSpace script, c ∉ T " \t|&$,;(){}<>[]") :
    fromString env temp script args = .error := by
  have e := C80_plain (trimSpace script) (by rw [trim_trim]; exact hs)
  rw [trim_trim] at e
  have hc : isCommand (trimSpace script) = true := by
    unfold isCommand
    simp only [Bool.not_eq_true', List.any_eq_false, decide_eq_true_eq]
    exact hw
  unfold fromString
  simp only [e, ne_eq, not_true_eq_false, if_false, hf, Bool.false_eq_true, hc, if_true]

/-- **C81**: another text is run by the shell, from a temporary file with its arguments at the end. -/
theorem C81_shell (env : Env) (temp script : Text) (args : List Text) (hs : ¬ T "#!" <+: trimSpace script)
    (hf : env.found (trimSpace script) = false) (hw : ∃ c ∈ trimSpace script, c ∈ T " \t|&$,;(){}<>[]") (hsh : IsWord env.shell) :
    fromString env temp script args =
      .viaFile (T "#! " ++ env.shell ++ T "\n" ++ trimSpace script ++ (if args = [] then [] else T " " ++ join (T " ") args ++ T "\n")) (some ⟨env.shell, [temp]⟩) := by
  have e := C80_plain (trimSpace script) (by rw [trim_trim]; exact hs)
  rw [trim_trim] at e
  have hc : isCommand (trimSpace script) = false := by
    unfold isCommand
    simp only [Bool.not_eq_false', List.any_eq_true, decide_eq_true_eq]
    exact hw
  have h1 : T " " = [' '] := by decide
  have h2 : T "\n" = ['\n'] := by decide
  have hwa : withArgs (T "#! " ++ env.shell ++ ['\n'] ++ trimSpace script) args =
      T "#! " ++ env.shell ++ T "\n" ++ trimSpace script ++ (if args = [] then [] else T " " ++ join (T " ") args ++ T "\n") := by
    unfold withArgs
    by_cases ha : args = [] <;> simp [ha, h1, h2]
  -- the first line of the file has no argument, and no blank after the program
  have hline : ∃ src, ScriptLine (trimSpace (T "#! " ++ env.shell ++ T "\n" ++ trimSpace script ++ (if args = [] then [] else T " " ++ join (T " ") args ++ T "\n"))) env.shell [] src := by
    obtain ⟨c0, hc0, _⟩ := hw
    have hne : trimSpace script ≠ [] := List.ne_nil_of_mem hc0
    have hT : T "#! " = ['#', '!', ' '] := by decide
    have hT2 : T "#!" = ['#', '!'] := by decide
    obtain ⟨_, _, _, _, _, _, hlast⟩ := trimmed_trimSpace script
    obtain ⟨b0, b, e0, hb0, hb, h3, h4⟩ := trimmed_trimSpace (T "#! " ++ env.shell ++ T "\n" ++ trimSpace script ++ (if args = [] then [] else T " " ++ join (T " ") args ++ T "\n"))
    generalize trimSpace (T "#! " ++ env.shell ++ T "\n" ++ trimSpace script ++ (if args = [] then [] else T " " ++ join (T " ") args ++ T "\n")) = t at *
    have hb0' : b0 = [] := by
      cases b0 with
      | nil => rfl
      | cons c b0 =>
        rw [hT] at e0
        simp only [List.cons_append, List.cons.injEq] at e0
        have := hb0 c (by simp)
        rw [← e0.1] at this
        exact absurd this (by decide)
    subst hb0'
    rw [List.nil_append] at e0
    rcases List.append_eq_append_iff.1 e0 with ⟨c', h5, h6⟩ | ⟨c', h5, h6⟩
    · obtain ⟨bl, src, e6, hbl, hsrc⟩ := split_source (trimSpace script ++ c')
      refine ⟨src, [' '], [], [], '\n' :: (trimSpace script ++ c'), '\n' :: bl, ?_, by simp [IsGap], hsh.1, ?_, by simp, by simp [Unbroken], by simp, by simp [LineBlank], .inr ⟨_, rfl⟩, by rw [e6]; rfl, ?_, hsrc⟩
      · rw [h5, hT, hT2, h2]; simp
      · rw [unbroken_iff]
        intro c hc
        cases hr : reSpace c with
        | false => rfl
        | true => have := hsh.2 c hc; rw [reSpace_isSpace hr] at this; cases this
      · intro c hc
        rcases List.mem_cons.1 hc with rfl | hc
        · simp [IsGap]
        · exact hbl c hc
    · -- the source ends with a character that is not a space, so that nothing of it is trimmed
      have hc' : ∀ c ∈ c', isSpace c = true := fun c hc => hb c (by rw [h6]; simp [hc])
      have hcn : c' = [] := by
        cases hcl : c'.getLast? with
        | none => exact List.getLast?_eq_none_iff.1 hcl
        | some z =>
          have hz := hc' z (List.mem_of_getLast? hcl)
          have hc'ne : c' ≠ [] := by rintro rfl; simp at hcl
          have l1 : (t ++ c').getLast? = some z := by rw [getLast_append_ne _ hc'ne]; exact hcl
          rw [← h5, getLast_append_ne _ hne] at l1
          rw [hlast z l1] at hz; cases hz
      subst hcn
      rw [List.append_nil] at h5
      subst h5
      obtain ⟨bl, src, e6, hbl, hsrc⟩ := split_source (trimSpace script)
      refine ⟨src, [' '], [], [], '\n' :: trimSpace script, '\n' :: bl, ?_, by simp [IsGap], hsh.1, ?_, by simp, by simp [Unbroken], by simp, by simp [LineBlank], .inr ⟨_, rfl⟩, by rw [e6]; rfl, ?_, hsrc⟩
      · rw [hT, hT2, h2]; simp
      · rw [unbroken_iff]
        intro c hc
        cases hr : reSpace c with
        | false => rfl
        | true => have := hsh.2 c hc; rw [reSpace_isSpace hr] at this; cases this
      · intro c hc
        rcases List.mem_cons.1 hc with rfl | hc
        · simp [IsGap]
        · exact hbl c hc
  obtain ⟨src, hl⟩ := hline
  unfold fromString
  simp only [e, ne_eq, not_true_eq_false, if_false, hf, Bool.false_eq_true, hc, viaTemp]
  rw [hwa, C81_file env temp _ env.shell [] src [] hl (by simp)]
  simp

/-- An environment with `ls` and a shell. -/
def smallEnv : Env := ⟨fun c => c = T "ls", fun _ => [], T "/bin/sh"⟩

/-- **C81**, not for every list of arguments: two lists give the same command when the text is run by the shell, and what an argument says is run. -/
theorem C81_not_separate :
    fromString smallEnv (T "f") (T "grep -r x") [T "a b"] = fromString smallEnv (T "f") (T "grep -r x") [T "a", T "b"] ∧
    fromString smallEnv (T "f") (T "grep -r x") [T "; ls"] = fromString smallEnv (T "f") (T "grep -r x ;") [T "ls"] := ⟨rfl, rfl⟩

/-- **C81**, not for every file: one with an unknown word and nothing else gives no command and no error; in one with several lines and no program, the first word is the command and the rest are its arguments. -/
theorem C81_not_file :
    fromFile smallEnv (T "f") (T "unknown") [] = none ∧
    fromFile smallEnv (T "f") (T "ls a\nls b") [] = some ⟨T "ls", [T "a\nls", T "b"]⟩ := by
  refine ⟨by decide +kernel, by decide +kernel⟩

/-- **C81**, not for every script: one whose first line has two arguments is run by the shell. -/
theorem C81_not_program :
    ∃ content, fromString smallEnv (T "f") (T "#! /usr/bin/env python -u\nx") [] = .viaFile content (some ⟨T "/bin/sh", [T "f"]⟩) := by
  refine ⟨T "#! /bin/sh\n#! /usr/bin/env python -u\nx", ?_⟩
  have h1 : scriptParts (trimSpace (T "#! /usr/bin/env python -u\nx")) = ([], [], T "#! /usr/bin/env python -u\nx") := by decide +kernel
  have h2 : fromFile smallEnv (T "f") (T "#! /bin/sh\n#! /usr/bin/env python -u\nx") [] = some ⟨T "/bin/sh", [T "f"]⟩ := by decide +kernel
  have h3 : isCommand (T "#! /usr/bin/env python -u\nx") = false := by decide +kernel
  have h4 : smallEnv.found (T "#! /usr/bin/env python -u\nx") = false := by decide +kernel
  have h5 : withArgs (T "#! " ++ smallEnv.shell ++ ['\n'] ++ T "#! /usr/bin/env python -u\nx") [] = T "#! /bin/sh\n#! /usr/bin/env python -u\nx" := by decide +kernel
  unfold fromString
  simp only [h1, h3, h4, ne_eq, not_true_eq_false, if_false, Bool.false_eq_true, viaTemp, h5, h2]

example : ScriptLine (T "#! /bin/sh -e\n\n  echo a") (T "/bin/sh") (T "-e") (T "echo a") := by
  refine ⟨T " ", T " ", [], T "\n\n  echo a", T "\n\n  ", by decide, by simp [T, IsGap], by decide, by simp [T, Unbroken], by simp [T], by simp [T, Unbroken], by decide, ?_, .inr ⟨T "\n  echo a", by decide⟩, by decide, ?_, ?_⟩
  · intro c hc; cases hc
  · intro c hc
    simp [T] at hc
    rcases hc with rfl | rfl <;> simp [IsGap]
  · intro c hc
    simp [T] at hc
    subst hc; simp [IsGap]
example : fromFile smallEnv (T "f") (T "#! /bin/sh -e\necho $1\n") [T "a b"] = some ⟨T "/bin/sh", [T "-e", T "f", T "a b"]⟩ := by decide +kernel
example : smallEnv.found (trimSpace (T " ls ")) = true ∧ Text.hasPrefix (T "#!") (trimSpace (T " ls ")) = false := by
  refine ⟨by decide +kernel, by decide +kernel⟩
example : ∃ c ∈ trimSpace (T "a | b"), c ∈ T " \t|&$,;(){}<>[]" := by decide +kernel
example : Expanded smallEnv true (T "*") [] ∧ Expanded smallEnv false (T "*") [T "*"] := by
  refine ⟨⟨fun _ => ⟨fun h => absurd rfl h, fun _ => rfl⟩, fun h => absurd (.inl rfl) (h '*' (by decide))⟩, ⟨fun _ => ⟨fun h => absurd rfl h, fun _ => rfl⟩, fun h => absurd (.inl rfl) (h '*' (by decide))⟩⟩

private theorem plainStart {s : Text} (h : Text.hasPrefix (T "#!") s = false) : ¬ T "#!" <+: s := by
  intro hp
  rw [(Text.hasPrefix_iff ..).2 hp] at h
  cases h

example := C81_unknown smallEnv (T "tmp") (T "foo") [] (plainStart (by decide +kernel)) (by decide +kernel) (by decide +kernel)
example := C81_shell smallEnv (T "tmp") (T "a | b") [T "c"] (plainStart (by decide +kernel)) (by decide +kernel) (by decide +kernel) ⟨by decide, by decide⟩
private theorem someScript : ScriptLine (trimSpace (T "#! /bin/sh -e\n\n  echo a\n")) (T "/bin/sh") (T "-e") (T "echo a") := by
  have e : trimSpace (T "#! /bin/sh -e\n\n  echo a\n") = T "#! /bin/sh -e\n\n  echo a" := by decide +kernel
  rw [e]
  refine ⟨T " ", T " ", [], T "\n\n  echo a", T "\n\n  ", by decide, by simp [T, IsGap], by decide, by simp [T, Unbroken], by simp [T], by simp [T, Unbroken], by decide, ?_, .inr ⟨T "\n  echo a", by decide⟩, by decide, ?_, ?_⟩
  · intro c hc; cases hc
  · intro c hc
    simp [T] at hc
    rcases hc with rfl | rfl <;> simp [IsGap]
  · intro c hc
    simp [T] at hc
    subst hc; simp [IsGap]

example := C80_script _ _ _ _ someScript
example := C81_text_script smallEnv (T "tmp") (T "#! /bin/sh -e\n\n  echo a\n") (T "/bin/sh") (T "-e") (T "echo a") [T "b"] someScript ⟨by decide, by decide⟩ (by decide)
example := C81_file smallEnv (T "f") (T "#! /bin/sh -e\n\n  echo a\n") (T "/bin/sh") (T "-e") (T "echo a") [T "b"] someScript (by simp [T, IsWild])
example := C80_no_script (T "#!\n") (by
  have e : trimSpace (T "#!\n") = T "#!" := by decide +kernel
  rw [e]
  rintro ⟨b, p, g, a, f, r, h, _, hp, _⟩
  have := congrArg List.length h
  simp [T] at this
  exact hp this.2.1)


end Verif.Props
