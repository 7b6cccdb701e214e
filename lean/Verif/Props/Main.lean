import Verif.Model.Main
import Verif.Model.Files
import Verif.Props.Args
import Verif.Lemmas.Wrap
/-!
# C73, C74: the command, its exit status and its arguments
-/

namespace Verif.Props
open Verif Text Spec Main

/-! ## C73: the exit status -/

/-- The work is prepared: the arguments are read, the folder of sources is there, the context and the template are made. -/
structure Prepared (env : Env) (args : List Text) (f : Flags) (source target : Text) (used : Text) : Prop where
  flags : parseArgs env args = some f
  noVersion : f.version = false
  sourceAt : env.abs f.source = some source
  found : env.missing source = false
  targetAt : env.abs (if f.target = [] then f.source else f.target) = some target
  context : env.context { f with ignoreImport := f.ignoreImport || f.ignorePaths } = .ok used
  template : env.template (if f.removeEmpty then f.substitutes ++ [T "/^\\s*$/d"] else f.substitutes) = true

private theorem run_cases (env : Env) (args : List Text) :
    (∃ f source target used, Prepared env args f source target used ∧ f.list = false ∧ env.chdir source = true ∧
      ∃ ns valid, names env f source (f.stdin || env.piped) used = some (ns, valid) ∧
      run env args = finish env f ⟨source, target, f.overwrite, f.print, if f.removeEmpty then f.substitutes ++ [T "/^\\s*$/d"] else f.substitutes, ns⟩ valid) ∨
    ((run env args).job = none ∧ ((run env args).listed = true → ∃ f source target used, Prepared env args f source target used ∧ f.list = true) ∧
      ((run env args).cleaned = true ↔ parseArgs env args ≠ none) ∧
      ((run env args).code = 0 ∨ (run env args).code = 1 ∨ (run env args).code = 3 ∨ (run env args).code = -1) ∧
      ((run env args).code = 0 → parseArgs env args = none ∨ ∃ f, parseArgs env args = some f ∧ (f.version = true ∨
        (∃ s, env.abs f.source = some s ∧ env.missing s = true ∧ (f.ignoreSource = true ∨ f.ignorePaths = true)) ∨
        (f.list = true ∧ ∃ source target used, Prepared env args f source target used)))) := by
  unfold run
  cases hp : parseArgs env args with
  | none => exact .inr ⟨rfl, by simp, by simp, .inl rfl, fun _ => .inl rfl⟩
  | some f =>
    simp only
    by_cases hv : f.version = true
    · rw [if_pos hv]
      exact .inr ⟨rfl, by simp, by simp, .inl rfl, fun _ => .inr ⟨f, rfl, .inl hv⟩⟩
    · rw [if_neg hv]
      cases hs : env.abs f.source with
      | none => exact .inr ⟨rfl, by simp [panicked], by simp [panicked], by simp [panicked], by simp [panicked]⟩
      | some source =>
        simp only
        by_cases hm : env.missing source = true
        · rw [if_pos hm]
          refine .inr ⟨rfl, by simp, by simp, ?_, fun h => .inr ⟨f, rfl, .inr (.inl ⟨source, hs, hm, ?_⟩)⟩⟩
          · simp only; split <;> simp
          · simp only at h
            split at h
            · rename_i h'; simpa using h'
            · cases h
        · rw [if_neg hm]
          cases ht : env.abs (if f.target = [] then f.source else f.target) with
          | none => exact .inr ⟨rfl, by simp [panicked], by simp [panicked], by simp [panicked], by simp [panicked]⟩
          | some target =>
            simp only
            unfold work
            simp only
            cases hc : env.context { f with ignoreImport := f.ignoreImport || f.ignorePaths } with
            | panic => exact .inr ⟨rfl, by simp [panicked], by simp [panicked], by simp [panicked], by simp [panicked]⟩
            | error => exact .inr ⟨rfl, by simp, by simp, by simp, by simp⟩
            | ok used =>
              simp only
              by_cases htp : env.template (if f.removeEmpty then f.substitutes ++ [T "/^\\s*$/d"] else f.substitutes) = true
              · rw [if_neg (by simp [htp])]
                have hprep : Prepared env args f source target used := ⟨hp, by simpa using hv, hs, by simpa using hm, ht, hc, htp⟩
                by_cases hl : f.list = true
                · rw [if_pos hl]
                  exact .inr ⟨rfl, fun _ => ⟨f, source, target, used, hprep, hl⟩, by simp, by simp, fun _ => .inr ⟨f, rfl, .inr (.inr ⟨hl, source, target, used, hprep⟩)⟩⟩
                · rw [if_neg hl]
                  by_cases hd : env.chdir source = true
                  · rw [if_neg (by simp [hd])]
                    cases hn : names env f source (f.stdin || env.piped) used with
                    | none => exact .inr ⟨rfl, by simp [panicked], by simp [panicked], by simp [panicked], by simp [panicked]⟩
                    | some n =>
                      obtain ⟨ns, valid⟩ := n
                      exact .inl ⟨f, source, target, used, hprep, by simpa using hl, hd, ns, valid, hn, rfl⟩
                  · rw [if_pos (by simp [hd])]
                    exact .inr ⟨rfl, by simp [panicked], by simp [panicked], by simp [panicked], by simp [panicked]⟩
              · rw [if_pos (by simpa using htp)]
                exact .inr ⟨rfl, by simp, by simp, by simp, by simp⟩

private theorem finish_job (env : Env) (f : Flags) (job : Job) (valid : Bool) :
    (finish env f job valid).job = some job ∧ (finish env f job valid).listed = false ∧ (finish env f job valid).cleaned = true := by
  unfold finish
  split
  · exact ⟨rfl, rfl, rfl⟩
  · split
    · exact ⟨rfl, rfl, rfl⟩
    · split <;> exact ⟨rfl, rfl, rfl⟩

private theorem finish_code (env : Env) (f : Flags) (job : Job) (valid : Bool) :
    ((finish env f job valid).code = 0 ↔ valid = true ∧ ∃ files, env.process job = some (files, true) ∧
      (f.print = false → ∀ u, env.format files = u → u ≠ .panic)) ∧
    ((finish env f job valid).code = 0 ∨ (finish env f job valid).code = 1 ∨ (finish env f job valid).code = -1) := by
  unfold finish
  cases hp : env.process job with
  | none => simp
  | some r =>
    obtain ⟨files, good⟩ := r
    simp only
    by_cases hpr : f.print = true
    · rw [if_pos hpr]
      cases good <;> cases valid <;> simp [hpr]
    · rw [if_neg hpr]
      cases hf : env.format files <;> cases good <;> cases valid <;> simp [hf, hpr]

/-- C73. A status of zero: the arguments could not be read, only the version or a list was asked, the folder of sources is missing and this is accepted,
or all the files were processed without error (and the exclusions were valid). -/
theorem C73_zero_partial (env : Env) (args : List Text) (h : (run env args).code = 0) : parseArgs env args = none ∨
    ∃ f, parseArgs env args = some f ∧ (f.version = true ∨
      (∃ s, env.abs f.source = some s ∧ env.missing s = true ∧ (f.ignoreSource = true ∨ f.ignorePaths = true)) ∨
      (f.list = true ∧ ∃ source target used, Prepared env args f source target used) ∨
      (∃ source target used ns, Prepared env args f source target used ∧ names env f source (f.stdin || env.piped) used = some (ns, true) ∧
        ∃ job files, (run env args).job = some job ∧ job.templates = ns ∧ env.process job = some (files, true))) := by
  rcases run_cases env args with ⟨f, source, target, used, hp, hl, hd, ns, valid, hn, hr⟩ | ⟨_, _, _, _, h0⟩
  · rw [hr] at h
    obtain ⟨rfl, files, hf, _⟩ := (finish_code env f _ valid).1.1 h
    exact .inr ⟨f, hp.flags, .inr (.inr (.inr ⟨source, target, used, ns, hp, hn, _, files, by rw [hr]; exact (finish_job _ _ _ _).1, rfl, hf⟩))⟩
  · rcases h0 h with h1 | ⟨f, hf, h1 | h1 | h1⟩
    · exact .inl h1
    · exact .inr ⟨f, hf, .inl h1⟩
    · exact .inr ⟨f, hf, .inr (.inl h1)⟩
    · exact .inr ⟨f, hf, .inr (.inr (.inl h1))⟩

/-- C73. Conversely the status is zero when all of this goes well. -/
theorem C73_success (env : Env) (args : List Text) (f : Flags) (source target used : Text) (ns files : List Text) (hp : Prepared env args f source target used)
    (hl : f.list = false) (hd : env.chdir source = true) (hn : names env f source (f.stdin || env.piped) used = some (ns, true))
    (hj : ∀ job : Job, job.templates = ns → job.source = source → job.target = target → env.process job = some (files, true))
    (hf : ∀ u, env.format files = u → u ≠ .panic) : (run env args).code = 0 := by
  rcases run_cases env args with ⟨f', source', target', used', hp', hl', hd', ns', valid, hn', hr⟩ | ⟨h1, _⟩
  · have e1 : f' = f := by have := hp'.flags.symm.trans hp.flags; simpa using this
    subst e1
    have e2 : source' = source := by have := hp'.sourceAt.symm.trans hp.sourceAt; simpa using this
    subst e2
    have e3 : target' = target := by have := hp'.targetAt.symm.trans hp.targetAt; simpa using this
    subst e3
    have e4 : used' = used := by have := hp'.context.symm.trans hp.context; simpa using this
    subst e4
    rw [hn] at hn'
    simp only [Option.some.injEq, Prod.mk.injEq] at hn'
    obtain ⟨rfl, rfl⟩ := hn'
    rw [hr, (finish_code env f' _ true).1]
    exact ⟨rfl, files, hj _ rfl rfl rfl, fun _ => hf⟩
  · exfalso
    unfold run work at h1
    simp only [hp.flags] at h1
    rw [if_neg (by simp [hp.noVersion])] at h1
    simp only [ hp.sourceAt, hp.found, hp.targetAt, hp.context, hp.template, hd, hn, Bool.false_eq_true, if_false, Bool.not_true] at h1
    rw [if_neg (by simp [hl])] at h1
    rw [(finish_job _ _ _ _).1] at h1
    cases h1

/-- C73. When something fails, the status is not zero: a file that cannot be processed, a panic, an invalid exclusion. -/
theorem C73_failed (env : Env) (args : List Text) (job : Job) (h : (run env args).job = some job) :
    (∀ files, env.process job ≠ some (files, true)) → (run env args).code = 1 ∨ (run env args).code = -1 := by
  intro hp
  rcases run_cases env args with ⟨f, source, target, used, hpr, hl, hd, ns, valid, hn, hr⟩ | ⟨h1, _⟩
  · rw [hr] at h ⊢
    have hj := (finish_job env f _ valid).1.symm.trans h
    simp only [Option.some.injEq] at hj
    subst hj
    obtain ⟨h1, h2⟩ := finish_code env f ⟨source, target, f.overwrite, f.print, if f.removeEmpty then f.substitutes ++ [T "/^\\s*$/d"] else f.substitutes, ns⟩ valid
    rcases h2 with h2 | h2
    · obtain ⟨_, files, hf, _⟩ := h1.1 h2
      exact absurd hf (hp files)
    · exact h2
  · rw [h1] at h; cases h

/-- C73. Nothing is processed or listed unless everything before went well. -/
theorem C73_before (env : Env) (args : List Text) (h : (run env args).job ≠ none ∨ (run env args).listed = true) :
    ∃ f source target used, Prepared env args f source target used := by
  rcases run_cases env args with ⟨f, source, target, used, hpr, _⟩ | ⟨h1, h2, _⟩
  · exact ⟨f, source, target, used, hpr⟩
  · rcases h with h | h
    · exact absurd h1 h
    · obtain ⟨f, s, t, u, hp, _⟩ := h2 h
      exact ⟨f, s, t, u, hp⟩

/-- C73. The status tells what could not be prepared: a missing folder or a bad import is 1, a template that cannot be made is 3, a panic is -1. -/
theorem C73_status (env : Env) (args : List Text) (f : Flags) (source target : Text) (hf : parseArgs env args = some f) (hv : f.version = false)
    (hs : env.abs f.source = some source) (ht : env.abs (if f.target = [] then f.source else f.target) = some target) :
    (env.missing source = true → f.ignoreSource = false → f.ignorePaths = false → (run env args).code = 1) ∧
    (env.missing source = false → env.context { f with ignoreImport := f.ignoreImport || f.ignorePaths } = .error → (run env args).code = 1) ∧
    (env.missing source = false → env.context { f with ignoreImport := f.ignoreImport || f.ignorePaths } = .panic → (run env args).code = -1) ∧
    (∀ used, env.missing source = false → env.context { f with ignoreImport := f.ignoreImport || f.ignorePaths } = .ok used →
      (env.template (if f.removeEmpty then f.substitutes ++ [T "/^\\s*$/d"] else f.substitutes) = false ↔ (run env args).code = 3)) := by
  unfold run work
  rw [hf]
  simp only [hv, hs, ht]
  refine ⟨fun h1 h2 h3 => by simp [h1, h2, h3], fun h1 h2 => by simp [h1, h2], fun h1 h2 => by simp [h1, h2, panicked], fun used h1 h2 => ?_⟩
  simp only [h1, h2]
  by_cases htp : env.template (if f.removeEmpty then f.substitutes ++ [T "/^\\s*$/d"] else f.substitutes) = true
  · simp only [htp, Bool.true_eq_false, Bool.not_true, Bool.false_eq_true, if_false, false_iff]
    split
    · decide
    · split
      · simp [panicked]
      · split
        · simp [panicked]
        · rename_i ns valid _
          intro h
          rcases (finish_code env f ⟨source, target, f.overwrite, f.print, if f.removeEmpty then f.substitutes ++ [T "/^\\s*$/d"] else f.substitutes, ns⟩ valid).2 with h' | h' | h' <;>
            · rw [h'] at h; cases h
  · simp [Bool.eq_false_iff.2 htp]

/-- C73. The temporary folder is removed whatever happens, if the arguments could be read. -/
theorem C73_cleaned_partial (env : Env) (args : List Text) : (run env args).cleaned = true ↔ parseArgs env args ≠ none := by
  rcases run_cases env args with ⟨f, source, target, used, hpr, _, _, ns, valid, _, hr⟩ | ⟨_, _, h, _⟩
  · rw [hr, (finish_job _ _ _ _).2.2]
    simp [hpr.flags]
  · exact h

/-- An environment where everything is simple: the arguments are names of files, and only files whose name does not begin with `x` can be processed. -/
private def simpleEnv : Env where
  parse := fun args => some { templates := args }
  abs := some
  missing := fun _ => false
  piped := false
  context := fun _ => .ok []
  template := fun _ => true
  chdir := fun _ => true
  find := fun _ _ _ _ => some []
  rel := fun _ f => f
  lib := ⟨some, fun _ _ => some false⟩
  input := some []
  process := fun j => some (j.templates, j.templates.all (fun t => !hasPrefix (T "x") t))
  format := fun _ => .ok ()

example : (run simpleEnv [T "a", T "@b"]).code = 0 ∧ (run simpleEnv [T "a", T "@b"]).job = some ⟨[], [], false, false, [], [T "a", T "@b"]⟩ := by decide +kernel
example : (run simpleEnv [T "x"]).code = 1 ∧ (run { simpleEnv with missing := fun _ => true } []).code = 1 ∧ (run { simpleEnv with template := fun _ => false } []).code = 3 ∧
    (run { simpleEnv with context := fun _ => .panic } []).code = -1 := by decide +kernel

/-- C73 does not hold for arguments that cannot be read: the status is zero although nothing is done, and the temporary folder stays. -/
theorem C73_not_usage (env : Env) (args : List Text) (h : ∀ l, env.parse l = none) :
    (run env args).code = 0 ∧ (run env args).job = none ∧ (run env args).listed = false ∧ (run env args).cleaned = false := by
  unfold run parseArgs
  simp [h]

/-- C73 does not hold for the formatting of the results: its errors are ignored. -/
theorem C73_not_format (env : Env) (args : List Text) : (run { env with format := fun _ => .error } args).code = (run { env with format := fun _ => .ok () } args).code := by
  unfold run work finish parseArgs names
  rfl

/-- C73. After an invalid exclusion the files that come before it is used are processed all the same: here `a` is, but not `b` nor `c`. -/
theorem C73_not_stopped : ∃ (env : Env) (args : List Text), args = [T "a", T "b", T "c"] ∧ (run env args).code = 1 ∧
    ((run env args).job.map Job.templates) = some [T "a"] :=
  ⟨{ simpleEnv with parse := fun args => some { templates := args, excluded := [T "["] }, lib := ⟨some, fun _ f => if f = T "a" then some false else none⟩ },
    _, rfl, by decide +kernel, by decide +kernel⟩

/-! ## C74: what is processed -/

/-- C74. The folders are the given ones (the target is the source unless another one is given); printing and overwriting are as asked. -/
theorem C74_job (env : Env) (args : List Text) (job : Job) (h : (run env args).job = some job) : ∃ f, parseArgs env args = some f ∧
    env.abs f.source = some job.source ∧ env.abs (if f.target = [] then f.source else f.target) = some job.target ∧ job.overwrite = f.overwrite ∧
    job.print = f.print ∧ ∃ extra, job.substitutes = f.substitutes ++ extra ∧ (extra ≠ [] ↔ f.removeEmpty = true) := by
  rcases run_cases env args with ⟨f, source, target, used, hpr, hl, hd, ns, valid, hn, hr⟩ | ⟨h1, _⟩
  · rw [hr, (finish_job env f _ valid).1] at h
    simp only [Option.some.injEq] at h
    subst h
    refine ⟨f, hpr.flags, hpr.sourceAt, hpr.targetAt, rfl, rfl, if f.removeEmpty then [T "/^\\s*$/d"] else [], ?_, ?_⟩
    · simp only; split <;> simp
    · split <;> simp_all
  · rw [h1] at h; cases h

/-- C74. The files: those found with the patterns, then those given, without the excluded ones and in this order, then the standard input if it is used.
The usual patterns are added only if nothing else is to be processed. -/
theorem C74_files (env : Env) (args : List Text) (job : Job) (h : (run env args).job = some job) : ∃ f found, parseArgs env args = some f ∧
    env.find job.source (if f.recursive = true ∧ f.depth = 0 then 65536 else f.depth) f.follow
      (Args.extend (f.patterns ++ if (f.stdin || env.piped) = false ∧ f.templates = [] then [T "*.gt,*.template"] else [])) = some found ∧
    ((run env args).code = 0 → ∀ ps, ListsAll f.excluded ps → ∀ b : Text → Bool,
      (∀ t, b t = true ↔ ∃ p ∈ ps, ∃ p' t', env.lib.abs p = some p' ∧ env.lib.abs t = some t' ∧ env.lib.pathMatch p' t' = some true) →
      ∃ last, job.templates = ((found ++ f.templates).map (env.rel job.source)).filter (fun t => !b t) ++ last ∧
        ((f.stdin || env.piped) = false → last = []) ∧ (last = [] ∨ ∃ s, env.input = some s ∧ last = [s])) := by
  rcases run_cases env args with ⟨f, source, target, used, hpr, hl, hd, ns, valid, hn, hr⟩ | ⟨h1, _⟩
  · rw [hr, (finish_job env f _ valid).1] at h
    simp only [Option.some.injEq] at h
    subst h
    unfold names depthFor at hn
    simp only at hn
    cases hfind : env.find source (if f.recursive = true ∧ f.depth = 0 then 2 ^ 16 else f.depth) f.follow
        (Args.extend (if (!(f.stdin || env.piped) && f.templates.isEmpty) = true then f.patterns ++ [T "*.gt,*.template"] else f.patterns)) with
    | none => rw [hfind] at hn; cases hn
    | some found =>
      rw [hfind] at hn
      simp only at hn
      refine ⟨f, found, hpr.flags, ?_, ?_⟩
      · rw [← hfind]
        simp only
        congr 2
        · by_cases h1 : (f.stdin || env.piped) = false ∧ f.templates = []
          · rw [if_pos h1, if_pos (by simp [h1.1, h1.2])]
          · rw [if_neg h1, if_neg (by simpa using h1), List.append_nil]
      · rw [hr]
        intro h0 ps hps b hb
        obtain ⟨rfl, _⟩ := (finish_code env f _ valid).1.1 h0
        have key : ∀ kept, Args.exclude env.lib ((found ++ f.templates).map (env.rel source)) f.excluded = (kept, true) →
            kept = ((found ++ f.templates).map (env.rel source)).filter (fun t => !b t) :=
          fun kept hk => C54_excluded env.lib _ _ ps _ hps hk b (fun t _ => hb t)
        by_cases hc : ((f.stdin || env.piped) && used.isEmpty) = true
        · rw [if_pos hc] at hn
          cases hi : env.input with
          | none => rw [hi] at hn; cases hn
          | some s =>
            rw [hi] at hn
            simp only [Option.map_some, Option.some.injEq, Prod.mk.injEq] at hn
            obtain ⟨h1, h2⟩ := hn
            refine ⟨[s], ?_, fun h => ?_, .inr ⟨s, rfl, rfl⟩⟩
            · simp only
              have hk := key _ (Prod.ext rfl h2)
              rw [← h1]
              exact congrArg (· ++ [s]) hk
            · rw [h] at hc; cases hc
        · rw [if_neg hc] at hn
          simp only [Option.some.injEq] at hn
          exact ⟨[], by simp only [List.append_nil]; exact key _ hn, fun _ => rfl, .inl rfl⟩
  · rw [h1] at h; cases h

/-- C74. Arguments that begin with `@` are given to templates as they are, when the parser takes them from its arguments and none begins with the mark. -/
theorem C74_templates_partial (env : Env) (args given : List Text) (f : Flags) (hp : env.parse (args.map markArg) = some f) (ht : f.templates = given.map markArg)
    (hm : ∀ t ∈ given, ¬ T "#!!" <+: t) : ∃ f', parseArgs env args = some f' ∧ f'.templates = given := by
  refine ⟨unmark f, by unfold parseArgs; rw [hp], ?_⟩
  unfold unmark
  simp only [ht, List.map_map]
  conv => rhs; rw [← List.map_id given]
  refine List.map_congr_left (fun t h => ?_)
  simp only [Function.comp, id, markArg]
  split
  · exact Strings.trimPrefix_append _ _
  · exact Strings.trimPrefix_of_not (hm t h)

example : ∃ f, simpleEnv.parse ([T "a", T "@b"].map markArg) = some f ∧ f.templates = [T "a", T "@b"].map markArg := ⟨_, rfl, rfl⟩

/-- **C74**: a command line that cannot be read as it is, but can after the name of the default command, means the latter. -/
theorem C74_default_command (env : Env) (args : List Text) (h : env.parse (args.map markArg) = none)
    (h2 : env.parse ((T "run" :: args).map markArg) ≠ none) : run env args = run env (T "run" :: args) := by
  have hm : (T "run" :: args).map markArg = T "run" :: args.map markArg := by
    rw [List.map_cons]
    congr 1
  have hp : parseArgs env args = parseArgs env (T "run" :: args) := by
    unfold parseArgs
    rw [hm] at h2 ⊢
    rw [h]
    cases hr : env.parse (T "run" :: args.map markArg) with
    | none => exact absurd hr h2
    | some f => rfl
  unfold run
  rw [hp]

example : let env : Env := { simpleEnv with parse := fun args => if args.head? = some (T "run") then some {} else none }
    env.parse ([T "a"].map markArg) = none ∧ env.parse ([T "run", T "a"].map markArg) ≠ none := ⟨rfl, by simp [markArg, show (T "@").hasPrefix (T "run") = false from by decide]⟩

/-- C74 does not hold for arguments that begin with the mark: it is removed. -/
theorem C74_not_marked : ((run simpleEnv [T "#!!a"]).job.map Job.templates) = some [T "a"] := by decide +kernel

/-- C74 does not hold for values of options that begin with `@`: they keep the mark (here an expression of substitution). -/
theorem C74_not_option : ∃ env : Env, env.parse = (fun args => some { substitutes := args }) ∧
    ((run env [T "@a@b"]).job.map Job.substitutes) = some [T "#!!@a@b"] :=
  ⟨{ simpleEnv with parse := fun args => some { substitutes := args } }, rfl, by decide +kernel⟩

/-- C74. Results written to another folder should overwrite by default (main.go:234); the option has already been read, so that they do not: the name of
the result is the one used when files are not overwritten. -/
theorem C74_not_overwrite : ∃ (env : Env) (job : Job), (run env [T "a.txt.gt"]).job = some job ∧ job.source ≠ job.target ∧ job.overwrite = false ∧
    Files.resultName ⟨T "a.txt.gt", job.source, job.target, job.overwrite, false, T "r", true, 0⟩ = some (T "/out/a.generated.txt") :=
  ⟨{ simpleEnv with parse := fun args => some { templates := args, source := T "/src", target := T "/out" } },
    ⟨T "/src", T "/out", false, false, [], [T "a.txt.gt"]⟩, by decide +kernel, by decide, rfl, by decide +kernel⟩

private theorem simplePrepared : Prepared simpleEnv [T "a"] { templates := [T "a"] } [] [] [] := ⟨rfl, rfl, rfl, rfl, rfl, rfl, rfl⟩

example : (run simpleEnv [T "a"]).code = 0 :=
  C73_success simpleEnv [T "a"] _ _ _ _ [T "a"] [T "a"] simplePrepared rfl rfl (by decide +kernel) (by
    intro job h _ _
    show some (job.templates, job.templates.all (fun t => !hasPrefix (T "x") t)) = _
    rw [h]
    decide +kernel) (by rintro u rfl h; cases h)
example := C73_zero_partial simpleEnv [T "a"] (by decide +kernel)
example : (run simpleEnv [T "x"]).code = 1 ∨ (run simpleEnv [T "x"]).code = -1 :=
  C73_failed simpleEnv [T "x"] ⟨[], [], false, false, [], [T "x"]⟩ (by decide +kernel) (by
    intro files h
    have : (simpleEnv.process ⟨[], [], false, false, [], [T "x"]⟩).map Prod.snd = some false := by decide +kernel
    rw [h] at this; cases this)
example := C73_before simpleEnv [T "a"] (.inl (by decide +kernel))
example := C73_status simpleEnv [T "a"] { templates := [T "a"] } [] [] rfl rfl rfl rfl
example := C74_job simpleEnv [T "a"] ⟨[], [], false, false, [], [T "a"]⟩ (by decide +kernel)
example := C74_files simpleEnv [T "a"] ⟨[], [], false, false, [], [T "a"]⟩ (by decide +kernel)
example : ∃ f', parseArgs simpleEnv [T "a", T "@b"] = some f' ∧ f'.templates = [T "a", T "@b"] :=
  C74_templates_partial simpleEnv [T "a", T "@b"] [T "a", T "@b"] _ rfl rfl (by decide)


end Verif.Props
