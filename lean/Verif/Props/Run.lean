import Verif.Model.Run
import Verif.Props.Script
/-!
C93: what `run` and `exec` do with the command, its result and the temporary file.
-/

namespace Verif.Props
open Verif Verif.Text Verif.Value Verif.Spec Verif.Run Verif.Lemmas

/-- Nothing fails but, maybe, the command. -/
structure Working (w : World) : Prop where
  create : w.createFails = none
  write : w.writeFails = none
  read : ∀ p, w.readFails p = none

/-- What the caller gets for the end of a command: what it wrote, or an error with what it wrote on the standard error. -/
def Reported : Outcome → Res → Prop
  | .ok out _, r => r = .text out
  | .failed e err, r => r = .error (T "error " ++ e ++ T ": " ++ err)

/-- The command as `GetCommandFromString` makes it when nothing fails. -/
theorem made_eq {w : World} (hw : Working w) (d : Disk) (script : Text) (args : List Text) :
    commandFromString w d script args =
      match Script.fromString w.env w.temp script args with
      | .error => ⟨d, none, .error (T "executable file not found in $PATH")⟩
      | .direct c => ⟨d, none, .ok (some c)⟩
      | .viaFile content c => ⟨put d w.temp content, some w.temp, .ok c⟩ := by
  unfold commandFromString Script.fromString
  have hs : ∀ content, saveTempFile w d content args = ⟨put d w.temp (Script.withArgs content args), some w.temp,
      .ok (Script.fromFile w.env w.temp (Script.withArgs content args) [])⟩ := by
    intro content
    simp [saveTempFile, hw.create, hw.write, commandFromFile, readFile, put, hw.read, Except.map]
  simp only [hs, Script.viaTemp]
  split
  · rfl
  · split
    · rfl
    · split <;> rfl

/-- **C93**: at most one command is started. What it gives is what the caller gets; without a command there is never a text. -/
theorem C93_result (w : World) (d : Disk) (reply : Include.Reply) (args : List Value) :
    (∃ cmd d', (run w d reply args).started = [(cmd, d')] ∧ Reported (w.launch cmd d').1 (run w d reply args).result) ∨
    ((run w d reply args).started = [] ∧ ∀ t, (run w d reply args).result ≠ .text t) := by
  have key : ∀ m : Made, (∃ cmd d', (start w m).started = [(cmd, d')] ∧ Reported (w.launch cmd d').1 (start w m).result) ∨
      ((start w m).started = [] ∧ ∀ t, (start w m).result ≠ .text t) := by
    intro m
    unfold start
    cases hc : m.cmd with
    | error e => exact .inr ⟨rfl, by simp⟩
    | ok c =>
      cases c with
      | none => exact .inr ⟨rfl, by simp⟩
      | some cmd =>
        refine .inl ⟨cmd, m.disk, rfl, ?_⟩
        simp only
        cases (w.launch cmd m.disk).1 <;> rfl
  unfold run
  cases reply with
  | error e => exact .inr ⟨rfl, by simp⟩
  | panic => exact .inr ⟨rfl, by simp⟩
  | text command file =>
    simp only
    split <;> exact key _

/-- **C93**: no command is started when the text of the command cannot be rendered. -/
theorem C93_unrendered (w : World) (d : Disk) (e : Text) (args : List Value) : run w d (.error e) args = ⟨.error e, [], d⟩ := rfl

/-- **C93**: a command that exists is started with its arguments, each of them one argument, whatever they contain (except wildcards); no file is made. -/
theorem C93_command (w : World) (d : Disk) (command : Text) (args : List Value) (hs : ¬ T "#!" <+: trimSpace command)
    (hf : w.env.found (trimSpace command) = true) (ha : ∀ x ∈ commandArgs args, ∀ c ∈ x, ¬ IsWild c) :
    (run w d (.text command []) args).started = [(⟨trimSpace command, commandArgs args⟩, d)] ∧
    Reported (w.launch ⟨trimSpace command, commandArgs args⟩ d).1 (run w d (.text command []) args).result ∧
    (run w d (.text command []) args).disk = (w.launch ⟨trimSpace command, commandArgs args⟩ d).2 := by
  have h : commandFromString w d command (commandArgs args) = ⟨d, none, .ok (some ⟨trimSpace command, commandArgs args⟩)⟩ := by
    unfold commandFromString
    have hp : Script.scriptParts (trimSpace command) = ([], [], trimSpace command) := by
      have := C80_plain (trimSpace command) (by rw [trim_trim]; exact hs)
      rw [trim_trim] at this
      exact this
    rw [hp]
    simp [hf, glob_plain w.env false _ ha]
  have hr : run w d (.text command []) args = start w ⟨d, none, .ok (some ⟨trimSpace command, commandArgs args⟩)⟩ := by
    simp [run, h]
  rw [hr]
  refine ⟨rfl, ?_, rfl⟩
  simp only [start]
  cases (w.launch ⟨trimSpace command, commandArgs args⟩ d).1 <;> rfl

/-- **C93**: the command gets the text of each argument, in order; a single argument that is a dictionary or nil is not given. -/
theorem C93_arguments (w : World) (d : Disk) (command : Text) (args : List Value) (hs : ¬ T "#!" <+: trimSpace command)
    (hf : w.env.found (trimSpace command) = true) (ha : ∀ x ∈ args.map sprint, ∀ c ∈ x, ¬ IsWild c) :
    ((∀ v, args = [v] → v ≠ .nil ∧ ∀ e, v ≠ .dict e) →
      (run w d (.text command []) args).started = [(⟨trimSpace command, args.map sprint⟩, d)]) ∧
    (∀ v, args = [v] → (v = .nil ∨ ∃ e, v = .dict e) → (run w d (.text command []) args).started = [(⟨trimSpace command, []⟩, d)]) := by
  constructor
  · intro h
    have hc : commandArgs args = args.map sprint := by
      unfold commandArgs
      split
      · exact absurd rfl ((h _ rfl).2 _)
      · exact absurd rfl (h _ rfl).1
      · rfl
    have := (C93_command w d command args hs hf (by rw [hc]; exact ha)).1
    rw [hc] at this
    exact this
  · rintro v rfl hv
    have hc : commandArgs [v] = [] := by
      rcases hv with rfl | ⟨e, rfl⟩ <;> rfl
    have := (C93_command w d command [v] hs hf (by rw [hc]; simp)).1
    rw [hc] at this
    exact this

/-- A call that goes through a temporary file: the command finds the file, which is removed after it. -/
def ThroughFile (w : World) (d : Disk) (cmd : Script.Cmd) (content : Text) (c : Call) : Prop :=
  c.started = [(cmd, put d w.temp content)] ∧ Reported (w.launch cmd (put d w.temp content)).1 c.result ∧
    c.disk w.temp = none ∧ ∀ p, p ≠ w.temp → c.disk p = (w.launch cmd (put d w.temp content)).2 p

theorem through_file {w : World} (hw : Working w) {d : Disk} {command content : Text} {args : List Value} {cmd : Script.Cmd}
    (h : Script.fromString w.env w.temp command (commandArgs args) = .viaFile content (some cmd)) :
    ThroughFile w d cmd content (run w d (.text command []) args) := by
  have hr : run w d (.text command []) args = start w ⟨put d w.temp content, some w.temp, .ok (some cmd)⟩ := by
    simp [run, made_eq hw, h]
  rw [hr]
  refine ⟨rfl, ?_, ?_, ?_⟩
  · simp only [start]
    cases (w.launch cmd (put d w.temp content)).1 <;> rfl
  · simp [start, remove]
  · intro p hp
    simp [start, remove, hp]

/-- **C93**: another text is given to the shell in a temporary file, with the arguments at the end of it. -/
theorem C93_shell (w : World) (hw : Working w) (d : Disk) (command : Text) (args : List Value) (hs : ¬ T "#!" <+: trimSpace command)
    (hf : w.env.found (trimSpace command) = false) (hc : ∃ c ∈ trimSpace command, c ∈ T " \t|&$,;(){}<>[]") (hsh : IsWord w.env.shell) :
    ThroughFile w d ⟨w.env.shell, [w.temp]⟩
      (T "#! " ++ w.env.shell ++ T "\n" ++ trimSpace command ++ (if commandArgs args = [] then [] else T " " ++ join (T " ") (commandArgs args) ++ T "\n"))
      (run w d (.text command []) args) :=
  through_file hw (C81_shell w.env w.temp command (commandArgs args) hs hf hc hsh)

/-- **C93**: a script is given to its program, in a temporary file. -/
theorem C93_script (w : World) (hw : Working w) (d : Disk) (command p a src : Text) (args : List Value)
    (h : ScriptLine (trimSpace command) p a src) (hp : IsWord p) (ha : ∀ c ∈ a, isSpace c = false) :
    ThroughFile w d ⟨p, (if a = [] then [] else [a]) ++ [w.temp]⟩
      (T "#! " ++ p ++ T " " ++ a ++ T "\n" ++ src ++ (if commandArgs args = [] then [] else T " " ++ join (T " ") (commandArgs args) ++ T "\n"))
      (run w d (.text command []) args) :=
  through_file hw (C81_text_script w.env w.temp command p a src (commandArgs args) h hp ha)

/-- **C93**: a file that is rendered as it is, and is a script, is given to its program with the arguments; the files are only changed by the command. -/
theorem C93_file (w : World) (hw : Working w) (d : Disk) (command file content p a src : Text) (args : List Value) (hn : file ≠ [])
    (hd : d file = some content) (h : ScriptLine (trimSpace content) p a src) (ha : ∀ x ∈ commandArgs args, ∀ c ∈ x, ¬ IsWild c) :
    let cmd : Script.Cmd := ⟨p, (if a = [] then [] else [a]) ++ file :: commandArgs args⟩
    (run w d (.text command file) args).started = [(cmd, d)] ∧ Reported (w.launch cmd d).1 (run w d (.text command file) args).result ∧
      (run w d (.text command file) args).disk = (w.launch cmd d).2 := by
  intro cmd
  have hr : run w d (.text command file) args = start w ⟨d, none, .ok (some cmd)⟩ := by
    simp [run, hn, commandFromFile, readFile, hd, hw.read, Except.map, C81_file w.env file content p a src _ h ha, cmd]
  rw [hr]
  refine ⟨rfl, ?_, rfl⟩
  simp only [start]
  cases (w.launch cmd d).1 <;> rfl

/-- Whatever is run, and whatever fails, a file that the commands do not touch is as it was, except the temporary file. -/
theorem C93_untouched (w : World) (d : Disk) (reply : Include.Reply) (args : List Value) (p : Text) (hp : p ≠ w.temp)
    (hl : ∀ cmd d', (w.launch cmd d').2 p = d' p) : (run w d reply args).disk p = d p := by
  have key : ∀ m : Made, (m.temp = none ∨ m.temp = some w.temp) → (start w m).disk p = m.disk p := by
    intro m hm
    unfold start
    rcases hm with hm | hm
    · cases m.cmd with
      | error e => simp [hm]
      | ok c => cases c <;> simp [hm, hl]
    · cases m.cmd with
      | error e => simp [hm, remove, hp]
      | ok c => cases c <;> simp [hm, remove, hp, hl]
  have hsave : ∀ content as, ((saveTempFile w d content as).temp = none ∨ (saveTempFile w d content as).temp = some w.temp) ∧
      (saveTempFile w d content as).disk p = d p := by
    intro content as
    unfold saveTempFile
    split
    · exact ⟨.inl rfl, rfl⟩
    · split
      · exact ⟨.inl rfl, by simp [put, hp]⟩
      · exact ⟨.inr rfl, by simp [put, hp]⟩
  have hmade : ∀ s as, ((commandFromString w d s as).temp = none ∨ (commandFromString w d s as).temp = some w.temp) ∧
      (commandFromString w d s as).disk p = d p := by
    intro s as
    unfold commandFromString
    simp only
    split
    · exact hsave _ _
    · split
      · exact ⟨.inl rfl, rfl⟩
      · split
        · exact ⟨.inl rfl, rfl⟩
        · exact hsave _ _
  cases reply with
  | error e => rfl
  | panic => rfl
  | text command file =>
    simp only [run]
    split
    · exact key _ (.inl rfl)
    · rw [key _ (hmade _ _).1, (hmade _ _).2]

/-- **C93**, unless the temporary file cannot be written: however the call ends (the file cannot be made or read, the command cannot be found, the command
fails), there is no temporary file after it, if the command does not make it again. What is missing: `C93_not_removed`. -/
theorem C93_removed_partial (w : World) (d : Disk) (reply : Include.Reply) (args : List Value) (hw : w.writeFails = none) (hd : d w.temp = none)
    (hl : ∀ cmd d', d' w.temp = none → (w.launch cmd d').2 w.temp = none) : (run w d reply args).disk w.temp = none := by
  have key : ∀ m : Made, (m.temp = some w.temp ∨ (m.temp = none ∧ m.disk w.temp = none)) → (start w m).disk w.temp = none := by
    intro m hm
    unfold start
    rcases hm with hm | ⟨hm, hn⟩
    · cases m.cmd with
      | error e => simp [hm, remove]
      | ok c => cases c <;> simp [hm, remove]
    · cases m.cmd with
      | error e => simp [hm, hn]
      | ok c => cases c <;> simp [hm, hn, hl]
  have hsave : ∀ content as, (saveTempFile w d content as).temp = some w.temp ∨
      ((saveTempFile w d content as).temp = none ∧ (saveTempFile w d content as).disk w.temp = none) := by
    intro content as
    unfold saveTempFile
    split
    · exact .inr ⟨rfl, hd⟩
    · split
      · rename_i h; rw [hw] at h; cases h
      · exact .inl rfl
  cases reply with
  | error e => exact hd
  | panic => exact hd
  | text command file =>
    simp only [run]
    split
    · exact key _ (.inr ⟨rfl, hd⟩)
    · apply key
      unfold commandFromString
      simp only
      split
      · exact hsave _ _
      · split
        · exact .inr ⟨rfl, hd⟩
        · split
          · exact .inr ⟨rfl, hd⟩
          · exact hsave _ _

/-- The surroundings of the examples: a shell, no command is known, and nothing fails. -/
def plainWorld : World where
  env := ⟨fun c => c = T "ls", fun _ => [], T "/bin/sh"⟩
  temp := T "/tmp/exec_1"
  createFails := none
  writeFails := none
  readFails := fun _ => none
  launch := fun cmd d => (if d (T "/tmp/exec_1") = none then .ok (T "direct") [] else if cmd.name = T "/bin/sh" then .ok (T "out") (T "warn") else .failed (T "exit status 1") (T "bad"), d)

/-- When the temporary file cannot be written, it is left. -/
theorem C93_not_removed : ∃ (w : World) (d : Disk) (command : Text), d w.temp = none ∧ (∀ cmd d', (w.launch cmd d').2 = d') ∧
    (run w d (.text command []) []).disk w.temp ≠ none :=
  ⟨{ plainWorld with writeFails := some (T "no space left on device", 3) }, fun _ => none, T "a | b", rfl, fun _ _ => rfl, by decide +kernel⟩

theorem run_none {w : World} (hw : Working w) {d : Disk} {command file content : Text} {args : List Value} (hn : file ≠ []) (hd : d file = some content)
    (h : Script.fromFile w.env file content (commandArgs args) = none) : run w d (.text command file) args = ⟨.nothing, [], d⟩ := by
  simp [run, hn, commandFromFile, readFile, hd, hw.read, Except.map, h, start]

/-- A file with the name of a program that does not exist: no command is started and there is no error. -/
theorem C93_not_reported : ∃ (w : World) (d : Disk) (file : Text), Working w ∧ d file = some (T "unknown\n") ∧
    run w d (.text (T "unknown\n") file) [] = ⟨.nothing, [], d⟩ :=
  ⟨plainWorld, fun p => if p = T "f" then some (T "unknown\n") else none, T "f", ⟨rfl, rfl, fun _ => rfl⟩, by decide,
    run_none (content := T "unknown\n") ⟨rfl, rfl, fun _ => rfl⟩ (by decide) (by decide) (by decide +kernel)⟩

/-- **C93**: a call gives nothing, without error, only if the text designates a file whose content names a program that does not exist, or a script whose
first line is not understood when it is read again. -/
theorem C93_nothing (w : World) (d : Disk) (reply : Include.Reply) (args : List Value) (h : (run w d reply args).result = .nothing) :
    (run w d reply args).started = [] ∧ ∃ command file, reply = .text command file ∧
      ((file ≠ [] ∧ ∃ content, d file = some content ∧ Script.fromFile w.env file content (commandArgs args) = none) ∨
       (file = [] ∧ ∃ content, Script.fromString w.env w.temp command (commandArgs args) = .viaFile content none)) := by
  have key : ∀ m : Made, (start w m).result = .nothing → m.cmd = .ok none ∧ (start w m).started = [] := by
    intro m hm
    unfold start at hm ⊢
    cases hc : m.cmd with
    | error e => rw [hc] at hm; cases hm
    | ok c =>
      cases c with
      | none => exact ⟨rfl, rfl⟩
      | some cmd =>
        rw [hc] at hm
        simp only at hm
        split at hm <;> cases hm
  cases reply with
  | error e => cases h
  | panic => cases h
  | text command file =>
    simp only [run] at h ⊢
    split at h
    · rename_i hf
      rw [if_pos hf]
      obtain ⟨h1, h2⟩ := key _ h
      refine ⟨h2, command, file, rfl, .inl ⟨hf, ?_⟩⟩
      simp only [commandFromFile, readFile] at h1
      split at h1 <;> simp only [Except.map, reduceCtorEq, Except.ok.injEq] at h1
      rename_i c hc _
      exact ⟨c, hc, h1⟩
    · rename_i hf
      rw [if_neg hf]
      obtain ⟨h1, h2⟩ := key _ h
      refine ⟨h2, command, file, rfl, .inr ⟨by simpa using hf, ?_⟩⟩
      have hsave : ∀ content, (saveTempFile w d content (commandArgs args)).cmd = .ok none →
          Script.viaTemp w.env w.temp content (commandArgs args) = .viaFile (Script.withArgs content (commandArgs args)) none := by
        intro content hx
        unfold saveTempFile at hx
        split at hx
        · cases hx
        · split at hx
          · cases hx
          · simp only [commandFromFile, readFile, put, if_true] at hx
            split at hx <;> simp only [Except.map, reduceCtorEq, Except.ok.injEq] at hx
            rename_i hc _
            simp only [Option.some.injEq] at hc
            subst hc
            simp [Script.viaTemp, hx]
      unfold commandFromString at h1
      unfold Script.fromString
      simp only at h1 ⊢
      split at h1
      · rename_i hp; rw [if_pos hp]; exact ⟨_, hsave _ h1⟩
      · rename_i hp
        rw [if_neg hp]
        split at h1
        · cases h1
        · rename_i hq
          rw [if_neg hq]
          split at h1
          · cases h1
          · rename_i hr
            rw [if_neg hr]
            exact ⟨_, hsave _ h1⟩

/-- **C93**: `exec` gives the data of the output if it is data, and what `run` gives otherwise. -/
theorem C93_exec (convert : Text → Option Value) (w : World) (d : Disk) (reply : Include.Reply) (args : List Value) :
    (∀ t v, (run w d reply args).result = .text t → convert t = some v → exec convert w d reply args = .data v) ∧
    ((∀ t v, (run w d reply args).result = .text t → convert t ≠ some v) → exec convert w d reply args = .same (run w d reply args).result) := by
  unfold exec
  cases hr : (run w d reply args).result with
  | text t =>
    cases hc : convert t with
    | none =>
      refine ⟨?_, fun _ => by simp [hc]⟩
      intro t' v h hv
      cases h
      rw [hc] at hv; cases hv
    | some v =>
      refine ⟨?_, fun h => absurd hc (h t v rfl)⟩
      intro t' v' h hv
      cases h
      rw [hc] at hv; cases hv; simp [hc]
  | nothing => simp
  | error e => simp
  | panic => simp

/-- The hypotheses are met: a command with an argument that a shell would interpret, and a pipe. -/
example : (run plainWorld (fun _ => none) (.text (T "ls") []) [.str (T "a; b")]).started = [(⟨T "ls", [T "a; b"]⟩, fun _ => none)] := by
  have e : trimSpace (T "ls") = T "ls" := by decide +kernel
  have := (C93_command plainWorld (fun _ => none) (T "ls") [.str (T "a; b")] (by rw [e]; decide) (by rw [e]; decide +kernel)
    (by simp [commandArgs, sprint, T, IsWild])).1
  rw [e] at this
  exact this

example : (run plainWorld (fun _ => none) (.text (T "a | b") []) []).result = .text (T "out") := by
  have e : trimSpace (T "a | b") = T "a | b" := by decide +kernel
  exact (C93_shell plainWorld ⟨rfl, rfl, fun _ => rfl⟩ (fun _ => none) (T "a | b") [] (by rw [e]; decide) (by rw [e]; decide +kernel)
    (by rw [e]; decide) ⟨by decide, by decide⟩).2.1

example : (run plainWorld (fun _ => none) (.text (T "a | b") []) []).disk (T "/tmp/exec_1") = none :=
  C93_removed_partial plainWorld (fun _ => none) _ _ rfl rfl (fun _ _ h => h)

end Verif.Props
