import Verif.Lemmas.CmdContext
/-!
# C53: the context made from the command line

A source alone is a command line with only that source; the theorems relate a command line with many sources to those with one, and then say what one
source gives.
-/

namespace Verif.Props
open Verif Text Spec CmdContext Lemmas

variable {V : Type}

/-- The result for a command line with one source. -/
def alone (env : Env V) (ignoreMissing : Bool) : Source → Outcome V
  | .ifExist f => createContext env [] [f] [] false ignoreMissing
  | .imported f => createContext env [f] [] [] false ignoreMissing
  | .var v => createContext env [] [] [v] false ignoreMissing

/-- The sources of a command line, in the order of their priority: the last one wins. -/
def sources (files ifExist vars : List Text) : List Source := ifExist.map Source.ifExist ++ files.map Source.imported ++ vars.map Source.var

/-- The dictionary of a result that is not an error. -/
def dictOf : Outcome V → GoMap V
  | .ok ctx => ctx.getD []
  | _ => []

private theorem alone_run (env : Env V) (im : Bool) (s : Source) : alone env im s = run env im none (sourceDefs env s) := by
  cases s with
  | ifExist f => rfl
  | imported f => rfl
  | var v =>
    show run env im none (allDefs env [] [] [v]) = _
    rw [allDefs_sources]
    simp

/-- For every key, the value is that of the last source that defines it. -/
theorem C53_last (env : Env V) (files ifExist vars : List Text) (mode im : Bool) (ctx : Option (GoMap V))
    (h : createContext env files ifExist vars mode im = .ok ctx) (k : Text) :
    LastOf ((sources files ifExist vars).map (fun s => dictOf (alone env im s))) k ((ctx.getD []).get? k) := by
  unfold createContext at h
  rw [allDefs_sources] at h
  have hds : ∀ k, LastOf ([] : List (GoMap V)) k (valueIn (if mode then some [] else none) k) := by
    intro k
    have : valueIn (if mode then some ([] : GoMap V) else none) k = none := by cases mode <;> rfl
    rw [this]; intro d hd; simp at hd
  have := (run_sources env im _ _ ctx [] hds h).2 k
  rw [List.nil_append] at this
  have e : (fun s => dictOf (alone env im s)) = (fun s => contents (run env im none (sourceDefs env s))) := by
    funext s
    rw [alone_run]
    cases run env im none (sourceDefs env s) <;> rfl
  rw [e]
  exact this

/-- There is a context exactly when every source alone gives one. -/
theorem C53_errors (env : Env V) (files ifExist vars : List Text) (mode im : Bool) :
    (∃ ctx, createContext env files ifExist vars mode im = .ok ctx) ↔ ∀ s ∈ sources files ifExist vars, ∃ ctx, alone env im s = .ok ctx := by
  unfold createContext
  rw [allDefs_sources]
  constructor
  · rintro ⟨ctx, h⟩ s hs
    rw [alone_run]
    have hds : ∀ k, LastOf ([] : List (GoMap V)) k (valueIn (if mode then some [] else none) k) := by
      intro k
      have : valueIn (if mode then some ([] : GoMap V) else none) k = none := by cases mode <;> rfl
      rw [this]; intro d hd; simp at hd
    exact (run_sources env im _ _ ctx [] hds h).1 s hs
  · intro h
    refine run_sources_ok env im _ _ ?_
    intro s hs
    obtain ⟨c, hc⟩ := h s hs
    exact ⟨c, by rw [← alone_run]; exact hc⟩

/-! ## What one source gives -/

/-- A text is a string value that is not nil. -/
def Faithful (env : Env V) : Prop := ∀ t, env.str (env.ofText t) = some t ∧ env.isNil (env.ofText t) = false

/-- The result is a context with the values of a dictionary. -/
def GivesDict (r : Outcome V) (d : GoMap V) : Prop := ∃ ctx, r = .ok ctx ∧ ∀ k, (ctx.getD []).get? k = d.get? k

/-- What a text stands for as the value of a variable: the content of the file of that name, or the data written in the text, or the text itself. -/
inductive TextValue (env : Env V) : Text → V → Prop
  | file (t data : Text) (v : V) : env.read t = some data → env.convertAny data = some v → TextValue env t v
  | data (t : Text) (v : V) : env.read t = none → env.convertAny t = some v → TextValue env t v
  | text (t : Text) : env.read t = none → env.convertAny t = none → TextValue env t (env.ofText t)

private theorem run_one (env : Env V) (im : Bool) (nv : FileDef V) : run env im none [nv] = step env im none nv := by
  simp only [run]
  cases step env im none nv <;> rfl

private theorem step_text (env : Env V) (hf : Faithful env) (im : Bool) (nv : FileDef V) (t : Text) (hv : nv.value = env.ofText t) (h1 : t ≠ []) (h2 : t ≠ T "-") :
    step env im none nv = (match load env nv t with
      | .dict d => .ok (setAll none d)
      | .nothing => .ok none
      | .missing => if im then .ok none else .error
      | .failed => .error) := by
  obtain ⟨hs, hn⟩ := hf t
  unfold step
  rw [hv, hn, hs]
  have h2' : ¬ t = ['-'] := h2
  simp only [Option.getD_some, h1, h2', if_false]
  rfl

/-- An imported file that holds a dictionary gives the entries of that dictionary, whether it is required or not. -/
theorem C53_import (env : Env V) (hf : Faithful env) (im : Bool) (f data : Text) (v : V) (d : GoMap V) (h1 : f ≠ []) (h2 : f ≠ T "-")
    (hr : env.read f = some data) (hc : env.convertAny data = some v) (hd : env.asDict v = some d) (hw : d.WF) :
    GivesDict (alone env im (.imported f)) d ∧ GivesDict (alone env im (.ifExist f)) d := by
  constructor
  · rw [alone_run]
    refine ⟨setAll none d, ?_, setAll_wf hw⟩
    rw [sourceDefs, run_one, step_text env hf im _ f rfl h1 h2]
    simp [load, hr, hc, hd]
  · rw [alone_run]
    refine ⟨setAll none d, ?_, setAll_wf hw⟩
    rw [sourceDefs, run_one, step_text env hf im _ f rfl h1 h2]
    simp [load, hr, hc, hd]

/-- An imported file that holds something else gives a variable named as the file without folder and extension. -/
theorem C53_named (env : Env V) (hf : Faithful env) (im : Bool) (folder name ext data : Text) (v : V) (hfo : FolderPart folder) (hn : FileName (name ++ ext))
    (he : NameExt name ext) (h2 : folder ++ (name ++ ext) ≠ T "-") (hr : env.read (folder ++ (name ++ ext)) = some data) (hc : env.convertAny data = some v)
    (hd : env.asDict v = none) :
    GivesDict (alone env im (.imported (folder ++ (name ++ ext)))) [(name, v)] ∧ GivesDict (alone env im (.ifExist (folder ++ (name ++ ext)))) [(name, v)] := by
  have h1 : folder ++ (name ++ ext) ≠ [] := by
    have := hn.1
    intro h
    rw [List.append_eq_nil_iff] at h
    exact this h.2
  have ht := title_name hfo hn he
  constructor
  · rw [alone_run]
    refine ⟨setAll none [(name, v)], ?_, setAll_wf (by simp [GoMap.WF])⟩
    rw [sourceDefs, run_one, step_text env hf im _ _ rfl h1 h2]
    simp [load, hr, hc, hd, ht]
  · rw [alone_run]
    refine ⟨setAll none [(name, v)], ?_, setAll_wf (by simp [GoMap.WF])⟩
    rw [sourceDefs, run_one, step_text env hf im _ _ rfl h1 h2]
    simp [load, hr, hc, hd, ht]

/-- A missing file is an error if it is required, unless missing files are ignored; then, or if it is not required, it gives nothing. -/
theorem C53_missing_partial (env : Env V) (hf : Faithful env) (im : Bool) (f : Text) (h1 : f ≠ []) (h2 : f ≠ T "-") (hr : env.read f = none) :
    alone env im (.ifExist f) = .ok none ∧ alone env im (.imported f) = if im then .ok none else .error := by
  constructor
  · rw [alone_run, sourceDefs, run_one, step_text env hf im _ f rfl h1 h2]
    simp [load, hr]
  · rw [alone_run, sourceDefs, run_one, step_text env hf im _ f rfl h1 h2]
    simp [load, hr]

/-- A file that cannot be parsed is an error, even if it is not required. -/
theorem C53_invalid (env : Env V) (hf : Faithful env) (im : Bool) (f data : Text) (h1 : f ≠ []) (h2 : f ≠ T "-") (hr : env.read f = some data)
    (hc : env.convertAny data = none) : alone env im (.ifExist f) = .error ∧ alone env im (.imported f) = .error := by
  constructor
  · rw [alone_run, sourceDefs, run_one, step_text env hf im _ f rfl h1 h2]
    simp [load, hr, hc]
  · rw [alone_run, sourceDefs, run_one, step_text env hf im _ f rfl h1 h2]
    simp [load, hr, hc]

/-- A variable `name=value` that is not structured data defines that name only. -/
theorem C53_var (env : Env V) (hf : Faithful env) (im : Bool) (name value : Text) (v : V) (hn : '=' ∉ name) (h0 : name ≠ []) (h1 : value ≠ []) (h2 : value ≠ T "-")
    (hm : env.convertMap (name ++ '=' :: value) = none) (hv : TextValue env value v) : GivesDict (alone env im (.var (name ++ '=' :: value))) [(name, v)] := by
  rw [alone_run]
  refine ⟨setAll none [(name, v)], ?_, setAll_wf (by simp [GoMap.WF])⟩
  have hdefs : sourceDefs env (.var (name ++ '=' :: value)) = [{ name := name, value := env.ofText value }] := by
    simp only [sourceDefs, varDefs]
    rw [hm, split_equal hn]
    simp [h1]
  rw [hdefs, run_one, step_text env hf im _ value rfl h1 h2]
  cases hv with
  | file data _ hr hc => simp [load, hr, hc, h0]
  | data _ hr hc => simp [load, hr, hc, h0]
  | text hr hc => simp [load, hr, hc, h0]

/-- A variable with no value, `name=`, is an empty text, when the data of the variable is an empty map. -/
theorem C53_empty (env : Env V) (hf : Faithful env) (im : Bool) (name : Text) (hn : '=' ∉ name) (hm : env.convertMap (name ++ T "=") = some []) :
    GivesDict (alone env im (.var (name ++ T "="))) [(name, env.ofText [])] := by
  rw [alone_run]
  refine ⟨setAll none [(name, env.ofText [])], ?_, setAll_wf (by simp [GoMap.WF])⟩
  have hdefs : sourceDefs env (.var (name ++ T "=")) = [{ name := name, value := env.ofText [] }] := by
    simp only [sourceDefs, varDefs]
    rw [hm, show name ++ T "=" = name ++ '=' :: [] by simp [T], split_equal hn]
    simp
  rw [hdefs, run_one]
  obtain ⟨hs, hnil⟩ := hf []
  simp [step, hs, hnil]

/-- What a value of structured data stands for: texts are as for a variable, other values and the empty text are as they are. -/
inductive DataValue (env : Env V) : V → V → Prop
  | other (v : V) : env.str v = none → DataValue env v v
  | empty (v : V) : env.str v = some [] → DataValue env v v
  | file (v : V) (t data : Text) (w : V) : env.str v = some t → t ≠ [] → t ≠ T "-" → env.read t = some data → env.convertAny data = some w → DataValue env v w
  | data (v : V) (t : Text) (w : V) : env.str v = some t → t ≠ [] → t ≠ T "-" → env.read t = none → env.convertAny t = some w → DataValue env v w
  | text (v : V) (t : Text) : env.str v = some t → t ≠ [] → t ≠ T "-" → env.read t = none → env.convertAny t = none → DataValue env v v

private theorem step_data (env : Env V) (im : Bool) (name : Text) (v w : V) (hn : name ≠ []) (hnil : env.isNil v = false) (h : DataValue env v w)
    (ctx : Option (GoMap V)) : step env im ctx { name := name, value := v } = .ok (setAll ctx [(name, w)]) := by
  unfold step
  cases h with
  | other h => simp [hnil, h]
  | empty h => simp [hnil, h]
  | file t data _ h h1 h2 hr hc =>
    have h2' : ¬ t = ['-'] := h2
    simp [hnil, h, h1, h2', load, hr, hc, hn]
  | data t _ h h1 h2 hr hc =>
    have h2' : ¬ t = ['-'] := h2
    simp [hnil, h, h1, h2', load, hr, hc, hn]
  | text t h h1 h2 hr hc =>
    have h2' : ¬ t = ['-'] := h2
    simp [hnil, h, h1, h2', load, hr, hc, hn]

private theorem run_data (env : Env V) (im : Bool) (data data' : GoMap V) (hl : data.length = data'.length)
    (h : ∀ (i : Nat) (a b : Text × V), data[i]? = some a → data'[i]? = some b → a.1 = b.1 ∧ a.1 ≠ [] ∧ env.isNil a.2 = false ∧ DataValue env a.2 b.2)
    (ctx : Option (GoMap V)) : data ≠ [] → run env im ctx (data.map (fun e => { name := e.1, value := e.2 })) = .ok (setAll ctx data') := by
  induction data generalizing data' ctx with
  | nil => intro h; exact absurd rfl h
  | cons a data ih =>
    intro _
    cases data' with
    | nil => simp at hl
    | cons b data' =>
      obtain ⟨h1, h2, h3, h4⟩ := h 0 a b (by simp) (by simp)
      simp only [List.map_cons, run]
      rw [step_data env im a.1 a.2 b.2 h2 h3 h4]
      dsimp only
      by_cases hd : data = []
      · subst hd
        have : data' = [] := by simpa using hl.symm
        subst this
        simp [run, h1]
      · rw [ih data' (by simpa using hl) (fun i x y hx hy => h (i + 1) x y (by simpa using hx) (by simpa using hy)) _ hd]
        simp [setAll, h1]

/-- A variable that is structured data defines its names, each with what its value stands for. The order of the entries is any.
The hypothesis on nil values holds for the converters of the program, which give an empty dictionary instead (`C59_null`).
Missing: names that are empty. -/
theorem C53_data_partial (env : Env V) (im : Bool) (v : Text) (data data' : GoMap V) (hm : env.convertMap v = some data) (hne : data ≠ []) (hw : data'.WF)
    (hl : data.length = data'.length)
    (h : ∀ (i : Nat) (a b : Text × V), data[i]? = some a → data'[i]? = some b → a.1 = b.1 ∧ a.1 ≠ [] ∧ env.isNil a.2 = false ∧ DataValue env a.2 b.2) :
    GivesDict (alone env im (.var v)) data' := by
  rw [alone_run]
  refine ⟨setAll none data', ?_, setAll_wf hw⟩
  have hdefs : sourceDefs env (.var v) = data.map (fun e => { name := e.1, value := e.2 }) := by
    simp only [sourceDefs, varDefs]
    rw [hm]
    have : ¬ data.length = 0 := by rw [List.length_eq_zero_iff]; exact hne
    simp [this]
  rw [hdefs]
  exact run_data env im data data' hl h none hne

/-- The standard input as a source. -/
theorem C53_stdin (env : Env V) (hf : Faithful env) (im : Bool) (v : V) (hc : env.convertAny env.stdin = some v) :
    (∀ d, env.asDict v = some d → d.WF → GivesDict (alone env im (.imported (T "-"))) d) ∧
      (env.asDict v = none → GivesDict (alone env im (.imported (T "-"))) [(T "STDIN", v)]) := by
  obtain ⟨hs, hnil⟩ := hf (T "-")
  have hne : ¬ (T "-" = []) := by decide
  have heq : T "-" = ['-'] := rfl
  rw [heq] at hs hnil hne
  constructor
  · intro d hd hw
    rw [alone_run]
    refine ⟨setAll none d, ?_, setAll_wf hw⟩
    rw [sourceDefs, run_one]
    simp only [step, hs, hnil, Option.getD_some, hne, if_false, heq, if_true, loadStdin, hc, hd]
    rfl
  · intro hd
    rw [alone_run]
    refine ⟨setAll none [(T "STDIN", v)], ?_, setAll_wf (by simp [GoMap.WF])⟩
    rw [sourceDefs, run_one]
    simp only [step, hs, hnil, Option.getD_some, hne, if_false, heq, if_true, loadStdin, hc, hd]
    rfl

/-! ## Surprises -/

/-- A value without name that is not a file is lost: it is neither in the context nor reported. -/
theorem C53_not_unnamed (env : Env V) (hf : Faithful env) (im : Bool) (v : Text) (h0 : v ≠ []) (h1 : v ≠ T "-") (he : '=' ∉ v) (hm : env.convertMap v = none)
    (hr : env.read v = none) : alone env im (.var v) = .ok none := by
  rw [alone_run]
  have hdefs : sourceDefs env (.var v) = [{ name := [], value := env.ofText v, unnamed := true }] := by
    simp only [sourceDefs, varDefs]
    rw [hm, split_none he]
    simp
  rw [hdefs, run_one, step_text env hf im _ v rfl h0 h1]
  simp [load, hr]

/-- Importing a file with an empty name is not an error, although no file has that name: it defines a variable without name. -/
theorem C53_not_missing (env : Env V) (hf : Faithful env) (im : Bool) : GivesDict (alone env im (.imported [])) [([], env.ofText [])] := by
  rw [alone_run]
  refine ⟨setAll none [([], env.ofText [])], ?_, setAll_wf (by simp [GoMap.WF])⟩
  rw [sourceDefs, run_one]
  obtain ⟨hs, hnil⟩ := hf []
  simp [step, hs, hnil]

/-- Values for examples: a text, a map of texts, or nil. -/
inductive SampleValue
  | text (t : Text)
  | map (m : GoMap Text)
  | nil
deriving DecidableEq

/-- An environment with one file and variables `a=b`. -/
def sampleEnv : Env SampleValue where
  str := fun v => match v with | .text t => some t | _ => none
  isNil := fun v => decide (v = .nil)
  ofText := .text
  asDict := fun v => match v with | .map m => some (m.map (fun e => (e.1, .text e.2))) | _ => none
  convertMap := fun t => if t = T "{x: 1, y: 2}" then some [(T "x", .text (T "1")), (T "y", .text (T "2"))] else none
  convertAny := fun t => if t = T "x: 0, z: 0" then some (.map [(T "x", T "0"), (T "z", T "0")]) else none
  read := fun f => if f = T "conf/vars.yml" then some (T "x: 0, z: 0") else none
  stdin := []

example : Faithful sampleEnv ∧
    (∃ ctx, createContext sampleEnv [T "conf/vars.yml"] [T "none.yml"] [T "{x: 1, y: 2}", T "y=3"] false false = .ok (some ctx) ∧
      ctx.get? (T "x") = some (.text (T "1")) ∧ ctx.get? (T "y") = some (.text (T "3")) ∧ ctx.get? (T "z") = some (.text (T "0"))) ∧
    createContext sampleEnv [T "none.yml"] [] [T "y=3"] false false = .error ∧
    alone sampleEnv false (.var (T "word")) = .ok none :=
  ⟨fun t => ⟨rfl, rfl⟩,
    ⟨[(T "x", .text (T "1")), (T "z", .text (T "0")), (T "y", .text (T "3"))], by rfl, by decide +kernel, by decide +kernel, by decide +kernel⟩, by rfl, by rfl⟩

/-- An environment where data is in files, in the standard input and in arguments. -/
def otherEnv : Env SampleValue where
  str := fun v => match v with | .text t => some t | _ => none
  isNil := fun v => decide (v = .nil)
  ofText := .text
  asDict := fun v => match v with | .map m => some (m.map (fun e => (e.1, .text e.2))) | _ => none
  convertMap := fun t => if t = T "{x: a.txt, y: 2}" then some [(T "x", .text (T "a.txt")), (T "y", .text (T "2"))] else if t = T "name=" then some [] else none
  convertAny := fun t => if t = T "x: 0" then some (.map [(T "x", T "0")]) else if t = T "word" then some (.text t) else none
  read := fun f => if f = T "conf/vars.yml" then some (T "x: 0") else if f = T "a.txt" then some (T "word") else if f = T "bad.yml" then some (T "{") else none
  stdin := T "word"

theorem otherEnv_faithful : Faithful otherEnv := fun _ => ⟨rfl, rfl⟩

example : ∃ ctx, createContext otherEnv [T "a.txt"] [T "conf/vars.yml"] [T "a=1"] false false = .ok ctx ∧
    LastOf ((sources [T "a.txt"] [T "conf/vars.yml"] [T "a=1"]).map (fun s => dictOf (alone otherEnv false s))) (T "a") ((ctx.getD []).get? (T "a")) := by
  have h : createContext otherEnv [T "a.txt"] [T "conf/vars.yml"] [T "a=1"] false false = .ok (some [(T "x", .text (T "0")), (T "a", .text (T "1"))]) := by rfl
  exact ⟨_, h, C53_last otherEnv _ _ _ _ _ _ h _⟩
example : GivesDict (alone otherEnv false (.imported (T "conf/vars.yml"))) [(T "x", .text (T "0"))] :=
  (C53_import otherEnv otherEnv_faithful false (T "conf/vars.yml") (T "x: 0") (.map [(T "x", T "0")]) _ (by decide) (by decide) rfl rfl rfl (by simp [GoMap.WF])).1
example : GivesDict (alone otherEnv false (.imported (T "a.txt"))) [(T "a", .text (T "word"))] :=
  (C53_named otherEnv otherEnv_faithful false [] (T "a") (T ".txt") (T "word") (.text (T "word")) (.inl rfl) ⟨by decide, by decide, by decide, by decide⟩
    (.some _ (T "txt") (by decide)) (by decide) rfl rfl rfl).1
example : alone otherEnv false (.ifExist (T "none.yml")) = .ok none ∧ alone otherEnv false (.imported (T "none.yml")) = if false then .ok none else .error :=
  C53_missing_partial otherEnv otherEnv_faithful false (T "none.yml") (by decide) (by decide) rfl
example : alone otherEnv false (.ifExist (T "bad.yml")) = .error ∧ alone otherEnv false (.imported (T "bad.yml")) = .error :=
  C53_invalid otherEnv otherEnv_faithful false (T "bad.yml") (T "{") (by decide) (by decide) rfl rfl
example : GivesDict (alone otherEnv false (.var (T "v=a.txt"))) [(T "v", .text (T "word"))] :=
  C53_var otherEnv otherEnv_faithful false (T "v") (T "a.txt") (.text (T "word")) (by decide) (by decide) (by decide) (by decide) rfl (.file _ (T "word") _ rfl rfl)
example : GivesDict (alone otherEnv false (.var (T "v=1"))) [(T "v", .text (T "1"))] :=
  C53_var otherEnv otherEnv_faithful false (T "v") (T "1") _ (by decide) (by decide) (by decide) (by decide) rfl (.text _ rfl rfl)
example : GivesDict (alone otherEnv false (.var (T "name="))) [(T "name", .text [])] := C53_empty otherEnv otherEnv_faithful false (T "name") (by decide) rfl
example : GivesDict (alone otherEnv false (.var (T "{x: a.txt, y: 2}"))) [(T "x", .text (T "word")), (T "y", .text (T "2"))] :=
  C53_data_partial otherEnv false (T "{x: a.txt, y: 2}") [(T "x", .text (T "a.txt")), (T "y", .text (T "2"))] _ rfl (by simp) (by simp [GoMap.WF, T]) rfl (by
    intro i a b ha hb
    match i, ha, hb with
    | 0, ha, hb =>
      cases ha; cases hb
      exact ⟨rfl, by decide, rfl, .file _ (T "a.txt") (T "word") _ rfl (by decide) (by decide) rfl rfl⟩
    | 1, ha, hb =>
      cases ha; cases hb
      exact ⟨rfl, by decide, rfl, .text _ (T "2") rfl (by decide) (by decide) rfl rfl⟩
    | i + 2, ha, _ => simp at ha)
example : GivesDict (alone otherEnv false (.imported (T "-"))) [(T "STDIN", .text (T "word"))] := (C53_stdin otherEnv otherEnv_faithful false _ rfl).2 rfl


end Verif.Props
