import Verif.Base.Text

/-!
Model of the family of templates that `GetNewContext` makes (/repo/template/template.go:192-219), with the operations that change one of them. A template is copied with `Template(*t)`, so that maps are shared unless they are made again: they are in a
heap and templates have their addresses. A map is the function that gives the value of each key.
-/

namespace Verif.Contexts
open Verif

/-- `Template` (/repo/template/template.go:24-39), without what is the same for all. `known` and `defs` are in the template of the library: the functions that its parser knows, and its associated templates, with the information that the
name is not the one of the file (`Name() != ParseName`). -/
structure Node (φ τ : Type) where
  folder : Text
  parent : Option Nat
  options : Nat
  functions : Nat
  aliases : Nat
  children : Nat
  known : Text → Option φ
  defs : Text → Option (τ × Bool)

/-- The templates and the maps. -/
structure World (φ τ : Type) where
  nodes : List (Node φ τ)
  opts : List (Text → Bool)
  tables : List (Text → Option φ)
  kids : List (Text → Option Nat)

variable {φ τ : Type}

/-- The options at an address. -/
def World.optsAt (w : World φ τ) (a : Nat) : Text → Bool := (w.opts[a]?).getD fun _ => false
/-- The table of functions at an address. -/
def World.tableAt (w : World φ τ) (a : Nat) : Text → Option φ := (w.tables[a]?).getD fun _ => none
/-- The children at an address. -/
def World.kidsAt (w : World φ τ) (a : Nat) : Text → Option Nat := (w.kids[a]?).getD fun _ => none

/-- The entries of `m` written over those of `t`. -/
def overlay {α : Type} (m t : Text → Option α) : Text → Option α := fun n => (m n).or (t n)

/-- `t.addFunctions(funcMap)` (/repo/template/func_table.go:228-245), the aliases of functions being functions of the map. -/
def addFunctions (w : World φ τ) (t : Node φ τ) (m : Text → Option φ) : World φ τ × Node φ τ :=
  ({ w with tables := w.tables.modify t.functions (overlay m) }, { t with known := overlay m t.known })

/-- `importTemplates(source)` (/repo/template/template.go:332-338). -/
def importDefs (source target : Text → Option (τ × Bool)) : Text → Option (τ × Bool) := fun n =>
  match source n with
  | some (tree, true) => some (tree, true)
  | _ => target n

/-- `init(folder)` (/repo/template/template.go:298-309), without the constants (C49) and delimiters (C48); `builtin` gives the functions that the options enable (`addFuncs`, /repo/template/add_funcs.go:17-51). -/
def initNode (builtin : (Text → Bool) → Text → Option φ) (folder : Text) (w : World φ τ) (t : Node φ τ) : World φ τ × Node φ τ :=
  let r := addFunctions w { t with folder := if folder ≠ [] then folder else t.folder } (builtin (w.optsAt t.options))
  ({ r.1 with kids := r.1.kids ++ [fun _ => none] }, { r.2 with children := r.1.kids.length })

/-- The new template (/repo/template/template.go:198-211). -/
def makeNode (builtin : (Text → Bool) → Text → Option φ) (w : World φ τ) (i : Nat) (t : Node φ τ) (folder : Text) : World φ τ × Node φ τ :=
  let r1 := addFunctions w { t with known := fun _ => none, defs := fun _ => none } (w.tableAt t.functions)
  let r2 := addFunctions r1.1 r1.2 (r1.1.tableAt t.aliases)
  let r3 := initNode builtin folder r2.1 r2.2
  ({ r3.1 with opts := r3.1.opts ++ [w.optsAt t.options] },
    { r3.2 with parent := some i, defs := importDefs t.defs r3.2.defs, options := r3.1.opts.length })

/-- `t.GetNewContext(folder, useCache)` (/repo/template/template.go:192-219); the result is the template. -/
def newContext (builtin : (Text → Bool) → Text → Option φ) (w : World φ τ) (i : Nat) (folder : Text) (useCache : Bool) : World φ τ × Nat :=
  match w.nodes[i]? with
  | none => (w, i)
  | some t =>
    let folder := if folder ≠ [] then folder else t.folder
    match (if useCache then w.kidsAt t.children folder else none) with
    | some j => (w, j)
    | none =>
      let r := makeNode builtin w i t folder
      let w' := { r.1 with nodes := r.1.nodes ++ [r.2] }
      (if useCache then { w' with kids := w'.kids.modify t.children fun m n => if n = folder then some w.nodes.length else m n } else w', w.nodes.length)

/-- `for !local && t.parent != nil { t = t.parent }` (/repo/template/extra_runtime.go:204-208); the number of templates is enough fuel. -/
def top (w : World φ τ) : Nat → Nat → Nat
  | 0, i => i
  | n + 1, i =>
    match (w.nodes[i]?).bind Node.parent with
    | some p => top w n p
    | none => i

/-- What can be done with a template. -/
inductive Op (φ τ : Type)
  /-- `GetNewContext`. -/
  | create (i : Nat) (folder : Text) (useCache : Bool)
  /-- `SetOption` (/repo/template/template.go:247). -/
  | option (i : Nat) (name : Text) (value : Bool)
  /-- `alias` and `localAlias`, `func` and `localFunc` (/repo/template/extra_runtime.go:203-355). -/
  | alias (i : Nat) (local_ : Bool) (name : Text) (f : φ)
  /-- A template defined in a text that is parsed (`Parse`, of the library). -/
  | define (i : Nat) (name : Text) (tree : τ)

/-- An operation. -/
def step (builtin : (Text → Bool) → Text → Option φ) (w : World φ τ) : Op φ τ → World φ τ
  | .create i folder useCache => (newContext builtin w i folder useCache).1
  | .option i name value =>
    match w.nodes[i]? with
    | none => w
    | some t => { w with opts := w.opts.modify t.options fun m n => if n = name then value else m n }
  | .alias i local_ name f =>
    match w.nodes[if local_ then i else top w w.nodes.length i]? with
    | none => w
    | some t => { w with tables := w.tables.modify t.aliases fun m n => if n = name then some f else m n }
  | .define i name tree => { w with nodes := w.nodes.modify i fun t => { t with defs := fun n => if n = name then some (tree, true) else t.defs n } }

/-- `NewTemplate` (/repo/template/template.go:110-182): the functions are those of the options, there is no alias. -/
def start (builtin : (Text → Bool) → Text → Option φ) (folder : Text) (options : Text → Bool) : World φ τ :=
  { nodes := [{ folder := folder, parent := none, options := 0, functions := 0, aliases := 1, children := 0, known := builtin options, defs := fun _ => none }]
    opts := [options]
    tables := [builtin options, fun _ => none]
    kids := [fun _ => none] }

/-- A history. -/
def run (builtin : (Text → Bool) → Text → Option φ) (w : World φ τ) (ops : List (Op φ τ)) : World φ τ := ops.foldl (step builtin) w

end Verif.Contexts
