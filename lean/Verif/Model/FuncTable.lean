import Verif.Base.Map
/-!
# The table of functions

Model of `addFunctions` (template/func_table.go:228-245): a table of functions is extended with a map of functions and the aliases of each of
them. The loop iterates over the map while it adds entries to it, so that its order and its end are not determined: they are a relation here.
-/

namespace Verif
namespace FuncTable

/-- `FuncInfo` of a function, func_table.go:15-25. `impl` is the function itself, `doc` stands for its group, description and arguments. -/
structure Func (α : Type) where
  name : Text
  impl : α
  doc : Text
  examples : List Text
  aliases : List Text
  deriving DecidableEq

/-- An entry of a table: a function or an alias, which refers to the entry of the function (`FuncInfo.alias`). -/
inductive Entry (α : Type) where
  | direct (f : Func α)
  | alias (name : Text) (of : Func α)
  deriving DecidableEq

/-- `funcTableMap`, func_table.go:155. -/
abbrev Table (α : Type) := GoMap (Entry α)

variable {α : Type}

/-- The function called through an entry (`FuncInfo.function`: an alias has the one of its target, func_table.go:239). -/
def Entry.impl : Entry α → α
  | .direct f => f.impl
  | .alias _ f => f.impl

/-- `Group`, `Description`, `Arguments`: those of the target of an alias, func_table.go:50-60. -/
def Entry.doc : Entry α → Text
  | .direct f => f.doc
  | .alias _ f => f.doc

/-- `Aliases`, func_table.go:47. -/
def Entry.aliases : Entry α → List Text
  | .direct f => f.aliases
  | .alias _ f => f.aliases

/-- `Name`, func_table.go:62. -/
def Entry.name : Entry α → Text
  | .direct f => f.name
  | .alias n _ => n

/-- `RealName`, func_table.go:71-76. -/
def Entry.realName : Entry α → Text
  | .direct f => f.name
  | .alias _ f => f.name

/-- `Examples`, func_table.go:97: the field of the entry itself, which an alias does not have. -/
def Entry.examples : Entry α → List Text
  | .direct f => f.examples
  | .alias _ _ => []

/-- The loop over the aliases of a function, func_table.go:238-241, on the map and on the table. -/
def addAliases (f : Func α) : List Text → Table α × Table α → Table α × Table α
  | [], s => s
  | a :: as, s => addAliases f as (s.1.set a (.alias a f), s.2.set a (.alias a f))

/-- The body of the loop, func_table.go:235-242, for a key of the map. -/
def visit (key : Text) (s : Table α × Table α) : Table α × Table α :=
  match s.1.get? key with
  | none => s
  | some (.direct f) =>
    addAliases { f with name := key } f.aliases (s.1.set key (.direct { f with name := key }), s.2.set key (.direct { f with name := key }))
  | some (.alias _ f) => (s.1.set key (.alias key f), s.2.set key (.alias key f))

/-- The iteration over the map, func_table.go:235: every key that was in the map at the beginning (`start`) is visited once, with its current
value; a key that is added during the iteration may be visited or not (Go specification, "For statements with range clause"). -/
inductive Iterates (start : List Text) : Table α × Table α → List Text → Table α → Prop where
  | done {s : Table α × Table α} {visited : List Text} : (∀ k ∈ start, k ∈ visited) → Iterates start s visited s.2
  | step {s : Table α × Table α} {visited : List Text} {k : Text} {r : Table α} :
      k ∉ visited → s.1.has k = true → Iterates start (visit k s) (k :: visited) r → Iterates start s visited r

/-- `addFunctions`, func_table.go:228-245: `t` becomes `r` when the functions of the map `m` are added. -/
def Adds (t : Table α) (m : Table α) (r : Table α) : Prop := Iterates m.keys (m, t) [] r

/-- `addFunctions` with the map that it changes, func_table.go:235-242: the iteration goes from the map and the table `s` to `s'` (see
`Iterates`, that has only the table). -/
inductive Runs (start : List Text) : Table α × Table α → List Text → Table α × Table α → Prop where
  | done {s : Table α × Table α} {visited : List Text} : (∀ k ∈ start, k ∈ visited) → Runs start s visited s
  | step {s s' : Table α × Table α} {visited : List Text} {k : Text} :
      k ∉ visited → s.1.has k = true → Runs start (visit k s) (k :: visited) s' → Runs start s visited s'

/-- The table of the context of a rendering (`GetNewContext`, template.go:191-203 and `init`, 297-309): the functions of the template, its
aliases, then the predefined functions (`addFuncs`, add_funcs.go:17-50, as a list of maps) are added to a new table. Simplification: the new
context shares its table with the template in the code; here it starts empty, what is called in a rendering being what was given to
`Funcs`. -/
inductive AddsAll : Table α → List (Table α) → Table α → Prop where
  | done (t : Table α) : AddsAll t [] t
  | step {t t' r : Table α} {m : Table α} {ms : List (Table α)} : Adds t m t' → AddsAll t' ms r → AddsAll t (m :: ms) r

end FuncTable
end Verif
