import Verif.Base.Text
/-!
# Specification of assignments: where the generated code writes
-/

namespace Verif.Spec

/-- Where a path starts: the global context `$`, the current context `.` or a variable of the template. -/
inductive Root where
  | global
  | context
  | var (name : Text)
  deriving DecidableEq

/-- A place that can be read or written: an entry of an object, or a variable when the path is empty. -/
structure Place where
  root : Root
  path : List Text
  deriving DecidableEq

/-- A name of the template language: letters, digits and `_`, not starting with a digit. -/
def isName (t : Text) : Bool :=
  match t with
  | [] => false
  | c :: s => !c.isDigit && (c :: s).all (fun c => c.isAlphanum || c == '_' || decide (128 ≤ c.toNat))

/-- A dotted list of names. -/
def namesOf (t : Text) : Option (List Text) := if (Text.splitC '.' t).all isName then some (Text.splitC '.' t) else none

/-- The place designated by an expression of the template language: `$`, `$.a.b`, `.`, `.a.b`, `$x`, `$x.a.b`. -/
def placeOf : Text → Option Place
  | ['$'] => some ⟨.global, []⟩
  | ['.'] => some ⟨.context, []⟩
  | '$' :: '.' :: s => (namesOf s).map (Place.mk .global)
  | '.' :: s => (namesOf s).map (Place.mk .context)
  | '$' :: s =>
    match namesOf s with
    | some (x :: path) => some ⟨.var x, path⟩
    | _ => none
  | _ => none

/-- A piece of generated code. -/
inductive Code where
  /-- `$x := value` or `$x = value`. -/
  | assign (name : Text) (declare : Bool) (value : Text)
  /-- `set object "key" value`. -/
  | set (object key value : Text)
  /-- A check that an expression has a value; a failure is an error or a warning. -/
  | check (fails : Bool) (expr : Text)

/-- The text of the code. -/
def Code.print (left right : Text) : Code → Text
  | .assign x declare v => left ++ T "- $" ++ x ++ (if declare then T " := " else T " = ") ++ v ++ T " " ++ right
  | .set o k v => left ++ T "- set " ++ o ++ T " \"" ++ k ++ T "\" " ++ v ++ T " " ++ right
  | .check fails e => left ++ (if fails then T "- assert (not (isNil " else T "- assertWarning (not (isNil ") ++ e ++ T ")) \"" ++ e ++
      T " does not exist, use := to declare new variable\" " ++ right

/-- The place written by the code. -/
def Code.writes : Code → Option Place
  | .assign x _ _ => some ⟨.var x, []⟩
  | .set o k _ => (placeOf o).map (fun p => ⟨p.root, p.path ++ [k]⟩)
  | .check _ _ => none

/-- The kinds of razor assignments: `@x` and `@$.x`, `@.x`, `@$x` and `@{x}`. -/
inductive Kind where
  | global
  | context
  | local_
  deriving DecidableEq

/-- The kind of an assignment, from the characters before the name. -/
def kindOf (tp : Text) : Option Kind :=
  if tp = T "@" ∨ tp = T "@$." then some .global
  else if tp = T "@." then some .context
  else if tp = T "@$" ∨ tp = T "@{" then some .local_
  else none

/-- The place that an assignment to the name `a.b.c` must change. -/
def Kind.place (k : Kind) (name : List Text) : Place :=
  match k, name with
  | .global, name => ⟨.global, name⟩
  | .context, name => ⟨.context, name⟩
  | .local_, x :: path => ⟨.var x, path⟩
  | .local_, [] => ⟨.var [], []⟩

/-- A dotted name. -/
def IsPath (parts : List Text) : Prop := parts ≠ [] ∧ ∀ p ∈ parts, isName p = true

instance (parts : List Text) : Decidable (IsPath parts) := inferInstanceAs (Decidable (_ ∧ _))

end Verif.Spec
