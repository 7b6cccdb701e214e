import Verif.Model.Contexts

/-!
Specification for C82: what can be seen of a template, and what its history says.
-/

namespace Verif.Spec
open Verif Verif.Contexts

variable {φ τ : Type}

/-- The options of a template. -/
def optionsOf (w : World φ τ) (j : Nat) : Option (Text → Bool) := (w.nodes[j]?).map fun t => w.optsAt t.options
/-- The folder of a template. -/
def folderOf (w : World φ τ) (j : Nat) : Option Text := (w.nodes[j]?).map Node.folder
/-- The functions that the texts of a template can use. -/
def knownOf (w : World φ τ) (j : Nat) : Option (Text → Option φ) := (w.nodes[j]?).map Node.known
/-- The templates that the texts of a template can call. -/
def defsOf (w : World φ τ) (j : Nat) : Option (Text → Option (τ × Bool)) := (w.nodes[j]?).map Node.defs

/-- The last definition of an alias in a history, by any template. -/
def lastAlias (name : Text) : List (Op φ τ) → Option φ
  | [] => none
  | .alias _ _ n f :: ops => (lastAlias name ops).or (if n = name then some f else none)
  | _ :: ops => lastAlias name ops

/-- The operations of a history are on templates that exist. -/
def Legal (builtin : (Text → Bool) → Text → Option φ) : World φ τ → List (Op φ τ) → Prop
  | _, [] => True
  | w, op :: ops =>
    (match op with
      | .create i _ _ => i < w.nodes.length
      | .option i _ _ => i < w.nodes.length
      | .alias i _ _ _ => i < w.nodes.length
      | .define i _ _ => i < w.nodes.length) ∧ Legal builtin (step builtin w op) ops

end Verif.Spec
