import Verif.Model.Extensions
/-!
# Formatting the Terraform files

Model of utils/terraform.go. The program `terraform` is a parameter: what it gives in a folder depends on the executions before it.
-/

namespace Verif.Terraform
open Verif Text

/-- `IsTerraformFile`, utils/terraform.go:13-20. -/
def isTerraformFile (file : Text) : Bool := [T ".tf", T ".tf.json", T ".tfvars"].any (fun ext => hasSuffix ext file)

/-- `present`: `LookPath` finds the program. `run before folder`: what an execution in a folder writes if it fails, after executions in the folders
`before`. -/
structure World where
  present : Bool
  run : List Text → Text → Option Text

/-- The folders in which the program was executed, in order, and the errors (none for a panic). Simplification: an error is its folder with the output;
the text of the code has neither the folder nor the cause. -/
structure Res where
  runs : List Text
  errors : Option (List (Text × Text))

/-- The keys of `tfFolders`, utils/terraform.go:28-33, in an order. -/
def folders : List Text → List Text
  | [] => []
  | file :: files => if isTerraformFile file then Extensions.dir file :: (folders files).filter (· ≠ Extensions.dir file) else folders files

/-- utils/terraform.go:35-49. -/
def formatFolders (w : World) : List Text → List Text → List (Text × Text) → Res
  | [], runs, errs => ⟨runs, some errs⟩
  | folder :: rest, runs, errs =>
    match w.run runs folder with
    | some output => formatFolders w rest (runs ++ [folder]) (errs ++ [(folder, trimSpace output)])
    | none =>
      match w.run (runs ++ [folder]) folder with
      | some _ => ⟨runs ++ [folder, folder], none⟩
      | none => formatFolders w rest (runs ++ [folder, folder]) errs

/-- `TerraformFormat`, utils/terraform.go:23-50, when the iteration on the map gives the folders in this order. -/
def terraformFormat (w : World) (order : List Text) : Res := if w.present then formatFolders w order [] [] else ⟨[], some []⟩

end Verif.Terraform
