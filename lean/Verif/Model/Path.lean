import Verif.Base.Text
/-!
# Paths

Model of the functions of `path/filepath` (Unix) used to find the place of a result, of `utils.Relative` and of `getTargetFile`. A path is a
text; its elements are separated by slashes.
-/

namespace Verif
namespace Path

open Text

/-- `filepath.IsAbs` (library function). -/
def isAbs (p : Text) : Bool := hasPrefix ['/'] p

/-- The elements of a path without the empty ones and the dots. -/
def elems (p : Text) : List Text := (splitC '/' p).filter (fun e => e ≠ [] && e ≠ ['.'])

/-- The elements once `..` are applied: the elements kept so far are in reverse order. `..` is dropped at the root and kept at the beginning
of a relative path. -/
def resolve (abs : Bool) : List Text → List Text → List Text
  | kept, [] => kept.reverse
  | kept, e :: es =>
    if e = ['.', '.'] then
      match kept with
      | [] => resolve abs (if abs then [] else [e]) es
      | k :: ks => resolve abs (if k = ['.', '.'] then e :: k :: ks else ks) es
    else resolve abs (e :: kept) es

/-- The path with these elements. -/
def write (abs : Bool) (es : List Text) : Text :=
  if abs then '/' :: join ['/'] es else if es = [] then ['.'] else join ['/'] es

/-- `filepath.Clean` (library function). -/
def clean (p : Text) : Text := write (isAbs p) (resolve (isAbs p) [] (elems p))

/-- `filepath.Join` of two paths (library function). -/
def joinPath (a b : Text) : Text :=
  if a = [] then (if b = [] then [] else clean b)
  else if b = [] then clean a
  else clean (a ++ '/' :: b)

/-- The elements that follow the common ones. -/
def dropCommon : List Text → List Text → List Text × List Text
  | a :: as, b :: bs => if a = b then dropCommon as bs else (a :: as, b :: bs)
  | as, bs => (as, bs)

/-- `filepath.Rel` of two absolute paths (library function; it has no error in this case). -/
def rel (base target : Text) : Text :=
  let b := resolve true [] (elems base)
  let t := resolve true [] (elems target)
  let r := dropCommon b t
  if b = t then ['.'] else join ['/'] (r.1.map (fun _ => ['.', '.']) ++ r.2)

/-- `utils.Relative`, utils/io.go:129-134. The folder is supposed to be absolute. -/
def relative (folder file : Text) : Text := if isAbs file then rel folder file else file

/-- `getTargetFile`, template/utils.go:22-27. -/
def getTargetFile (targetFile sourcePath targetPath : Text) : Text :=
  if targetPath ≠ [] then joinPath targetPath (relative sourcePath targetFile) else targetFile

/-- The place a path designates for a process that works in a folder (what the operating system does, links left out). -/
def place (cwd p : Text) : Text := if isAbs p then clean p else clean (cwd ++ '/' :: p)

end Path
end Verif
