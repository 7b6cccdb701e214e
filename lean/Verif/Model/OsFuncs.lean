import Verif.Model.Path
import Verif.Model.GoVal

/-!
Model of the functions on files that templates can call: `exists`, `isDir`, `isFile`, `isReadable`, `isWriteable`, `isExecutable`, `load` and `save` (/repo/template/extra_os.go:112-241). The operating system is modelled with folders and
files, without links and without refusals that come from permissions.
-/

namespace Verif.OsFuncs
open Verif Verif.Text

/-- A place: the names from the root. -/
abbrev Place := List Text

/-- A file or a folder, with its permissions. -/
inductive Item
  | dir (mode : Nat)
  | file (mode : Nat) (content : List UInt8)
deriving DecidableEq

/-- What is at each place. -/
abbrev Disk := Place → Option Item

/-- The errors of the operating system: `os.IsNotExist` is true for the first one only. -/
inductive Err
  | missing
  | notDir
  | isDir
  | exists
deriving DecidableEq

/-- The folder in which the next name is looked up. -/
def next (cur : Place) (e : Text) : Place :=
  if e = [] ∨ e = ['.'] then cur else if e = ['.', '.'] then cur.dropLast else cur ++ [e]

/-- The names of a path followed from a folder (operating system): each name is looked up in a folder that exists. -/
def walk (d : Disk) : Place → List Text → Except Err Place
  | cur, [] => .ok cur
  | cur, e :: es =>
    match d cur with
    | none => .error .missing
    | some (.file _ _) => .error .notDir
    | some (.dir _) => walk d (next cur e) es

/-- The place of a path for a process that works in `cwd`. -/
def locate (d : Disk) (cwd : Place) (p : Text) : Except Err Place :=
  if p = [] then .error .missing else walk d (if Path.isAbs p then [] else cwd) (splitC '/' p)

/-- `os.Stat`. -/
def stat (d : Disk) (cwd : Place) (p : Text) : Except Err Item :=
  match locate d cwd p with
  | .error e => .error e
  | .ok q =>
    match d q with
    | none => .error .missing
    | some i => .ok i

/-- The disk with something at a place. -/
def put (d : Disk) (q : Place) (i : Item) : Disk := fun x => if x = q then some i else d x

/-- `os.Mkdir(path, 0777)`, the mask of the process left out; the path does not end with a slash. -/
def mkdir (d : Disk) (cwd : Place) (p : Text) : Except Err Disk :=
  match locate d cwd p with
  | .error e => .error e
  | .ok q =>
    match d q with
    | some _ => .error .exists
    | none => .ok (put d q (.dir 0o777))

/-- `os.WriteFile(path, content, 0644)`: the permissions are used for a new file only. -/
def writeFile (d : Disk) (cwd : Place) (p : Text) (content : List UInt8) : Except Err Disk :=
  match locate d cwd p with
  | .error e => .error e
  | .ok q =>
    match d q with
    | some (.dir _) => .error .isDir
    | some (.file m _) => .ok (put d q (.file m content))
    | none => .ok (put d q (.file 0o644 content))

/-- `os.ReadFile`. -/
def readFile (d : Disk) (cwd : Place) (p : Text) : Except Err (List UInt8) :=
  match stat d cwd p with
  | .error e => .error e
  | .ok (.dir _) => .error .isDir
  | .ok (.file _ c) => .ok c

/-- `fileExists(file)` (/repo/template/extra_os.go:112-120). -/
def fileExists (d : Disk) (cwd : Place) (file : Text) : Except Err Bool :=
  match stat d cwd file with
  | .error .missing => .ok false
  | .error e => .error e
  | .ok _ => .ok true

/-- `stat.IsDir()`. -/
def Item.isDir : Item → Bool
  | .dir _ => true
  | .file _ _ => false
/-- `stat.Mode()`: the permissions. -/
def Item.mode : Item → Nat
  | .dir m => m
  | .file m _ => m

/-- `isDir(file)` (/repo/template/extra_os.go:138-144). -/
def isDir (d : Disk) (cwd : Place) (file : Text) : Except Err Bool := (stat d cwd file).map Item.isDir
/-- `isFile(file)` (/repo/template/extra_os.go:146-152). -/
def isFile (d : Disk) (cwd : Place) (file : Text) : Except Err Bool :=
  match isDir d cwd file with
  | .error e => .error e
  | .ok b => .ok (!b)
/-- `isReadable(file)` (/repo/template/extra_os.go:154-160). -/
def isReadable (d : Disk) (cwd : Place) (file : Text) : Except Err Bool := (stat d cwd file).map fun s => s.mode &&& 0o400 != 0
/-- `isWriteable(file)` (/repo/template/extra_os.go:162-168). -/
def isWriteable (d : Disk) (cwd : Place) (file : Text) : Except Err Bool := (stat d cwd file).map fun s => s.mode &&& 0o200 != 0
/-- `isExecutable(file)` (/repo/template/extra_os.go:170-176). -/
def isExecutable (d : Disk) (cwd : Place) (file : Text) : Except Err Bool := (stat d cwd file).map fun s => s.mode &&& 0o100 != 0 && !s.isDir

/-- The bytes of a text. -/
def bytes (t : Text) : List UInt8 := t.flatMap String.utf8EncodeChar

/-- `loadFromFile(filename, binary...)` (/repo/template/extra_os.go:195-210): a text and a list of bytes have the same bytes; `none` is the wrong number of arguments. -/
def load (d : Disk) (cwd : Place) (file : Text) (binary : List Bool) : Option (Except Err (List UInt8)) :=
  if binary.length ≤ 1 then some (readFile d cwd file) else none

/-- What `TryAsList` gives (/repo/collections/implementation/base_helper.go:167-205): the elements, or an error, or a panic. -/
inductive AsList
  | list (es : List GoVal)
  | refused
  | panic

/-- The elements of the converted list; the conversion of an element can panic. -/
def asElems : Option GoVal → AsList
  | some (.slice _ es) => .list es
  | _ => .panic

/-- `collections.TryAsList(object)`. -/
def tryAsList : GoVal → AsList
  | .nil => .list []
  | .nilptr => .panic
  | .slice ty es => asElems (GoVal.convert (.slice ty es))
  | .ptr (.slice ty es) => asElems (GoVal.convert (.slice ty es))
  | _ => .refused

/-- The loop over the elements (/repo/template/extra_os.go:226-235): `none` if one is not a byte. -/
def allBytes : List GoVal → Option (List UInt8)
  | [] => some []
  | .uint .u8 n :: es => (allBytes es).map (UInt8.ofNat n :: ·)
  | _ :: _ => none

/-- The bytes that `save` writes (/repo/template/extra_os.go:219-237); `none` is a panic. -/
def toSave (ff : Rat → Text) (object : GoVal) : Option (List UInt8) :=
  match tryAsList object with
  | .panic => none
  | .refused => some (bytes (object.print ff))
  | .list es => some ((allBytes es).getD (bytes (object.print ff)))

/-- `path.Dir` (library function): what is before the last slash, cleaned. -/
def dirName (p : Text) : Text := Path.clean ((p.reverse.dropWhile (· ≠ '/')).reverse)

/-- The end of a call of `save`. -/
inductive End
  | ok
  | error (e : Err)
  | panic
deriving DecidableEq

/-- The folder of the file, made if it is missing (/repo/template/extra_os.go:213-218). -/
def makeFolder (d : Disk) (cwd : Place) (folder : Text) : Except Err Disk :=
  match stat d cwd folder with
  | .error .missing => mkdir d cwd folder
  | _ => .ok d

/-- `saveToFile(filename, object)` (/repo/template/extra_os.go:212-241). -/
def save (ff : Rat → Text) (d : Disk) (cwd : Place) (file : Text) (object : GoVal) : Disk × End :=
  match makeFolder d cwd (dirName file) with
  | .error e => (d, .error e)
  | .ok d =>
    match toSave ff object with
    | none => (d, .panic)
    | some content =>
      match writeFile d cwd file content with
      | .error e => (d, .error e)
      | .ok d => (d, .ok)

end Verif.OsFuncs
