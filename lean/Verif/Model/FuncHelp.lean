import Verif.Base.Map
import Verif.Base.Text

/-!
Model of the listing of the functions available in templates: `getFunctionsInternal`, `getCategories`,
`filterFunctions` and the layout of `PrintFunctions`
(/repo/template/func_table.go:254-274, /repo/template/func_category.go:20-47, /repo/template/template_help.go:43-187).

The colours, the widths of the columns and the text printed for each function of the detailed list are left out: the model gives the names printed and where.
-/

namespace Verif.FuncHelp

/-- What the listing reads of a function (/repo/template/func_table.go:14-26, fields `name`, `group`, `aliases`, `description`). -/
structure Doc where
  name : Text
  group : Text
  description : Text
  aliases : List Text

/-- A function of the table: the function itself, or an alias that points to one (field `alias`, /repo/template/func_table.go:14-26). -/
inductive Entry
  | direct (d : Doc)
  | alias (target : Doc)

/-- `t.functions` (/repo/template/template.go:28); the order of the list is the order in which Go visits the map, which can be any. -/
abbrev Table := GoMap Entry

/-- `fi.alias != nil` (/repo/template/func_table.go:257-262). -/
def Entry.isAlias : Entry → Bool
  | .direct _ => false
  | .alias _ => true

/-- `if fi.alias != nil { fi = fi.alias }` (/repo/template/func_category.go:24-26). -/
def Entry.real : Entry → Doc
  | .direct d => d
  | .alias d => d

/-- `t.getFunctionsInternal(original, alias)` (/repo/template/func_table.go:253-266). -/
def functions (t : Table) (original alias : Bool) : List Text :=
  Text.sortBy id ((t.filter fun e => (original && !e.2.isAlias) || (alias && e.2.isAlias)).map Prod.fst)

/-- `categories[group] = append(categories[group], name)` for each name (/repo/template/func_category.go:22-28, /repo/template/template_help.go:47-58). -/
def collect (group : Text → Text) : List Text → GoMap (List Text) → GoMap (List Text)
  | [], c => c
  | n :: ns, c => collect group ns (c.set (group n) ((c.get? (group n)).getD [] ++ [n]))

/-- The group of a name of the table (/repo/template/func_category.go:23-26); a name that is not in the table, which does not happen, has none. -/
def groupOf (t : Table) (n : Text) : Text :=
  match t.get? n with
  | some e => e.real.group
  | none => []

/-- `t.getCategories()` (/repo/template/func_category.go:19-47): the name of each category, sorted, with its functions, sorted. -/
def categories (t : Table) : List (Text × List Text) :=
  let c := collect (groupOf t) (t.map Prod.fst) []
  (Text.sortBy id c.keys).map fun k => (k, Text.sortBy id ((c.get? k).getD []))

/-- `strings.ToLower`: each character has its own lower case (`lower`), `unicode.ToLower` being a parameter. -/
def lowerText (lower : Char → Char) (s : Text) : Text := s.map lower

/-- The text in which the filters are looked for (/repo/template/template_help.go:107-113). -/
def search (lower : Char → Char) (category detailed : Bool) (name : Text) (d : Doc) : Text :=
  lowerText lower (name ++ ' ' :: Text.join [' '] d.aliases)
    ++ (if category then ' ' :: lowerText lower d.group else [])
    ++ (if detailed then ' ' :: lowerText lower d.description else [])

/-- The test done on one name (/repo/template/template_help.go:92-122). -/
def kept (lower : Char → Char) (t : Table) (all category detailed : Bool) (filters : List Text) (n : Text) : Bool :=
  match t.get? n with
  | none => false
  | some e =>
    if e.isAlias && !all then false
    else if filters.isEmpty then true
    else filters.any fun f => Text.contains (lowerText lower f) (search lower category detailed n e.real)

/-- `t.filterFunctions(all, category, detailed, filters...)` (/repo/template/template_help.go:81-124). -/
def filterFunctions (lower : Char → Char) (t : Table) (all category detailed : Bool) (filters : List Text) : List Text :=
  if all && filters.isEmpty then functions t true true
  else (functions t true true).filter (kept lower t all category detailed filters)

/-- The number of lines of the short list (/repo/template/template_help.go:129); the division of floats is exact enough for any list that fits in memory. -/
def colLength (l : List Text) : Nat := (l.length + 4) / 5

/-- The lines of `printFunctionsShort` (/repo/template/template_help.go:126-147): the names printed on each of them, in order. -/
def shortRows (l : List Text) : List (List Text) :=
  (List.range (colLength l)).map fun r => (List.range 5).filterMap fun j => l[j * colLength l + r]?

/-- The name of the function itself in the place of that of an alias (/repo/template/template_help.go:156-161). -/
def realName (t : Table) (n : Text) : Text :=
  match t.get? n with
  | some (.alias d) => d.name
  | _ => n

/-- The names of `allFunc` (/repo/template/template_help.go:153-162). -/
def realNames (t : Table) : List Text → GoMap Unit → GoMap Unit
  | [], m => m
  | n :: ns, m => realNames t ns (m.set (realName t n) ())

/-- The names of the functions that `printFunctionsDetailed` describes, in order (/repo/template/template_help.go:149-167). -/
def detailedNames (t : Table) (l : List Text) : List Text := Text.sortBy id (realNames t l []).keys

/-- The sections of `PrintFunctions` (/repo/template/template_help.go:43-79): the key of each section, sorted, and the names printed in it. -/
def sections (lower : Char → Char) (t : Table) (all detailed byCategory : Bool) (filters : List Text) : List (Text × List Text) :=
  let c := collect (fun n => if byCategory then groupOf t n else []) (filterFunctions lower t all byCategory detailed filters) []
  (Text.sortBy id c.keys).map fun k => (k, (c.get? k).getD [])

end Verif.FuncHelp
