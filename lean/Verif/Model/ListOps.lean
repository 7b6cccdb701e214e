import Verif.Model.Value
/-!
# Generic lists (`IGenericList`)

Model of collections/implementation/list_helper.go, base_helper.go and generic.go for the list operations, on pure
values: a list is the sequence of its elements (`AsArray`).  Sharing of the backing array between lists is
modelled separately in `Verif.Model.SliceHeap`.

`lh.Convert` (base_helper.go:62-65) is the identity on `Value`s, see `Verif.Model.Convert`.
-/

namespace Verif
open Value

namespace ListOps

/-- `ListHelper.Add`, collections/implementation/list_helper.go:19-28. -/
def add (l : List Value) (prepend : Bool) (objects : List Value) : List Value :=
  if prepend then objects ++ l else l ++ objects

/-- `baseList.Append`, collections/implementation/generic.go:48-50. -/
def append (l objects : List Value) : List Value := add l false objects

/-- `baseList.Prepend`, collections/implementation/generic.go:75-77. -/
def prepend (l objects : List Value) : List Value := add l true objects

/-- `BaseHelper.CreateList(size)`, collections/implementation/base_helper.go:68-83: a list of `size` nils
(the capacity argument is irrelevant for pure values). -/
def create (size : Nat) : List Value := List.replicate size Value.nil

/-- `BaseHelper.NewList`, collections/implementation/base_helper.go:22-39: a single argument that is a list is
replaced by its elements (23-33), then the items are appended one by one (34-38). -/
def newList (items : List Value) : List Value :=
  let items := match items with
    | [.list l] => l
    | items => items
  items.foldl (fun newList x => append newList [x]) []

/-- `ListHelper.Clone`, collections/implementation/list_helper.go:31-33. -/
def clone (l : List Value) : List Value := newList l

/-- Inner loop of `ListHelper.Contains` for one value in non-strict mode (list_helper.go:39-45). -/
def hasText (source : List Value) (v : Value) : Bool :=
  source.any (fun item => sprint v == sprint item)

/-- `ListHelper.Contains(list, false, values...)`, collections/implementation/list_helper.go:36-52. -/
def contains (source : List Value) (values : List Value) : Bool :=
  values.all (hasText source) && decide (source.length > 0)

/-- Inner loop of `ListHelper.Contains` for one value in strict mode (list_helper.go:39-45); `none` is a panic
on values that cannot be compared. -/
def hasStrict (v : Value) : List Value → Option Bool
  | [] => some false
  | item :: rest =>
    match goEq v item with
    | none => none
    | some true => some true
    | some false => hasStrict v rest

/-- `ListHelper.Contains(list, true, values...)`, collections/implementation/list_helper.go:36-52. -/
def containsStrict (source : List Value) : List Value → Option Bool
  | [] => some (decide (source.length > 0))
  | v :: vs =>
    match hasStrict v source with
    | none => none
    | some false => some false
    | some true => containsStrict source vs

/-- Loop of `ListHelper.Find` in non-strict mode, collections/implementation/list_helper.go:60-64; `i` is the
current position, `result` the list built so far. -/
def findLoop (element : Text) : Nat → List Value → List Value → List Value
  | _, [], result => result
  | i, v :: rest, result =>
    findLoop element (i + 1) rest (if element == sprint v then append result [.int i] else result)

/-- `ListHelper.Find(list, element, false)`, collections/implementation/list_helper.go:55-66. -/
def find (l : List Value) (element : Value) : List Value := findLoop (sprint element) 0 l []

/-- Loop of `ListHelper.Find` in strict mode (list_helper.go:60-64); `none` is a panic. -/
def findStrictLoop (element : Value) : Nat → List Value → List Value → Option (List Value)
  | _, [], result => some result
  | i, v :: rest, result =>
    match goEq element v with
    | none => none
    | some b => findStrictLoop element (i + 1) rest (if b then append result [.int i] else result)

/-- `ListHelper.Find(list, element, true)`, collections/implementation/list_helper.go:55-66. -/
def findStrict (l : List Value) (element : Value) : Option (List Value) := findStrictLoop element 0 l []

/-- Enlarging loop of `ListHelper.SetIndex`, collections/implementation/list_helper.go:130-132; structural in
the number of missing positions. -/
def enlarge : Nat → List Value → List Value
  | 0, l => l
  | n + 1, l => enlarge n (append l [.nil])

/-- `ListHelper.SetIndex`, collections/implementation/list_helper.go:126-135. `none` is the error
"index must be positive number". -/
def setIndex (l : List Value) (index : Int) (value : Value) : Option (List Value) :=
  match index with
  | .negSucc _ => none
  | .ofNat i => some ((enlarge (i + 1 - l.length) l).set i value)

/-- `ListHelper.GetIndexes` with one index, collections/implementation/list_helper.go:73-82. -/
def getIndex (l : List Value) (index : Int) : Value :=
  let index := if index < 0 then index + l.length else index
  if index < 0 ∨ index ≥ l.length then .nil else l.getD index.toNat .nil

/-- Write `values` one after the other from position `i` (the loops `for i := range ... result.Set(i, ...)`). -/
def fill : Nat → List Value → List Value → List Value
  | _, [], l => l
  | i, v :: vs, l => fill (i + 1) vs ((setIndex l i v).getD l)

/-- `ListHelper.GetIndexes`, collections/implementation/list_helper.go:69-89. -/
def getIndexes (l : List Value) (indexes : List Int) : Value :=
  match indexes with
  | [] => .nil
  | [i] => getIndex l i
  | is => .list (fill 0 (is.map (getIndex l)) (create is.length))

/-- Loop of `ListHelper.Reverse`, collections/implementation/list_helper.go:119-121. -/
def reverseLoop : Nat → List Value → List Value → List Value
  | _, [], target => target
  | i, v :: rest, target =>
    reverseLoop (i + 1) rest ((setIndex target ((target.length : Int) - i - 1) v).getD target)

/-- `ListHelper.Reverse`, collections/implementation/list_helper.go:116-123. -/
def reverse (l : List Value) : List Value := reverseLoop 0 l (create l.length)

/-- `ListHelper.Unique`, collections/implementation/list_helper.go:143-152. -/
def unique (source : List Value) : List Value :=
  source.foldl (fun target x => if contains target [x] then target else append target [x]) []

/-- `ListHelper.Intersect`, collections/implementation/list_helper.go:155-165. -/
def intersect (l values : List Value) : List Value :=
  (unique l).foldl (fun target x => if contains values [x] then append target [x] else target) []

/-- `baseList.Union`, collections/implementation/generic.go:87-89. -/
def union (l values : List Value) : List Value := unique (add l false values)

/-- `ListHelper.Without`, collections/implementation/list_helper.go:214-224. -/
def without (l values : List Value) : List Value :=
  l.foldl (fun target x => if !(contains values [x]) then append target [x] else target) []

/-- Loop of `ListHelper.Remove`, collections/implementation/list_helper.go:176-180. -/
def removeLoop (l discard : List Value) : List Nat → List Value → List Value
  | [], target => target
  | i :: rest, target =>
    removeLoop l discard rest
      (if !(contains discard [.int i]) then append target [getIndex l i] else target)

/-- `ListHelper.Remove`, collections/implementation/list_helper.go:168-182: negative indexes are counted from
the end (169-173), then positions whose number prints like one of the indexes are dropped. -/
def remove (l : List Value) (indexes : List Int) : List Value :=
  let indexes := indexes.map (fun i : Int => if i < 0 then i + l.length else i)
  removeLoop l (indexes.map .int) (List.range l.length) []

/-- `baseList.Pop`, collections/implementation/generic.go:68-73. -/
def pop (l : List Value) (indexes : List Int) : Value × List Value :=
  let indexes := if indexes.length = 0 then [(l.length : Int) - 1] else indexes
  (getIndexes l indexes, remove l indexes)

/-- The emptiness test of `ListHelper.RemoveEmpty`, collections/implementation/list_helper.go:188-194. -/
def isEmptyItem : Value → Bool
  | .list l => l.length == 0
  | .nil => true
  | v => sprint v == []

/-- `ListHelper.RemoveEmpty`, collections/implementation/list_helper.go:185-200. -/
def removeEmpty (l : List Value) : List Value :=
  l.foldl (fun target x => if !(isEmptyItem x) then append target [x] else target) []

/-- `item != nil`. -/
def isNil : Value → Bool
  | .nil => true
  | _ => false

/-- `ListHelper.RemoveNil`, collections/implementation/list_helper.go:203-211. -/
def removeNil (l : List Value) : List Value :=
  l.foldl (fun target x => if !(isNil x) then append target [x] else target) []

end ListOps
end Verif
