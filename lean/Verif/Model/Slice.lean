import Verif.Model.Numbers
import Verif.Model.Float64
import Verif.Model.Strings
/-!
# slice, extract and safeIndex

Model of template/slice.go. `none` is an error (a panic is turned into an error by the deferred `errors.Trap`).

Simplification: texts are sequences of characters, where Go's texts are sequences of bytes; the two agree on ASCII texts.
-/

namespace Verif
open Value

namespace Slice
open Numbers

/-- `int(min(a, b).(int64))`, slice.go:125: the template function `min` (math_utilities.go:133-147) goes through floating
point numbers. -/
def minInt (a b : Int) : Int := F64.toInt64 (min (F64.rnd a) (F64.rnd b))

/-- `int(max(a, b).(int64))`, slice.go:126. -/
def maxInt (a b : Int) : Int := F64.toInt64 (max (F64.rnd a) (F64.rnd b))

/-- The adjusted bounds of `sliceList`, slice.go:111-126: begin, end and whether the section is reversed. -/
def bounds (length a b : Int) : Int × Int × Bool :=
  let begin_ := if a < 0 then length + a + 1 else a
  let end_ := if b < 0 then length + b + 1 else b
  let reverse := decide (end_ < begin_)
  let (begin_, end_) := if reverse then (end_, begin_) else (begin_, end_)
  let end_ := minInt end_ length
  let begin_ := maxInt begin_ 0
  (begin_, end_, reverse)

/-- `sliceList` on a list, slice.go:111-149. `Create(end - begin)` panics on a size that is negative or does not fit in an
`int`; the elements are read one by one (144-146). -/
def sliceList (l : List Value) (a b : Int) : Option (List Value) :=
  let (begin_, end_, reverse) := bounds l.length a b
  if begin_ > l.length then some []
  else if end_ - begin_ < 0 ∨ end_ - begin_ ≥ 2 ^ 63 then none
  else
    ((List.range (end_ - begin_).toNat).mapM (fun i => l[i + begin_.toNat]?)).map
      (fun results => if reverse then ListOps.reverse results else results)

/-- `reverseString`, slice.go:195-201. -/
def reverseString (s : Text) : Text := s.reverse

/-- `sliceList` on a text, slice.go:111-135. -/
def sliceText (s : Text) (a b : Int) : Option Text :=
  let (begin_, end_, reverse) := bounds s.length a b
  (Strings.goSlice s begin_ end_).map (fun r => if reverse then reverseString r else r)

/-- `selectElement`, slice.go:151-157, on a list. -/
def selectElement (l : List Value) (index : Int) : Option Value :=
  let index := if index < 0 then l.length + index else index
  if 0 ≤ index then l[index.toNat]? else none

/-- `selectElement` on a text. -/
def selectChar (s : Text) (index : Int) : Option Text :=
  let index := if index < 0 then s.length + index else index
  Strings.goSlice s index (index + 1)

/-- `sliceMap`, slice.go:73-109. -/
def sliceMap (d : Dict) (extract : Bool) (args : List Value) : Option Value :=
  let many : Option Value :=
    if !extract then none
    else some (.list (ListOps.fill 0 (args.map (fun key => DictOps.get d [key])) (ListOps.create args.length)))
  match args with
  | [] => some .nil
  | [key] => some (DictOps.get d [key])
  | [key1, key2] =>
    if !extract then
      let keys := DictOps.getKeys d
      let k1 := sprint key1
      let k2 := sprint key2
      let (keys, k1, k2) := if Text.lt k2 k1 then (ListOps.reverse keys, k2, k1) else (keys, k1, k2)
      some (.list (keys.foldl (fun results k =>
        if Text.le k1 (sprint k) && Text.le (sprint k) k2 then ListOps.append results [DictOps.get d [.str (sprint k)]]
        else results) []))
    else many
  | _ => many

/-- `sliceInternal`, slice.go:33-71, and its callers `slice` and `extract` (25-31). -/
def sliceInternal (value : Value) (extract : Bool) (args : List Value) : Option Value :=
  let args := convertArgs args
  match value with
  | .list l =>
    let many : Option Value :=
      if !extract then none
      else (args.mapM (fun a => (toInt a).bind (selectElement l))).map
        (fun results => .list (ListOps.fill 0 results (ListOps.create args.length)))
    match args with
    | [] => some value
    | [a] => (toInt a).bind (selectElement l)
    | [a, b] =>
      if !extract then do
        let a ← toInt a
        let b ← toInt b
        (sliceList l a b).map .list
      else many
    | _ => many
  | .str s =>
    let many : Option Value :=
      if !extract then none
      else (args.mapM (fun a => (toInt a).bind (selectChar s))).map (fun results => .str results.flatten)
    match args with
    | [] => some value
    | [a] => ((toInt a).bind (selectChar s)).map .str
    | [a, b] =>
      if !extract then do
        let a ← toInt a
        let b ← toInt b
        (sliceText s a b).map .str
      else many
    | _ => many
  | .dict d => sliceMap d extract args
  | _ => none

/-- `slice`, slice.go:25-27. -/
def slice (value : Value) (args : List Value) : Option Value := sliceInternal value false args

/-- `extract`, slice.go:29-31. -/
def extract (value : Value) (args : List Value) : Option Value := sliceInternal value true args

/-- `rest`, template/extra_data.go:555. -/
def rest (list : Value) : Option Value := slice list [.int 1, .int (-1)]

/-- `initial`, template/extra_data.go:556. -/
def initial (list : Value) : Option Value := slice list [.int 0, .int (-2)]

/-- `safeIndex`, slice.go:11-23. A text gives the code of its byte. -/
def safeIndex (value : Value) (index : Int) (def_ : Value) : Option Value :=
  match value with
  | .list l => if index < 0 ∨ index ≥ l.length then some def_ else l[index.toNat]?
  | .str s => if index < 0 ∨ index ≥ s.length then some def_ else (s[index.toNat]?).map (fun c => .int c.toNat)
  | _ => none

end Slice
end Verif
