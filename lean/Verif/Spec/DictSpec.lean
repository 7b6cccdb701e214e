import Verif.Model.Value
/-!
# Specification vocabulary for dictionaries

An abstract dictionary is a partial function from texts to values.  Nothing here refers to the model of the
dictionary operations.
-/

namespace Verif.Spec
open Verif

/-- An abstract dictionary. -/
abbrev FMap := Text → Option Value

namespace FMap

/-- The empty dictionary. -/
def empty : FMap := fun _ => none

/-- Update one key. -/
def update (m : FMap) (k : Text) (v : Value) : FMap := fun k' => if k' = k then some v else m k'

/-- Remove keys. -/
def remove (m : FMap) (ks : List Text) : FMap := fun k => if k ∈ ks then none else m k

/-- The value stored for a key, nil when there is none. -/
def value (m : FMap) (k : Value) : Value := (m k.sprint).getD .nil

/-- `ks` enumerates the defined keys. -/
def KeysAre (m : FMap) (ks : List Text) : Prop :=
  ks.Pairwise (fun a b => Text.lt a b = true) ∧ ∀ k, k ∈ ks ↔ (m k).isSome

end FMap

/-- The calls a client can make on a dictionary. -/
inductive DictOp where
  | set (k v : Value)
  | delete (k : Value) (ks : List Value)
  | flush (ks : List Value)
  | pop (ks : List Value)
  | get (ks : List Value)
  | has (ks : List Value)
  | default (k dflt : Value)
  | len
  | keys
  | values

/-- What a call returns (besides the dictionary). -/
inductive DictOut where
  | done
  | missing (k : Value)
  | val (v : Value)
  | flag (b : Bool)
  | num (n : Nat)
  | items (l : List Value)

/-- What reading keys returns: nil for no key, the value for one key, the list of values for several. -/
def readOf (m : FMap) : List Value → Value
  | [] => .nil
  | [k] => m.value k
  | ks => .list (ks.map m.value)

/-- The keys can be deleted one after the other: all defined, no repetition. -/
def Deletable (m : FMap) (ks : List Text) : Prop := ks.Nodup ∧ ∀ k ∈ ks, (m k).isSome

/-- The abstract dictionary: which outputs and next states each call allows. -/
inductive DictStep (m : FMap) : DictOp → DictOut → FMap → Prop where
  | set (k v) : DictStep m (.set k v) .done (m.update k.sprint v)
  | deleteOk (k ks) (h : Deletable m ((k :: ks).map Value.sprint)) :
      DictStep m (.delete k ks) .done (m.remove ((k :: ks).map Value.sprint))
  | deleteMissing (k ks before bad after) (hs : k :: ks = before ++ bad :: after)
      (h : Deletable m (before.map Value.sprint))
      (hbad : m bad.sprint = none ∨ bad.sprint ∈ before.map Value.sprint) :
      DictStep m (.delete k ks) (.missing bad) (m.remove (before.map Value.sprint))
  | flush (ks) (h : ks ≠ []) : DictStep m (.flush ks) .done (m.remove (ks.map Value.sprint))
  | flushAll : DictStep m (.flush []) .done FMap.empty
  | pop (ks) : DictStep m (.pop ks) (.val (readOf m ks)) (m.remove (ks.map Value.sprint))
  | get (ks) : DictStep m (.get ks) (.val (readOf m ks)) m
  | has (ks b) (h : b = true ↔ (∀ k ∈ ks, (m k.sprint).isSome) ∧ ∃ k, (m k).isSome) :
      DictStep m (.has ks) (.flag b) m
  | default (k dflt) : DictStep m (.default k dflt) (.val ((m k.sprint).getD dflt)) m
  | len (ks) (h : m.KeysAre ks) : DictStep m .len (.num ks.length) m
  | keys (ks) (h : m.KeysAre ks) : DictStep m .keys (.items (ks.map .str)) m
  | values (ks) (h : m.KeysAre ks) : DictStep m .values (.items (ks.map (fun k => (m k).getD .nil))) m

/-- A history of calls with their outputs. -/
inductive DictHistory : FMap → List DictOp → List DictOut → FMap → Prop where
  | nil (m) : DictHistory m [] [] m
  | cons {m m' m'' op out ops outs} (h : DictStep m op out m') (t : DictHistory m' ops outs m'') :
      DictHistory m (op :: ops) (out :: outs) m''

mutual
/-- Every dictionary inside the value has distinct keys, as Go maps do. -/
def WFValue : Value → Prop
  | .dict d => (d.map Prod.fst).Nodup ∧ WFEntries d
  | .list l => WFItems l
  | _ => True
/-- The values of a dictionary are well formed. -/
def WFEntries : List (Text × Value) → Prop
  | [] => True
  | (_, v) :: rest => WFValue v ∧ WFEntries rest
/-- The items of a list are well formed. -/
def WFItems : List Value → Prop
  | [] => True
  | v :: rest => WFValue v ∧ WFItems rest
end

mutual
/-- The value with the entries of every dictionary sorted by key: two values with the same `canon` have the same
content and differ at most by the (unobservable) order of map entries. -/
def canon : Value → Value
  | .dict d => .dict (Text.sortBy Prod.fst (canonEntries d))
  | .list l => .list (canonItems l)
  | v => v
/-- Canonical values of a dictionary. -/
def canonEntries : List (Text × Value) → List (Text × Value)
  | [] => []
  | (k, v) :: rest => (k, canon v) :: canonEntries rest
/-- Canonical items of a list. -/
def canonItems : List Value → List Value
  | [] => []
  | v :: rest => canon v :: canonItems rest
end

/-- Same content. -/
def SameContent (a b : Value) : Prop := canon a = canon b

mutual
/-- No list met while cloning (inside nested dictionaries) consists of one list only. -/
def NoSingletonNest : Value → Prop
  | .dict d => NoSingletonNestEntries d
  | .list l => ∀ inner, l ≠ [.list inner]
  | _ => True
/-- Same for the values of a dictionary. -/
def NoSingletonNestEntries : List (Text × Value) → Prop
  | [] => True
  | (_, v) :: rest => NoSingletonNest v ∧ NoSingletonNestEntries rest
end

/-! ## Paths -/

/-- What is seen at a path: a dictionary or a leaf. -/
inductive Seen where
  | dict
  | leaf (v : Value)

/-- What is seen from a value: dictionaries are opaque, anything else is a leaf. -/
def seenOf : Value → Seen
  | .dict _ => .dict
  | v => .leaf v

/-- What the path (a sequence of keys) leads to in a dictionary; the empty path is the dictionary itself. -/
def seenAt : List Text → GoMap Value → Option Seen
  | [], _ => some .dict
  | k :: rest, d =>
    match GoMap.get? d k with
    | none => none
    | some (.dict d') => seenAt rest d'
    | some v => if rest = [] then some (.leaf v) else none

/-- A dictionary value as a dictionary. -/
def asDict : Value → Option (GoMap Value)
  | .dict d => some d
  | _ => none

/-- What a path leads to in a sequence of dictionaries of decreasing priority: at each key the first definition
decides; if it is a dictionary, the later dictionaries found at the same key are combined with it (later values of
another kind are ignored), if it is a leaf, it is what is seen and nothing is below it. -/
def resolve : List Text → List (GoMap Value) → Option Seen
  | [], [] => none
  | [], _ :: _ => some .dict
  | k :: rest, ds =>
    match ds.filterMap (fun d => GoMap.get? d k) with
    | [] => none
    | .dict d :: later => resolve rest (d :: later.filterMap asDict)
    | v :: _ => if rest = [] then some (.leaf v) else none

end Verif.Spec
