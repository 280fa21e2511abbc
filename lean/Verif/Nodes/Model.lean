import Verif.Data.Flow
import Verif.BT.Basic

/-! Model of the nodes that work on data: getters, list and dictionary nodes, comparisons (`nodes/getters.py`, `nodes/list.py`,
`nodes/setters.py`, `nodes/compare.py`, `nodes/constant.py`, `nodes/io.py`, `nodes/passthrough_node.py`, `nodes/format.py`,
`nodes/random_number.py`).

A hook gets a copy of every input it reads (`deepcopy`, data_types.py 279) and writes a copy to the output (268), so a
value is a value here and not a reference: `li.insert(i, e)` changes the copy. Logging is left out. -/

set_option autoImplicit false

namespace Verif.Nodes

open Verif.Data
open Verif.BT (BTState Res)

/-- What a hook or a tick leaves behind: the data, and what it returns (`none`: an exception). -/
structure Out where
  data : NodeData
  res : Option Res

/-! ### Reading inputs -/

/-- node_config.py 63-76: `inputs.get_value(key)`, `none` is `Err`. -/
def value (d : NodeData) (k : String) : Option Val := (d.inputs.lookup k).bind (·.value)

/-- `isinstance(v, list)` -/
def asList : Val → Option (List Val)
  | .list l => some l
  | _ => none

/-- `isinstance(v, dict)` -/
def asDict : Val → Option (List (String × Val))
  | .dict l => some l
  | _ => none

/-- `isinstance(v, str)` -/
def asStr : Val → Option String
  | .str s => some s
  | _ => none

/-- `isinstance(v, int)`: a bool is an int. -/
def asInt : Val → Option Int
  | .int i => some i
  | .bool b => some (if b then 1 else 0)
  | _ => none

/-- node_config.py 78-92 with data_types.py 281-296: `inputs.get_value_as(key, type)`, `none` is `Err`. -/
def valueAs {A : Type} (as : Val → Option A) (d : NodeData) (k : String) : Option A := (value d k).bind as

/-- node_config.py 94-104: `inputs.any_updated(*keys)`, `none` is `Err`. -/
def anyUpdated (d : NodeData) : List String → Option Bool
  | [] => some false
  | k :: ks =>
    match d.inputs.lookup k with
    | none => none
    | some c => (anyUpdated d ks).map (c.updated || ·)

/-! ### Writing outputs -/

/-- The answer of `set_value` as the result of a hook that then returns `s`. -/
def ansRes (s : BTState) : Ans → Option Res
  | .ok => some (.ok s)
  | .err => some .err
  | .raise => none

/-- node_config.py 109-123: `self.outputs.set_value(key, v).map(lambda _: s)` -/
def put (d : NodeData) (k : String) (v : Val) (s : BTState) : Out :=
  match d.outputs.lookup k with
  | none => ⟨d, some .err⟩
  | some c => ⟨{ d with outputs := modify k (fun _ => (c.set v).1) d.outputs }, ansRes s (c.set v).2⟩

/-- A step of a hook that may be an `Err`. -/
def need {A : Type} (d : NodeData) (o : Option A) (f : A → Out) : Out :=
  match o with
  | none => ⟨d, some .err⟩
  | some a => f a

/-! ### The frame -/

/-- node.py 433-458: a tick of a node that is set up, without delivering the outputs (that is `Flow.finish`). -/
def tick (hook : NodeData → Out) (d : NodeData) : Out :=
  if d.inputs.all (·.2.value.isSome) then
    let o := hook { d with outputs := mapAll Cont.resetUpdated d.outputs }
    match o.res with
    | some (.ok _) => ⟨{ o.data with inputs := mapAll Cont.resetUpdated o.data.inputs }, o.res⟩
    | _ => o
  else ⟨d, some .err⟩

/-- data_flow_manager.py 131-142: a value is delivered to an input. -/
def deliver (d : NodeData) (k : String) (v : Val) : NodeData :=
  match d.inputs.lookup k with
  | none => d
  | some c => { d with inputs := modify k (fun _ => (c.set v).1) d.inputs }

/-- Several values are delivered. -/
def deliverAll (d : NodeData) (l : List (String × Val)) : NodeData := l.foldl (fun d p => deliver d p.1 p.2) d

/-! ### Getters -/

/-- What looking up an element yields: an `Err`, the exception that means that there is no element, or the element. -/
inductive Look
  | err
  | missing
  | found (v : Val)

/-- The child of a getter, if it has one: what its tick answers and which values are delivered to the getter meanwhile. -/
abbrev Child := Option (Res × List (String × Val))

/-- getters.py 71-76 and 113-149, 166-202, 219-254, 279-315: `_do_tick` of the getters. `stale` is `succeed_on_stale_data` as read
in the setup (60-64). The element is looked up before it is checked whether anything is new. -/
def getter (stale : Bool) (keys : List String) (find : NodeData → Look) (out : String) (child : Child) (d : NodeData) : Out :=
  match child with
  | none => own d
  | some (r, l) =>
    let d := deliverAll d l
    match r with
    | .err => ⟨d, some .err⟩
    | .ok s => if s = .failed ∨ s = .running then ⟨d, some (.ok s)⟩ else own d
where
  /-- The part after the child. -/
  own (d : NodeData) : Out :=
    need d (anyUpdated d keys) fun updated =>
      match find d with
      | .err => ⟨d, some .err⟩
      | .missing => ⟨d, some (.ok .failed)⟩
      | .found v => if updated || stale then put d out v .succeeded else ⟨d, some (.ok .running)⟩

/-- An element that may be missing. -/
def look : Option Val → Look
  | none => .missing
  | some v => .found v

/-- Python's `l[i]`; negative indices count from the end. -/
def pyIndex (l : List Val) (i : Int) : Option Val :=
  if 0 ≤ i then l[i.toNat]?
  else if 0 ≤ i + l.length then l[(i + l.length).toNat]?
  else none

/-- getters.py 128-140 -/
def findListItem (d : NodeData) : Look :=
  match valueAs asList d "list", valueAs asInt d "index" with
  | some l, some i => look (pyIndex l i)
  | _, _ => .err

/-- getters.py 181-193 -/
def findDictItem (d : NodeData) : Look :=
  match valueAs asDict d "dict", valueAs asStr d "key" with
  | some l, some k => look (l.lookup k)
  | _, _ => .err

/-- getters.py 235: `[d[k] for k in li]`. A key that is not a string is missing (the keys of dictionaries are strings). -/
def lookupAll (l : List (String × Val)) : List Val → Option (List Val)
  | [] => some []
  | k :: ks =>
    match (asStr k).bind fun k => l.lookup k with
    | none => none
    | some v => (lookupAll l ks).map (v :: ·)

/-- getters.py 233-245 -/
def findDictItems (d : NodeData) : Look :=
  match valueAs asDict d "dict", valueAs asList d "keys" with
  | some l, some ks => look ((lookupAll l ks).map .list)
  | _, _ => .err

/-- The parts of a string between the dots. -/
def splitChars : List Char → List (List Char)
  | [] => [[]]
  | c :: cs =>
    if c = '.' then [] :: splitChars cs
    else
      match splitChars cs with
      | [] => [[c]]
      | p :: ps => (c :: p) :: ps

/-- Python's `attr.split(".")` -/
def splitDots (s : String) : List String := (splitChars s.toList).map String.ofList

/-- helpers.py 99-103: `rgetattr`. Only the fields of messages are attributes here; Python objects have others as well. -/
def getAttrs : Val → List String → Option Val
  | v, [] => some v
  | .msg _ fields, a :: as =>
    match fields.lookup a with
    | none => none
    | some v => getAttrs v as
  | _, _ :: _ => none

/-- getters.py 294-306 -/
def findAttr (d : NodeData) : Look :=
  match value d "object", valueAs asStr d "attr_name" with
  | some v, some a => look (getAttrs v (splitDots a))
  | _, _ => .err

/-- getters.py 90-149 -/
def getListItem (stale : Bool) : Child → NodeData → Out := getter stale ["list", "index"] findListItem "item"

/-- getters.py 152-202 -/
def getDictItem (stale : Bool) : Child → NodeData → Out := getter stale ["dict", "key"] findDictItem "value"

/-- getters.py 205-254 -/
def getMultipleDictItems (stale : Bool) : Child → NodeData → Out := getter stale ["dict", "keys"] findDictItems "values"

/-- getters.py 257-315 -/
def getAttr (stale : Bool) : Child → NodeData → Out := getter stale ["object", "attr_name"] findAttr "attr"

/-! ### Lists and dictionaries -/

/-- list.py 59-64 -/
def listLength (d : NodeData) : Out :=
  need d (valueAs asList d "list") fun l => put d "length" (.int l.length) .succeeded

/-- Python's `l.insert(i, v)`. -/
def pyInsert (l : List Val) (i : Int) (v : Val) : List Val :=
  let j := if 0 ≤ i then i.toNat else (i + l.length).toNat
  l.take j ++ v :: l.drop j

/-- list.py 94-108 -/
def insertInList (d : NodeData) : Out :=
  need d (valueAs asList d "list") fun l => need d (valueAs asInt d "index") fun i => need d (value d "element") fun v =>
    put d "list" (.list (pyInsert l i v)) .succeeded

/-- SUCCEEDED or FAILED. -/
def verdict (b : Bool) : BTState := if b then .succeeded else .failed

/-- list.py 141-146. Python also takes an element to be in the list if it is the same object; that matters for NaN only
and is left out. -/
def isInList (d : NodeData) : Out :=
  need d (value d "in") fun v => need d (valueAs asList d "list") fun l => ⟨d, some (.ok (verdict (l.any (pyEq · v))))⟩

/-- setters.py 63-72 -/
def appendListItem (d : NodeData) : Out :=
  need d (valueAs asList d "list") fun l => need d (value d "value") fun v => put d "new_list" (.list (l ++ [v])) .succeeded

/-- helpers.py 106-108: `rsetattr`; `none`: AttributeError. The path is split at the dots as in `rgetattr`. -/
def setAttrs : Val → List String → Val → Option Val
  | .msg t fields, [a], v =>
    match fields.lookup a with
    | none => none
    | some _ => some (.msg t (modify a (fun _ => v) fields))
  | .msg t fields, a :: as, v =>
    match fields.lookup a with
    | none => none
    | some w => (setAttrs w as v).map fun w => .msg t (modify a (fun _ => w) fields)
  | _, _, _ => none

/-- setters.py 103-117. The input read is called `value`, the input of the node is called `attr_value` (91). -/
def setAttr (d : NodeData) : Out :=
  need d (value d "object") fun o => need d (valueAs asStr d "attr_name") fun a => need d (value d "value") fun v =>
    match setAttrs o (splitDots a) v with
    | none => ⟨d, none⟩
    | some o => put d "new_object" o .succeeded

/-- Python's `d[k] = v`. -/
def pySet (l : List (String × Val)) (k : String) (v : Val) : List (String × Val) :=
  if (l.lookup k).isSome then modify k (fun _ => v) l else l ++ [(k, v)]

/-- setters.py 147-161 -/
def setDictItem (d : NodeData) : Out :=
  need d (valueAs asDict d "object") fun l => need d (valueAs asStr d "attr_name") fun k => need d (value d "attr_value") fun v =>
    put d "new_object" (.dict (pySet l k v)) .succeeded

/-! ### Comparisons -/

/-- compare.py 62-67 -/
def compare (d : NodeData) : Out :=
  need d (value d "a") fun a => need d (value d "b") fun b => ⟨d, some (.ok (verdict (pyEq a b)))⟩

/-- compare.py 102-115 -/
def compareNewOnly (d : NodeData) : Out :=
  need d (anyUpdated d ["a", "b"]) fun updated => if updated then compare d else ⟨d, some (.ok .running)⟩

/-- Python's `a < b` on numbers; `none`: TypeError. Other values that can be compared (strings, lists) cannot be operands
(133: `valid_types=[int, float]`). -/
def pyLt (a b : Val) : Option Bool :=
  match a.num, b.num with
  | some x, some y => some (x.lt y)
  | _, _ => none

/-- compare.py 151-156 -/
def aLessThanB (d : NodeData) : Out :=
  need d (value d "a") fun a => need d (value d "b") fun b => ⟨d, (pyLt a b).map fun r => .ok (verdict r)⟩

/-! ### Passing values on -/

/-- constant.py 65-70, io.py 66-71, passthrough_node.py 60-65: `src` goes to `dst`. -/
def forward (src dst : String) (d : NodeData) : Out := need d (value d src) fun v => put d dst v .succeeded

/-- constant.py 37-70 -/
def constant : NodeData → Out := forward "constant_value" "constant"

/-- io.py 38-106, passthrough_node.py 37-65 -/
def passthrough : NodeData → Out := forward "in" "out"

/-- format.py 91-100 -/
def concatenate (d : NodeData) : Out :=
  need d (valueAs asStr d "a") fun a => need d (valueAs asStr d "b") fun b => put d "formatted_string" (.str (a ++ b)) .succeeded

/-- random_number.py 53-63 with 75-82; `pick` is what `random.randrange` does with the number it is given. -/
def randomInt (pick : Nat → Nat) (d : NodeData) : Out :=
  need d (valueAs asInt d "min") fun lo => need d (valueAs asInt d "max") fun hi =>
    if hi ≤ lo then ⟨d, some .err⟩
    else put d "random_number" (.int (lo + (pick (hi + 1 - lo).toNat % (hi + 1 - lo).toNat : Nat))) .succeeded

end Verif.Nodes
