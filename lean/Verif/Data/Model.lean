/-! Model of typed node data: values, data types and their containers (`data_types.py`).

Simplifications: a reference type is treated as the container it imitates (data_types.py 1519-1663: every
value operation is forwarded to `_inner_type`); `GenericType` (values that describe types) is left out; keys of
dictionaries are strings; numbers are not rounded; the container that a list or dictionary uses to check
its elements has a value of its own that nothing reads. -/

set_option autoImplicit false

namespace Verif.Data

/-- A Python float. -/
inductive Flt | nan | inf (negative : Bool) | fin (r : Rat)
  deriving DecidableEq

/-- A Python value. `array` is an `array.array`, `msg` an instance of a ROS message class, `cls` a ROS
interface class. -/
inductive Val
  | none
  | bool (b : Bool)
  | int (i : Int)
  | float (f : Flt)
  | str (s : String)
  | bytes (b : List UInt8)
  | list (l : List Val)
  | array (l : List Val)
  | dict (l : List (String × Val))
  | msg (type : String) (fields : List (String × Val))
  | cls (name : String)

/-- The number a value is equal to. -/
def Val.num : Val → Option Flt
  | .bool b => some (.fin (if b then 1 else 0))
  | .int i => some (.fin i)
  | .float f => some f
  | _ => Option.none

/-- `==` on floats. -/
def Flt.eq : Flt → Flt → Bool
  | .nan, _ => false
  | _, .nan => false
  | a, b => a = b

/-- `<` on floats. -/
def Flt.lt : Flt → Flt → Bool
  | .nan, _ => false
  | _, .nan => false
  | .inf a, .inf b => a && !b
  | .inf a, .fin _ => a
  | .fin _, .inf b => !b
  | .fin a, .fin b => a < b

mutual

/-- Python's `==`. -/
def pyEq : Val → Val → Bool
  | .none, .none => true
  | .str a, .str b => a = b
  | .bytes a, .bytes b => a = b
  | .cls a, .cls b => a = b
  | .list a, .list b => pyEqs a b
  | .array a, .array b => pyEqs a b
  | .dict a, .dict b => a.length = b.length && pyEqFields a b
  | .msg s a, .msg t b => s = t && a.length = b.length && pyEqFields a b
  | .bool a, y => numEq (.bool a) y
  | .int a, y => numEq (.int a) y
  | .float a, y => numEq (.float a) y
  | _, _ => false
  where numEq (x y : Val) : Bool :=
    match x.num, y.num with
    | some a, some b => a.eq b
    | _, _ => false

/-- `==` on lists. -/
def pyEqs : List Val → List Val → Bool
  | [], [] => true
  | x :: a, y :: b => pyEq x y && pyEqs a b
  | _, _ => false

/-- Every entry of the first dictionary is in the second. -/
def pyEqFields : List (String × Val) → List (String × Val) → Bool
  | [], _ => true
  | (k, x) :: a, b => (match b.lookup k with | some y => pyEq x y | Option.none => false) && pyEqFields a b
end

/-- msg/NodeDataType.msg, `ros_interface_kind` -/
inductive Kind | topic | service | action | component
  deriving DecidableEq, Repr

/-- The data type classes with the parameters that restrict values. `es` is `allow_static` of the element type;
its `allow_dynamic` is always True and its `is_static` False (data_types.py 756-758). -/
inductive Ty
  /-- data_types.py 451-474 -/
  | bool
  /-- data_types.py 541-562 -/
  | int (lo hi : Int)
  /-- data_types.py 565-591 -/
  | float (lo hi : Rat)
  /-- data_types.py 667-675 -/
  | string (max : Nat) (options : Option (List String))
  /-- data_types.py 678-692 -/
  | path (max : Nat) (options : Option (List String))
  /-- data_types.py 695-720 -/
  | bytes (max : Nat) (options : Option (List String))
  /-- data_types.py 838-876 -/
  | list (elem : Ty) (es : Bool) (max : Nat) (strict : Bool)
  /-- data_types.py 879-919 -/
  | dict (elem : Ty) (es : Bool) (max : Nat) (strict : Bool)
  /-- data_types.py 1241-1276 -/
  | rosName (kind : Kind) (id : Nat)
  /-- data_types.py 1289-1387 -/
  | rosMsg (type : String) (id : Nat)
  /-- data_types.py 1390-1516 -/
  | rosType (kind : Kind) (id : Nat)
  deriving DecidableEq, Repr

/-- What `set_value` does: `Ok`, `Err`, or raising `TypeCheckError` (the argument does not have the annotated type and the
method is `@typechecked`). -/
inductive Ans | ok | err | raise
  deriving DecidableEq, Repr

/-- helpers.py 94: `INT_FLOAT_MAX` -/
def intFloatMax : Nat := 2 ^ 64 - 1616

/-- What is a message, a service, an action: `rosidl_runtime_py.utilities.is_message` and so on
(data_types.py 1464-1467, 1479-1482, 1494-1497, 1513-1516). Here by the name: `pkg/msg/Name` is a message. -/
def validCls (k : Kind) (name : String) : Bool :=
  match k with
  | .topic | .component => name.splitOn "/" |>.contains "msg"
  | .service => name.splitOn "/" |>.contains "srv"
  | .action => name.splitOn "/" |>.contains "action"

/-- First answer that is not `Ok`. -/
def checkAll (f : Val → Ans) : List Val → Ans
  | [] => .ok
  | v :: l => match f v with | .ok => checkAll f l | a => a

/-- data_types.py 633-642: length and options of a string of `n` characters; `inOptions` says whether it is in a list. -/
def checkString (n : Nat) (inOptions : List String → Bool) (max : Nat) (options : Option (List String)) : Ans :=
  if n > max then .err
  else match options with
    | some o => if inOptions o then .ok else .err
    | none => .ok

/-- data_types.py 824-835: number of items. -/
def checkLength (n max : Nat) (strict : Bool) : Ans :=
  if n > max then .err else if strict ∧ n < max then .err else .ok

/-- data_types.py 848-858, 890-899: items first, then their number. -/
def checkItems (f : Val → Ans) (l : List Val) (max : Nat) (strict : Bool) : Ans :=
  match checkAll f l with
  | .ok => checkLength l.length max strict
  | a => a

/-- The checks of `set_value` before the value is assigned, including those of `BuiltinContainer.set_value`
(data_types.py 444-448). -/
def check : Ty → Val → Ans
  -- 451-474: anything that is not a bool is refused by `BuiltinContainer`
  | .bool, .bool _ => .ok
  | .bool, _ => .err
  -- 515-521: range, then the type; a bool is an int
  | .int lo hi, .int i => if i < lo then .err else if i > hi then .err else .ok
  | .int lo hi, .bool b => let i : Int := if b then 1 else 0; if i < lo then .err else if i > hi then .err else .ok
  | .int _ _, .float _ => .err
  | .int _ _, _ => .raise
  -- 587-591, 515-521: ints and bools are converted to float first
  | .float lo hi, v =>
    match v.num with
    | some f => if f.lt (.fin lo) then .err else if (Flt.fin hi).lt f then .err else .ok
    | none => .raise
  | .string max o, .str s => checkString s.length (·.contains s) max o
  | .string _ _, .bytes _ => .err
  | .string _ _, _ => .raise
  -- 688-692
  | .path max o, .str s =>
    if s.startsWith "file://" || s.startsWith "package://" then checkString s.length (·.contains s) max o else .err
  | .path _ _, _ => .raise
  -- no bytes object is equal to a str
  | .bytes max o, .bytes b => checkString b.length (fun _ => false) max o
  | .bytes _ _, .str _ => .err
  | .bytes _ _, _ => .raise
  -- 848-858
  | .list e _ max strict, .list l => checkItems (check e) l max strict
  | .list e _ max strict, .array l => checkItems (check e) l max strict
  | .list _ _ _ _, _ => .raise
  -- 890-899
  | .dict e _ max strict, .dict l => checkItems (check e) (l.map (·.2)) max strict
  | .dict _ _ _ _, _ => .raise
  -- `BuiltinContainer.set_value`
  | .rosName _ _, .str _ => .ok
  | .rosName _ _, _ => .err
  -- 1334-1339
  | .rosMsg n _, .msg t _ => if t = n then .ok else .err
  | .rosMsg _ _, _ => .err
  -- 1420-1424
  | .rosType k _, .cls n => if validCls k n then .ok else .err
  | .rosType _ _, _ => .raise

/-- What is assigned: floats are converted (data_types.py 588-590), arrays become lists (850-851). The elements of a list are
assigned as they are. -/
def clean : Ty → Val → Val
  | .float _ _, .int i => .float (.fin i)
  | .float _ _, .bool b => .float (.fin (if b then 1 else 0))
  | .list _ _ _ _, .array l => .list l
  | _, v => v

/-- A container: data_types.py 65-82. -/
structure Cont where
  ty : Ty
  allowDynamic : Bool := true
  allowStatic : Bool := true
  isStatic : Bool := true
  value : Option Val := none
  updated : Bool := false

/-- data_types.py 250-269: `DataContainer.set_value`. -/
def Cont.assign (c : Cont) (v : Val) : Cont × Ans :=
  if c.isStatic && c.updated then (c, .err)
  else
    let changed := match c.value with | none => true | some w => !pyEq w v
    ({ c with updated := changed, value := if changed then some v else c.value }, .ok)

/-- `set_value` of the concrete class. -/
def Cont.set (c : Cont) (v : Val) : Cont × Ans :=
  match check c.ty v with
  | .ok => c.assign (clean c.ty v)
  | a => (c, a)

/-- data_types.py 297-299 -/
def Cont.resetValue (c : Cont) : Cont := if c.isStatic then c else { c with value := none }

/-- data_types.py 304-308 -/
def Cont.flagUpdated (c : Cont) : Cont := { c with updated := true }

/-- data_types.py 310-314 -/
def Cont.resetUpdated (c : Cont) : Cont := { c with updated := false }

/-- The value the class starts with: `_value = ...` in the class bodies, 1303 for messages. The fields of a fresh message
are left open. -/
def Ty.initial (fresh : String → List (String × Val)) : Ty → Val
  | .bool => .bool false
  | .int _ _ => .int 0
  | .float _ _ => .float (.fin (6/5))
  | .string _ _ => .str ""
  | .path _ _ => .str ""
  | .bytes _ _ => .bytes [0]
  | .list _ _ _ _ => .list []
  | .dict _ _ _ _ => .dict []
  | .rosName _ _ => .str "/foo"
  | .rosMsg n _ => .msg n (fresh n)
  | .rosType .topic _ => .cls "example_interfaces/msg/Empty"
  | .rosType .component _ => .cls "example_interfaces/msg/Empty"
  | .rosType .service _ => .cls "example_interfaces/srv/Trigger"
  | .rosType .action _ => .cls "example_interfaces/action/Fibonacci"

/-- Parameters that a constructor refuses: data_types.py 501-504 (for element types as well, they are constructed first). -/
def Ty.valid : Ty → Bool
  | .int lo hi => lo ≤ hi
  | .float lo hi => lo ≤ hi
  | .list e _ _ _ => e.valid
  | .dict e _ _ _ => e.valid
  | _ => true

/-- data_types.py 508-513: the automatic value of a static number is moved into the range. -/
def adjust (c : Cont) : Cont :=
  if c.isStatic && !c.updated then
    match c.ty with
    | .int lo hi =>
      let c := if lo > 0 then { c with value := some (.int lo) } else c
      if hi < 0 then { c with value := some (.int hi) } else c
    | .float lo hi =>
      let c := if lo > 0 then { c with value := some (.float (.fin lo)) } else c
      if hi < 0 then { c with value := some (.float (.fin hi)) } else c
    | _ => c
  else c

/-- Types whose value names a type are always static: data_types.py 409-426. -/
def Ty.isTypeContainer : Ty → Bool
  | .rosType _ _ => true
  | _ => false

/-- data_types.py 85-127 with 490-513 and 409-426: a new container, `none`: the constructor raises. `is_static = None` means
`allow_static`; `value = None` means the value of the class. -/
def Cont.new (fresh : String → List (String × Val)) (ty : Ty) (allowDynamic allowStatic : Bool) (isStatic : Option Bool)
    (value : Option Val) : Option Cont :=
  let st := isStatic.getD allowStatic
  if !ty.valid then none
  else if ty.isTypeContainer && allowDynamic then none
  else if !allowDynamic && !allowStatic then none
  else if st && !allowStatic then none
  else if !st && !allowDynamic then none
  else
    let c : Cont := ⟨ty, allowDynamic, allowStatic, st, some (ty.initial fresh), false⟩
    match value with
    | none => some (adjust c)
    | some v =>
      match c.set v with
      | (c, .ok) => some (adjust c)
      | _ => none

/-- `is_compatible` without the flags: `target` accepts a more narrow `source`. data_types.py 466-470 (bool), 523-532
(numbers), 644-657 (strings), 797-809 (iterables), 1227-1232 (ROS), 1320-1327 (messages). -/
def compatTy : (target source : Ty) → Bool
  | .bool, .bool => true
  | .int lo hi, .int lo' hi' => !(lo' < lo) && !(hi' > hi)
  | .float lo hi, .float lo' hi' => !(lo' < lo) && !(hi' > hi)
  | .string max o, .string max' o' => strings max o max' o'
  | .path max o, .path max' o' => strings max o max' o'
  | .bytes max o, .bytes max' o' => strings max o max' o'
  | .list e es max strict, .list e' es' max' strict' => lengths max strict max' strict' && !(es && !es') && compatTy e e'
  | .dict e es max strict, .dict e' es' max' strict' => lengths max strict max' strict' && !(es && !es') && compatTy e e'
  | .rosName k i, .rosName k' i' => k = k' && i = i'
  | .rosMsg n i, .rosMsg n' i' => i = i' && n = n'
  | .rosType k i, .rosType k' i' => k = k' && i = i'
  | _, _ => false
where
  /-- data_types.py 649-656 -/
  strings (max : Nat) (o : Option (List String)) (max' : Nat) (o' : Option (List String)) : Bool :=
    !(max' > max) &&
      match o with
      | none => true
      | some l => match o' with | none => false | some l' => l.all l'.contains
  /-- data_types.py 802-808 -/
  lengths (max : Nat) (strict : Bool) (max' : Nat) (strict' : Bool) : Bool :=
    !(max' > max) && (!strict || (strict' && max' = max))

/-- data_types.py 191-213 and the overriding methods: `self.is_compatible(other)`. -/
def Cont.isCompatible (self other : Cont) : Bool :=
  !(self.allowDynamic && !other.allowDynamic) && !(self.allowStatic && !other.allowStatic) && compatTy self.ty other.ty

end Verif.Data
