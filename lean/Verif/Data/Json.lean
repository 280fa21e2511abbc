import Verif.Data.Msg

/-! Model of values as JSON: `serialize_value`, `deserialize_value` and the methods they call (`data_types.py`). The text is left
out: `json.loads(json.dumps(x))` gives `x` back. -/

set_option autoImplicit false

namespace Verif.Data

/-- What `json.dumps` writes and `json.loads` reads. -/
inductive Json
  | null
  | bool (b : Bool)
  | int (i : Int)
  | float (f : Flt)
  | str (s : String)
  | arr (l : List Json)
  | obj (l : List (String × Json))

mutual

/-- `json.loads` -/
def Json.toVal : Json → Val
  | .null => .none
  | .bool b => .bool b
  | .int i => .int i
  | .float f => .float f
  | .str s => .str s
  | .arr l => .list (toVals l)
  | .obj l => .dict (toFields l)

/-- All values of a list. -/
def toVals : List Json → List Val
  | [] => []
  | j :: l => j.toVal :: toVals l

/-- All entries of an object. -/
def toFields : List (String × Json) → List (String × Val)
  | [] => []
  | (k, j) :: l => (k, j.toVal) :: toFields l
end

/-- What is known about ROS interfaces: fields of a message class with their types (`get_element_fields`, data_types.py
1376-1387, `none`: some field has no type), fields of a new message, names that `get_interface` finds. -/
structure Env where
  fields : String → Option (List (String × Ty))
  fresh : String → List (String × Val)
  known : String → Bool

/-- A hexadecimal digit. -/
def hexDigit (n : Nat) : Char := if n < 10 then Char.ofNat (48 + n) else Char.ofNat (87 + n)

/-- `bytes.hex()` -/
def hex (b : List UInt8) : List Char := b.flatMap fun x => [hexDigit (x.toNat / 16), hexDigit (x.toNat % 16)]

/-- The value of a hexadecimal digit. -/
def digitVal (c : Char) : Option Nat :=
  if '0' ≤ c ∧ c ≤ '9' then some (c.toNat - 48)
  else if 'a' ≤ c ∧ c ≤ 'f' then some (c.toNat - 87)
  else if 'A' ≤ c ∧ c ≤ 'F' then some (c.toNat - 55)
  else none

/-- `bytes.fromhex()` without spaces between the bytes. -/
def unhex : List Char → Option (List UInt8)
  | [] => some []
  | [_] => none
  | a :: b :: l =>
    match digitVal a, digitVal b, unhex l with
    | some x, some y, some r => some (UInt8.ofNat (16 * x + y) :: r)
    | _, _, _ => none

/-- data_types.py 335-341 with `json.dumps`, for the types that are not overridden. A container of these types holds nothing else. -/
def plain : Val → Option Json
  | .bool b => some (.bool b)
  | .int i => some (.int i)
  | .float f => some (.float f)
  | .str s => some (.str s)
  | _ => none

/-- Is it a string? -/
def Json.isStr : Json → Bool
  | .str _ => true
  | _ => false

/-- `_serialize_value`: data_types.py 335-341, 711-713, 860-865, 901-906, 1341-1352, 1426-1428. `none`: an exception. The result of
`DictType._serialize_value` is annotated `dict[str, str]`, `@typechecked` raises if the first value is not a string. -/
def serTy (msg : String → List (String × Val) → Option Json) : Ty → Val → Option Json
  | .bytes _ _, .bytes b => some (.str (String.ofList (hex b)))
  | .bytes _ _, _ => none
  | .list e _ _ _, .list l => (l.mapM (serTy msg e)).map .arr
  | .list _ _ _ _, _ => none
  | .dict e _ _ _, .dict l =>
    match l.mapM (fun p => (serTy msg e p.2).map (p.1, ·)) with
    | some ((k, j) :: r) => if j.isStr then some (.obj ((k, j) :: r)) else none
    | some [] => some (.obj [])
    | none => none
  | .dict _ _ _ _, _ => none
  | .rosMsg n _, .msg _ fields => msg n fields
  | .rosMsg _ _, _ => none
  | .rosType _ _, .cls n => some (.str n)
  | .rosType _ _, _ => none
  | _, v => plain v

/-- data_types.py 1341-1352: a message, field by field. -/
def serMsg (env : Env) (rec : Ty → Val → Option Json) (n : String) (fields : List (String × Val)) : Option Json :=
  match env.fields n with
  | none => some (.obj [])
  | some decl => (decl.mapM fun p => (rec p.2 ((fields.lookup p.1).getD .none)).map (p.1, ·)).map .obj

/-- `_serialize_value` for messages that are nested at most `n` deep. -/
def ser (env : Env) : Nat → Ty → Val → Option Json
  | 0 => serTy (fun _ _ => none)
  | n + 1 => serTy (serMsg env (ser env n))

/-- `setattr` -/
def setField (k : String) (v : Val) : List (String × Val) → List (String × Val)
  | [] => []
  | (l, w) :: r => if l = k then (l, v) :: r else (l, w) :: setField k v r

/-- `_deserialize_value`: data_types.py 354-359, 715-720, 867-876, 908-919, 1354-1374, 1430-1438. `none`: `Err` or an exception. -/
def deserTy (env : Env) (msg : String → List (String × Json) → Option Val) : Ty → Json → Option Val
  | .bytes _ _, .str s => (unhex s.toList).map .bytes
  | .bytes _ _, _ => none
  | .list e _ _ _, .arr l => (l.mapM (deserTy env msg e)).map .list
  | .list _ _ _ _, _ => none
  | .dict e _ _ _, .obj l => (l.mapM fun p => (deserTy env msg e p.2).map (p.1, ·)).map .dict
  | .dict _ _ _ _, _ => none
  | .rosMsg n _, .obj l => msg n l
  | .rosMsg _ _, _ => none
  | .rosType _ _, .str s => if env.known s then some (.cls s) else none
  | .rosType _ _, _ => none
  | _, j => some j.toVal

/-- data_types.py 1361-1374: the loop over the fields. -/
def fillMsg (decl : List (String × Ty)) (rec : Ty → Json → Option Val) : List (String × Json) → List (String × Val) → Option (List (String × Val))
  | [], acc => some acc
  | (k, j) :: l, acc =>
    match decl.lookup k with
    | none => none
    | some t => match rec t j with | some v => fillMsg decl rec l (setField k v acc) | none => none

/-- data_types.py 1354-1374 -/
def deserMsg (env : Env) (rec : Ty → Json → Option Val) (n : String) (l : List (String × Json)) : Option Val :=
  match env.fields n with
  | none => none
  | some decl => (fillMsg decl rec l (env.fresh n)).map (.msg n)

/-- `_deserialize_value` for messages that are nested at most `n` deep. -/
def deser (env : Env) : Nat → Ty → Json → Option Val
  | 0 => deserTy env (fun _ _ => none)
  | n + 1 => deserTy env (deserMsg env (deser env n))

/-- data_types.py 317-331: `serialize_value`; outer `none`: an exception, inner `none`: the empty string. -/
def Cont.serializeValue (env : Env) (n : Nat) (c : Cont) : Option (Option Json) :=
  match c.value with
  | none => some none
  | some v => (ser env n c.ty v).map some

/-- data_types.py 344-351: `deserialize_value`. -/
def Cont.deserializeValue (env : Env) (n : Nat) (c : Cont) (j : Json) : Cont × Ans :=
  match deser env n c.ty j with
  | some v => c.set v
  | none => (c, .err)

end Verif.Data
