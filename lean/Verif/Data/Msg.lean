import Verif.Data.Model

/-! Model of data types as ROS messages: `serialize_type`, `from_msg`, `get_runtime_type`, and the check of
a wiring. Numbers written to text and read back are not changed (`str`, `int`, `float`). -/

set_option autoImplicit false

namespace Verif.Data

/-- msg/NodeDataType.msg: `type_identifier` (references and `GenericType` are in Refs.lean and Generic.lean). -/
inductive TyId | bool | int | float | string | list | dict | bytes | path | rosName | rosType | rosMsg
  deriving DecidableEq, Repr

/-- A number written as text. -/
inductive Text | empty | int (i : Int) | float (r : Rat)
  deriving DecidableEq

/-- msg/NodeDataType.msg -/
structure TypeMsg where
  typeId : TyId
  valueIds : List TyId := []
  allowDynamic : Bool := false
  allowStatic : Bool := false
  isStatic : Bool := false
  options : List String := []
  min : Text := .empty
  max : Text := .empty
  stringMax : Nat := 0
  iterMax : List Nat := []
  iterStrict : List Bool := []
  kind : Option Kind := none
  msgType : String := ""
  ifaceId : Nat := 0

/-- `serialize_type` without the flags: data_types.py 472-474, 534-538, 659-664, 811-822, 1234-1238, 1329-1332. -/
def Ty.toMsg : Ty → TypeMsg
  | .bool => { typeId := .bool }
  | .int lo hi => { typeId := .int, min := .int lo, max := .int hi }
  | .float lo hi => { typeId := .float, min := .float lo, max := .float hi }
  | .string max o => { typeId := .string, stringMax := max, options := o.getD [] }
  | .path max o => { typeId := .path, stringMax := max, options := o.getD [] }
  | .bytes max o => { typeId := .bytes, stringMax := max, options := o.getD [] }
  | .list e _ max strict =>
    let inner := e.toMsg
    { inner with valueIds := inner.valueIds ++ [inner.typeId], typeId := .list,
                 iterMax := inner.iterMax ++ [max], iterStrict := inner.iterStrict ++ [strict] }
  | .dict e _ max strict =>
    let inner := e.toMsg
    { inner with valueIds := inner.valueIds ++ [inner.typeId], typeId := .dict,
                 iterMax := inner.iterMax ++ [max], iterStrict := inner.iterStrict ++ [strict] }
  | .rosName k i => { typeId := .rosName, kind := some k, ifaceId := i }
  | .rosMsg n i => { typeId := .rosMsg, kind := some .topic, ifaceId := i, msgType := n }
  | .rosType k i => { typeId := .rosType, kind := some k, ifaceId := i }

/-- data_types.py 216-226: `serialize_type`. -/
def Cont.serializeType (c : Cont) : TypeMsg :=
  { c.ty.toMsg with allowDynamic := c.allowDynamic, allowStatic := c.allowStatic, isStatic := c.isStatic }

/-- data_types.py 629-630: options of a string. -/
def optionsOf (m : TypeMsg) : Option (List String) := if m.options.length > 0 then some m.options else none

/-- `get_iotype_for_msg` (data_types.py 384-396) with the methods `_dict_from_msg` (150-163, 462-464, 554-562,
577-585, 622-631, 769-795, 1207-1214, 1307-1318), without the flags of the result. `none`: error. There is no `RosComponentName`
(1241-1276). An element that names a type may not be dynamic (416-419). -/
def build (m : TypeMsg) : TyId → List TyId → List Nat → List Bool → Option Ty
  | .bool, _, _, _ => some .bool
  | .int, _, _, _ => match m.min, m.max with | .int lo, .int hi => some (.int lo hi) | _, _ => none
  | .float, _, _, _ =>
    match m.min, m.max with
    | .float lo, .float hi => some (.float lo hi)
    | .int lo, .float hi => some (.float lo hi)
    | .float lo, .int hi => some (.float lo hi)
    | .int lo, .int hi => some (.float lo hi)
    | _, _ => none
  | .string, _, _, _ => some (.string m.stringMax (optionsOf m))
  | .path, _, _, _ => some (.path m.stringMax (optionsOf m))
  | .bytes, _, _, _ => some (.bytes m.stringMax (optionsOf m))
  | .list, x :: ids, max :: maxs, strict :: stricts =>
    match build m x ids maxs stricts with
    | some e => if e.isTypeContainer && m.allowDynamic then none else some (.list e m.allowStatic max strict)
    | none => none
  | .list, _, _, _ => none
  | .dict, x :: ids, max :: maxs, strict :: stricts =>
    match build m x ids maxs stricts with
    | some e => if e.isTypeContainer && m.allowDynamic then none else some (.dict e m.allowStatic max strict)
    | none => none
  | .dict, _, _, _ => none
  | .rosName, _, _, _ =>
    match m.kind with
    | some .component | none => none
    | some k => some (.rosName k m.ifaceId)
  | .rosType, _, _, _ => match m.kind with | some k => some (.rosType k m.ifaceId) | none => none
  | .rosMsg, _, _, _ => if m.kind = some .topic then some (.rosMsg m.msgType m.ifaceId) else none

/-- data_types.py 167-188 (`from_msg`) and 384-396. -/
def fromMsg (fresh : String → List (String × Val)) (m : TypeMsg) : Option Cont :=
  match build m m.typeId m.valueIds m.iterMax m.iterStrict with
  | some t => Cont.new fresh t m.allowDynamic m.allowStatic (some m.isStatic) none
  | none => none

/-- data_types.py 229-243: `get_runtime_type`. -/
def Cont.runtimeType (fresh : String → List (String × Val)) (c : Cont) : Cont :=
  (fromMsg fresh { c.serializeType with allowDynamic := !c.isStatic, allowStatic := c.isStatic }).getD c

/-- tree_exec_manager.py 1420-1422: the last check of `validate_wiring`. -/
def wiringOk (fresh : String → List (String × Val)) (source target : Cont) : Bool :=
  (target.runtimeType fresh).isCompatible (source.runtimeType fresh)

end Verif.Data
