import Verif.Data.Permitted

/-! C106: values that describe types (`GenericType`, data_types.py 922-1174).

A type value is a dictionary, as a client sends it: an identifier of a type and the parameters of the type. Simplifications: the text
of JSON is left out, as in `Json.lean`; `str` applied to a number and reading it back gives the number (`Texts`); parameters whose
type the constructors do not check and that are of no use (a string as `max_length`, a float as limit of integers) are not
followed (`Made.other`). -/

set_option autoImplicit false

namespace Verif.Data.Generic

/-- data_types.py 926-963: the keys of `GENERIC_TYPE_MAP`. -/
inductive G | bool | int | float | str | bytes | list | dict | object
  deriving DecidableEq, Repr

/-- msg/NodeDataType.msg 30-45: `BOOL_TYPE` and so on. -/
def G.id : G → Int
  | .bool => 1
  | .int => 2
  | .float => 3
  | .str => 4
  | .list => 5
  | .dict => 6
  | .bytes => 7
  | .object => 12

/-- data_types.py 923: `IDENTIFIER_KEY` -/
def idKey : String := "type_identifier"

/-- data_types.py 924: `ELEMENT_KEY` -/
def elemKey : String := "element_type"

/-- data_types.py 925: `MESSAGE_KEY` -/
def msgKey : String := "ros_msg_type"

/-- helpers.py 82-85: the largest double. -/
def doubleMax : Rat := 17976931348623157 * 10 ^ 292

/-- data_types.py 926-963: `GENERIC_TYPE_MAP`. -/
def template : G → List (String × Val)
  | .bool => [(idKey, .int 1)]
  | .int => [(idKey, .int 2), ("min_value", .int (-2 ^ 63)), ("max_value", .int (2 ^ 63 - 1))]
  | .float => [(idKey, .int 3), ("min_value", .float (.fin (-doubleMax))), ("max_value", .float (.fin doubleMax))]
  | .str => [(idKey, .int 4), ("max_length", .int intFloatMax)]
  | .bytes => [(idKey, .int 7), ("max_length", .int 1)]
  | .list => [(idKey, .int 5), ("max_length", .int intFloatMax), ("strict_length", .bool false), (elemKey, .dict [(idKey, .int 1)])]
  | .dict => [(idKey, .int 6), ("max_length", .int intFloatMax), ("strict_length", .bool false), (elemKey, .dict [(idKey, .int 1)])]
  | .object => [(idKey, .int 12), (msgKey, .str "example_interfaces/msg/Empty")]

/-- `a.keys() == b.keys()` -/
def sameKeys (a b : List (String × Val)) : Bool := a.all (fun p => (b.lookup p.1).isSome) && b.all (fun p => (a.lookup p.1).isSome)

mutual

/-- data_types.py 966-977: `match_dict_to_valid_types`. A missing identifier is a KeyError, what is not a dictionary cannot be indexed with
a string; both are only noticed if there are options to compare with. -/
def matchVal (valid : List G) : Val → Ans
  | .dict l =>
    if valid.isEmpty then .err
    else match l.lookup idKey with
      | none => .raise
      | some i =>
        match valid.find? fun g => pyEq (.int g.id) i with
        | none => .err
        | some g => if sameKeys (template g) l then matchElem valid l else .err
  | _ => if valid.isEmpty then .err else .raise

/-- data_types.py 972-975: the nested dictionary, if there is one. -/
def matchElem (valid : List G) : List (String × Val) → Ans
  | [] => .ok
  | (k, v) :: r => if k = elemKey then matchVal valid v else matchElem valid r
end

/-- A container for type values: data_types.py 1092-1116 with 409-426. It is always static. -/
structure GCont where
  valid : List G
  value : Val
  updated : Bool := false

/-- data_types.py 1104-1116: a new container; `none`: the constructor raises (`valid_types[0]`). -/
def GCont.new (valid : List G) : Option GCont :=
  match valid with
  | [] => none
  | g :: _ => some ⟨valid, .dict (template g), false⟩

/-- data_types.py 250-269 for a static container. -/
def GCont.assign (c : GCont) (v : Val) : GCont × Ans :=
  if c.updated then (c, .err)
  else ({ c with updated := !pyEq c.value v, value := if pyEq c.value v then c.value else v }, .ok)

/-- data_types.py 1136-1145: `set_value`. What `super().set_value` answers is not looked at. -/
def GCont.set (c : GCont) (v : Val) : GCont × Ans :=
  match v with
  | .dict l =>
    if (l.lookup idKey).isSome then
      match matchVal c.valid v with
      | .ok => ((c.assign v).1, .ok)
      | a => (c, a)
    else (c, .err)
  | _ => (c, .raise)

/-- What is done to a container: `set_value`, `flag_updated` (304-308), `reset_updated` (310-314) and `reset_value` (297-299), which does
nothing to a static container. -/
inductive GOp | set (v : Val) | flagUpdated | resetUpdated | resetValue

/-- The container after an operation. -/
def GCont.step (c : GCont) : GOp → GCont
  | .set v => (c.set v).1
  | .flagUpdated => { c with updated := true }
  | .resetUpdated => { c with updated := false }
  | .resetValue => c

/-- The container after a sequence of operations. -/
def GCont.run (c : GCont) (ops : List GOp) : GCont := ops.foldl GCont.step c

/-- data_types.py 1147-1155: `is_compatible`; the flags are those of all type containers. -/
def GCont.isCompatible (self other : GCont) : Bool := other.valid.all self.valid.contains

/-- What `get_iotype_for_dict` does: a container of a type, `Err`, an exception, or something that is not followed here. -/
inductive Made | ty (t : Ty) | err | raise | other
  deriving DecidableEq

/-- An argument of a constructor. -/
inductive Arg (A : Type) | val (a : A) | raise | other

/-- data_types.py 490-499: a limit of `IntType`; `None` means the limit of the class. -/
def intArg (default : Int) : Option Val → Arg Int
  | some (.int i) => .val i
  | some .none => .val default
  | some (.float _) | some (.bool _) => .other
  | _ => .raise

/-- data_types.py 490-499: a limit of `FloatType`. -/
def floatArg (default : Rat) : Option Val → Arg Rat
  | some (.float (.fin r)) => .val r
  | some (.int i) => .val i
  | some .none => .val default
  | some (.float _) | some (.bool _) => .other
  | _ => .raise

/-- data_types.py 608-619: `max_length` of a string; its type is not checked. -/
def lengthArg (default : Nat) : Option Val → Arg Nat
  | some (.int (.ofNat n)) => .val n
  | some .none => .val default
  | _ => .other

/-- data_types.py 742-765: `max_length` of a list or dictionary. -/
def maxArg (default : Nat) : Option Val → Arg Nat
  | some (.int (.ofNat n)) => .val n
  | some .none => .val default
  | some (.int _) | some (.bool _) => .other
  | _ => .raise

/-- data_types.py 742-765: `strict_length`. -/
def strictArg : Option Val → Arg Bool
  | some (.bool b) => .val b
  | some .none => .val false
  | _ => .raise

/-- data_types.py 501-504: reversed limits are a RuntimeError. -/
def intTy : Arg Int → Arg Int → Made
  | .val lo, .val hi => if lo > hi then .raise else .ty (.int lo hi)
  | .raise, _ => .raise
  | _, .raise => .raise
  | _, _ => .other

/-- data_types.py 501-504 -/
def floatTy : Arg Rat → Arg Rat → Made
  | .val lo, .val hi => if lo > hi then .raise else .ty (.float lo hi)
  | .raise, _ => .raise
  | _, .raise => .raise
  | _, _ => .other

/-- data_types.py 742-765: a list or dictionary of elements with `allow_static`, as the constructors have it (88-89). -/
def iterTy (mk : Ty → Bool → Nat → Bool → Ty) (e : Made) (max : Arg Nat) (strict : Arg Bool) : Made :=
  match e, max, strict with
  | .ty e, .val n, .val s => .ty (mk e true n s)
  | .err, _, _ => .err
  | .raise, _, _ => .raise
  | .other, _, _ => .other
  | _, .raise, _ => .raise
  | _, _, .raise => .raise
  | _, _, _ => .other

/-- The type with an identifier. -/
def byId (i : Val) : Option G := [G.bool, .int, .float, .str, .bytes, .list, .dict, .object].find? fun g => pyEq (.int g.id) i

mutual

/-- data_types.py 981-1012: `get_iotype_for_dict`, for dictionaries with the keys of the template (others are not stored). `isMsg`: does
`get_message` find a message class? If not, it raises. -/
def made (isMsg : String → Bool) : Val → Made
  | .dict l =>
    match l.lookup idKey with
    | none => .err
    | some i =>
      match byId i with
      | none => .other
      | some g =>
        if sameKeys (template g) l then
          match g with
          | .bool => .ty .bool
          | .int => intTy (intArg (-2 ^ 63) (l.lookup "min_value")) (intArg (2 ^ 64 - 1) (l.lookup "max_value"))
          | .float => floatTy (floatArg (-doubleMax) (l.lookup "min_value")) (floatArg doubleMax (l.lookup "max_value"))
          | .str => match lengthArg intFloatMax (l.lookup "max_length") with | .val n => .ty (.string n none) | _ => .other
          | .bytes => match lengthArg 1 (l.lookup "max_length") with | .val n => .ty (.bytes n none) | _ => .other
          | .list => iterTy .list (madeElem isMsg l) (maxArg intFloatMax (l.lookup "max_length")) (strictArg (l.lookup "strict_length"))
          | .dict => iterTy .dict (madeElem isMsg l) (maxArg intFloatMax (l.lookup "max_length")) (strictArg (l.lookup "strict_length"))
          | .object => match l.lookup msgKey with | some (.str n) => if isMsg n then .ty (.rosMsg n 0) else .raise | _ => .raise
        else .other
  | _ => .raise

/-- data_types.py 1003-1008: the type of the elements. -/
def madeElem (isMsg : String → Bool) : List (String × Val) → Made
  | [] => .err
  | (k, v) :: r => if k = elemKey then made isMsg v else madeElem isMsg r
end

/-- `str`, `int` and `float` of Python, as far as needed. -/
structure Texts where
  str : Val → String
  int : String → Option Int
  float : String → Option Flt
  int_str : ∀ i, int (str (.int i)) = some i
  float_str : ∀ f, float (str (.float f)) = some f

mutual

/-- data_types.py 1035-1047: `serialize_type_map_value`, of values that were accepted (a nested value is a dictionary). -/
def serMap (tx : Texts) : Val → Val
  | .dict l => .dict (serEntries tx l)
  | v => v

/-- The entries: limits become strings, a nested dictionary is treated likewise. -/
def serEntries (tx : Texts) : List (String × Val) → List (String × Val)
  | [] => []
  | (k, v) :: r =>
    (k, if k = "min_value" ∨ k = "max_value" then .str (tx.str v) else if k = elemKey then serMap tx v else v) :: serEntries tx r
end

/-- `int(x)` and `float(x)` (data_types.py 1057-1060, 1068-1071); `none`: ValueError, OverflowError or TypeError. -/
def readLimit (tx : Texts) (float : Bool) : Val → Option Val
  | .str s => if float then (tx.float s).map .float else (tx.int s).map .int
  | v =>
    match v.num with
    | none => none
    | some f =>
      if float then some (.float f)
      else match f with
        | .fin r => some (.int (if 0 ≤ r then r.floor else r.ceil))
        | _ => none

/-- data_types.py 1051-1071: what happens to an entry; `kind`: `some false` for integers, `some true` for floats. -/
def deserEntry (tx : Texts) (kind : Option Bool) (nested : Option Val) (k : String) (v : Val) : Option Val :=
  match kind with
  | some float => if k = "min_value" ∨ k = "max_value" then readLimit tx float v else some v
  | none => if k = elemKey then nested else some v

/-- data_types.py 1056-1065: the converter. -/
def converter (i : Val) : Option Bool := if pyEq i (.int 2) then some false else if pyEq i (.int 3) then some true else none

mutual

/-- data_types.py 1051-1071: `deserialize_type_map_value`; `none`: an exception. -/
def deserMap (tx : Texts) : Val → Option Val
  | .dict l =>
    match l.lookup idKey with
    | none => none
    | some i => (deserEntries tx (converter i) l).map .dict
  | _ => none

/-- All entries. -/
def deserEntries (tx : Texts) (kind : Option Bool) : List (String × Val) → Option (List (String × Val))
  | [] => some []
  | (k, v) :: r =>
    match deserEntry tx kind (if k = elemKey then deserMap tx v else none) k v, deserEntries tx kind r with
    | some v, some r => some ((k, v) :: r)
    | _, _ => none
end

/-- data_types.py 1016-1020: the name of a class. -/
def G.name : G → String
  | .bool => "bool"
  | .int => "int"
  | .float => "float"
  | .str => "str"
  | .bytes => "bytes"
  | .list => "list"
  | .dict => "dict"
  | .object => "object"

/-- data_types.py 1024-1031 and 1111-1113: the class with a name; `none`: there is no such class, `some none`: there is, but it is no key
of the map. `builtin` knows the names of the module `builtins`. -/
def classOf (builtin : String → Bool) (s : String) : Option (Option G) :=
  match [G.bool, .int, .float, .str, .bytes, .list, .dict, .object].find? fun g => g.name = s with
  | some g => some (some g)
  | none => if builtin s then some none else none

/-- data_types.py 1119-1134 with 1105-1116: the container for a message with the given options; `none`: an exception. -/
def fromOptions (builtin : String → Bool) (options : List String) : Option GCont :=
  match (options.filterMap (classOf builtin)).mapM id with
  | none => none
  | some valid => GCont.new valid

/-- data_types.py 1075-1088: `serialize_type_map`, only the names. -/
def toOptions (valid : List G) : List String := valid.map G.name

/-! ### Specification -/

/-- The parameters of a type. -/
def params : G → List String
  | .bool => []
  | .int | .float => ["min_value", "max_value"]
  | .str | .bytes => ["max_length"]
  | .list | .dict => ["max_length", "strict_length", "element_type"]
  | .object => ["ros_msg_type"]

/-- A dictionary with the identifier of a type and exactly its parameters. -/
structure Shape (l : List (String × Val)) (g : G) : Prop where
  id : ∃ i, l.lookup "type_identifier" = some i ∧ Number i g.id
  keys : ∀ k, (l.lookup k).isSome = true ↔ k = "type_identifier" ∨ k ∈ params g

/-- A type value built from the given types only. -/
inductive Described (valid : List G) : Val → Prop
  | plain {l : List (String × Val)} {g : G} : g ∈ valid → Shape l g → g ≠ .list → g ≠ .dict → Described valid (.dict l)
  | nested {l : List (String × Val)} {g : G} {e : Val} : g ∈ valid → Shape l g → l.lookup "element_type" = some e → Described valid e →
      Described valid (.dict l)

/-- A parameter is given or has its default value. -/
inductive Param {A : Type} (of : A → Val) (default : A) : Val → A → Prop
  | given (a : A) : Param of default (of a) a
  | absent : Param of default .none default

/-- A limit for floats. -/
inductive FloatLimit (default : Rat) : Val → Rat → Prop
  | float (r : Rat) : FloatLimit default (.float (.fin r)) r
  | int (i : Int) : FloatLimit default (.int i) i
  | absent : FloatLimit default .none default

/-- A length. -/
def natVal (n : Nat) : Val := .int n

/-- The type that a type value means. -/
inductive Means (isMsg : String → Bool) : Val → Ty → Prop
  | bool {l : List (String × Val)} : Shape l .bool → Means isMsg (.dict l) .bool
  | int {l : List (String × Val)} {a b : Val} {lo hi : Int} : Shape l .int → l.lookup "min_value" = some a → Param .int (-2 ^ 63) a lo →
      l.lookup "max_value" = some b → Param .int (2 ^ 64 - 1) b hi → lo ≤ hi → Means isMsg (.dict l) (.int lo hi)
  | float {l : List (String × Val)} {a b : Val} {lo hi : Rat} : Shape l .float → l.lookup "min_value" = some a → FloatLimit (-doubleMax) a lo →
      l.lookup "max_value" = some b → FloatLimit doubleMax b hi → lo ≤ hi → Means isMsg (.dict l) (.float lo hi)
  | str {l : List (String × Val)} {a : Val} {n : Nat} : Shape l .str → l.lookup "max_length" = some a → Param natVal intFloatMax a n →
      Means isMsg (.dict l) (.string n none)
  | bytes {l : List (String × Val)} {a : Val} {n : Nat} : Shape l .bytes → l.lookup "max_length" = some a → Param natVal 1 a n →
      Means isMsg (.dict l) (.bytes n none)
  | list {l : List (String × Val)} {a b e : Val} {n : Nat} {s : Bool} {t : Ty} : Shape l .list → l.lookup "max_length" = some a →
      Param natVal intFloatMax a n → l.lookup "strict_length" = some b → Param .bool false b s → l.lookup "element_type" = some e →
      Means isMsg e t → Means isMsg (.dict l) (.list t true n s)
  | dict {l : List (String × Val)} {a b e : Val} {n : Nat} {s : Bool} {t : Ty} : Shape l .dict → l.lookup "max_length" = some a →
      Param natVal intFloatMax a n → l.lookup "strict_length" = some b → Param .bool false b s → l.lookup "element_type" = some e →
      Means isMsg e t → Means isMsg (.dict l) (.dict t true n s)
  | object {l : List (String × Val)} {n : String} : Shape l .object → l.lookup "ros_msg_type" = some (.str n) → isMsg n = true →
      Means isMsg (.dict l) (.rosMsg n 0)

/-! ### Lemmas -/

theorem eq_number {n : Int} {v : Val} : pyEq (.int n) v = true ↔ Number v n := by
  rw [← num_fin]
  have hn : (Val.int n).num = some (.fin n) := rfl
  cases h : v.num with
  | none => simp [pyEq, pyEq.numEq, h]
  | some f =>
    cases f with
    | nan => simp [pyEq, pyEq.numEq, h, Flt.eq, hn]
    | inf b => simp [pyEq, pyEq.numEq, h, Flt.eq, hn]
    | fin r => simp [pyEq, pyEq.numEq, h, Flt.eq, hn]; exact eq_comm

theorem number_unique {v : Val} {a b : Rat} (h : Number v a) (k : Number v b) : a = b := by
  have h := num_fin.mpr h
  rw [num_fin.mpr k] at h
  simpa using h.symm

theorem id_inj {g h : G} (e : (g.id : Rat) = h.id) : g = h := by
  revert e
  cases g <;> cases h <;> decide +kernel

theorem mem_lookup {l : List (String × Val)} {p : String × Val} (h : p ∈ l) : (l.lookup p.1).isSome = true := by
  induction l with
  | nil => simp at h
  | cons q l ih =>
    obtain ⟨k, v⟩ := q
    by_cases e : p.1 = k
    · simp [e]
    · rcases List.mem_cons.mp h with h | h
      · rw [h] at e; exact absurd rfl e
      · rw [List.lookup_cons, beq_false_of_ne e]
        exact ih h

theorem lookup_mem {l : List (String × Val)} {k : String} {v : Val} (h : l.lookup k = some v) : (k, v) ∈ l := by
  induction l with
  | nil => simp at h
  | cons q l ih =>
    obtain ⟨j, w⟩ := q
    by_cases e : k = j
    · rw [e] at h ⊢; simp at h; simp [h]
    · rw [List.lookup_cons, beq_false_of_ne e] at h
      exact List.mem_cons_of_mem _ (ih h)

theorem sameKeys_iff {a b : List (String × Val)} : sameKeys a b = true ↔ ∀ k, (a.lookup k).isSome = true ↔ (b.lookup k).isSome = true := by
  unfold sameKeys
  rw [Bool.and_eq_true, List.all_eq_true, List.all_eq_true]
  constructor
  · intro ⟨h, h'⟩ k
    constructor
    · intro e
      obtain ⟨v, e⟩ := Option.isSome_iff_exists.mp e
      exact h _ (lookup_mem e)
    · intro e
      obtain ⟨v, e⟩ := Option.isSome_iff_exists.mp e
      exact h' _ (lookup_mem e)
  · intro h
    exact ⟨fun p hp => (h p.1).mp (mem_lookup hp), fun p hp => (h p.1).mpr (mem_lookup hp)⟩

theorem lookup_keys (l : List (String × Val)) (k : String) : (l.lookup k).isSome = true ↔ k ∈ l.map (·.1) := by
  constructor
  · intro h
    obtain ⟨v, h⟩ := Option.isSome_iff_exists.mp h
    exact List.mem_map.mpr ⟨_, lookup_mem h, rfl⟩
  · intro h
    obtain ⟨p, h, e⟩ := List.mem_map.mp h
    exact e ▸ mem_lookup h

theorem template_keys (g : G) (k : String) : ((template g).lookup k).isSome = true ↔ k = "type_identifier" ∨ k ∈ params g := by
  rw [lookup_keys]
  cases g <;> simp [template, params, idKey, elemKey, msgKey]

theorem shape_iff {l : List (String × Val)} {g : G} {i : Val} (hi : l.lookup idKey = some i) :
    Shape l g ↔ pyEq (.int g.id) i = true ∧ sameKeys (template g) l = true := by
  rw [eq_number, sameKeys_iff]
  constructor
  · intro ⟨⟨j, hj, n⟩, h⟩
    rw [show l.lookup "type_identifier" = some i from hi] at hj
    cases hj
    exact ⟨n, fun k => by rw [template_keys, h]⟩
  · intro ⟨n, h⟩
    exact ⟨⟨i, hi, n⟩, fun k => by rw [← h, template_keys]⟩

theorem shape_unique {l : List (String × Val)} {g h : G} (a : Shape l g) (b : Shape l h) : g = h := by
  obtain ⟨i, hi, n⟩ := a.id
  obtain ⟨j, hj, m⟩ := b.id
  rw [hi] at hj
  cases hj
  exact id_inj (number_unique n m)

theorem find_id {valid : List G} {i : Val} {g : G} :
    (valid.find? fun g => pyEq (.int g.id) i) = some g ↔ g ∈ valid ∧ pyEq (.int g.id) i = true := by
  constructor
  · intro h
    exact ⟨List.mem_of_find?_eq_some h, by simpa using List.find?_some h⟩
  · intro ⟨h, e⟩
    cases f : valid.find? fun g => pyEq (.int g.id) i with
    | none =>
      rw [List.find?_eq_none] at f
      exact absurd e (f g h)
    | some g' =>
      have e' : pyEq (.int g'.id) i = true := by simpa using List.find?_some f
      rw [id_inj (number_unique (eq_number.mp e') (eq_number.mp e))]

theorem byId_iff {i : Val} {g : G} : byId i = some g ↔ pyEq (.int g.id) i = true := by
  unfold byId
  rw [find_id]
  constructor
  · exact fun h => h.2
  · intro h
    refine ⟨?_, h⟩
    cases g <;> simp

theorem matchElem_eq (valid : List G) (l : List (String × Val)) :
    matchElem valid l = match l.lookup elemKey with | none => .ok | some e => matchVal valid e := by
  induction l with
  | nil => rfl
  | cons p l ih =>
    obtain ⟨k, v⟩ := p
    rw [matchElem, List.lookup_cons]
    by_cases e : k = elemKey
    · simp [e]
    · rw [if_neg e, beq_false_of_ne (Ne.symm e)]; exact ih

theorem madeElem_eq (isMsg : String → Bool) (l : List (String × Val)) :
    madeElem isMsg l = match l.lookup elemKey with | none => .err | some e => made isMsg e := by
  induction l with
  | nil => rfl
  | cons p l ih =>
    obtain ⟨k, v⟩ := p
    rw [madeElem, List.lookup_cons]
    by_cases e : k = elemKey
    · simp [e]
    · rw [if_neg e, beq_false_of_ne (Ne.symm e)]; exact ih

theorem size_lookup {l : List (String × Val)} {k : String} {e : Val} (h : l.lookup k = some e) : sizeOf e < 1 + sizeOf l := by
  have h := List.sizeOf_lt_of_mem (lookup_mem h)
  simp at h
  omega

/-- A dictionary of the shape of a list or dictionary has a description of the elements, others have none. -/
theorem shape_elem {l : List (String × Val)} {g : G} (h : Shape l g) : (l.lookup elemKey).isSome = true ↔ g = .list ∨ g = .dict := by
  rw [h.keys]
  cases g <;> simp [elemKey, params]

/-! ### Acceptance -/

theorem accepted (valid : List G) (v : Val) : matchVal valid v = .ok ↔ Described valid v := by
  cases v with
  | dict l =>
    rw [matchVal]
    by_cases hv : valid.isEmpty = true
    · rw [if_pos hv]
      have hv : valid = [] := by simpa using hv
      constructor
      · intro h; cases h
      · intro h; cases h <;> simp_all
    · rw [if_neg hv]
      cases hi : l.lookup idKey with
      | none =>
        constructor
        · intro h; cases h
        · intro h
          have : ∃ g, Shape l g := by cases h with | plain _ s => exact ⟨_, s⟩ | nested _ s => exact ⟨_, s⟩
          obtain ⟨g, s⟩ := this
          obtain ⟨j, hj, _⟩ := s.id
          rw [show l.lookup "type_identifier" = none from hi] at hj
          cases hj
      | some i =>
        dsimp only
        cases f : valid.find? fun g => pyEq (.int g.id) i with
        | none =>
          rw [List.find?_eq_none] at f
          constructor
          · intro h; cases h
          · intro h
            have : ∃ g, g ∈ valid ∧ Shape l g := by cases h with | plain a s => exact ⟨_, a, s⟩ | nested a s => exact ⟨_, a, s⟩
            obtain ⟨g, a, s⟩ := this
            exact absurd ((shape_iff hi).mp s).1 (f g a)
        | some g =>
          obtain ⟨hg, he⟩ := find_id.mp f
          dsimp only
          by_cases hk : sameKeys (template g) l = true
          · rw [if_pos hk, matchElem_eq]
            have s : Shape l g := (shape_iff hi).mpr ⟨he, hk⟩
            cases hl : l.lookup elemKey with
            | none =>
              have hn : ¬(g = .list ∨ g = .dict) := by rw [← shape_elem s, hl]; simp
              simp only [true_iff]
              exact .plain hg s (fun e => hn (.inl e)) (fun e => hn (.inr e))
            | some e =>
              have hlt := size_lookup hl
              dsimp only
              rw [accepted valid e]
              constructor
              · exact fun h => .nested hg s hl h
              · intro h
                cases h with
                | plain _ s' a b =>
                  have := (shape_elem s').mp (by rw [hl]; rfl)
                  rcases this with h | h
                  · exact absurd h a
                  · exact absurd h b
                | nested _ _ h' d =>
                  rw [show l.lookup "element_type" = some e from hl] at h'
                  cases h'
                  exact d
          · rw [if_neg hk]
            constructor
            · intro h; cases h
            · intro h
              have : ∃ g, Shape l g := by cases h with | plain _ s => exact ⟨_, s⟩ | nested _ s => exact ⟨_, s⟩
              obtain ⟨g', s⟩ := this
              have s' := (shape_iff hi).mp s
              rw [id_inj (number_unique (eq_number.mp s'.1) (eq_number.mp he))] at s'
              exact absurd s'.2 hk
  | _ =>
    rw [matchVal]
    · constructor
      · intro h; split at h <;> cases h
      · intro h; cases h
    · intro l h; cases h
termination_by sizeOf v

/-! ### Meaning -/

theorem intArg_iff {d : Int} {o : Option Val} {a : Int} : intArg d o = .val a ↔ ∃ v, o = some v ∧ Param .int d v a := by
  constructor
  · intro h
    unfold intArg at h
    split at h <;> cases h
    · exact ⟨_, rfl, .given _⟩
    · exact ⟨_, rfl, .absent⟩
  · intro ⟨v, e, p⟩
    cases p <;> subst e <;> rfl

theorem floatArg_iff {d : Rat} {o : Option Val} {a : Rat} : floatArg d o = .val a ↔ ∃ v, o = some v ∧ FloatLimit d v a := by
  constructor
  · intro h
    unfold floatArg at h
    split at h <;> cases h
    · exact ⟨_, rfl, .float _⟩
    · exact ⟨_, rfl, .int _⟩
    · exact ⟨_, rfl, .absent⟩
  · intro ⟨v, e, p⟩
    cases p <;> subst e <;> rfl

theorem lengthArg_iff {d : Nat} {o : Option Val} {a : Nat} : lengthArg d o = .val a ↔ ∃ v, o = some v ∧ Param natVal d v a := by
  constructor
  · intro h
    unfold lengthArg at h
    split at h <;> cases h
    · exact ⟨_, rfl, .given _⟩
    · exact ⟨_, rfl, .absent⟩
  · intro ⟨v, e, p⟩
    cases p <;> subst e <;> rfl

theorem maxArg_iff {d : Nat} {o : Option Val} {a : Nat} : maxArg d o = .val a ↔ ∃ v, o = some v ∧ Param natVal d v a := by
  constructor
  · intro h
    unfold maxArg at h
    split at h <;> cases h
    · exact ⟨_, rfl, .given _⟩
    · exact ⟨_, rfl, .absent⟩
  · intro ⟨v, e, p⟩
    cases p <;> subst e <;> rfl

theorem strictArg_iff {o : Option Val} {a : Bool} : strictArg o = .val a ↔ ∃ v, o = some v ∧ Param .bool false v a := by
  constructor
  · intro h
    unfold strictArg at h
    split at h <;> cases h
    · exact ⟨_, rfl, .given _⟩
    · exact ⟨_, rfl, .absent⟩
  · intro ⟨v, e, p⟩
    cases p <;> subst e <;> rfl

theorem intTy_iff {a b : Arg Int} {t : Ty} : intTy a b = .ty t ↔ ∃ lo hi, a = .val lo ∧ b = .val hi ∧ lo ≤ hi ∧ t = .int lo hi := by
  cases a <;> cases b <;> simp [intTy]
  rename_i a b
  by_cases h : b < a
  · simp [h]; omega
  · simp [h, eq_comm]; omega

theorem floatTy_iff {a b : Arg Rat} {t : Ty} : floatTy a b = .ty t ↔ ∃ lo hi, a = .val lo ∧ b = .val hi ∧ lo ≤ hi ∧ t = .float lo hi := by
  cases a <;> cases b <;> simp [floatTy]
  rename_i a b
  by_cases h : b < a
  · simp [h, Rat.not_le.mpr h]
  · simp [h, eq_comm, Rat.not_lt.mp h]

theorem iterTy_iff {mk : Ty → Bool → Nat → Bool → Ty} {e : Made} {a : Arg Nat} {b : Arg Bool} {t : Ty} :
    iterTy mk e a b = .ty t ↔ ∃ u n s, e = .ty u ∧ a = .val n ∧ b = .val s ∧ t = mk u true n s := by
  cases e <;> cases a <;> cases b <;> simp [iterTy, eq_comm]

/-- `Means`, with the shape apart. -/
def MeansAt (isMsg : String → Bool) (l : List (String × Val)) (t : Ty) : G → Prop
  | .bool => t = .bool
  | .int => ∃ lo hi, (∃ a, l.lookup "min_value" = some a ∧ Param .int (-2 ^ 63) a lo) ∧
      (∃ b, l.lookup "max_value" = some b ∧ Param .int (2 ^ 64 - 1) b hi) ∧ lo ≤ hi ∧ t = .int lo hi
  | .float => ∃ lo hi, (∃ a, l.lookup "min_value" = some a ∧ FloatLimit (-doubleMax) a lo) ∧
      (∃ b, l.lookup "max_value" = some b ∧ FloatLimit doubleMax b hi) ∧ lo ≤ hi ∧ t = .float lo hi
  | .str => ∃ n, (∃ a, l.lookup "max_length" = some a ∧ Param natVal intFloatMax a n) ∧ t = .string n none
  | .bytes => ∃ n, (∃ a, l.lookup "max_length" = some a ∧ Param natVal 1 a n) ∧ t = .bytes n none
  | .list => ∃ u n s, (∃ e, l.lookup "element_type" = some e ∧ Means isMsg e u) ∧
      (∃ a, l.lookup "max_length" = some a ∧ Param natVal intFloatMax a n) ∧
      (∃ b, l.lookup "strict_length" = some b ∧ Param .bool false b s) ∧ t = .list u true n s
  | .dict => ∃ u n s, (∃ e, l.lookup "element_type" = some e ∧ Means isMsg e u) ∧
      (∃ a, l.lookup "max_length" = some a ∧ Param natVal intFloatMax a n) ∧
      (∃ b, l.lookup "strict_length" = some b ∧ Param .bool false b s) ∧ t = .dict u true n s
  | .object => ∃ n, l.lookup "ros_msg_type" = some (.str n) ∧ isMsg n = true ∧ t = .rosMsg n 0

theorem means_at {isMsg : String → Bool} {l : List (String × Val)} {t : Ty} :
    Means isMsg (.dict l) t ↔ ∃ g, Shape l g ∧ MeansAt isMsg l t g := by
  constructor
  · intro h
    cases h with
    | bool s => exact ⟨_, s, rfl⟩
    | int s a pa b pb le => exact ⟨_, s, _, _, ⟨_, a, pa⟩, ⟨_, b, pb⟩, le, rfl⟩
    | float s a pa b pb le => exact ⟨_, s, _, _, ⟨_, a, pa⟩, ⟨_, b, pb⟩, le, rfl⟩
    | str s a pa => exact ⟨_, s, _, ⟨_, a, pa⟩, rfl⟩
    | bytes s a pa => exact ⟨_, s, _, ⟨_, a, pa⟩, rfl⟩
    | list s a pa b pb e m => exact ⟨_, s, _, _, _, ⟨_, e, m⟩, ⟨_, a, pa⟩, ⟨_, b, pb⟩, rfl⟩
    | dict s a pa b pb e m => exact ⟨_, s, _, _, _, ⟨_, e, m⟩, ⟨_, a, pa⟩, ⟨_, b, pb⟩, rfl⟩
    | object s a m => exact ⟨_, s, _, a, m, rfl⟩
  · intro ⟨g, s, h⟩
    cases g with
    | bool => cases h; exact .bool s
    | int => obtain ⟨_, _, ⟨_, a, pa⟩, ⟨_, b, pb⟩, le, rfl⟩ := h; exact .int s a pa b pb le
    | float => obtain ⟨_, _, ⟨_, a, pa⟩, ⟨_, b, pb⟩, le, rfl⟩ := h; exact .float s a pa b pb le
    | str => obtain ⟨_, ⟨_, a, pa⟩, rfl⟩ := h; exact .str s a pa
    | bytes => obtain ⟨_, ⟨_, a, pa⟩, rfl⟩ := h; exact .bytes s a pa
    | list => obtain ⟨_, _, _, ⟨_, e, m⟩, ⟨_, a, pa⟩, ⟨_, b, pb⟩, rfl⟩ := h; exact .list s a pa b pb e m
    | dict => obtain ⟨_, _, _, ⟨_, e, m⟩, ⟨_, a, pa⟩, ⟨_, b, pb⟩, rfl⟩ := h; exact .dict s a pa b pb e m
    | object => obtain ⟨_, a, m, rfl⟩ := h; exact .object s a m

theorem meaning (isMsg : String → Bool) (v : Val) (t : Ty) : made isMsg v = .ty t ↔ Means isMsg v t := by
  cases v with
  | dict l =>
    rw [made, means_at]
    cases hi : l.lookup idKey with
    | none =>
      constructor
      · intro h; cases h
      · intro ⟨g, s, _⟩
        obtain ⟨j, hj, _⟩ := s.id
        rw [show l.lookup "type_identifier" = none from hi] at hj
        cases hj
    | some i =>
      dsimp only
      cases hb : byId i with
      | none =>
        constructor
        · intro h; cases h
        · intro ⟨g, s, _⟩
          rw [byId_iff.mpr ((shape_iff hi).mp s).1] at hb
          cases hb
      | some g =>
        dsimp only
        by_cases hk : sameKeys (template g) l = true
        · have s : Shape l g := (shape_iff hi).mpr ⟨byId_iff.mp hb, hk⟩
          have one : (∃ g, Shape l g ∧ MeansAt isMsg l t g) ↔ MeansAt isMsg l t g :=
            ⟨fun ⟨g', s', h⟩ => shape_unique s' s ▸ h, fun h => ⟨g, s, h⟩⟩
          rw [if_pos hk, one]
          have elem : ∀ u, madeElem isMsg l = .ty u ↔ ∃ e, l.lookup "element_type" = some e ∧ Means isMsg e u := by
            intro u
            rw [madeElem_eq, show elemKey = "element_type" from rfl]
            cases hl : l.lookup "element_type" with
            | none => simp
            | some e =>
              have hlt := size_lookup hl
              simp only [Option.some.injEq, exists_eq_left']
              exact meaning isMsg e u
          cases g with
          | bool => simp [MeansAt, eq_comm]
          | int =>
            dsimp only
            rw [intTy_iff]
            simp only [intArg_iff]
            rfl
          | float =>
            dsimp only
            rw [floatTy_iff]
            simp only [floatArg_iff]
            rfl
          | str =>
            dsimp only [MeansAt]
            simp only [← lengthArg_iff]
            cases lengthArg intFloatMax (l.lookup "max_length") <;> simp [eq_comm]
          | bytes =>
            dsimp only [MeansAt]
            simp only [← lengthArg_iff]
            cases lengthArg 1 (l.lookup "max_length") <;> simp [eq_comm]
          | list =>
            dsimp only
            rw [iterTy_iff]
            simp only [elem, maxArg_iff, strictArg_iff]
            rfl
          | dict =>
            dsimp only
            rw [iterTy_iff]
            simp only [elem, maxArg_iff, strictArg_iff]
            rfl
          | object =>
            dsimp only [MeansAt]
            rw [show msgKey = "ros_msg_type" from rfl]
            constructor
            · intro h
              split at h
              · rename_i n hn
                split at h
                · cases h; exact ⟨n, hn, by assumption, rfl⟩
                · cases h
              · cases h
            · intro ⟨n, hn, m, e⟩
              rw [hn, e]
              simp [m]
        · rw [if_neg hk]
          constructor
          · intro h; cases h
          · intro ⟨g', s, _⟩
            have s' := (shape_iff hi).mp s
            rw [byId_iff.mpr s'.1] at hb
            cases hb
            exact absurd s'.2 hk
  | _ =>
    rw [made]
    · constructor
      · intro h; cases h
      · intro h; cases h
    · intro l h; cases h
termination_by sizeOf v

/-! ### C106 -/

/-- A container accepts exactly the type values built from its types. -/
theorem c106_accepts (c : GCont) (v : Val) : (c.set v).2 = .ok ↔ Described c.valid v := by
  rw [← accepted]
  unfold GCont.set
  cases v with
  | dict l =>
    dsimp only
    cases hi : l.lookup idKey with
    | none =>
      rw [matchVal, hi]
      simp
      split <;> simp
    | some i =>
      simp only [Option.isSome_some, if_true]
      cases matchVal c.valid (.dict l) <;> simp
  | _ =>
    rw [matchVal]
    · simp
      split <;> simp
    · intro l h; cases h

theorem set_valid (c : GCont) (v : Val) : (c.set v).1.valid = c.valid := by
  unfold GCont.set GCont.assign
  repeat' split
  all_goals rfl

theorem step_valid (c : GCont) (o : GOp) : (c.step o).valid = c.valid := by
  cases o <;> simp [GCont.step, set_valid]

theorem set_value (c : GCont) (v : Val) : (c.set v).1.value = c.value ∨ ((c.set v).1.value = v ∧ (c.set v).2 = .ok) := by
  unfold GCont.set GCont.assign
  repeat' split
  all_goals simp

/-- Whatever is done to a new container, its value is the one it started with or one built from its types. -/
theorem c106_holds (valid : List G) (c : GCont) (h : GCont.new valid = some c) (ops : List GOp) :
    (c.run ops).value = c.value ∨ Described valid (c.run ops).value := by
  have hv : c.valid = valid := by
    unfold GCont.new at h
    split at h <;> cases h
    rfl
  suffices H : ∀ d : GCont, d.valid = valid → (d.value = c.value ∨ Described valid d.value) →
      (d.run ops).value = c.value ∨ Described valid (d.run ops).value from H c hv (.inl rfl)
  induction ops with
  | nil => exact fun d _ h => h
  | cons o ops ih =>
    intro d e h
    refine ih (d.step o) (by rw [step_valid, e]) ?_
    cases o with
    | set v =>
      rcases set_value d v with k | ⟨k, ok⟩
      · rw [GCont.step, k]; exact h
      · right
        rw [GCont.step, k, ← e]
        exact (c106_accepts d v).mp ok
    | _ => exact h

/-- The type a type value means is the one that is made of it, and no other. -/
theorem c106_meaning (isMsg : String → Bool) (v : Val) (t : Ty) : made isMsg v = .ty t ↔ Means isMsg v t := meaning isMsg v t

/-- A container takes over the first value that differs from its own ... -/
theorem c106_first (c : GCont) (v : Val) (h : Described c.valid v) (fresh : c.updated = false) (new : pyEq c.value v = false) :
    (c.set v).1.value = v ∧ (c.set v).1.updated = true := by
  have ok := (accepted c.valid v).mpr h
  have : (c.set v).1 = (c.assign v).1 := by
    have h2 := (c106_accepts c v).mpr h
    unfold GCont.set at h2 ⊢
    cases v with
    | dict l =>
      dsimp only at h2 ⊢
      split
      · rw [ok]
      · rename_i hn; rw [if_neg hn] at h2; cases h2
    | _ => cases h2
  rw [this]
  simp [GCont.assign, fresh, new]

/-- ... and no other after it, but it answers `Ok`. -/
theorem c106_second_ignored (c : GCont) (v : Val) (h : Described c.valid v) (done : c.updated = true) :
    c.set v = (c, .ok) := by
  have h2 := (c106_accepts c v).mpr h
  have ok := (accepted c.valid v).mpr h
  unfold GCont.set at h2 ⊢
  cases v with
  | dict l =>
    dsimp only at h2 ⊢
    split
    · rw [ok]; simp [GCont.assign, done]
    · rename_i hn; rw [if_neg hn] at h2; cases h2
  | _ => cases h2

theorem described_mono {a b : List G} (h : ∀ g ∈ a, g ∈ b) {v : Val} (d : Described a v) : Described b v := by
  induction d with
  | plain m s x y => exact .plain (h _ m) s x y
  | nested m s e _ ih => exact .nested (h _ m) s e ih

/-- A container accepts what one compatible with it accepts. -/
theorem c106_compatible (self other : GCont) (h : self.isCompatible other = true) (v : Val) (ok : (other.set v).2 = .ok) :
    (self.set v).2 = .ok := by
  rw [c106_accepts] at ok ⊢
  refine described_mono ?_ ok
  intro g hg
  have := List.all_eq_true.mp h g hg
  simpa using this

/-! ### Writing and reading back -/

/-- Type values whose limits are numbers of the type. -/
inductive Written : Val → Prop
  | int {l : List (String × Val)} : Shape l .int → (∀ p ∈ l, p.1 = "min_value" ∨ p.1 = "max_value" → ∃ i, p.2 = .int i) → Written (.dict l)
  | float {l : List (String × Val)} : Shape l .float → (∀ p ∈ l, p.1 = "min_value" ∨ p.1 = "max_value" → ∃ f, p.2 = .float f) →
      Written (.dict l)
  | other {l : List (String × Val)} {g : G} : Shape l g → g ≠ .int → g ≠ .float → (∀ p ∈ l, p.1 = "element_type" → Written p.2) →
      Written (.dict l)

/-- What becomes of an entry. -/
def serOne (tx : Texts) (k : String) (v : Val) : Val :=
  if k = "min_value" ∨ k = "max_value" then .str (tx.str v) else if k = elemKey then serMap tx v else v

theorem serEntries_cons (tx : Texts) (k : String) (v : Val) (r : List (String × Val)) :
    serEntries tx ((k, v) :: r) = (k, serOne tx k v) :: serEntries tx r := by rw [serEntries]; rfl

theorem ser_id (tx : Texts) (l : List (String × Val)) : (serEntries tx l).lookup idKey = l.lookup idKey := by
  induction l with
  | nil => rw [serEntries]
  | cons p l ih =>
    obtain ⟨k, v⟩ := p
    rw [serEntries_cons, List.lookup_cons, List.lookup_cons, ih]
    by_cases e : idKey = k
    · rw [← e]; simp [serOne, idKey, elemKey]
    · rw [beq_false_of_ne e]

theorem deser_ser (tx : Texts) (kind : Option Bool) (l : List (String × Val))
    (h : ∀ p ∈ l, deserEntry tx kind (if p.1 = elemKey then deserMap tx (serOne tx p.1 p.2) else none) p.1 (serOne tx p.1 p.2) = some p.2) :
    deserEntries tx kind (serEntries tx l) = some l := by
  induction l with
  | nil => rw [serEntries, deserEntries]
  | cons p l ih =>
    obtain ⟨k, v⟩ := p
    rw [serEntries_cons, deserEntries, ih (fun q hq => h q (List.mem_cons_of_mem _ hq))]
    have := h (k, v) List.mem_cons_self
    dsimp only at this
    rw [this]

theorem eq_int {n : Int} {v : Val} : pyEq v (.int n) = true ↔ Number v n := by
  rw [← eq_number]
  have hn : (Val.int n).num = some (.fin n) := rfl
  cases v with
  | bool b => simp only [pyEq, pyEq.numEq, Val.num, Flt.eq]; simp [eq_comm]
  | int b => simp only [pyEq, pyEq.numEq, Val.num, Flt.eq]; simp [eq_comm]
  | float f => cases f <;> simp [pyEq, pyEq.numEq, Val.num, Flt.eq, eq_comm]
  | _ => simp [pyEq, pyEq.numEq, Val.num]

theorem converter_eq {l : List (String × Val)} {g : G} {i : Val} (s : Shape l g) (hi : l.lookup idKey = some i) :
    converter i = if g = .int then some false else if g = .float then some true else none := by
  obtain ⟨j, hj, n⟩ := s.id
  rw [show l.lookup "type_identifier" = some i from hi] at hj
  cases hj
  have two : pyEq i (.int 2) = decide (g = .int) := by
    rw [Bool.eq_iff_iff, eq_int, decide_eq_true_eq]
    exact ⟨fun h => id_inj (number_unique n h), fun h => by rw [h] at n; exact n⟩
  have three : pyEq i (.int 3) = decide (g = .float) := by
    rw [Bool.eq_iff_iff, eq_int, decide_eq_true_eq]
    exact ⟨fun h => id_inj (number_unique n h), fun h => by rw [h] at n; exact n⟩
  simp [converter, two, three]

theorem no_key {l : List (String × Val)} {g : G} (s : Shape l g) {p : String × Val} (hp : p ∈ l) : p.1 = "type_identifier" ∨ p.1 ∈ params g :=
  (s.keys p.1).mp (mem_lookup hp)

/-- A type value is not changed by writing and reading it back. -/
theorem c106_written (tx : Texts) (v : Val) (h : Written v) : deserMap tx (serMap tx v) = some v := by
  induction h with
  | @int l s h =>
    obtain ⟨i, hi, n⟩ := s.id
    have hi : l.lookup idKey = some i := hi
    rw [serMap, deserMap, ser_id, hi]
    dsimp only
    rw [converter_eq s hi, if_pos rfl, deser_ser, Option.map_some]
    intro p hp
    by_cases e : p.1 = "min_value" ∨ p.1 = "max_value"
    · obtain ⟨j, hj⟩ := h p hp e
      simp only [deserEntry, serOne, if_pos e, hj]
      simp [readLimit, tx.int_str]
    · have ne : p.1 ≠ elemKey := by
        rcases no_key s hp with k | k
        · rw [k]; decide
        · simp only [params, List.mem_cons, List.not_mem_nil, or_false] at k; exact absurd k e
      simp [deserEntry, serOne, if_neg e, if_neg ne]
  | @float l s h =>
    obtain ⟨i, hi, n⟩ := s.id
    have hi : l.lookup idKey = some i := hi
    rw [serMap, deserMap, ser_id, hi]
    dsimp only
    rw [converter_eq s hi, if_neg (by decide), if_pos rfl, deser_ser, Option.map_some]
    intro p hp
    by_cases e : p.1 = "min_value" ∨ p.1 = "max_value"
    · obtain ⟨j, hj⟩ := h p hp e
      simp only [deserEntry, serOne, if_pos e, hj]
      simp [readLimit, tx.float_str]
    · have ne : p.1 ≠ elemKey := by
        rcases no_key s hp with k | k
        · rw [k]; decide
        · simp only [params, List.mem_cons, List.not_mem_nil, or_false] at k; exact absurd k e
      simp [deserEntry, serOne, if_neg e, if_neg ne]
  | @other l g s hi' hf h ih =>
    obtain ⟨i, hi, n⟩ := s.id
    have hi : l.lookup idKey = some i := hi
    rw [serMap, deserMap, ser_id, hi]
    dsimp only
    rw [converter_eq s hi, if_neg hi', if_neg hf, deser_ser, Option.map_some]
    intro p hp
    have e : ¬(p.1 = "min_value" ∨ p.1 = "max_value") := by
      rcases no_key s hp with k | k
      · rw [k]; decide
      · intro e
        cases g <;> simp only [params, List.mem_cons, List.not_mem_nil, or_false] at k
        · exact hi' rfl
        · exact hf rfl
        all_goals (rcases e with e | e <;> rw [e] at k <;> revert k <;> decide)
    by_cases ne : p.1 = elemKey
    · have := ih p hp ne
      simp only [deserEntry, serOne, if_neg e, if_pos ne]
      exact this
    · simp [deserEntry, serOne, if_neg e, if_neg ne]

/-! ### The types a container permits -/

theorem classOf_name (builtin : String → Bool) (g : G) : classOf builtin g.name = some (some g) := by
  cases g <;> rfl

/-- The container read from its own message permits the same types. -/
theorem c106_options (builtin : String → Bool) (valid : List G) : fromOptions builtin (toOptions valid) = GCont.new valid := by
  have h : ((toOptions valid).filterMap (classOf builtin)).mapM id = some valid := by
    induction valid with
    | nil => rfl
    | cons g l ih =>
      rw [toOptions, List.map_cons, List.filterMap_cons, classOf_name]
      dsimp only
      rw [List.mapM_cons]
      rw [toOptions] at ih
      rw [ih]
      rfl
  rw [fromOptions, h]

/-! ### What the code does not do -/

/-- An integer type with reversed limits. -/
def reversed : Val := .dict [(idKey, .int 2), ("min_value", .int 5), ("max_value", .int 1)]

/-- A message that does not exist. -/
def unknown : Val := .dict [(idKey, .int 12), (msgKey, .str "a/msg/B")]

/-- A container accepts type values of which no type can be made; asking for the type raises. -/
theorem c106_reversed_limits (isMsg : String → Bool) : ∃ c, GCont.new [.int] = some c ∧ (c.set reversed).2 = .ok ∧
    (c.set reversed).1.value = reversed ∧ made isMsg (c.set reversed).1.value = .raise := by
  refine ⟨_, rfl, ?_, ?_, ?_⟩
  · decide +kernel
  · rfl
  · rfl

/-- Likewise for messages that do not exist. -/
theorem c106_unknown_message (isMsg : String → Bool) (h : isMsg "a/msg/B" = false) : ∃ c, GCont.new [.object] = some c ∧
    (c.set unknown).2 = .ok ∧ (c.set unknown).1.value = unknown ∧ made isMsg (c.set unknown).1.value = .raise := by
  refine ⟨_, rfl, by decide +kernel, rfl, ?_⟩
  have e : ((GCont.set ⟨[.object], .dict (template .object), false⟩ unknown).1).value = unknown := rfl
  have m : made isMsg unknown = if isMsg "a/msg/B" = true then .ty (.rosMsg "a/msg/B" 0) else .raise := rfl
  rw [e, m, h]
  rfl

/-- A container for lists starts with a value that it does not accept. -/
theorem c106_own_value_refused : ∃ c, GCont.new [.list] = some c ∧ (c.set c.value).2 = .err := ⟨_, rfl, by decide +kernel⟩

/-- There is no container without types, and a message without types makes the constructor raise. -/
theorem c106_no_options (builtin : String → Bool) : fromOptions builtin [] = none := rfl

/-! ### Examples -/

/-- A list of at most three integers from 0 to 9. -/
def digits : Val := .dict [(idKey, .int 5), (elemKey, .dict [(idKey, .int 2), ("max_value", .int 9), ("min_value", .int 0)]),
  ("strict_length", .bool false), ("max_length", .int 3)]

example : matchVal [.list, .int] digits = .ok := by decide +kernel

example : Described [.list, .int] digits := (accepted _ _).mp (by decide +kernel)

example : matchVal [.list] digits = .err := by decide +kernel

example : Means (fun _ => false) digits (.list (.int 0 9) true 3 false) := (c106_meaning _ _ _).mp rfl

example : ∃ c, GCont.new [.int, .list] = some c ∧ pyEq c.value digits = false ∧ (c.run [.set digits, .set reversed, .resetValue]).value = digits :=
  ⟨_, rfl, by decide +kernel, rfl⟩

example : GCont.isCompatible ⟨[.int, .list], .none, false⟩ ⟨[.list], .none, true⟩ = true := rfl

example : Written digits := by
  refine .other (g := .list) ((shape_iff (i := .int 5) rfl).mpr ⟨by decide +kernel, by decide +kernel⟩) (by decide) (by decide) ?_
  intro p hp e
  simp only [List.mem_cons, List.not_mem_nil, or_false] at hp
  rcases hp with rfl | rfl | rfl | rfl
  · exact absurd e (by decide)
  · refine .int ((shape_iff (i := .int 2) rfl).mpr ⟨by decide +kernel, by decide +kernel⟩) ?_
    intro p hp e
    simp only [List.mem_cons, List.not_mem_nil, or_false] at hp
    rcases hp with rfl | rfl | rfl
    · exact absurd e (by decide)
    · exact ⟨_, rfl⟩
    · exact ⟨_, rfl⟩
  · exact absurd e (by decide)
  · exact absurd e (by decide)

end Verif.Data.Generic
