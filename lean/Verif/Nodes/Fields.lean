import Verif.Nodes.Yaml
import Verif.Files.Names

/-! C87, C88, C89: inputs and outputs that are built from the fields of ROS interfaces (`get_message_field_io_type` in
`data_types.py`, `ros_nodes/message_converters.py`, `ros_nodes/enum.py`, `ros_nodes/action.py`, `ros_nodes/service.py`). -/

set_option autoImplicit false

namespace Verif.Nodes

open Verif.Data
open Verif.BT (BTState Res)
open Verif.Files (takeWhile_all toDigits_digits toDigits_ne Digits)

/-! ### The types of fields -/

/-- `\w`. Python also allows letters that are not ASCII; names of ROS interfaces have none. -/
def isWord (c : Char) : Bool := c.isAlphanum || c = '_'

/-- `[\w\/<>]` -/
def isTypeChar (c : Char) : Bool := isWord c || c = '/' || c = '<' || c = '>'

/-- The rest of a string after a prefix. -/
def cutPrefix (p s : List Char) : Option (List Char) := if p <+: s then some (s.drop p.length) else none

/-- The digits in front of the character `stop`: `(\d+)stop`. -/
def digitsTo (stop : Char) (s : List Char) : Option (List Char) :=
  let ds := s.takeWhile Char.isDigit
  if ds ≠ [] ∧ (s.dropWhile Char.isDigit).head? = some stop then some ds else none

/-- The longest prefix, not empty, that is followed by `>`: `([\w\/<>]+)>` in a string of such characters. -/
def upToLastClose (r : List Char) : Option (List Char) :=
  match r.reverse.dropWhile (· ≠ '>') with
  | [] => none
  | _ :: p => if p = [] then none else some p.reverse

/-- data_types.py 1762: `re.match(r"sequence<([\w\/<>]+)(?:, (\d+))?>", s)`. The characters of the first group are read as far
as possible; if no bound follows, the group ends before the last `>` among them. -/
def matchSequence (s : List Char) : Option (List Char × Option (List Char)) :=
  (cutPrefix "sequence<".toList s).bind fun rest =>
    let r := rest.takeWhile isTypeChar
    match (cutPrefix ", ".toList (rest.dropWhile isTypeChar)).bind (digitsTo '>') with
    | some ds => if r = [] then none else some (r, some ds)
    | none => (upToLastClose r).map fun e => (e, none)

/-- data_types.py 1764: `re.match(r"([\w\/<>]*)\[(\d+)\]", s)` -/
def matchArray (s : List Char) : Option (List Char × List Char) :=
  ((cutPrefix ['['] (s.dropWhile isTypeChar)).bind (digitsTo ']')).map fun ds => (s.takeWhile isTypeChar, ds)

/-- data_types.py 1789: `re.match(r"w?string(?:<(\d+)>)?", s)`; what follows is ignored. -/
def matchString (s : List Char) : Option (Option (List Char)) :=
  ((cutPrefix "wstring".toList s).or (cutPrefix "string".toList s)).map fun r => (cutPrefix ['<'] r).bind (digitsTo '>')

/-- helpers.py 64-73: `INT_LIMITS` -/
def intLimits : List (String × Int × Int) :=
  [("int8", -2 ^ 7, 2 ^ 7 - 1), ("int16", -2 ^ 15, 2 ^ 15 - 1), ("int32", -2 ^ 31, 2 ^ 31 - 1), ("int64", -2 ^ 63, 2 ^ 63 - 1),
    ("uint8", 0, 2 ^ 8 - 1), ("uint16", 0, 2 ^ 16 - 1), ("uint32", 0, 2 ^ 32 - 1), ("uint64", 0, 2 ^ 64 - 1)]

/-- The double next to 3.4028235e38. -/
def maxFloat : Rat := 340282349999999991754788743781432688640

/-- The double next to 1.7976931348623157e308, the largest one. -/
def maxDouble : Rat := (2 ^ 53 - 1) * 2 ^ 971

/-- helpers.py 81-84: `FLOAT_LIMITS` -/
def floatLimits : List (String × Rat × Rat) := [("float", -maxFloat, maxFloat), ("double", -maxDouble, maxDouble)]

/-- What `get_message_field_io_type` answers: `Ok`, `Err` or an exception. -/
inductive Io
  | ok (t : Ty)
  | err
  | raise
  deriving DecidableEq

/-- data_types.py 1807-1823: the types that consist of one word. The checks for "int", "float" and "double" (1811, 1817) only
choose between two `Err`s. -/
def wordIo (s : List Char) : Io :=
  if s = "boolean".toList then .ok .bool
  else if s = "octet".toList then .ok (.bytes 1 none)
  else
    match intLimits.lookup (String.ofList s), floatLimits.lookup (String.ofList s) with
    | some (lo, hi), _ => .ok (.int lo hi)
    | none, some (lo, hi) => .ok (.float lo hi)
    | none, none => .err

/-- data_types.py 1788-1823: types that are neither sequences nor arrays. `known` is
`rosidl_runtime_py.utilities.get_message`: the class of a name, `none`: an exception. `int()` of a bound has no limit on the
number of digits here. -/
def baseIo (known : String → Option String) (s : List Char) : Io :=
  match matchString s with
  | some bound => .ok (.string ((bound.map fun ds => Nat.ofDigitChars 10 ds 0).getD intFloatMax) none)
  | none =>
    if s.contains '/' then
      match known (String.ofList s) with
      | some c => .ok (.rosMsg c 0)
      | none => .raise
    else wordIo s

/-- data_types.py 1762-1776: element type, bound and whether the length is fixed. If both expressions match, the array
counts. -/
def nested (s : List Char) : Option (List Char × Option (List Char) × Bool) :=
  match matchArray s with
  | some (e, ds) => some (e, some ds, true)
  | none => (matchSequence s).map fun p => (p.1, p.2, false)

/-- data_types.py 1756-1823: `get_message_field_io_type`. -/
def fieldIo (known : String → Option String) : Nat → List Char → Io
  | 0, _ => .err
  | n + 1, s =>
    match nested s with
    | some (e, bound, strict) =>
      match fieldIo known n e with
      | .ok t => .ok (.list t true ((bound.map fun ds => Nat.ofDigitChars 10 ds 0).getD intFloatMax) strict)
      | a => a
    | none => baseIo known s

/-- The recursion ends, as the nested type is shorter. -/
def ioType (known : String → Option String) (s : List Char) : Io := fieldIo known (s.length + 1) s

/-- What `add_extra_inputs` or `add_extra_outputs` answers. -/
inductive Extra
  | ok (l : List (String × Ty))
  | err
  | raise
  deriving DecidableEq

/-- The loop over the fields: message_converters.py 60-70 and 116-126, service.py 315-325 and 334-344, action.py 485-495 and
515-522. Names and types are those of `get_fields_and_field_types()`. -/
def buildIo (known : String → Option String) : List (String × List Char) → Extra
  | [] => .ok []
  | (k, s) :: l =>
    match ioType known s with
    | .ok t => match buildIo known l with | .ok ts => .ok ((k, t) :: ts) | a => a
    | .err => .err
    | .raise => .raise

/-- node_config.py 207-247 as used in node.py 214-227: the extra inputs (or outputs) are added to the ones of the class; a name
that is there already is an `Err`, which the constructor raises. -/
def extendIo (own : List (String × Ty)) : Extra → Extra
  | .ok l => if l.any (fun p => own.any (·.1 = p.1)) then .err else .ok (own ++ l)
  | a => a

/-! ### Messages and their fields -/

/-- The types a field can have in the interface definition language, without the bounds. -/
inductive Base
  | boolean
  | octet
  | int (signed : Bool) (bits : Nat)
  | float
  | double
  | string (wide : Bool) (bound : Option Nat)
  | msg (pkg name : List Char)

/-- The type of a field. -/
inductive Field
  | base (b : Base)
  | seq (b : Base) (bound : Option Nat)
  | arr (b : Base) (n : Nat)

/-- `rclpy` keeps sequences of these in an `array.array` and arrays of these in a `numpy.ndarray`. -/
def Base.numeric : Base → Bool
  | .int _ _ | .float | .double => true
  | _ => false

/-- Limits of an integer. -/
def intLow (signed : Bool) (bits : Nat) : Int := if signed then -2 ^ (bits - 1) else 0

/-- Limits of an integer. -/
def intHigh (signed : Bool) (bits : Nat) : Int := if signed then 2 ^ (bits - 1) - 1 else 2 ^ bits - 1

/-- Does the property of a generated message class accept the value? The assertions in `rosidl_generator_py`, not part of the
repository: a float field takes only floats, an integer field only integers in range, a string field strings within the bound
(`none` is no bound), `octet` one byte. -/
def Base.takes : Base → Val → Bool
  | .boolean, .bool _ => true
  | .octet, .bytes b => b.length = 1
  | .int s n, .int i => intLow s n ≤ i && i ≤ intHigh s n
  | .int s n, .bool b => let i : Int := if b then 1 else 0; intLow s n ≤ i && i ≤ intHigh s n
  | .float, .float (.fin r) => -(3402823466 * 10 ^ 29) ≤ r && r ≤ 3402823466 * 10 ^ 29
  | .float, .float _ => true
  | .double, .float (.fin r) => -maxDouble ≤ r && r ≤ maxDouble
  | .double, .float _ => true
  | .string _ bound, .str s => match bound with | some n => s.length ≤ n | none => true
  | .msg p n, .msg c _ => c = String.ofList (p ++ "/msg/".toList ++ n)
  | _, _ => false

/-- An `ndarray` is an object of a class that is no type of the nodes. -/
def ndarray (l : List Val) : Val := .msg "numpy.ndarray" [("data", .list l)]

/-- `setattr(msg, field, v)`: what the field then holds, `none`: AssertionError. In `rosidl_generator_py` as above. A `True` in an
array of integers stays one here. -/
def Field.store : Field → Val → Option Val
  | .base b, v => if b.takes v then some v else none
  | .seq b bound, .list l => items b l (within bound l.length) (if b.numeric then .array l else .list l)
  | .seq b bound, .array l => items b l (b.numeric && within bound l.length) (.array l)
  | .arr b n, .list l => items b l (l.length = n) (if b.numeric then ndarray l else .list l)
  | _, _ => none
where
  /-- A sequence has at most `bound` elements. -/
  within (bound : Option Nat) (n : Nat) : Bool := match bound with | some m => n ≤ m | none => true
  /-- All elements and their number are checked. -/
  items (b : Base) (l : List Val) (len : Bool) (w : Val) : Option Val := if l.all b.takes && len then some w else none

/-! ### The nodes -/

/-- `isinstance(v, msg_type)` -/
def asMsg (T : String) : Val → Option (List (String × Val))
  | .msg t l => if t = T then some l else none
  | _ => none

/-- The values of the fields, `none`: AttributeError. -/
def pick (fs : List (String × Val)) : List String → Option (List (String × Val))
  | [] => some []
  | k :: ks =>
    match fs.lookup k with
    | none => none
    | some v => (pick fs ks).map ((k, v) :: ·)

/-- message_converters.py 76-84: `MessageToFields._do_tick` for the message type `T` with the fields `names`. -/
def messageToFields (T : String) (names : List String) (d : NodeData) : Out :=
  need d (valueAs (asMsg T) d "in") fun fs =>
    match pick fs names with
    | none => ⟨d, none⟩
    | some l => putAll d l .succeeded

/-- The values of a new message, an `Err` or an exception. -/
inductive Filled
  | vals (l : List (String × Val))
  | err
  | raise

/-- message_converters.py 134-140: the loop over the fields. -/
def fill (d : NodeData) : List (String × Field) → Filled
  | [] => .vals []
  | (k, F) :: l =>
    match value d k with
    | none => .err
    | some v =>
      match F.store v with
      | none => .raise
      | some w => match fill d l with | .vals ws => .vals ((k, w) :: ws) | a => a

/-- message_converters.py 132-142: `FieldsToMessage._do_tick`. -/
def fieldsToMessage (T : String) (fields : List (String × Field)) (d : NodeData) : Out :=
  match fill d fields with
  | .vals l => put d "out" (.msg T l) .succeeded
  | .err => ⟨d, some .err⟩
  | .raise => ⟨d, none⟩

/-- enum.py 53-76: the outputs of `EnumFields`. A constant has a name and the type of its value; `table` is
`GENERIC_TYPE_MAP`, whose keys are types (data_types.py 922-931). The name is looked up among the keys (67). -/
def enumOutputs {T : Type} (table : T → Option Ty) (isKey : String → Bool) : List (String × T) → Extra
  | [] => .ok []
  | (k, t) :: l =>
    if isKey k then
      match table t with
      | none => .raise
      | some ty => match enumOutputs table isKey l with | .ok ts => .ok ((k, ty) :: ts) | a => a
    else .err

/-- A string is no type: `field in GENERIC_TYPE_MAP.keys()`. -/
def typeKeys : String → Bool := fun _ => false

/-- action.py 496-522: the outputs of `Action`. Both loops run over the fields of the result. -/
def actionOutputs (known : String → Option String) (result _feedback : List (String × List Char)) : Extra :=
  buildIo known (result.map (fun p => ("result." ++ p.1, p.2)) ++ result.map (fun p => ("feedback." ++ p.1, p.2)))

/-- action.py 464-472 and 207-210: the feedback is written to the outputs, an `Err` is dropped and the tick answers RUNNING;
`none`: an exception. -/
def actionFeedback (names : List String) (fs : List (String × Val)) (d : NodeData) : Out :=
  match pick fs names with
  | none => ⟨d, some (.ok .running)⟩
  | some l =>
    let o := putAll d (l.map fun p => ("feedback." ++ p.1, p.2)) .running
    ⟨o.data, o.res.map fun _ => .ok .running⟩

/-! ### What a user expects -/

/-- The type as `get_fields_and_field_types()` prints it. -/
def Base.render : Base → List Char
  | .boolean => "boolean".toList
  | .octet => "octet".toList
  | .int s n => (if s then "int" else "uint").toList ++ Nat.toDigits 10 n
  | .float => "float".toList
  | .double => "double".toList
  | .string w b => (if w then "wstring" else "string").toList ++ match b with | some n => '<' :: Nat.toDigits 10 n ++ ['>'] | none => []
  | .msg p n => p ++ '/' :: n

/-- The type as `get_fields_and_field_types()` prints it. -/
def Field.render : Field → List Char
  | .base b => b.render
  | .seq b none => "sequence<".toList ++ (b.render ++ ['>'])
  | .seq b (some n) => "sequence<".toList ++ (b.render ++ (", ".toList ++ (Nat.toDigits 10 n ++ ['>'])))
  | .arr b n => b.render ++ '[' :: (Nat.toDigits 10 n ++ [']'])

/-- A possible type: integers have 8, 16, 32 or 64 bits, names consist of letters, digits and underscores and the package of
a message is installed. -/
def Base.Proper (known : String → Option String) : Base → Prop
  | .int _ n => n = 8 ∨ n = 16 ∨ n = 32 ∨ n = 64
  | .msg p n => (∀ c ∈ p, isWord c = true) ∧ (∀ c ∈ n, isWord c = true) ∧
      known (String.ofList (p ++ '/' :: n)) = some (String.ofList (p ++ "/msg/".toList ++ n))
  | _ => True

/-- The package of a message is not called `string...` or `wstring...`. -/
def Base.PlainName : Base → Prop
  | .msg p _ => ¬ "string".toList <+: p ∧ ¬ "wstring".toList <+: p
  | _ => True

/-- The type of the elements. -/
def Field.elem : Field → Base
  | .base b => b
  | .seq b _ => b
  | .arr b _ => b

/-- The data type that a user expects. -/
def Base.ty : Base → Ty
  | .boolean => .bool
  | .octet => .bytes 1 none
  | .int s n => .int (intLow s n) (intHigh s n)
  | .float => .float (-maxFloat) maxFloat
  | .double => .float (-maxDouble) maxDouble
  | .string _ b => .string (b.getD intFloatMax) none
  | .msg p n => .rosMsg (String.ofList (p ++ "/msg/".toList ++ n)) 0

/-- The data type that a user expects. -/
def Field.ty : Field → Ty
  | .base b => b.ty
  | .seq b bound => .list b.ty true (bound.getD intFloatMax) false
  | .arr b n => .list b.ty true n true

/-- The values a field of a message can have: rosidl's mapping of types to Python. -/
inductive Base.Holds : Base → Val → Prop
  | boolean (b : Bool) : Holds .boolean (.bool b)
  | octet (x : UInt8) : Holds .octet (.bytes [x])
  | int {s : Bool} {n : Nat} {v : Val} {i : Int} : Integer v i → intLow s n ≤ i → i ≤ intHigh s n → Holds (.int s n) v
  | float {r : Rat} : -(3402823466 * 10 ^ 29) ≤ r → r ≤ 3402823466 * 10 ^ 29 → Holds .float (.float (.fin r))
  | floatInf (neg : Bool) : Holds .float (.float (.inf neg))
  | floatNan : Holds .float (.float .nan)
  | double {r : Rat} : -maxDouble ≤ r → r ≤ maxDouble → Holds .double (.float (.fin r))
  | doubleInf (neg : Bool) : Holds .double (.float (.inf neg))
  | doubleNan : Holds .double (.float .nan)
  | string {w : Bool} {bound : Option Nat} {s : String} : (∀ m, bound = some m → s.length ≤ m) → Holds (.string w bound) (.str s)
  | msg {p n : List Char} (fs : List (String × Val)) : Holds (.msg p n) (.msg (String.ofList (p ++ "/msg/".toList ++ n)) fs)

/-- A field that was given `v` holds `w`. -/
inductive Field.Into : Field → Val → Val → Prop
  | base {b : Base} {v : Val} : b.Holds v → Into (.base b) v v
  | seq {b : Base} {bound : Option Nat} {l : List Val} : b.numeric = false → (∀ x ∈ l, b.Holds x) →
      (∀ m, bound = some m → l.length ≤ m) → Into (.seq b bound) (.list l) (.list l)
  | seqNum {b : Base} {bound : Option Nat} {l : List Val} {v : Val} : b.numeric = true → (∀ x ∈ l, b.Holds x) →
      (∀ m, bound = some m → l.length ≤ m) → Sequence v l → Into (.seq b bound) v (.array l)
  | arr {b : Base} {l : List Val} : b.numeric = false → (∀ x ∈ l, b.Holds x) → Into (.arr b l.length) (.list l) (.list l)
  | arrNum {b : Base} {l : List Val} : b.numeric = true → (∀ x ∈ l, b.Holds x) → Into (.arr b l.length) (.list l) (ndarray l)

/-- `w` is a value of the field. -/
def Field.Holds (F : Field) (w : Val) : Prop := ∃ v, F.Into v w

/-- Neither infinite nor too long to be counted. -/
def Common : Val → Prop
  | .float (.inf _) => False
  | .str s => s.length ≤ intFloatMax
  | .list l => l.length ≤ intFloatMax ∧ ∀ x ∈ l, x ≠ .float (.inf true) ∧ x ≠ .float (.inf false) ∧ ∀ s, x = .str s → s.length ≤ intFloatMax
  | .array l => l.length ≤ intFloatMax ∧ ∀ x ∈ l, x ≠ .float (.inf true) ∧ x ≠ .float (.inf false) ∧ ∀ s, x = .str s → s.length ≤ intFloatMax
  | _ => True

/-- A field of a fixed number of numbers. -/
def Field.FixedNumbers : Field → Prop
  | .arr b _ => b.numeric = true
  | _ => False

/-! ### Reading the types -/

theorem cutPrefix_append (p s : List Char) : cutPrefix p (p ++ s) = some s := by simp [cutPrefix]

theorem cutPrefix_none {p s : List Char} (h : ¬ p <+: s) : cutPrefix p s = none := by simp [cutPrefix, h]

theorem digitsTo_digits (n : Nat) (c : Char) (hc : c.isDigit = false) (r : List Char) : digitsTo c (Nat.toDigits 10 n ++ c :: r) = some (Nat.toDigits 10 n) := by
  have := takeWhile_all (p := Char.isDigit) (toDigits_digits n) (c :: r) (by simp [hc])
  simp only [digitsTo, this.1, this.2]
  simp [toDigits_ne n]

theorem typeChar_of_word {c : Char} (h : isWord c = true) : isTypeChar c = true := by simp [isTypeChar, h]

theorem typeChar_of_digit {c : Char} (h : c.isDigit = true) : isTypeChar c = true := by rw [isTypeChar, isWord, Char.isAlphanum, h]; simp only [Bool.or_true, Bool.true_or]

theorem render_chars {known : String → Option String} {b : Base} (h : b.Proper known) : ∀ c ∈ b.render, isTypeChar c = true := by
  cases b with
  | boolean => decide
  | octet => decide
  | float => decide
  | double => decide
  | int s n =>
    intro c hc
    rcases List.mem_append.mp hc with hc | hc
    · have : ∀ s : Bool, ∀ c ∈ (if s then "int" else "uint").toList, isTypeChar c = true := by decide
      exact this s c hc
    · exact typeChar_of_digit (toDigits_digits n c hc)
  | string w o =>
    intro c hc
    rcases List.mem_append.mp hc with hc | hc
    · have : ∀ w : Bool, ∀ c ∈ (if w then "wstring" else "string").toList, isTypeChar c = true := by decide
      exact this w c hc
    · cases o with
      | none => simp at hc
      | some n =>
        simp only [List.cons_append, List.mem_cons, List.mem_append, List.not_mem_nil, or_false] at hc
        rcases hc with rfl | hc | rfl
        · decide
        · exact typeChar_of_digit (toDigits_digits n c hc)
        · decide
  | msg p n =>
    intro c hc
    replace hc : c ∈ p ++ '/' :: n := hc
    simp only [List.mem_append, List.mem_cons] at hc
    rcases hc with hc | rfl | hc
    · exact typeChar_of_word (h.1 c hc)
    · decide
    · exact typeChar_of_word (h.2.1 c hc)

theorem render_ne (b : Base) : b.render ≠ [] := by
  cases b with
  | boolean => decide
  | octet => decide
  | float => decide
  | double => decide
  | int s n => cases s <;> exact List.cons_ne_nil _ _
  | string w o => cases w <;> exact List.cons_ne_nil _ _
  | msg p n => exact List.append_ne_nil_of_right_ne_nil _ (List.cons_ne_nil _ _)

theorem matchArray_chars {s : List Char} (h : ∀ c ∈ s, isTypeChar c = true) : matchArray s = none := by
  have := (takeWhile_all (p := isTypeChar) h [] (by simp)).2
  rw [List.append_nil] at this
  rw [matchArray, this]
  rfl

theorem not_sequence {known : String → Option String} {b : Base} (h : b.Proper known) : matchSequence b.render = none := by
  have : ¬ "sequence<".toList <+: b.render := by
    cases b with
    | boolean => decide
    | octet => decide
    | float => decide
    | double => decide
    | int s n => cases s <;> exact fun h => absurd (List.cons_prefix_cons.mp h).1 (by decide)
    | string w o =>
      cases w with
      | true => exact fun h => absurd (List.cons_prefix_cons.mp h).1 (by decide)
      | false => exact fun h => absurd (List.cons_prefix_cons.mp (List.cons_prefix_cons.mp h).2).1 (by decide)
    | msg p n =>
      intro hp
      have hm : '<' ∈ p ++ '/' :: n := hp.subset (by decide)
      simp only [List.mem_append, List.mem_cons] at hm
      rcases hm with hm | hm | hm
      · have := h.1 _ hm; revert this; decide
      · revert hm; decide
      · have := h.2.1 _ hm; revert this; decide
  rw [matchSequence, cutPrefix_none this, Option.bind_none]

theorem prefix_before {q p m : List Char} {c : Char} (hc : c ∉ q) (h : q <+: p ++ c :: m) : q <+: p := by
  induction q generalizing p with
  | nil => exact List.nil_prefix
  | cons a q ih =>
    cases p with
    | nil =>
      rw [List.nil_append, List.cons_prefix_cons] at h
      exact absurd (h.1 ▸ List.mem_cons_self ..) hc
    | cons b p =>
      rw [List.cons_append, List.cons_prefix_cons] at h
      rw [List.cons_prefix_cons]
      exact ⟨h.1, ih (fun hm => hc (List.mem_cons_of_mem _ hm)) h.2⟩

theorem matchString_string (w : Bool) (o : Option Nat) : matchString (Base.string w o).render = some (o.map (Nat.toDigits 10)) := by
  have h1 : ∀ l, cutPrefix "wstring".toList ("string".toList ++ l) = none := fun l => cutPrefix_none fun h => absurd (List.cons_prefix_cons.mp h).1 (by decide)
  have h2 : ∀ l, (cutPrefix "wstring".toList ((if w then "wstring" else "string").toList ++ l)).or
      (cutPrefix "string".toList ((if w then "wstring" else "string").toList ++ l)) = some l := by
    intro l
    cases w with
    | true => rw [if_pos rfl, cutPrefix_append, Option.some_or]
    | false => rw [if_neg (by decide), h1, cutPrefix_append, Option.none_or]
  have hr : (Base.string w o).render = (if w then "wstring" else "string").toList ++ _ := rfl
  rw [matchString, hr, h2]
  cases o with
  | none => rfl
  | some n => exact congrArg some (digitsTo_digits n '>' (by decide) [])

theorem matchString_msg {p m : List Char} (hn : (Base.msg p m).PlainName) : matchString (p ++ '/' :: m) = none := by
  rw [matchString, cutPrefix_none fun h => hn.2 (prefix_before (by decide) h), cutPrefix_none fun h => hn.1 (prefix_before (by decide) h)]
  rfl

theorem fieldIo_base {known : String → Option String} {b : Base} (h : b.Proper known) (hn : b.PlainName) (n : Nat) :
    fieldIo known (n + 1) b.render = .ok b.ty := by
  have h0 : nested b.render = none := by rw [nested, matchArray_chars (render_chars h), not_sequence h]; rfl
  rw [fieldIo, h0]
  show baseIo known b.render = _
  cases b with
  | boolean => with_unfolding_all rfl
  | octet => with_unfolding_all rfl
  | float => with_unfolding_all rfl
  | double => with_unfolding_all rfl
  | int s m => rcases h with rfl | rfl | rfl | rfl <;> cases s <;> with_unfolding_all rfl
  | string w o =>
    rw [baseIo, matchString_string]
    cases o with
    | none => rfl
    | some n => exact congrArg (fun m => Io.ok (.string m none)) (Nat.ofDigitChars_toDigits (by decide) (by decide))
  | msg p m =>
    show baseIo known (p ++ '/' :: m) = _
    rw [baseIo, matchString_msg hn]
    have hs : (p ++ '/' :: m).contains '/' = true := by simp
    show (if (p ++ '/' :: m).contains '/' = true then _ else _) = _
    rw [if_pos hs, h.2.2]
    rfl

theorem upToLastClose_append (s : List Char) (h : s ≠ []) : upToLastClose (s ++ ['>']) = some s := by
  have : (s ++ ['>']).reverse.dropWhile (· ≠ '>') = '>' :: s.reverse := by
    rw [List.reverse_append]
    rfl
  rw [upToLastClose, this]
  show (if s.reverse = [] then none else some s.reverse.reverse) = _
  rw [if_neg (by simpa using h), List.reverse_reverse]

theorem all_typeChar {known : String → Option String} {b : Base} (h : b.Proper known) :
    (∀ c ∈ b.render ++ ['>'], isTypeChar c = true) ∧ (∀ c ∈ "sequence<".toList ++ (b.render ++ ['>']), isTypeChar c = true) ∧
      ∀ c ∈ "sequence<".toList ++ b.render, isTypeChar c = true := by
  have h1 : ∀ c ∈ "sequence<".toList, isTypeChar c = true := by decide
  have h2 : ∀ c ∈ ['>'], isTypeChar c = true := by decide
  have h3 := render_chars h
  refine ⟨?_, ?_, ?_⟩ <;> intro c hc <;> simp only [List.mem_append] at hc
  · rcases hc with hc | hc
    · exact h3 c hc
    · exact h2 c hc
  · rcases hc with hc | hc | hc
    · exact h1 c hc
    · exact h3 c hc
    · exact h2 c hc
  · rcases hc with hc | hc
    · exact h1 c hc
    · exact h3 c hc

theorem nested_seq {known : String → Option String} {b : Base} (h : b.Proper known) :
    nested ("sequence<".toList ++ (b.render ++ ['>'])) = some (b.render, none, false) := by
  have h1 := takeWhile_all (p := isTypeChar) (all_typeChar h).1 [] (by simp)
  rw [List.append_nil] at h1
  have h2 : matchSequence ("sequence<".toList ++ (b.render ++ ['>'])) = some (b.render, none) := by
    rw [matchSequence, cutPrefix_append]
    simp only [Option.bind_some, h1.1, h1.2, upToLastClose_append _ (render_ne b)]
    rfl
  rw [nested, matchArray_chars (all_typeChar h).2.1, h2]
  rfl

theorem nested_bounded {known : String → Option String} {b : Base} (h : b.Proper known) (n : Nat) :
    nested ("sequence<".toList ++ (b.render ++ (", ".toList ++ (Nat.toDigits 10 n ++ ['>'])))) = some (b.render, some (Nat.toDigits 10 n), false) := by
  have hc : ∀ c, (", ".toList ++ (Nat.toDigits 10 n ++ ['>'])).head? = some c → isTypeChar c = false := by
    intro c hc
    have : c = ',' := by
      have : some ',' = some c := hc
      simpa using this.symm
    subst this
    decide
  have h1 := takeWhile_all (p := isTypeChar) (render_chars h) (", ".toList ++ (Nat.toDigits 10 n ++ ['>'])) hc
  have h2 : matchSequence ("sequence<".toList ++ (b.render ++ (", ".toList ++ (Nat.toDigits 10 n ++ ['>'])))) =
      some (b.render, some (Nat.toDigits 10 n)) := by
    rw [matchSequence, cutPrefix_append]
    simp only [Option.bind_some, h1.1, h1.2, cutPrefix_append, digitsTo_digits n '>' (by decide) []]
    rw [if_neg (render_ne b)]
  have h3 : matchArray ("sequence<".toList ++ (b.render ++ (", ".toList ++ (Nat.toDigits 10 n ++ ['>'])))) = none := by
    have := takeWhile_all (p := isTypeChar) (all_typeChar h).2.2 (", ".toList ++ (Nat.toDigits 10 n ++ ['>'])) hc
    have h4 : cutPrefix ['['] (", ".toList ++ (Nat.toDigits 10 n ++ ['>'])) = none :=
      cutPrefix_none fun h => absurd (List.cons_prefix_cons.mp h).1 (by decide)
    rw [matchArray, ← List.append_assoc, this.2, h4]
    rfl
  rw [nested, h3, h2]
  rfl

theorem nested_arr {known : String → Option String} {b : Base} (h : b.Proper known) (n : Nat) :
    nested (b.render ++ '[' :: (Nat.toDigits 10 n ++ [']'])) = some (b.render, some (Nat.toDigits 10 n), true) := by
  have h1 := takeWhile_all (p := isTypeChar) (render_chars h) ('[' :: (Nat.toDigits 10 n ++ [']'])) (by
    intro c hc
    have : c = '[' := by simpa using hc.symm
    subst this
    decide)
  have h2 : matchArray (b.render ++ '[' :: (Nat.toDigits 10 n ++ [']'])) = some (b.render, Nat.toDigits 10 n) := by
    have h3 : cutPrefix ['['] ('[' :: (Nat.toDigits 10 n ++ [']'])) = some (Nat.toDigits 10 n ++ [']']) := cutPrefix_append ['['] _
    rw [matchArray, h1.1, h1.2, h3, Option.bind_some, digitsTo_digits n ']' (by decide) []]
    rfl
  rw [nested, h2]

theorem fieldIo_field {known : String → Option String} {F : Field} (h : F.elem.Proper known) (hn : F.elem.PlainName) (n : Nat) :
    fieldIo known (n + 2) F.render = .ok F.ty := by
  have hd : ∀ m, Nat.ofDigitChars 10 (Nat.toDigits 10 m) 0 = m := fun m => Nat.ofDigitChars_toDigits (by decide) (by decide)
  cases F with
  | base b => exact fieldIo_base (b := b) h hn (n + 1)
  | seq b o =>
    cases o with
    | none =>
      show fieldIo known (n + 2) ("sequence<".toList ++ (b.render ++ ['>'])) = _
      rw [fieldIo, nested_seq (b := b) h]
      show (match fieldIo known (n + 1) b.render with | .ok t => _ | a => a) = _
      rw [fieldIo_base (b := b) h hn]
      rfl
    | some m =>
      show fieldIo known (n + 2) ("sequence<".toList ++ (b.render ++ (", ".toList ++ (Nat.toDigits 10 m ++ ['>'])))) = _
      rw [fieldIo, nested_bounded (b := b) h]
      show (match fieldIo known (n + 1) b.render with | .ok t => _ | a => a) = _
      rw [fieldIo_base (b := b) h hn]
      exact congrArg (fun m => Io.ok (.list b.ty true m false)) (hd m)
  | arr b m =>
    show fieldIo known (n + 2) (b.render ++ '[' :: (Nat.toDigits 10 m ++ [']'])) = _
    rw [fieldIo, nested_arr (b := b) h]
    show (match fieldIo known (n + 1) b.render with | .ok t => _ | a => a) = _
    rw [fieldIo_base (b := b) h hn]
    exact congrArg (fun m => Io.ok (.list b.ty true m true)) (hd m)

theorem field_render_ne (F : Field) : F.render ≠ [] := by
  cases F with
  | base b => exact render_ne b
  | seq b o => cases o <;> exact List.cons_ne_nil _ _
  | arr b n => exact List.append_ne_nil_of_right_ne_nil _ (List.cons_ne_nil _ _)

/-- C87: every field of a message whose package is installed gets the data type that belongs to it, unless the name of the package
begins with `string` or `wstring`. -/
theorem c87_types_partial (known : String → Option String) (F : Field) (h : F.elem.Proper known) (hn : F.elem.PlainName) :
    ioType known F.render = .ok F.ty := by
  unfold ioType
  cases hl : F.render.length with
  | zero => exact absurd (List.length_eq_zero_iff.mp hl) (field_render_ne F)
  | succ n => exact fieldIo_field h hn n

example : ioType (fun _ => none) "sequence<wstring<7>, 12>".toList = .ok (.list (.string 7 none) true 12 false) :=
  c87_types_partial (fun _ => none) (.seq (.string true (some 7)) (some 12)) trivial trivial

/-- C87, not so: a message type in a package whose name begins with `string` counts as a string. -/
theorem c87_string_package (known : String → Option String) (rest : List Char) (h : ∀ c ∈ rest, isTypeChar c = true) :
    ioType known ("string_".toList ++ rest) = .ok (.string intFloatMax none) := by
  have h1 : ∀ c ∈ "string_".toList ++ rest, isTypeChar c = true := by
    intro c hc
    rcases List.mem_append.mp hc with hc | hc
    · have : ∀ c ∈ "string_".toList, isTypeChar c = true := by decide
      exact this c hc
    · exact h c hc
  have h5 : cutPrefix "sequence<".toList ("string_".toList ++ rest) = none :=
    cutPrefix_none fun h => absurd (List.cons_prefix_cons.mp (List.cons_prefix_cons.mp h).2).1 (by decide)
  have h6 : cutPrefix "wstring".toList ("string_".toList ++ rest) = none :=
    cutPrefix_none fun h => absurd (List.cons_prefix_cons.mp h).1 (by decide)
  have h2 : matchSequence ("string_".toList ++ rest) = none := by rw [matchSequence, h5, Option.bind_none]
  have h3 : nested ("string_".toList ++ rest) = none := by rw [nested, matchArray_chars h1, h2]; rfl
  have h4 : matchString ("string_".toList ++ rest) = some none := by
    have h7 : cutPrefix "string".toList ("string_".toList ++ rest) = some ('_' :: rest) := cutPrefix_append "string".toList ('_' :: rest)
    have h8 : cutPrefix ['<'] ('_' :: rest) = none := cutPrefix_none fun h => absurd (List.cons_prefix_cons.mp h).1 (by decide)
    rw [matchString, h6, h7]
    show some ((cutPrefix ['<'] ('_' :: rest)).bind _) = _
    rw [h8]
    rfl
  rw [ioType, fieldIo, h3]
  show baseIo _ _ = _
  rw [baseIo, h4]
  rfl

example : ∃ F : Field, F.render = "string_".toList ++ "tools/Text".toList ∧ F.ty = .rosMsg "string_tools/msg/Text" 0 :=
  ⟨.base (.msg "string_tools".toList "Text".toList), by decide, by decide +kernel⟩

theorem buildIo_fields (known : String → Option String) (fields : List (String × Field))
    (h : ∀ p ∈ fields, p.2.elem.Proper known ∧ p.2.elem.PlainName) :
    buildIo known (fields.map fun p => (p.1, p.2.render)) = .ok (fields.map fun p => (p.1, p.2.ty)) := by
  induction fields with
  | nil => rfl
  | cons p l ih =>
    have h1 := h p (List.mem_cons_self ..)
    rw [List.map_cons, buildIo, c87_types_partial known p.2 h1.1 h1.2, ih fun q hq => h q (List.mem_cons_of_mem _ hq)]
    rfl

/-- C87: the inputs or outputs of a node are its own ones and the fields of the message with their types, if no name occurs twice. -/
theorem c87_interface_partial (known : String → Option String) (own : List (String × Ty)) (fields : List (String × Field))
    (h : ∀ p ∈ fields, p.2.elem.Proper known ∧ p.2.elem.PlainName) (hn : ∀ p ∈ fields, p.1 ∉ own.map (·.1)) :
    extendIo own (buildIo known (fields.map fun p => (p.1, p.2.render))) = .ok (own ++ fields.map fun p => (p.1, p.2.ty)) := by
  rw [buildIo_fields known fields h, extendIo, if_neg]
  simp only [List.any_eq_true, List.mem_map, decide_eq_true_eq, not_exists, not_and, forall_exists_index, and_imp]
  rintro q p hp rfl o ho he
  exact hn p hp (List.mem_map.mpr ⟨o, ho, he⟩)

example : extendIo [("service_name", .rosName .service 1), ("wait_for_response_seconds", .float 0 1)]
    (buildIo (fun _ => none) [("a", "int64".toList), ("b", "octet".toList)]) =
      .ok [("service_name", .rosName .service 1), ("wait_for_response_seconds", .float 0 1), ("a", .int (-2 ^ 63) (2 ^ 63 - 1)), ("b", .bytes 1 none)] :=
  c87_interface_partial (fun _ => none) [("service_name", .rosName .service 1), ("wait_for_response_seconds", .float 0 1)]
    [("a", .base (.int true 64)), ("b", .base .octet)] (by simp [Field.elem, Base.Proper, Base.PlainName]) (by simp)

/-- C87: if the inputs or outputs can be built, there is one for every field, in the same order. -/
theorem c87_complete (known : String → Option String) (fields : List (String × List Char)) (ts : List (String × Ty))
    (h : buildIo known fields = .ok ts) : ts.map (·.1) = fields.map (·.1) ∧ ts.map (fun p => Io.ok p.2) = fields.map (fun p => ioType known p.2) := by
  induction fields generalizing ts with
  | nil => cases h; exact ⟨rfl, rfl⟩
  | cons p l ih =>
    obtain ⟨k, s⟩ := p
    unfold buildIo at h
    split at h
    · rename_i t ht
      split at h
      · rename_i us hus
        cases h
        obtain ⟨i1, i2⟩ := ih us hus
        exact ⟨by simp [i1], by rw [List.map_cons, List.map_cons, i2, ht]⟩
      · rename_i hx
        cases hx' : buildIo known l <;> simp_all
    · cases h
    · cases h

example : buildIo (fun _ => none) [("a", "bool".toList)] = .err ∧ buildIo (fun _ => none) [("a", "boolean".toList)] = .ok [("a", .bool)] := by
  decide +kernel

/-- C87, not so: no node can be made for an interface that has a field with the name of an own input, for example a request with a
field `service_name`. -/
theorem c87_clash (known : String → Option String) (own : List (String × Ty)) (fields : List (String × Field))
    (h : ∀ p ∈ fields, p.2.elem.Proper known ∧ p.2.elem.PlainName) (hn : ∃ p ∈ fields, p.1 ∈ own.map (·.1)) :
    extendIo own (buildIo known (fields.map fun p => (p.1, p.2.render))) = .err := by
  rw [buildIo_fields known fields h, extendIo, if_pos]
  obtain ⟨p, hp, hk⟩ := hn
  obtain ⟨o, ho, he⟩ := List.mem_map.mp hk
  exact List.any_eq_true.mpr ⟨_, List.mem_map_of_mem hp, List.any_eq_true.mpr ⟨o, ho, decide_eq_true he⟩⟩

example : extendIo [("service_name", .rosName .service 1)] (buildIo (fun _ => none) [("service_name", "boolean".toList)]) = .err :=
  c87_clash (fun _ => none) [("service_name", .rosName .service 1)] [("service_name", .base .boolean)] (by simp [Field.elem, Base.Proper, Base.PlainName])
    (by simp)

/-- C87: a field of a type that is not installed raises an exception. -/
theorem c87_unknown (known : String → Option String) (p n : List Char) (hp : ∀ c ∈ p, isWord c = true) (hn : ∀ c ∈ n, isWord c = true)
    (hs : (Base.msg p n).PlainName) (hk : known (String.ofList (p ++ '/' :: n)) = none) : ioType known (p ++ '/' :: n) = .raise := by
  have h : (Base.msg p n).Proper (fun _ => some (String.ofList (p ++ "/msg/".toList ++ n))) := ⟨hp, hn, rfl⟩
  have h0 : nested (p ++ '/' :: n) = none := by
    have h1 := matchArray_chars (render_chars h)
    have h2 := not_sequence h
    change matchArray (p ++ '/' :: n) = none at h1
    change matchSequence (p ++ '/' :: n) = none at h2
    rw [nested, h1, h2]
    rfl
  have hc : (p ++ '/' :: n).contains '/' = true := by simp
  rw [ioType, fieldIo, h0]
  show baseIo known (p ++ '/' :: n) = _
  rw [baseIo, matchString_msg hs]
  show (if (p ++ '/' :: n).contains '/' = true then _ else _) = _
  rw [if_pos hc, hk]

example : ioType (fun _ => none) "nav_msgs/Path".toList = .raise :=
  c87_unknown (fun _ => none) "nav_msgs".toList "Path".toList (by decide) (by decide) ⟨by decide, by decide⟩ rfl

/-! ### Values -/

theorem takes_iff (b : Base) (v : Val) : b.takes v = true ↔ b.Holds v := by
  constructor
  · intro h
    unfold Base.takes at h
    split at h
    · exact .boolean _
    · rename_i b
      have h : b.length = 1 := by simpa using h
      match b, h with
      | [x], _ => exact .octet x
    · simp only [Bool.and_eq_true, decide_eq_true_eq] at h
      exact .int (.int _) h.1 h.2
    · rename_i b
      cases b <;> simp only [Bool.and_eq_true, decide_eq_true_eq, Bool.false_eq_true, if_false, if_true] at h
      · exact .int .no h.1 h.2
      · exact .int .yes h.1 h.2
    · simp only [Bool.and_eq_true, decide_eq_true_eq] at h
      exact .float h.1 h.2
    · rename_i f hf
      cases f with
      | nan => exact .floatNan
      | inf n => exact .floatInf n
      | fin r => exact absurd rfl (hf r)
    · simp only [Bool.and_eq_true, decide_eq_true_eq] at h
      exact .double h.1 h.2
    · rename_i f hf
      cases f with
      | nan => exact .doubleNan
      | inf n => exact .doubleInf n
      | fin r => exact absurd rfl (hf r)
    · rename_i bound s
      apply Base.Holds.string
      rintro m rfl
      simpa using h
    · have := of_decide_eq_true h
      subst this
      exact .msg _
    · cases h
  · intro h
    cases h with
    | boolean => rfl
    | octet => rfl
    | int hi h1 h2 =>
      cases hi <;> simp [Base.takes, h1, h2]
    | float h1 h2 => simp only [Base.takes, h1, h2, decide_true, Bool.and_self]
    | floatInf => rfl
    | floatNan => rfl
    | double h1 h2 => simp only [Base.takes, h1, h2, decide_true, Bool.and_self]
    | doubleInf => rfl
    | doubleNan => rfl
    | @string w bound s h =>
      cases bound with
      | none => rfl
      | some m => exact decide_eq_true (h m rfl)
    | msg fs => simp [Base.takes]

theorem all_takes (b : Base) (l : List Val) : l.all b.takes = true ↔ ∀ x ∈ l, b.Holds x := by
  rw [List.all_eq_true]
  exact ⟨fun h x hx => (takes_iff b x).mp (h x hx), fun h x hx => (takes_iff b x).mpr (h x hx)⟩

theorem within_iff (bound : Option Nat) (n : Nat) : Field.store.within bound n = true ↔ ∀ m, bound = some m → n ≤ m := by
  cases bound with
  | none => simp [Field.store.within]
  | some m => simp [Field.store.within]

theorem items_some (b : Base) (l : List Val) (len : Bool) (w w' : Val) :
    Field.store.items b l len w = some w' ↔ (∀ x ∈ l, b.Holds x) ∧ len = true ∧ w = w' := by
  rw [Field.store.items, ← all_takes]
  cases l.all b.takes <;> cases len <;> simp

theorem store_into {F : Field} {v w : Val} (h : F.Into v w) : F.store v = some w := by
  cases h with
  | base h => simp [Field.store, (takes_iff _ _).mpr h]
  | seq h1 h2 h3 => rw [Field.store, items_some]; exact ⟨h2, (within_iff _ _).mpr h3, by simp [h1]⟩
  | seqNum h1 h2 h3 h4 =>
    cases h4 with
    | list => rw [Field.store, items_some]; exact ⟨h2, (within_iff _ _).mpr h3, by simp [h1]⟩
    | array => rw [Field.store, items_some]; exact ⟨h2, by simp [h1, (within_iff _ _).mpr h3], rfl⟩
  | arr h1 h2 => rw [Field.store, items_some]; exact ⟨h2, by simp, by simp [h1]⟩
  | arrNum h1 h2 => rw [Field.store, items_some]; exact ⟨h2, by simp, by simp [h1]⟩

theorem fits_base {b : Base} {v : Val} (h : b.Holds v) (h1 : ∀ n, v ≠ .float (.inf n)) (h2 : ∀ s, v = .str s → s.length ≤ intFloatMax) :
    Fits true b.ty v := by
  cases h with
  | boolean => exact .bool _
  | octet => exact .bytes (by simp)
  | int hi h1 h2 => exact .int hi h1 h2
  | float h1 h2 =>
    have : (3402823466 * 10 ^ 29 : Rat) ≤ maxFloat := by decide +kernel
    exact .float (.float _) (by grind) (by grind)
  | floatInf => exact absurd rfl (h1 _)
  | floatNan => exact .nan rfl
  | double h3 h4 => exact .float (.float _) h3 h4
  | doubleInf => exact absurd rfl (h1 _)
  | doubleNan => exact .nan rfl
  | @string w bound s h =>
    refine .string ?_ fun _ h => by cases h
    cases bound with
    | none => exact h2 _ rfl
    | some m => exact h m rfl
  | msg fs => exact .rosMsg fs

/-- C87: the input or output for a field accepts every value the field can have, except infinity and arrays of a fixed number of
numbers. -/
theorem c87_values_partial {F : Field} {w : Val} (h : F.Holds w) (hF : ¬ F.FixedNumbers) (hc : Common w) : Fits true F.ty w := by
  obtain ⟨v, h⟩ := h
  have hl : ∀ {b : Base} {l : List Val}, (∀ x ∈ l, b.Holds x) →
      (∀ x ∈ l, x ≠ .float (.inf true) ∧ x ≠ .float (.inf false) ∧ ∀ s, x = .str s → s.length ≤ intFloatMax) → ∀ x ∈ l, Fits true b.ty x := by
    intro b l h1 h2 x hx
    refine fits_base (h1 x hx) ?_ (h2 x hx).2.2
    intro n
    cases n
    · exact (h2 x hx).2.1
    · exact (h2 x hx).1
  cases h with
  | base h =>
    refine fits_base h ?_ ?_
    · rintro n rfl; exact hc
    · rintro s rfl; exact hc
  | @seq b bound l h1 h2 h3 =>
    refine .list (.list l) (hl h2 hc.2) ⟨?_, by simp⟩
    cases bound with
    | none => exact hc.1
    | some m => exact h3 m rfl
  | @seqNum b bound l _ h1 h2 h3 h4 =>
    refine .list (.array l) (hl h2 hc.2) ⟨?_, by simp⟩
    cases bound with
    | none => exact hc.1
    | some m => exact h3 m rfl
  | @arr b l h1 h2 => exact .list (.list l) (hl h2 hc.2) ⟨Nat.le_refl _, fun _ => rfl⟩
  | arrNum h1 h2 => exact absurd h1 hF

/-- What the container of a field has made of its value can be written to such a field again and gives the same value. -/
theorem into_clean {F : Field} {w : Val} (h : F.Holds w) (hF : ¬ F.FixedNumbers) : F.Into (clean F.ty w) w := by
  obtain ⟨v, h⟩ := h
  cases h with
  | @base b _ h =>
    have : clean (Field.base b).ty w = w := by
      cases h with
      | int hi => cases hi <;> rfl
      | _ => rfl
    rw [this]
    exact .base h
  | seq h1 h2 h3 => exact .seq h1 h2 h3
  | seqNum h1 h2 h3 h4 => exact .seqNum h1 h2 h3 (.list _)
  | arr h1 h2 => exact .arr h1 h2
  | arrNum h1 h2 => exact absurd h1 hF

theorem clean_clean (t : Ty) (v : Val) : clean t (clean t v) = clean t v := by
  cases t <;> cases v <;> rfl

theorem fits_clean {b : Bool} {t : Ty} {v : Val} (h : Fits b t v) : Fits b t (clean t v) := by
  cases h with
  | float hn h1 h2 =>
    cases hn with
    | int i => exact .float (.float _) h1 h2
    | yes => exact .float (.float _) h1 h2
    | no => exact .float (.float _) h1 h2
    | float r => exact .float (.float _) h1 h2
  | nan h => exact .nan h
  | list hs h1 h2 =>
    cases hs with
    | list => exact .list (.list _) h1 h2
    | array => exact .list (.list _) h1 h2
  | bool b => exact .bool b
  | int h1 h2 h3 => cases h1 <;> exact .int (by constructor) h2 h3
  | string h1 h2 => exact .string h1 h2
  | path h1 h2 h3 => exact .path h1 h2 h3
  | bytes h => exact .bytes h
  | dict h1 h2 => exact .dict h1 h2
  | rosName s => exact .rosName s
  | rosMsg f => exact .rosMsg f
  | rosType h => exact .rosType h

/-! ### Exact values -/

/-- What the container holds is not another value that is merely equal to `v` (as 1 and 1.0 are). -/
def Fresh (c : Cont) (v : Val) : Prop := ∀ u, c.value = some u → pyEq u v = true → u = v

theorem set_exact (c : Cont) (v : Val) (hd : c.isStatic = false) (h : Fits true c.ty v) (hf : Fresh c (clean c.ty v)) :
    (c.set v).1.value = some (clean c.ty v) ∧ (c.set v).2 = .ok := by
  refine ⟨?_, (set_same c v hd h).1⟩
  unfold Cont.set Cont.assign
  rw [(check_ok _ _).mpr h]
  simp only [hd, Bool.false_and, Bool.false_eq_true, if_false]
  cases hv : c.value with
  | none => simp
  | some w =>
    cases hp : pyEq w (clean c.ty v) with
    | false => simp [hp]
    | true => simp [hf w hv hp]

theorem put_exact (d : NodeData) (k : String) (v : Val) (s : BTState) (c : Cont) (hc : d.outputs.lookup k = some c) (hd : c.isStatic = false)
    (h : Fits true c.ty v) (hf : Fresh c (clean c.ty v)) : outputValue (put d k v s).data k = some (clean c.ty v) := by
  unfold put
  rw [hc]
  simp [outputValue, lookup_modify, hc, (set_exact c v hd h hf).1]

theorem putAll_exact (l : List (String × Val)) (s : BTState) : ∀ d : NodeData, (l.map (·.1)).Nodup →
    (∀ p ∈ l, ∃ c, d.outputs.lookup p.1 = some c ∧ c.isStatic = false ∧ Fits true c.ty p.2 ∧ Fresh c (clean c.ty p.2)) →
    ∀ p ∈ l, ∃ c, d.outputs.lookup p.1 = some c ∧ outputValue (putAll d l s).data p.1 = some (clean c.ty p.2) := by
  induction l with
  | nil => intro d _ _ p hp; cases hp
  | cons q l ih =>
    obtain ⟨k, v⟩ := q
    intro d hn ht
    obtain ⟨c, h1, h2, h3, h4⟩ := ht _ (List.mem_cons_self ..)
    have hp := put_spec d k v s ⟨c, h1, h2, h3⟩
    have he := put_exact d k v s c h1 h2 h3 h4
    simp only [List.map_cons, List.nodup_cons] at hn
    have hne : ∀ p ∈ l, p.1 ≠ k := fun p hp he => hn.1 (he ▸ List.mem_map_of_mem hp)
    have := ih (put d k v s).data hn.2 (fun p hpm => by
      obtain ⟨c', g1, g2⟩ := ht p (List.mem_cons_of_mem _ hpm)
      exact ⟨c', by rw [hp.2.2.2 _ (hne p hpm)]; exact g1, g2⟩)
    unfold putAll
    simp only [hp.1]
    intro p hpm
    rcases List.mem_cons.mp hpm with rfl | hpm
    · refine ⟨c, h1, ?_⟩
      rw [← he]
      exact congrArg (Option.bind · _) (putAll_other l s k hn.1 _)
    · obtain ⟨c', g1, g2⟩ := this p hpm
      exact ⟨c', by rw [← hp.2.2.2 _ (hne p hpm)]; exact g1, g2⟩

/-! ### From the message to the fields -/

theorem pick_spec (vs : List (String × Val)) (names : List String) (h : ∀ k ∈ names, ∃ w, vs.lookup k = some w) :
    ∃ l, pick vs names = some l ∧ l.map (·.1) = names ∧ ∀ p ∈ l, vs.lookup p.1 = some p.2 := by
  induction names with
  | nil => exact ⟨[], rfl, rfl, by simp⟩
  | cons k ks ih =>
    obtain ⟨w, hw⟩ := h k (List.mem_cons_self ..)
    obtain ⟨l, h1, h2, h3⟩ := ih fun k hk => h k (List.mem_cons_of_mem _ hk)
    refine ⟨(k, w) :: l, ?_, by simp [h2], ?_⟩
    · rw [pick, hw]; simp [h1]
    · intro p hp
      rcases List.mem_cons.mp hp with rfl | hp
      · exact hw
      · exact h3 p hp

/-- A message of the type with the given fields. -/
def MsgOf (fields : List (String × Field)) (vs : List (String × Val)) : Prop :=
  (fields.map (·.1)).Nodup ∧ vs.map (·.1) = fields.map (·.1) ∧ ∀ p ∈ fields, ∃ w, vs.lookup p.1 = some w ∧ p.2.Holds w

/-- No field is infinite or a fixed number of numbers. -/
def CommonMsg (fields : List (String × Field)) (vs : List (String × Val)) : Prop :=
  ∀ p ∈ fields, ¬ p.2.FixedNumbers ∧ ∀ w, vs.lookup p.1 = some w → Common w

/-- The node has an output for every field. -/
def FieldOutputs (d : NodeData) (fields : List (String × Field)) : Prop :=
  ∀ p ∈ fields, ∃ c, d.outputs.lookup p.1 = some c ∧ c.ty = p.2.ty ∧ c.isStatic = false

theorem field_of_name {fields : List (String × Field)} {k : String} (h : k ∈ fields.map (·.1)) : ∃ F, (k, F) ∈ fields := by
  obtain ⟨p, h1, h2⟩ := List.mem_map.mp h
  exact ⟨p.2, by rw [← h2]; exact h1⟩

theorem hook_fields {T : String} {fields : List (String × Field)} {vs : List (String × Val)} {d : NodeData}
    (hin : value d "in" = some (.msg T vs)) (hm : MsgOf fields vs) :
    ∃ l, messageToFields T (fields.map (·.1)) d = putAll d l .succeeded ∧ l.map (·.1) = fields.map (·.1) ∧ (∀ p ∈ l, vs.lookup p.1 = some p.2) := by
  obtain ⟨l, h1, h2, h3⟩ := pick_spec vs (fields.map (·.1)) fun k hk => by
    obtain ⟨F, hF⟩ := field_of_name hk
    obtain ⟨w, hw, _⟩ := hm.2.2 _ hF
    exact ⟨w, hw⟩
  refine ⟨l, ?_, h2, h3⟩
  simp [messageToFields, valueAs, hin, asMsg, need, h1]

theorem outputs_take {fields : List (String × Field)} {vs l : List (String × Val)} {d : NodeData} (hm : MsgOf fields vs)
    (hc : CommonMsg fields vs) (ho : FieldOutputs d fields) (h2 : l.map (·.1) = fields.map (·.1)) (h3 : ∀ p ∈ l, vs.lookup p.1 = some p.2) :
    ∀ p ∈ l, ∃ F, (p.1, F) ∈ fields ∧ F.Holds p.2 ∧ Fits true F.ty p.2 ∧ ∃ c, d.outputs.lookup p.1 = some c ∧ c.ty = F.ty ∧ c.isStatic = false := by
  intro p hp
  obtain ⟨F, hF⟩ := field_of_name (h2 ▸ List.mem_map_of_mem hp)
  obtain ⟨w, hw, hh⟩ := hm.2.2 _ hF
  obtain ⟨c, c1, c2, c3⟩ := ho _ hF
  have := h3 p hp
  dsimp only at hw
  rw [this] at hw
  cases hw
  exact ⟨F, hF, hh, c87_values_partial hh (hc _ hF).1 ((hc _ hF).2 _ this), c, c1, c2, c3⟩

/-- C87: a tick of MessageToFields puts out the fields of the message. -/
theorem c87_fields_partial (T : String) (fields : List (String × Field)) (vs : List (String × Val)) (d : NodeData) (hr : Ready d)
    (hin : value d "in" = some (.msg T vs)) (hm : MsgOf fields vs) (hc : CommonMsg fields vs) (ho : FieldOutputs d fields) :
    let o := tick (messageToFields T (fields.map (·.1))) d
    o.res = some (.ok .succeeded) ∧ (∀ p ∈ fields, ∃ w, vs.lookup p.1 = some w ∧ Shows o.data p.1 w) ∧ ∀ k, value o.data k = value d k := by
  intro o
  obtain ⟨l, h1, h2, h3⟩ := hook_fields (d := begun d) hin hm
  have ho' : FieldOutputs (begun d) fields := by
    intro p hp
    obtain ⟨c, c1, c2, c3⟩ := ho p hp
    exact ⟨c.resetUpdated, by simp [begun, lookup_mapAll, c1], c2, c3⟩
  have ht := outputs_take hm hc ho' h2 h3
  obtain ⟨p1, p2, p3, p4⟩ := putAll_spec l .succeeded (begun d) (h2 ▸ hm.1) fun p hp => by
    obtain ⟨F, _, _, hf, c, c1, c2, c3⟩ := ht p hp
    exact ⟨c, c1, c3, c2 ▸ hf⟩
  obtain ⟨t1, t2, t3⟩ := tick_ok (messageToFields T (fields.map (·.1))) d .succeeded hr (by rw [h1]; exact p1)
  refine ⟨t1, ?_, ?_⟩
  · intro p hp
    have : p.1 ∈ l.map (·.1) := h2 ▸ List.mem_map_of_mem hp
    obtain ⟨q, q1, q2⟩ := List.mem_map.mp this
    refine ⟨q.2, q2 ▸ h3 q q1, ?_⟩
    obtain ⟨w, w1, w2⟩ := p2 q q1
    refine ⟨w, ?_, w2⟩
    rw [outputValue, t2, h1, ← q2]
    exact w1
  · intro k
    apply value_tick
    rw [t3, h1, p3]
    rfl

/-! ### From the fields to the message -/

theorem fill_spec (d : NodeData) (fields : List (String × Field)) : ∀ ws : List (String × Val), (fields.map (·.1)).Nodup →
    ws.map (·.1) = fields.map (·.1) → (∀ p ∈ fields, ∃ v w, value d p.1 = some v ∧ ws.lookup p.1 = some w ∧ p.2.Into v w) →
    fill d fields = .vals ws := by
  induction fields with
  | nil =>
    intro ws _ hk _
    cases ws with
    | nil => rfl
    | cons => cases hk
  | cons p l ih =>
    obtain ⟨k, F⟩ := p
    intro ws hn hk h
    cases ws with
    | nil => cases hk
    | cons q ws =>
      obtain ⟨k', w'⟩ := q
      simp only [List.map_cons, List.cons.injEq] at hk
      obtain ⟨rfl, hk⟩ := hk
      simp only [List.map_cons, List.nodup_cons] at hn
      obtain ⟨v, w, h1, h2, h3⟩ := h _ (List.mem_cons_self ..)
      have : w' = w := by simpa using h2
      subst this
      have := ih ws hn.2 hk fun p hp => by
        obtain ⟨v, w, g1, g2, g3⟩ := h p (List.mem_cons_of_mem _ hp)
        refine ⟨v, w, g1, ?_, g3⟩
        have hne : p.1 ≠ k' := fun he => hn.1 (he ▸ List.mem_map_of_mem hp)
        rwa [List.lookup_cons, beq_false_of_ne hne] at g2
      rw [fill, h1]
      simp only [store_into h3, this]

/-- C87: a tick of FieldsToMessage puts out the message made of the inputs, if every input is a value that the field can have; a list is
written to a field of numbers as an array. -/
theorem c87_message (T : String) (fields : List (String × Field)) (ws : List (String × Val)) (d : NodeData) (hr : Ready d)
    (hn : (fields.map (·.1)).Nodup) (hk : ws.map (·.1) = fields.map (·.1))
    (h : ∀ p ∈ fields, ∃ v w, value d p.1 = some v ∧ ws.lookup p.1 = some w ∧ p.2.Into v w) (ht : Takes d "out" (.msg T ws)) :
    Yields (fieldsToMessage T fields) d "out" (.msg T ws) := by
  refine yields_of_put _ _ _ _ hr ht ?_
  rw [fieldsToMessage, fill_spec (begun d) fields ws hn hk h]

/-! ### There and back -/

/-- The values of the outputs are delivered to the inputs of the same name. -/
def wire (fields : List (String × Field)) (source target : NodeData) : NodeData :=
  deliverAll target (fields.map fun p => (p.1, (outputValue source p.1).getD .none))

theorem deliver_spec (d : NodeData) (k : String) (v : Val) (c : Cont) (hc : d.inputs.lookup k = some c) (hs : c.isStatic = false)
    (h : Fits true c.ty v) (hf : Fresh c (clean c.ty v)) : value (deliver d k v) k = some (clean c.ty v) ∧
      (∀ k', k' ≠ k → (deliver d k v).inputs.lookup k' = d.inputs.lookup k') ∧ (deliver d k v).inputs.map (·.1) = d.inputs.map (·.1) := by
  unfold deliver
  rw [hc]
  refine ⟨?_, ?_, ?_⟩
  · simp [value, lookup_modify, hc, (set_exact c v hs h hf).1]
  · intro k' hk
    simp [lookup_modify, hk]
  · have : ∀ (l : List (String × Cont)) (f : Cont → Cont), (Data.modify k f l).map (·.1) = l.map (·.1) := by
      intro l f
      induction l with
      | nil => rfl
      | cons p l ih =>
        unfold Data.modify
        split
        · rfl
        · simp [ih]
    exact this _ _

theorem deliverAll_spec (l : List (String × Val)) : ∀ d : NodeData, (l.map (·.1)).Nodup →
    (∀ p ∈ l, ∃ c, d.inputs.lookup p.1 = some c ∧ c.isStatic = false ∧ Fits true c.ty p.2 ∧ Fresh c (clean c.ty p.2)) →
    (∀ p ∈ l, ∃ c, d.inputs.lookup p.1 = some c ∧ value (deliverAll d l) p.1 = some (clean c.ty p.2)) ∧
      (∀ k, k ∉ l.map (·.1) → (deliverAll d l).inputs.lookup k = d.inputs.lookup k) ∧ (deliverAll d l).inputs.map (·.1) = d.inputs.map (·.1) := by
  induction l with
  | nil => intro d _ _; exact ⟨by simp, fun _ _ => rfl, rfl⟩
  | cons q l ih =>
    obtain ⟨k, v⟩ := q
    intro d hn ht
    obtain ⟨c, h1, h2, h3, h4⟩ := ht _ (List.mem_cons_self ..)
    obtain ⟨d1, d2, d3⟩ := deliver_spec d k v c h1 h2 h3 h4
    simp only [List.map_cons, List.nodup_cons] at hn
    have hne : ∀ p ∈ l, p.1 ≠ k := fun p hp he => hn.1 (he ▸ List.mem_map_of_mem hp)
    obtain ⟨i1, i2, i3⟩ := ih (deliver d k v) hn.2 (fun p hpm => by
      obtain ⟨c', g1, g2⟩ := ht p (List.mem_cons_of_mem _ hpm)
      exact ⟨c', by rw [d2 _ (hne p hpm)]; exact g1, g2⟩)
    have hd : deliverAll d ((k, v) :: l) = deliverAll (deliver d k v) l := rfl
    rw [hd]
    refine ⟨?_, ?_, i3.trans d3⟩
    · intro p hpm
      rcases List.mem_cons.mp hpm with rfl | hpm
      · refine ⟨c, h1, ?_⟩
        rw [← d1, value, i2 k hn.1, value]
      · obtain ⟨c', g1, g2⟩ := i1 p hpm
        exact ⟨c', by rw [← d2 _ (hne p hpm)]; exact g1, g2⟩
    · intro k' hk'
      simp only [List.map_cons, List.mem_cons, not_or] at hk'
      rw [i2 k' hk'.2, d2 k' hk'.1]

theorem lookup_of_mem {V : Type} {l : List (String × V)} (hn : (l.map (·.1)).Nodup) {p : String × V} (hp : p ∈ l) : l.lookup p.1 = some p.2 := by
  induction l with
  | nil => cases hp
  | cons q l ih =>
    simp only [List.map_cons, List.nodup_cons] at hn
    obtain ⟨k, v⟩ := q
    rcases List.mem_cons.mp hp with rfl | hp'
    · simp
    · have : p.1 ≠ k := fun he => hn.1 (List.mem_map.mpr ⟨p, hp', he⟩)
      rw [List.lookup_cons, beq_false_of_ne this]
      exact ih hn.2 hp'

/-- C87: a message that is taken apart by MessageToFields and put together by FieldsToMessage from the wired fields is the same
message. -/
theorem c87_round_partial (T : String) (fields : List (String × Field)) (vs : List (String × Val)) (d e : NodeData) (hr : Ready d)
    (hin : value d "in" = some (.msg T vs)) (hm : MsgOf fields vs) (hc : CommonMsg fields vs)
    (ho : ∀ p ∈ fields, ∃ c, d.outputs.lookup p.1 = some c ∧ c.ty = p.2.ty ∧ c.isStatic = false ∧
      ∀ w, vs.lookup p.1 = some w → Fresh c (clean p.2.ty w))
    (hi : ∀ p ∈ fields, ∃ c, e.inputs.lookup p.1 = some c ∧ c.ty = p.2.ty ∧ c.isStatic = false ∧
      ∀ w, vs.lookup p.1 = some w → Fresh c (clean p.2.ty w))
    (he : (e.inputs.map (·.1)).Nodup) (hre : ∀ p ∈ e.inputs, p.2.value ≠ none ∨ p.1 ∈ fields.map (·.1)) (ht : Takes e "out" (.msg T vs)) :
    let source := (tick (messageToFields T (fields.map (·.1))) d).data
    Yields (fieldsToMessage T fields) (wire fields source e) "out" (.msg T vs) := by
  intro source
  have ho' : FieldOutputs (begun d) fields := by
    intro p hp
    obtain ⟨c, c1, c2, c3, _⟩ := ho p hp
    exact ⟨c.resetUpdated, by simp [begun, lookup_mapAll, c1], c2, c3⟩
  obtain ⟨l, h1, h2, h3⟩ := hook_fields (d := begun d) hin hm
  have hts := outputs_take hm hc ho' h2 h3
  have hp1 := (putAll_spec l .succeeded (begun d) (h2 ▸ hm.1) fun p hp => by
    obtain ⟨F, _, _, hf, c, c1, c2, c3⟩ := hts p hp
    exact ⟨c, c1, c3, c2 ▸ hf⟩).1
  obtain ⟨_, t2, _⟩ := tick_ok (messageToFields T (fields.map (·.1))) d .succeeded hr (by rw [h1]; exact hp1)
  have hex := putAll_exact l .succeeded (begun d) (h2 ▸ hm.1) fun p hp => by
    obtain ⟨F, hF, _, hf, _⟩ := hts p hp
    obtain ⟨c, c1, c2, c3, c4⟩ := ho _ hF
    refine ⟨c.resetUpdated, by simp only [begun, lookup_mapAll]; dsimp only at c1; rw [c1]; rfl, c3, ?_, ?_⟩
    · show Fits true c.ty p.2
      rw [c2]; exact hf
    · show Fresh c (clean c.ty p.2)
      rw [c2]; exact c4 _ (h3 p hp)
  -- the values of the outputs
  have hval : ∀ p ∈ fields, ∃ w, vs.lookup p.1 = some w ∧ p.2.Holds w ∧ Fits true p.2.ty w ∧ outputValue source p.1 = some (clean p.2.ty w) := by
    intro p hp
    have : p.1 ∈ l.map (·.1) := h2 ▸ List.mem_map_of_mem hp
    obtain ⟨q, q1, q2⟩ := List.mem_map.mp this
    obtain ⟨w, w1, w2⟩ := hm.2.2 p hp
    obtain ⟨c, c1, c2, _⟩ := ho' p hp
    obtain ⟨c', e1, e2⟩ := hex q q1
    rw [q2, c1] at e1
    cases e1
    have hq := h3 q q1
    rw [q2, w1] at hq
    cases hq
    refine ⟨q.2, w1, w2, c87_values_partial w2 (hc p hp).1 ((hc p hp).2 _ w1), ?_⟩
    rw [← c2, outputValue, t2, h1, ← q2]
    exact e2
  have hkeys : (fields.map fun p => (p.1, (outputValue source p.1).getD .none)).map (·.1) = fields.map (·.1) := by
    rw [List.map_map]; rfl
  obtain ⟨s1, s2, s3⟩ := deliverAll_spec (fields.map fun p => (p.1, (outputValue source p.1).getD .none)) e (hkeys ▸ hm.1) (by
    intro q hq
    obtain ⟨p, hp, rfl⟩ := List.mem_map.mp hq
    obtain ⟨w, w1, w2, w3, w4⟩ := hval p hp
    obtain ⟨c, c1, c2, c3, c4⟩ := hi p hp
    refine ⟨c, c1, c3, ?_, ?_⟩
    · rw [w4, c2]; exact fits_clean w3
    · rw [w4, c2]; dsimp only [Option.getD_some]; rw [clean_clean]; exact c4 w w1)
  have hin' : ∀ p ∈ fields, ∃ w, vs.lookup p.1 = some w ∧ p.2.Holds w ∧ value (wire fields source e) p.1 = some (clean p.2.ty w) := by
    intro p hp
    obtain ⟨w, w1, w2, w3, w4⟩ := hval p hp
    obtain ⟨c, c1, c2⟩ := s1 _ (List.mem_map_of_mem hp)
    obtain ⟨c', g1, g2, _⟩ := hi p hp
    dsimp only at c1
    rw [g1] at c1
    cases c1
    refine ⟨w, w1, w2, ?_⟩
    rw [w4, g2] at c2
    dsimp only [Option.getD_some] at c2
    rw [clean_clean] at c2
    exact c2
  refine c87_message T fields vs _ ?_ hm.1 hm.2.1 ?_ ?_
  · intro p hp
    have hl : (wire fields source e).inputs.lookup p.1 = some p.2 := lookup_of_mem (s3 ▸ he) hp
    by_cases hk : p.1 ∈ fields.map (·.1)
    · obtain ⟨F, hF⟩ := field_of_name hk
      obtain ⟨w, _, _, w3⟩ := hin' _ hF
      dsimp only at w3
      rw [value, hl] at w3
      intro hnone
      rw [Option.bind_some, hnone] at w3
      cases w3
    · have := s2 p.1 (by rw [hkeys]; exact hk)
      have hle : e.inputs.lookup p.1 = some p.2 := by rw [← this]; exact hl
      rcases hre _ (mem_of_lookup hle) with h | h
      · exact h
      · exact absurd h hk
  · intro p hp
    obtain ⟨w, w1, w2, w3⟩ := hin' p hp
    exact ⟨_, w, w3, w1, into_clean w2 (hc p hp).1⟩
  · obtain ⟨c, c1, c2, c3⟩ := ht
    exact ⟨c, by rw [wire, outputs_deliverAll]; exact c1, c2, c3⟩

/-! ### What goes wrong -/

/-- Fields as in `sensor_msgs/msg/LaserScan`. -/
def scanFields : List (String × Field) := [("frame", .base (.string false none)), ("ranges", .seq .float none)]

/-- A MessageToFields node that has got a message. -/
def sampleToFields (fields : List (String × Field)) (vs : List (String × Val)) : NodeData where
  inputs := [("input_type", { ty := .rosType .topic 0, allowDynamic := false, value := some (.cls "pkg/msg/Scan") }),
    ("in", { ty := .rosMsg "pkg/msg/Scan" 0, isStatic := false, value := some (.msg "pkg/msg/Scan" vs) })]
  outputs := fields.map fun p => (p.1, { ty := p.2.ty, isStatic := false })

/-- A FieldsToMessage node that has got nothing yet. -/
def sampleToMessage (fields : List (String × Field)) : NodeData where
  inputs := ("output_type", { ty := .rosType .topic 0, allowDynamic := false, value := some (.cls "pkg/msg/Scan") }) ::
    fields.map fun p => (p.1, { ty := p.2.ty, isStatic := false })
  outputs := [("out", { ty := .rosMsg "pkg/msg/Scan" 0, isStatic := false })]

/-- The values of a scan. -/
def scanValues (x : Flt) : List (String × Val) := [("frame", .str "laser"), ("ranges", .array [.float (.fin (1 / 2)), .float x])]

theorem scan_msg (x : Flt) (h : x = .fin 3 ∨ ∃ n, x = .inf n) : MsgOf scanFields (scanValues x) := by
  refine ⟨by decide, rfl, ?_⟩
  intro p hp
  simp only [scanFields, List.mem_cons, List.not_mem_nil, or_false] at hp
  rcases hp with rfl | rfl
  · exact ⟨_, rfl, _, .base (.string (by simp))⟩
  · refine ⟨_, rfl, _, .seqNum rfl ?_ (by simp) (.array _)⟩
    intro y hy
    simp only [List.mem_cons, List.not_mem_nil, or_false] at hy
    rcases hy with rfl | rfl
    · exact .float (by decide +kernel) (by decide +kernel)
    · rcases h with rfl | ⟨n, rfl⟩
      · exact .float (by decide +kernel) (by decide +kernel)
      · exact .floatInf n

theorem scan_common : CommonMsg scanFields (scanValues (.fin 3)) := by
  intro p hp
  simp only [scanFields, List.mem_cons, List.not_mem_nil, or_false] at hp
  rcases hp with rfl | rfl
  · refine ⟨by simp [Field.FixedNumbers], ?_⟩
    intro w hw
    have : w = .str "laser" := by simpa [scanValues] using hw.symm
    subst this
    show ("laser" : String).length ≤ intFloatMax
    decide
  · refine ⟨by simp [Field.FixedNumbers], ?_⟩
    intro w hw
    have : w = .array [.float (.fin (1 / 2)), .float (.fin 3)] := by simpa [scanValues, List.lookup] using hw.symm
    subst this
    refine ⟨by decide, ?_⟩
    intro x hx
    simp only [List.mem_cons, List.not_mem_nil, or_false] at hx
    rcases hx with rfl | rfl <;> simp

theorem scan_outputs (x : Flt) : FieldOutputs (sampleToFields scanFields (scanValues x)) scanFields := by
  intro p hp
  simp only [scanFields, List.mem_cons, List.not_mem_nil, or_false] at hp
  rcases hp with rfl | rfl <;> exact ⟨_, rfl, rfl, rfl⟩

theorem scan_ready (x : Flt) : Ready (sampleToFields scanFields (scanValues x)) := by
  intro p hp
  simp only [sampleToFields, List.mem_cons, List.not_mem_nil, or_false] at hp
  rcases hp with rfl | rfl <;> simp

example : (tick (messageToFields "pkg/msg/Scan" ["frame", "ranges"]) (sampleToFields scanFields (scanValues (.fin 3)))).res =
    some (.ok .succeeded) :=
  (c87_fields_partial "pkg/msg/Scan" scanFields (scanValues (.fin 3)) _ (scan_ready _) rfl (scan_msg _ (.inl rfl)) scan_common
    (scan_outputs _)).1

example : Yields (fieldsToMessage "pkg/msg/Scan" scanFields)
    (wire scanFields (tick (messageToFields "pkg/msg/Scan" ["frame", "ranges"]) (sampleToFields scanFields (scanValues (.fin 3)))).data
      (sampleToMessage scanFields)) "out" (.msg "pkg/msg/Scan" (scanValues (.fin 3))) := by
  refine c87_round_partial "pkg/msg/Scan" scanFields (scanValues (.fin 3)) (sampleToFields scanFields (scanValues (.fin 3)))
    (sampleToMessage scanFields) (scan_ready _) rfl (scan_msg _ (.inl rfl)) scan_common ?_ ?_ (by decide) ?_ ⟨_, rfl, rfl, .rosMsg _⟩
  · intro p hp
    simp only [scanFields, List.mem_cons, List.not_mem_nil, or_false] at hp
    rcases hp with rfl | rfl <;> exact ⟨_, rfl, rfl, rfl, fun w _ u hu => by cases hu⟩
  · intro p hp
    simp only [scanFields, List.mem_cons, List.not_mem_nil, or_false] at hp
    rcases hp with rfl | rfl <;> exact ⟨_, rfl, rfl, rfl, fun w _ u hu => by cases hu⟩
  · intro p hp
    simp only [sampleToMessage, scanFields, List.map_cons, List.map_nil, List.mem_cons, List.not_mem_nil, or_false] at hp
    rcases hp with rfl | rfl | rfl <;> simp [scanFields]

/-- C87, not so: a message with an infinite number, as in a laser scan that hits nothing, makes the tick an `Err`. -/
theorem c87_infinite (n : Bool) : MsgOf scanFields (scanValues (.inf n)) ∧
    (tick (messageToFields "pkg/msg/Scan" (scanFields.map (·.1))) (sampleToFields scanFields (scanValues (.inf n)))).res = some .err :=
  ⟨scan_msg _ (.inr ⟨n, rfl⟩), by cases n <;> with_unfolding_all rfl⟩

/-- Fields as in `geometry_msgs/msg/PoseWithCovariance`. -/
def covarianceFields : List (String × Field) := [("covariance", .arr .double 2)]

/-- The values of two numbers. -/
def covarianceValues : List (String × Val) := [("covariance", ndarray [.float (.fin 0), .float (.fin 1)])]

/-- C87, not so: a message with an array of a fixed number of numbers makes the tick raise an exception. -/
theorem c87_fixed : MsgOf covarianceFields covarianceValues ∧
    (tick (messageToFields "pkg/msg/Scan" (covarianceFields.map (·.1))) (sampleToFields covarianceFields covarianceValues)).res = none := by
  refine ⟨⟨by decide, rfl, ?_⟩, by with_unfolding_all rfl⟩
  intro p hp
  simp only [covarianceFields, List.mem_cons, List.not_mem_nil, or_false] at hp
  subst hp
  refine ⟨_, rfl, _, .arrNum (l := [.float (.fin 0), .float (.fin 1)]) rfl ?_⟩
  intro y hy
  simp only [List.mem_cons, List.not_mem_nil, or_false] at hy
  rcases hy with rfl | rfl <;> exact .double (by decide +kernel) (by decide +kernel)

/-- C87, not so: the input for a sequence of floats accepts a list of integers, but then the tick raises an exception. (An integer for a
single float is converted.) -/
theorem c87_integers : Fits true (Field.seq .float none).ty (.list [.int 1]) ∧
    (tick (fieldsToMessage "pkg/msg/Scan" scanFields)
      (deliverAll (sampleToMessage scanFields) [("frame", .str "laser"), ("ranges", .list [.int 1])])).res = none ∧
    value (deliverAll (sampleToMessage scanFields) [("frame", .str "laser"), ("ranges", .list [.int 1])]) "ranges" = some (.list [.int 1]) := by
  refine ⟨.list (.list _) ?_ ⟨by decide, by simp⟩, by with_unfolding_all rfl, by with_unfolding_all rfl⟩
  intro x hx
  simp only [List.mem_cons, List.not_mem_nil, or_false] at hx
  subst hx
  exact .float (.int 1) (by decide +kernel) (by decide +kernel)

/-! ### C88: constants -/

/-- C88: if an EnumFields node can be made, its outputs are the constants of the message. -/
theorem c88_outputs_partial {T : Type} (table : T → Option Ty) (isKey : String → Bool) (consts : List (String × T)) (ts : List (String × Ty))
    (h : enumOutputs table isKey consts = .ok ts) : ts.map (·.1) = consts.map (·.1) ∧ ∀ p ∈ consts, ∃ ty, table p.2 = some ty ∧ (p.1, ty) ∈ ts := by
  induction consts generalizing ts with
  | nil => cases h; exact ⟨rfl, by simp⟩
  | cons p l ih =>
    obtain ⟨k, t⟩ := p
    unfold enumOutputs at h
    split at h
    · split at h
      · cases h
      · rename_i ty hty
        split at h
        · rename_i us hus
          cases h
          obtain ⟨i1, i2⟩ := ih us hus
          refine ⟨by simp [i1], ?_⟩
          intro p hp
          rcases List.mem_cons.mp hp with rfl | hp
          · exact ⟨ty, hty, List.mem_cons_self ..⟩
          · obtain ⟨ty', j1, j2⟩ := i2 p hp
            exact ⟨ty', j1, List.mem_cons_of_mem _ j2⟩
        · rename_i hx
          cases hx' : enumOutputs table isKey l <;> simp_all
    · cases h

example : enumOutputs (fun n : Nat => if n = 0 then some (.int 0 9) else none) (fun _ => true) [("LOW", 0), ("HIGH", 0)] =
    .ok [("LOW", .int 0 9), ("HIGH", .int 0 9)] := by decide

/-- C88, not so: EnumFields can not be made for a message with constants. -/
theorem c88_refused {T : Type} (table : T → Option Ty) (p : String × T) (consts : List (String × T)) :
    enumOutputs table typeKeys (p :: consts) = .err := rfl

/-! ### C89: actions -/

theorem buildIo_append (known : String → Option String) (l m : List (String × List Char)) (ts us : List (String × Ty))
    (h1 : buildIo known l = .ok ts) (h2 : buildIo known m = .ok us) : buildIo known (l ++ m) = .ok (ts ++ us) := by
  induction l generalizing ts with
  | nil => cases h1; exact h2
  | cons p l ih =>
    obtain ⟨k, s⟩ := p
    unfold buildIo at h1
    split at h1
    · rename_i t ht
      split at h1
      · rename_i vs hvs
        cases h1
        rw [List.cons_append, buildIo, ht, ih vs hvs]
        rfl
      · rename_i hx
        cases hx' : buildIo known l <;> simp_all
    · cases h1
    · cases h1

/-- The outputs an action node should have. -/
def ActionOutputs (result feedback : List (String × Field)) (ts : List (String × Ty)) : Prop :=
  ts = result.map (fun p => ("result." ++ p.1, p.2.ty)) ++ feedback.map (fun p => ("feedback." ++ p.1, p.2.ty))

/-- C89: the outputs of an action node belong to the fields of the result and the feedback, if these have the same fields. -/
theorem c89_outputs_partial (known : String → Option String) (result feedback : List (String × Field))
    (h : ∀ p ∈ result, p.2.elem.Proper known ∧ p.2.elem.PlainName) :
    ∃ ts, actionOutputs known (result.map fun p => (p.1, p.2.render)) (feedback.map fun p => (p.1, p.2.render)) = .ok ts ∧
      (∀ p ∈ result, ("result." ++ p.1, p.2.ty) ∈ ts) ∧ (feedback = result → ActionOutputs result feedback ts) := by
  have hb : ∀ s : String, buildIo known ((result.map fun p => (p.1, p.2.render)).map fun p => (s ++ p.1, p.2)) =
      .ok (result.map fun p => (s ++ p.1, p.2.ty)) := by
    intro s
    have := buildIo_fields known (result.map fun p => (s ++ p.1, p.2)) (by
      intro p hp
      obtain ⟨q, hq, rfl⟩ := List.mem_map.mp hp
      exact h q hq)
    rw [List.map_map, List.map_map] at this
    rw [List.map_map]
    exact this
  refine ⟨_, buildIo_append known _ _ _ _ (hb "result.") (hb "feedback."), ?_, ?_⟩
  · intro p hp
    exact List.mem_append_left _ (List.mem_map.mpr ⟨p, hp, rfl⟩)
  · rintro rfl
    rfl

example : actionOutputs (fun _ => none) [("n", "int8".toList)] [("n", "int8".toList)] =
    .ok [("result.n", .int (-128) 127), ("feedback.n", .int (-128) 127)] := by
  obtain ⟨ts, h1, _, h2⟩ := c89_outputs_partial (fun _ => none) [("n", .base (.int true 8))] [("n", .base (.int true 8))]
    (by simp [Field.elem, Base.Proper, Base.PlainName])
  have := h2 rfl
  rw [ActionOutputs] at this
  subst this
  exact h1

/-- C89, not so: the outputs do not depend on the feedback. -/
theorem c89_ignored (known : String → Option String) (result feedback feedback' : List (String × List Char)) :
    actionOutputs known result feedback = actionOutputs known result feedback' := rfl

/-- C89, not so: the feedback of an action whose first feedback field is not a field of the result is lost, while the tick answers
RUNNING. -/
theorem c89_lost (known : String → Option String) (result : List (String × Field)) (k : String) (ks : List String) (fs : List (String × Val))
    (d : NodeData) (ts : List (String × Ty)) (hr : ∀ p ∈ result, p.2.elem.Proper known ∧ p.2.elem.PlainName)
    (ha : actionOutputs known (result.map fun p => (p.1, p.2.render)) [] = .ok ts) (hd : d.outputs.map (·.1) = ts.map (·.1))
    (hk : ∀ p ∈ result, p.1 ≠ k) (hf : ∀ k' ∈ k :: ks, ∃ w, fs.lookup k' = some w) :
    actionFeedback (k :: ks) fs d = ⟨d, some (.ok .running)⟩ := by
  obtain ⟨ts', h1, _, h3⟩ := c89_outputs_partial known result result hr
  rw [c89_ignored known _ _ []] at h1
  rw [ha] at h1
  cases h1
  have h3 := h3 rfl
  have hno : d.outputs.lookup ("feedback." ++ k) = none := by
    cases hl : d.outputs.lookup ("feedback." ++ k) with
    | none => rfl
    | some c =>
      have hm : "feedback." ++ k ∈ ts.map (·.1) := by
        rw [← hd]
        exact List.mem_map_of_mem (f := (·.1)) (mem_of_lookup hl)
      rw [h3, List.map_append, List.map_map, List.map_map] at hm
      rcases List.mem_append.mp hm with hm | hm
      · obtain ⟨p, hp, he⟩ := List.mem_map.mp hm
        have : "result.".toList ++ p.1.toList = "feedback.".toList ++ k.toList := by
          rw [← String.toList_append, ← String.toList_append]
          exact congrArg String.toList he
        have h0 : some 'r' = some 'f' := congrArg List.head? this
        exact absurd h0 (by decide)
      · obtain ⟨p, hp, he⟩ := List.mem_map.mp hm
        have : "feedback.".toList ++ p.1.toList = "feedback.".toList ++ k.toList := by
          rw [← String.toList_append, ← String.toList_append]
          exact congrArg String.toList he
        exact absurd (String.toList_inj.mp (List.append_cancel_left this)) (hk p hp)
  obtain ⟨l, p1, p2, _⟩ := pick_spec fs (k :: ks) hf
  rw [actionFeedback, p1]
  cases l with
  | nil => cases p2
  | cons q l =>
    obtain ⟨k', v⟩ := q
    simp only [List.map_cons, List.cons.injEq] at p2
    obtain ⟨rfl, _⟩ := p2
    simp [putAll, put, hno]

example : actionFeedback ["percent"] [("percent", .int 50)] ⟨[], [("result.n", { ty := .bool, isStatic := false }), ("feedback.n", { ty := .bool, isStatic := false })]⟩ =
    ⟨⟨[], [("result.n", { ty := .bool, isStatic := false }), ("feedback.n", { ty := .bool, isStatic := false })]⟩, some (.ok .running)⟩ :=
  c89_lost (fun _ => none) [("n", .base .boolean)] "percent" [] [("percent", .int 50)] _ [("result.n", .bool), ("feedback.n", .bool)]
    (by simp [Field.elem, Base.Proper, Base.PlainName]) (by decide +kernel) rfl (by simp) (by simp)

/-- C89, not so: if the result has a field of the same name and another type, the tick can raise an exception. -/
theorem c89_raises : actionFeedback ["status"] [("status", .int 3)]
    ⟨[], [("result.status", { ty := .string intFloatMax none, isStatic := false }),
      ("feedback.status", { ty := .string intFloatMax none, isStatic := false })]⟩ =
    ⟨⟨[], [("result.status", { ty := .string intFloatMax none, isStatic := false }),
      ("feedback.status", { ty := .string intFloatMax none, isStatic := false })]⟩, none⟩ := rfl

end Verif.Nodes
