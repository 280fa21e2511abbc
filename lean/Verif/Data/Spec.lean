import Verif.Data.Json

/-! What the properties of node data are about, stated without the functions of the model. -/

set_option autoImplicit false

namespace Verif.Data

/-- `v` is the number `r`. -/
inductive Number : Val → Rat → Prop
  | int (i : Int) : Number (.int i) i
  | yes : Number (.bool true) 1
  | no : Number (.bool false) 0
  | float (r : Rat) : Number (.float (.fin r)) r

/-- `v` is the integer `i`. -/
inductive Integer : Val → Int → Prop
  | int (i : Int) : Integer (.int i) i
  | yes : Integer (.bool true) 1
  | no : Integer (.bool false) 0

/-- `v` is a sequence of the values `l`. -/
inductive Sequence : Val → List Val → Prop
  | list (l : List Val) : Sequence (.list l) l
  | array (l : List Val) : Sequence (.array l) l

/-- A string is one of the options, if there are any. -/
def AmongOptions (options : Option (List String)) (s : String) : Prop := ∀ o, options = some o → s ∈ o

/-- A number of items within the limit. -/
def LengthOk (n max : Nat) (strict : Bool) : Prop := n ≤ max ∧ (strict = true → n = max)

/-- `v` satisfies the declared type and its limits; `nan` says whether "not a number" counts as being in range. -/
inductive Fits (nan : Bool) : Ty → Val → Prop
  | bool (b : Bool) : Fits nan .bool (.bool b)
  | int {lo hi i : Int} {v : Val} : Integer v i → lo ≤ i → i ≤ hi → Fits nan (.int lo hi) v
  | float {lo hi r : Rat} {v : Val} : Number v r → lo ≤ r → r ≤ hi → Fits nan (.float lo hi) v
  | nan {lo hi : Rat} : nan = true → Fits nan (.float lo hi) (.float .nan)
  | string {max : Nat} {o : Option (List String)} {s : String} : s.length ≤ max → AmongOptions o s → Fits nan (.string max o) (.str s)
  | path {max : Nat} {o : Option (List String)} {s : String} : s.length ≤ max → AmongOptions o s →
      (s.startsWith "file://" = true ∨ s.startsWith "package://" = true) → Fits nan (.path max o) (.str s)
  | bytes {max : Nat} {b : List UInt8} : b.length ≤ max → Fits nan (.bytes max none) (.bytes b)
  | list {e : Ty} {es strict : Bool} {max : Nat} {v : Val} {l : List Val} : Sequence v l → (∀ x ∈ l, Fits nan e x) →
      LengthOk l.length max strict → Fits nan (.list e es max strict) v
  | dict {e : Ty} {es strict : Bool} {max : Nat} {l : List (String × Val)} : (∀ p ∈ l, Fits nan e p.2) →
      LengthOk l.length max strict → Fits nan (.dict e es max strict) (.dict l)
  | rosName {k : Kind} {i : Nat} (s : String) : Fits nan (.rosName k i) (.str s)
  | rosMsg {n : String} {i : Nat} (fields : List (String × Val)) : Fits nan (.rosMsg n i) (.msg n fields)
  | rosType {k : Kind} {i : Nat} {s : String} : validCls k s = true → Fits nan (.rosType k i) (.cls s)

/-- What can be done to a container through its methods. -/
inductive COp
  | set (v : Val)
  | deserialize (depth : Nat) (j : Json)
  | resetValue
  | flagUpdated
  | resetUpdated

/-- The container after an operation, and whether a value was accepted. -/
def Cont.step (env : Env) (c : Cont) : COp → Cont × Ans
  | .set v => c.set v
  | .deserialize n j => c.deserializeValue env n j
  | .resetValue => (c.resetValue, .ok)
  | .flagUpdated => (c.flagUpdated, .ok)
  | .resetUpdated => (c.resetUpdated, .ok)

/-- The container after a sequence of operations. -/
def Cont.run (env : Env) (c : Cont) (ops : List COp) : Cont := ops.foldl (fun c o => (c.step env o).1) c

end Verif.Data
