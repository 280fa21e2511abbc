import Verif.Nodes.Lists

/-! C84, C85: the nodes that calculate (`nodes/maths.py`). Integers and booleans are calculated exactly. What operations on floats
yield is left open (`Arith`): the theorems are about integers and booleans. -/

set_option autoImplicit false

namespace Verif.Nodes

open Verif.Data
open Verif.BT (BTState Res)

/-! ### The model -/

/-- The operators in maths.py 140-166. -/
inductive BinOp | add | and | div | floordiv | lshift | mod | mul | or | pow | rshift | sub | xor
  deriving DecidableEq, Repr

/-- maths.py 140-166: `BINARY_OPERATIONS`. -/
def binaryOperations : List (String × BinOp) :=
  [("add", .add), ("+", .add), ("and", .and), ("&", .and), ("div", .div), ("/", .div), ("floordiv", .floordiv), ("//", .floordiv),
   ("lshift", .lshift), ("<<", .lshift), ("mod", .mod), ("%", .mod), ("mul", .mul), ("*", .mul), ("or", .or), ("|", .or),
   ("pow", .pow), ("**", .pow), ("rshift", .rshift), (">>", .rshift), ("sub", .sub), ("-", .sub), ("truediv", .div),
   ("xor", .xor), ("^", .xor)]

/-- What the machine does with floats; `none`: an exception, or a complex number, which no output takes (`set_value` raises). -/
structure Arith where
  /-- The float next to a quotient of integers, OverflowError if there is none. -/
  round : Rat → Option Flt
  /-- Binary operations with at least one float. -/
  bin : BinOp → Flt → Flt → Option Flt
  /-- The functions of the module `math` that yield floats. -/
  fn : String → Flt → Option Flt
  /-- `math.floor` and `math.ceil` of a float. -/
  floor : Flt → Option Int
  ceil : Flt → Option Int

/-- Python's `a & b` on integers: the bits of the two's complement. -/
def pyAnd : Int → Int → Int
  | .ofNat m, .ofNat n => .ofNat (m &&& n)
  | .ofNat m, .negSucc n => .ofNat (m ^^^ (m &&& n))
  | .negSucc m, .ofNat n => .ofNat (n ^^^ (n &&& m))
  | .negSucc m, .negSucc n => .negSucc (m ||| n)

/-- Python's `a | b` on integers. -/
def pyOr : Int → Int → Int
  | .ofNat m, .ofNat n => .ofNat (m ||| n)
  | .ofNat m, .negSucc n => .negSucc (n ^^^ (n &&& m))
  | .negSucc m, .ofNat n => .negSucc (m ^^^ (m &&& n))
  | .negSucc m, .negSucc n => .negSucc (m &&& n)

/-- Python's `a ^ b` on integers. -/
def pyXor : Int → Int → Int
  | .ofNat m, .ofNat n => .ofNat (m ^^^ n)
  | .ofNat m, .negSucc n => .negSucc (m ^^^ n)
  | .negSucc m, .ofNat n => .negSucc (m ^^^ n)
  | .negSucc m, .negSucc n => .ofNat (m ^^^ n)

/-- A Python operator on integers; `none`: ZeroDivisionError, ValueError (negative shift count) or OverflowError. -/
def intOp (A : Arith) : BinOp → Int → Int → Option Val
  | .add, a, b => some (.int (a + b))
  | .sub, a, b => some (.int (a - b))
  | .mul, a, b => some (.int (a * b))
  | .and, a, b => some (.int (pyAnd a b))
  | .or, a, b => some (.int (pyOr a b))
  | .xor, a, b => some (.int (pyXor a b))
  | .div, a, b => if b = 0 then none else (A.round (a / b)).map .float
  | .floordiv, a, b => if b = 0 then none else some (.int (a.fdiv b))
  | .mod, a, b => if b = 0 then none else some (.int (a.fmod b))
  | .lshift, a, b => if b < 0 then none else some (.int (a * 2 ^ b.toNat))
  | .rshift, a, b => if b < 0 then none else some (.int (a / 2 ^ b.toNat))
  | .pow, a, b =>
    if 0 ≤ b then some (.int (a ^ b.toNat))
    else if a = 0 then none
    else (A.bin .pow (.fin a) (.fin b)).map .float

/-- A Python operator; `none`: an exception (TypeError for bit operations on floats). A result that is a bool exists only
for `&`, `|`, `^` on bools. -/
def pyOp (A : Arith) (op : BinOp) (a b : Val) : Option Val :=
  match a, b with
  | .bool x, .bool y =>
    match op with
    | .and => some (.bool (x && y))
    | .or => some (.bool (x || y))
    | .xor => some (.bool (x != y))
    | _ => intOp A op (if x then 1 else 0) (if y then 1 else 0)
  | _, _ =>
    match asInt a, asInt b with
    | some x, some y => intOp A op x y
    | _, _ =>
      match a.num, b.num with
      | some x, some y => if op ∈ [.and, .or, .xor, .lshift, .rshift] then none else (A.bin op x y).map .float
      | _, _ => none

/-- maths.py 206-216: `_do_tick` of Operation. A name that is not in the dictionary is a KeyError; the input does not take it
(`valid_values`). -/
def operation (A : Arith) (d : NodeData) : Out :=
  need d (valueAs asStr d "operator") fun s => need d (value d "a") fun a => need d (value d "b") fun b =>
    match (binaryOperations.lookup s).bind fun op => pyOp A op a b with
    | none => ⟨d, none⟩
    | some v => put d "result" v .succeeded

/-- The operators in maths.py 228-264; `fn` stands for the functions that yield a float. -/
inductive UnOp | not | inv | neg | pos | ceil | floor | factorial | fn (name : String)
  deriving DecidableEq, Repr

/-- maths.py 228-264: `UNARY_OPERATIONS`. -/
def unaryOperations : List (String × UnOp) :=
  [("not", .not), ("inv", .inv), ("~", .inv), ("neg", .neg), ("-", .neg), ("pos", .pos), ("+", .pos), ("ceil", .ceil),
   ("factorial", .factorial), ("floor", .floor)] ++
  (["exp", "expm1", "log", "log1p", "log10", "fabs", "sqrt", "acos", "asin", "atan", "acosh", "asinh", "atanh", "cos", "sin", "tan",
    "cosh", "sinh", "tanh", "degrees", "radians", "erf", "erfc", "gamma", "lgamma"].map fun s => (s, .fn s))

/-- `math.factorial` -/
def factorial : Nat → Nat
  | 0 => 1
  | n + 1 => (n + 1) * factorial n

/-- A unary operator on an integer or bool. -/
def intUnOp (A : Arith) (op : UnOp) (i : Int) : Option Val :=
  match op with
  | .not => some (.bool (i = 0))
  | .inv => some (.int (-i - 1))
  | .neg => some (.int (-i))
  | .pos | .ceil | .floor => some (.int i)
  | .factorial => if i < 0 then none else some (.int (factorial i.toNat))
  | .fn s => (A.fn s (.fin i)).map .float

/-- A unary operator on a float; `~` and `factorial` are TypeErrors. -/
def fltUnOp (A : Arith) (op : UnOp) (f : Flt) : Option Val :=
  match op with
  | .not => some (.bool (f.eq (.fin 0)))
  | .neg => some (.float (match f with | .nan => .nan | .inf b => .inf (!b) | .fin r => .fin (-r)))
  | .pos => some (.float f)
  | .ceil => (A.ceil f).map .int
  | .floor => (A.floor f).map .int
  | .inv | .factorial => none
  | .fn s => (A.fn s f).map .float

/-- A unary operator; `none`: an exception. -/
def pyUnOp (A : Arith) (op : UnOp) (v : Val) : Option Val :=
  match asInt v with
  | some i => intUnOp A op i
  | none =>
    match v.num with
    | some f => fltUnOp A op f
    | none => none

/-- maths.py 306-315: `_do_tick` of UnaryOperation. -/
def unaryOperation (A : Arith) (d : NodeData) : Out :=
  need d (valueAs asStr d "operator") fun s => need d (value d "in") fun v =>
    match (unaryOperations.lookup s).bind fun op => pyUnOp A op v with
    | none => ⟨d, none⟩
    | some r => put d "result" r .succeeded

/-- maths.py 92-120: `_do_setup` of Convert; `none` is `Err`. Values of the two type inputs are types; how they are read (`asType`)
and which pairs are supported (50-71) does not matter. -/
def convertSetup {T : Type} (asType : Val → Option T) (supported : T → T → Bool) (d : NodeData) : Option BTState :=
  match valueAs asType d "input_type", valueAs asType d "output_type", valueAs asInt d "clamp" with
  | some i, some o, some _ => if supported i o then some .idle else none
  | _, _, _ => none

/-! ### What is wanted -/

/-- Bit `i` of an integer in two's complement. -/
def bit (z : Int) (i : Nat) : Bool := (z / 2 ^ i) % 2 = 1

/-- `r` is the result of the operation that is called `name`, on integers. -/
def Result (name : String) (a b r : Int) : Prop :=
  (name ∈ ["add", "+"] ∧ r = a + b) ∨ (name ∈ ["sub", "-"] ∧ r = a - b) ∨ (name ∈ ["mul", "*"] ∧ r = a * b) ∨
  (name ∈ ["floordiv", "//"] ∧ ∃ m, a = r * b + m ∧ (0 ≤ m ∧ m < b ∨ b < m ∧ m ≤ 0)) ∨
  (name ∈ ["mod", "%"] ∧ ∃ q, a = q * b + r ∧ (0 ≤ r ∧ r < b ∨ b < r ∧ r ≤ 0)) ∨
  (name ∈ ["lshift", "<<"] ∧ 0 ≤ b ∧ r = a * 2 ^ b.toNat) ∨
  (name ∈ ["rshift", ">>"] ∧ 0 ≤ b ∧ r * 2 ^ b.toNat ≤ a ∧ a < (r + 1) * 2 ^ b.toNat) ∨
  (name ∈ ["pow", "**"] ∧ 0 ≤ b ∧ r = a ^ b.toNat) ∨
  (name ∈ ["and", "&"] ∧ ∀ i, bit r i = (bit a i && bit b i)) ∨
  (name ∈ ["or", "|"] ∧ ∀ i, bit r i = (bit a i || bit b i)) ∨
  (name ∈ ["xor", "^"] ∧ ∀ i, bit r i = (bit a i != bit b i))

/-- `r` is the result of the operation with one operand that is called `name`, on integers. -/
def UnResult (name : String) (a r : Int) : Prop :=
  (name ∈ ["inv", "~"] ∧ ∀ i, bit r i = !bit a i) ∨ (name ∈ ["neg", "-"] ∧ a + r = 0) ∨ (name ∈ ["pos", "+", "ceil", "floor"] ∧ r = a) ∨
  (name = "factorial" ∧ 0 ≤ a ∧ r = ((List.range a.toNat).foldr (fun k p => (k + 1) * p) 1 : Nat))

/-! ### Bits -/

theorem bit_ofNat (m i : Nat) : bit (.ofNat m) i = m.testBit i := by
  unfold bit
  rw [Nat.testBit_eq_decide_div_mod_eq]
  have : ((Int.ofNat m) / 2 ^ i % 2 : Int) = ((m / 2 ^ i % 2 : Nat) : Int) := by
    simp
  rw [this]
  congr 1
  simp only [eq_iff_iff]
  omega

theorem bit_negSucc (m i : Nat) : bit (.negSucc m) i = !m.testBit i := by
  unfold bit
  rw [Nat.testBit_eq_decide_div_mod_eq]
  have h : (Int.negSucc m / 2 ^ i : Int) = -((m / 2 ^ i : Nat) : Int) - 1 := by
    have hp : (0 : Int) < 2 ^ i := Int.pow_pos (by omega)
    have hd := Nat.div_add_mod m (2 ^ i)
    have hl := Nat.mod_lt m (Nat.two_pow_pos i)
    generalize m / 2 ^ i = q at *
    generalize m % 2 ^ i = t at *
    have hd' : ((2 ^ i : Nat) : Int) * q + t = m := by exact_mod_cast hd
    have e2 : ((2 ^ i : Nat) : Int) = 2 ^ i := by simp
    have hl' : (t : Int) < 2 ^ i := by rw [← e2]; exact_mod_cast hl
    rw [e2] at hd'
    have e : Int.negSucc m = (2 ^ i - 1 - t) + 2 ^ i * (-(q : Int) - 1) := by
      rw [Int.negSucc_eq, ← hd']
      simp only [Int.mul_sub, Int.mul_neg, Int.mul_one]
      omega
    rw [e, Int.add_mul_ediv_left _ _ (Int.ne_of_gt hp), Int.ediv_eq_zero_of_lt (by omega) (by omega)]
    omega
  rw [h]
  generalize m / 2 ^ i = q
  by_cases hq : q % 2 = 1
  · simp [hq]; omega
  · simp [hq]; omega

theorem testBit_high (n : Nat) : n.testBit n = false := Nat.testBit_lt_two_pow Nat.lt_two_pow_self

/-- An integer is determined by its bits. -/
theorem bit_ext {a b : Int} (h : ∀ i, bit a i = bit b i) : a = b := by
  have mixed : ∀ m n : Nat, ¬ ∀ i, m.testBit i = !n.testBit i := by
    intro m n h
    have := h (m + n)
    rw [Nat.testBit_lt_two_pow, Nat.testBit_lt_two_pow] at this
    · cases this
    · exact Nat.lt_of_lt_of_le Nat.lt_two_pow_self (Nat.pow_le_pow_right (by omega) (by omega))
    · exact Nat.lt_of_lt_of_le Nat.lt_two_pow_self (Nat.pow_le_pow_right (by omega) (by omega))
  cases a with
  | ofNat m =>
    cases b with
    | ofNat n => simp only [bit_ofNat] at h; rw [Nat.eq_of_testBit_eq h]
    | negSucc n => simp only [bit_ofNat, bit_negSucc] at h; exact absurd h (mixed m n)
  | negSucc m =>
    cases b with
    | ofNat n => simp only [bit_ofNat, bit_negSucc] at h; exact absurd (fun i => (h i).symm) (mixed n m)
    | negSucc n =>
      simp only [bit_negSucc] at h
      have : m = n := Nat.eq_of_testBit_eq (fun i => by have := h i; simpa using this)
      rw [this]

theorem bit_and (a b : Int) (i : Nat) : bit (pyAnd a b) i = (bit a i && bit b i) := by
  cases a <;> cases b <;> simp only [pyAnd, bit_ofNat, bit_negSucc, Nat.testBit_and, Nat.testBit_or, Nat.testBit_xor] <;>
    rename_i m n <;> cases m.testBit i <;> cases n.testBit i <;> rfl

theorem bit_or (a b : Int) (i : Nat) : bit (pyOr a b) i = (bit a i || bit b i) := by
  cases a <;> cases b <;> simp only [pyOr, bit_ofNat, bit_negSucc, Nat.testBit_and, Nat.testBit_or, Nat.testBit_xor] <;>
    rename_i m n <;> cases m.testBit i <;> cases n.testBit i <;> rfl

theorem bit_xor (a b : Int) (i : Nat) : bit (pyXor a b) i = (bit a i != bit b i) := by
  cases a <;> cases b <;> simp only [pyXor, bit_ofNat, bit_negSucc, Nat.testBit_xor] <;>
    rename_i m n <;> cases m.testBit i <;> cases n.testBit i <;> rfl

theorem bit_inv (a : Int) (i : Nat) : bit (-a - 1) i = !bit a i := by
  cases a with
  | ofNat m =>
    have : -Int.ofNat m - 1 = Int.negSucc m := by simp [Int.negSucc_eq]; omega
    rw [this, bit_ofNat, bit_negSucc]
  | negSucc m =>
    have : -Int.negSucc m - 1 = Int.ofNat m := by simp [Int.negSucc_eq]
    rw [this, bit_ofNat, bit_negSucc, Bool.not_not]

/-! ### Results -/

theorem floor_unique {a b q m r n : Int} (h1 : a = q * b + m) (h2 : 0 ≤ m ∧ m < b ∨ b < m ∧ m ≤ 0)
    (h3 : a = r * b + n) (h4 : 0 ≤ n ∧ n < b ∨ b < n ∧ n ≤ 0) : q = r ∧ m = n := by
  have h : (q - r) * b = n - m := by rw [Int.sub_mul]; omega
  have hq : q = r := by
    rcases Int.lt_trichotomy q r with hlt | he | hgt
    · exfalso
      rcases h2 with h2 | h2 <;> rcases h4 with h4 | h4 <;> try omega
      · have := Int.mul_le_mul_of_nonneg_right (show q - r ≤ -1 by omega) (show 0 ≤ b by omega)
        omega
      · have := Int.mul_le_mul_of_nonpos_right (show q - r ≤ -1 by omega) (show b ≤ 0 by omega)
        omega
    · exact he
    · exfalso
      rcases h2 with h2 | h2 <;> rcases h4 with h4 | h4 <;> try omega
      · have := Int.mul_le_mul_of_nonneg_right (show 1 ≤ q - r by omega) (show 0 ≤ b by omega)
        omega
      · have := Int.mul_le_mul_of_nonpos_right (show 1 ≤ q - r by omega) (show b ≤ 0 by omega)
        omega
  subst hq
  exact ⟨rfl, by omega⟩

theorem fdiv_fmod (a b : Int) (h : b ≠ 0) : a = a.fdiv b * b + a.fmod b ∧ (0 ≤ a.fmod b ∧ a.fmod b < b ∨ b < a.fmod b ∧ a.fmod b ≤ 0) := by
  refine ⟨by have := Int.mul_fdiv_add_fmod a b; rw [Int.mul_comm] at this; exact this.symm, ?_⟩
  rcases Int.lt_or_gt_of_ne h with hn | hp
  · right
    have h1 := Int.fmod_nonneg_of_pos (-a) (b := -b) (by omega)
    have h2 := Int.fmod_lt_of_pos (-a) (b := -b) (by omega)
    rw [Int.neg_fmod_neg] at h1 h2
    omega
  · left
    exact ⟨Int.fmod_nonneg_of_pos a hp, Int.fmod_lt_of_pos a hp⟩

theorem rshift_unique {a r p : Int} (hp : 0 < p) (h1 : r * p ≤ a) (h2 : a < (r + 1) * p) : a / p = r := by
  rw [Int.add_mul] at h2
  have := (Int.ediv_emod_unique (a := a) (b := p) (r := a - r * p) (q := r) hp).2 ⟨by rw [Int.mul_comm p r]; omega, by omega, by omega⟩
  exact this.1

theorem factorial_eq (n : Nat) : factorial n = (List.range n).foldr (fun k p => (k + 1) * p) 1 := by
  have : ∀ (l : List Nat) (x : Nat), l.foldr (fun k p => (k + 1) * p) x = l.foldr (fun k p => (k + 1) * p) 1 * x := by
    intro l x
    induction l with
    | nil => simp
    | cons a l ih => simp only [List.foldr_cons]; rw [ih, Nat.mul_assoc]
  induction n with
  | zero => rfl
  | succ n ih =>
    rw [List.range_succ, List.foldr_append, this, ← ih, factorial, Nat.mul_comm]
    simp

/-- What an operator is called, and what it yields. -/
theorem result_op (A : Arith) {name : String} {a b r : Int} (h : Result name a b r) :
    ∃ op, binaryOperations.lookup name = some op ∧ intOp A op a b = some (.int r) := by
  simp only [Result, List.mem_cons, List.not_mem_nil, or_false] at h
  rcases h with ⟨hn, rfl⟩ | ⟨hn, rfl⟩ | ⟨hn, rfl⟩ | ⟨hn, m, h1, h2⟩ | ⟨hn, q, h1, h2⟩ | ⟨hn, h1, rfl⟩ | ⟨hn, h1, h2, h3⟩ | ⟨hn, h1, rfl⟩ |
    ⟨hn, h1⟩ | ⟨hn, h1⟩ | ⟨hn, h1⟩
  · exact ⟨.add, by rcases hn with rfl | rfl <;> decide, rfl⟩
  · exact ⟨.sub, by rcases hn with rfl | rfl <;> decide, rfl⟩
  · exact ⟨.mul, by rcases hn with rfl | rfl <;> decide, rfl⟩
  · refine ⟨.floordiv, by rcases hn with rfl | rfl <;> decide, ?_⟩
    have hb : b ≠ 0 := by omega
    obtain ⟨e1, e2⟩ := fdiv_fmod a b hb
    simp [intOp, hb, (floor_unique h1 h2 e1 e2).1]
  · refine ⟨.mod, by rcases hn with rfl | rfl <;> decide, ?_⟩
    have hb : b ≠ 0 := by omega
    obtain ⟨e1, e2⟩ := fdiv_fmod a b hb
    simp [intOp, hb, (floor_unique h1 h2 e1 e2).2]
  · refine ⟨.lshift, by rcases hn with rfl | rfl <;> decide, ?_⟩
    simp [intOp, show ¬ b < 0 by omega]
  · refine ⟨.rshift, by rcases hn with rfl | rfl <;> decide, ?_⟩
    simp [intOp, show ¬ b < 0 by omega, rshift_unique (Int.pow_pos (by omega)) h2 h3]
  · refine ⟨.pow, by rcases hn with rfl | rfl <;> decide, ?_⟩
    simp [intOp, h1]
  · refine ⟨.and, by rcases hn with rfl | rfl <;> decide, ?_⟩
    simp only [intOp, Option.some.injEq, Val.int.injEq]
    exact bit_ext fun i => by rw [bit_and, h1]
  · refine ⟨.or, by rcases hn with rfl | rfl <;> decide, ?_⟩
    simp only [intOp, Option.some.injEq, Val.int.injEq]
    exact bit_ext fun i => by rw [bit_or, h1]
  · refine ⟨.xor, by rcases hn with rfl | rfl <;> decide, ?_⟩
    simp only [intOp, Option.some.injEq, Val.int.injEq]
    exact bit_ext fun i => by rw [bit_xor, h1]

/-- C84: Operation on integers puts out the result, if the output can take it. Partial: the quotient of `/` is missing, see
`c84_div_integers`. -/
theorem c84_integers_partial (A : Arith) (d : NodeData) (name : String) (a b r : Int) (hr : Ready d) (hn : value d "operator" = some (.str name))
    (ha : value d "a" = some (.int a)) (hb : value d "b" = some (.int b)) (h : Result name a b r) (ht : Takes d "result" (.int r)) :
    Yields (operation A) d "result" (.int r) := by
  apply yields_of_put _ _ _ _ hr ht
  obtain ⟨op, h1, h2⟩ := result_op A h
  simp [operation, valueAs, asStr, value_begun, hn, ha, hb, need, h1, pyOp, asInt, h2]

/-- C84: the bit operations on bools. -/
theorem c84_bools (A : Arith) (d : NodeData) (name : String) (a b r : Bool) (hr : Ready d) (hn : value d "operator" = some (.str name))
    (ha : value d "a" = some (.bool a)) (hb : value d "b" = some (.bool b))
    (h : (name ∈ ["and", "&"] ∧ (r = true ↔ a = true ∧ b = true)) ∨ (name ∈ ["or", "|"] ∧ (r = true ↔ a = true ∨ b = true)) ∨
      (name ∈ ["xor", "^"] ∧ (r = true ↔ a ≠ b)))
    (ht : Takes d "result" (.bool r)) : Yields (operation A) d "result" (.bool r) := by
  apply yields_of_put _ _ _ _ hr ht
  have : ∃ op, binaryOperations.lookup name = some op ∧ pyOp A op (.bool a) (.bool b) = some (.bool r) := by
    simp only [List.mem_cons, List.not_mem_nil, or_false] at h
    rcases h with ⟨hn, h⟩ | ⟨hn, h⟩ | ⟨hn, h⟩
    · exact ⟨.and, by rcases hn with rfl | rfl <;> decide, by cases a <;> cases b <;> cases r <;> simp_all [pyOp]⟩
    · exact ⟨.or, by rcases hn with rfl | rfl <;> decide, by cases a <;> cases b <;> cases r <;> simp_all [pyOp]⟩
    · exact ⟨.xor, by rcases hn with rfl | rfl <;> decide, by cases a <;> cases b <;> cases r <;> simp_all [pyOp]⟩
  obtain ⟨op, h1, h2⟩ := this
  simp [operation, valueAs, asStr, value_begun, hn, ha, hb, need, h1, h2]

/-- C84: UnaryOperation on integers. -/
theorem c84_unary (A : Arith) (d : NodeData) (name : String) (a r : Int) (hr : Ready d) (hn : value d "operator" = some (.str name))
    (ha : value d "in" = some (.int a)) (h : UnResult name a r) (ht : Takes d "result" (.int r)) :
    Yields (unaryOperation A) d "result" (.int r) := by
  apply yields_of_put _ _ _ _ hr ht
  have : ∃ op, unaryOperations.lookup name = some op ∧ intUnOp A op a = some (.int r) := by
    simp only [UnResult, List.mem_cons, List.not_mem_nil, or_false] at h
    rcases h with ⟨hn, h⟩ | ⟨hn, h⟩ | ⟨hn, rfl⟩ | ⟨rfl, h0, rfl⟩
    · refine ⟨.inv, by rcases hn with rfl | rfl <;> decide, ?_⟩
      simp only [intUnOp, Option.some.injEq, Val.int.injEq]
      exact bit_ext fun i => by rw [bit_inv, h]
    · refine ⟨.neg, by rcases hn with rfl | rfl <;> decide, ?_⟩
      simp only [intUnOp, Option.some.injEq, Val.int.injEq]
      omega
    · rcases hn with rfl | rfl | rfl | rfl
      · exact ⟨.pos, by decide, rfl⟩
      · exact ⟨.pos, by decide, rfl⟩
      · exact ⟨.ceil, by decide, rfl⟩
      · exact ⟨.floor, by decide, rfl⟩
    · refine ⟨.factorial, by decide, ?_⟩
      simp [intUnOp, show ¬ a < 0 by omega, factorial_eq]
  obtain ⟨op, h1, h2⟩ := this
  simp [unaryOperation, valueAs, asStr, value_begun, hn, ha, need, h1, pyUnOp, asInt, h2]

/-- C84: the logical negation of a number or bool. -/
theorem c84_not (A : Arith) (d : NodeData) (v : Val) (r : Bool) (hr : Ready d) (hn : value d "operator" = some (.str "not"))
    (ha : value d "in" = some v) (hv : v.num ≠ none) (h : r = true ↔ pyEq v (.int 0) = true) (ht : Takes d "result" (.bool r)) :
    Yields (unaryOperation A) d "result" (.bool r) := by
  apply yields_of_put _ _ _ _ hr ht
  have h1 : unaryOperations.lookup "not" = some .not := by decide
  have h2 : pyUnOp A .not v = some (.bool r) := by
    cases v with
    | int i =>
      have : pyEq (.int i) (.int 0) = decide (i = 0) := by simp [pyEq, pyEq.numEq, Val.num, Flt.eq]
      rw [this] at h
      simp only [pyUnOp, asInt, intUnOp, Option.some.injEq, Val.bool.injEq]
      exact Bool.eq_iff_iff.2 h.symm
    | bool b =>
      have : pyEq (.bool b) (.int 0) = !b := by cases b <;> decide
      rw [this] at h
      simp only [pyUnOp, asInt, intUnOp, Option.some.injEq, Val.bool.injEq]
      rw [Bool.eq_iff_iff, h]
      cases b <;> simp
    | float f =>
      have : pyEq (.float f) (.int 0) = f.eq (.fin 0) := by simp [pyEq, pyEq.numEq, Val.num]
      rw [this] at h
      simp only [pyUnOp, asInt, Val.num, fltUnOp, Option.some.injEq, Val.bool.injEq]
      exact Bool.eq_iff_iff.2 h.symm
    | _ => simp [Val.num] at hv
  simp [unaryOperation, valueAs, asStr, value_begun, hn, ha, need, h1, h2]

/-! ### Violations -/

theorem tick_raise (hook : NodeData → Out) (d : NodeData) (hr : Ready d) (h : (hook (begun d)).res = none) : (tick hook d).res = none := by
  have : d.inputs.all (·.2.value.isSome) = true := by
    rw [List.all_eq_true]
    intro p hp
    exact Option.isSome_iff_ne_none.mpr (hr p hp)
  unfold tick
  rw [if_pos this]
  change (hook { d with outputs := mapAll Cont.resetUpdated d.outputs }).res = _ at h
  simp only [h]

/-- The type of the output is that of the operands. -/
def Typed (d : NodeData) (t : Ty) : Prop := ∃ c, d.outputs.lookup "result" = some c ∧ c.ty = t

theorem put_refused (d : NodeData) (k : String) (v : Val) (s s' : BTState) (c : Cont) (hc : d.outputs.lookup k = some c) (h : check c.ty v ≠ .ok) :
    (put d k v s).res ≠ some (.ok s') := by
  have e : (c.set v).2 ≠ .ok := by
    unfold Cont.set
    split
    · rename_i h'; exact absurd h' h
    · rename_i a h'; exact h
  unfold put
  rw [hc]
  dsimp only
  cases ha : (c.set v).2 with
  | ok => exact absurd ha e
  | err => intro h; cases h
  | raise => intro h; cases h

theorem hook_of_tick {hook : NodeData → Out} {d : NodeData} {s : BTState} (h : (tick hook d).res = some (.ok s)) :
    (hook (begun d)).res = some (.ok s) ∧ Ready d := by
  unfold tick at h
  split at h
  · rename_i hall
    refine ⟨?_, fun p hp => Option.isSome_iff_ne_none.1 (List.all_eq_true.1 hall p hp)⟩
    dsimp only at h
    split at h
    · exact h
    · exact h
  · cases h

theorem typed_begun {d : NodeData} {t : Ty} (h : Typed d t) : Typed (begun d) t := by
  obtain ⟨c, h1, h2⟩ := h
  exact ⟨c.resetUpdated, by simp [begun, lookup_mapAll, h1], h2⟩

theorem put_ok {d : NodeData} {k : String} {v : Val} {s s' : BTState} {c : Cont} (hc : d.outputs.lookup k = some c)
    (h : (put d k v s).res = some (.ok s')) : check c.ty v = .ok := by
  cases hk : check c.ty v with
  | ok => rfl
  | err => exact absurd h (put_refused d k v s s' c hc (by rw [hk]; intro h; cases h))
  | raise => exact absurd h (put_refused d k v s s' c hc (by rw [hk]; intro h; cases h))

/-- What an output shows after it has taken a value. -/
theorem put_shows {d : NodeData} {k : String} {v : Val} {s s' : BTState} (h : (put d k v s).res = some (.ok s')) : Shows (put d k v s).data k v := by
  unfold put at h ⊢
  cases hc : d.outputs.lookup k with
  | none => rw [hc] at h; cases h
  | some c =>
    rw [hc] at h
    dsimp only at h ⊢
    have hok : (c.set v).2 = .ok := by
      cases ha : (c.set v).2 with
      | ok => rfl
      | err => rw [ha] at h; cases h
      | raise => rw [ha] at h; cases h
    have : ∃ w, (c.set v).1.value = some w ∧ Same w v := by
      unfold Cont.set at hok ⊢
      split at hok
      · unfold Cont.assign at hok ⊢
        split at hok
        · cases hok
        · rename_i hst
          rw [if_neg hst]
          dsimp only
          cases hv : c.value with
          | none => exact ⟨_, by simp, same_clean c.ty _ _ (.inl rfl)⟩
          | some w =>
            cases hp : pyEq w (clean c.ty v) with
            | false => exact ⟨_, by simp [hp], same_clean c.ty _ _ (.inl rfl)⟩
            | true => exact ⟨w, by simp [hp], same_clean c.ty _ _ (.inr hp)⟩
      · rename_i hne; exact absurd hok hne
    obtain ⟨w, h1, h2⟩ := this
    exact ⟨w, by simp [outputValue, lookup_modify, hc, h1], h2⟩

theorem mem_of_lookup {V : Type} {l : List (String × V)} {k : String} {v : V} (h : l.lookup k = some v) : (k, v) ∈ l := by
  obtain ⟨a, b, e, _⟩ := List.lookup_eq_some_iff.mp h
  rw [e]; simp

/-- C84: a success of an Operation on integers comes with the right result. -/
theorem c84_sound (A : Arith) (d : NodeData) (name : String) (a b lo hi : Int) (s : BTState) (hn : value d "operator" = some (.str name))
    (ha : value d "a" = some (.int a)) (hb : value d "b" = some (.int b)) (ho : Typed d (.int lo hi)) (hs : (tick (operation A) d).res = some (.ok s)) :
    ∃ r, Result name a b r ∧ Shows (tick (operation A) d).data "result" (.int r) ∧ lo ≤ r ∧ r ≤ hi := by
  obtain ⟨h1, hr⟩ := hook_of_tick hs
  obtain ⟨h2, h3, _⟩ := tick_ok (operation A) d s hr h1
  obtain ⟨c, hc, ht⟩ := typed_begun ho
  simp only [operation, valueAs, value_begun, hn, ha, hb, asStr, need, Option.bind_some] at h1
  cases hl : binaryOperations.lookup name with
  | none => rw [hl] at h1; cases h1
  | some op =>
    rw [hl] at h1
    simp only [Option.bind_some, pyOp, asInt] at h1
    cases hv : intOp A op a b with
    | none => rw [hv] at h1; cases h1
    | some v =>
      rw [hv] at h1
      have hk := put_ok hc h1
      rw [ht] at hk
      have key : ∀ r, v = .int r → Result name a b r → ∃ r, Result name a b r ∧ Shows (tick (operation A) d).data "result" (.int r) ∧ lo ≤ r ∧ r ≤ hi := by
        rintro r rfl hres
        refine ⟨r, hres, ?_, ?_⟩
        · obtain ⟨w, hw, hsame⟩ := put_shows h1
          refine ⟨w, ?_, hsame⟩
          rw [outputValue, h3]
          simp only [operation, valueAs, value_begun, hn, ha, hb, asStr, need, Option.bind_some, hl, pyOp, asInt, hv]
          exact hw
        · simp only [check] at hk
          split at hk
          · cases hk
          · split at hk
            · cases hk
            · omega
      have flt : ∀ o : Option Flt, o.map Val.float = some v → False := by
        intro o ho
        cases o with
        | none => cases ho
        | some f => cases ho; cases hk
      have hm := mem_of_lookup hl
      simp only [binaryOperations, List.mem_cons, Prod.mk.injEq, List.not_mem_nil, or_false] at hm
      cases op <;> simp only [reduceCtorEq, and_false, and_true, or_false, false_or] at hm
      case add => cases hv; exact key _ rfl (Or.inl ⟨by simp [hm], rfl⟩)
      case sub => cases hv; exact key _ rfl (Or.inr (Or.inl ⟨by simp [hm], rfl⟩))
      case mul => cases hv; exact key _ rfl (Or.inr (Or.inr (Or.inl ⟨by simp [hm], rfl⟩)))
      case floordiv =>
        simp only [intOp] at hv
        split at hv
        · cases hv
        · rename_i hne
          cases hv
          have := fdiv_fmod a b hne
          exact key _ rfl (Or.inr (Or.inr (Or.inr (Or.inl ⟨by simp [hm], _, this⟩))))
      case mod =>
        simp only [intOp] at hv
        split at hv
        · cases hv
        · rename_i hne
          cases hv
          have := fdiv_fmod a b hne
          exact key _ rfl (Or.inr (Or.inr (Or.inr (Or.inr (Or.inl ⟨by simp [hm], _, this⟩)))))
      case lshift =>
        simp only [intOp] at hv
        split at hv
        · cases hv
        · cases hv
          exact key _ rfl (Or.inr (Or.inr (Or.inr (Or.inr (Or.inr (Or.inl ⟨by simp [hm], by omega, rfl⟩))))))
      case rshift =>
        simp only [intOp] at hv
        split at hv
        · cases hv
        · cases hv
          have hp : (0 : Int) < 2 ^ b.toNat := Int.pow_pos (by omega)
          refine key _ rfl (Or.inr (Or.inr (Or.inr (Or.inr (Or.inr (Or.inr (Or.inl ⟨by simp [hm], by omega, ?_, ?_⟩)))))))
          · exact Int.ediv_mul_le a (Int.ne_of_gt hp)
          · exact Int.lt_ediv_add_one_mul_self a hp
      case pow =>
        simp only [intOp] at hv
        split at hv
        · rename_i h0
          cases hv
          exact key _ rfl (Or.inr (Or.inr (Or.inr (Or.inr (Or.inr (Or.inr (Or.inr (Or.inl ⟨by simp [hm], h0, rfl⟩))))))))
        · split at hv
          · cases hv
          · exact (flt _ hv).elim
      case and => cases hv; exact key _ rfl (Or.inr (Or.inr (Or.inr (Or.inr (Or.inr (Or.inr (Or.inr (Or.inr (Or.inl ⟨by simp [hm], bit_and a b⟩)))))))))
      case or => cases hv; exact key _ rfl (Or.inr (Or.inr (Or.inr (Or.inr (Or.inr (Or.inr (Or.inr (Or.inr (Or.inr (Or.inl ⟨by simp [hm], bit_or a b⟩))))))))))
      case xor => cases hv; exact key _ rfl (Or.inr (Or.inr (Or.inr (Or.inr (Or.inr (Or.inr (Or.inr (Or.inr (Or.inr (Or.inr ⟨by simp [hm], bit_xor a b⟩))))))))))
      case div =>
        simp only [intOp] at hv
        split at hv
        · cases hv
        · exact (flt _ hv).elim

/-- C84, violation: dividing one integer by another is never a success, also if there is no remainder. -/
theorem c84_div_integers (A : Arith) (d : NodeData) (name : String) (a b lo hi : Int) (hn : value d "operator" = some (.str name))
    (hd : name ∈ ["div", "/", "truediv"]) (ha : value d "a" = some (.int a)) (hb : value d "b" = some (.int b)) (ho : Typed d (.int lo hi)) :
    ∀ s, (tick (operation A) d).res ≠ some (.ok s) := by
  intro s hs
  obtain ⟨r, hr, _⟩ := c84_sound A d name a b lo hi s hn ha hb ho hs
  simp only [List.mem_cons, List.not_mem_nil, or_false] at hd
  rcases hd with rfl | rfl | rfl <;> simp [Result] at hr

/-- C84, violation: adding bools (or any other operation on them than `&`, `|`, `^`) is never a success. -/
theorem c84_add_bools (A : Arith) (d : NodeData) (name : String) (a b : Bool) (hn : value d "operator" = some (.str name))
    (hd : name ∉ ["and", "&", "or", "|", "xor", "^"]) (ha : value d "a" = some (.bool a)) (hb : value d "b" = some (.bool b)) (ho : Typed d .bool) :
    ∀ s, (tick (operation A) d).res ≠ some (.ok s) := by
  intro s hs
  obtain ⟨h1, hr⟩ := hook_of_tick hs
  obtain ⟨c, hc, ht⟩ := typed_begun ho
  simp only [operation, valueAs, value_begun, hn, ha, hb, asStr, need, Option.bind_some] at h1
  cases hl : binaryOperations.lookup name with
  | none => rw [hl] at h1; cases h1
  | some op =>
    rw [hl] at h1
    simp only [Option.bind_some] at h1
    cases hv : pyOp A op (.bool a) (.bool b) with
    | none => rw [hv] at h1; cases h1
    | some v =>
      rw [hv] at h1
      have hk := put_ok hc h1
      rw [ht] at hk
      have hb : ∃ x, v = .bool x := by
        cases v with
        | bool x => exact ⟨x, rfl⟩
        | _ => cases hk
      obtain ⟨x, rfl⟩ := hb
      have hm := mem_of_lookup hl
      simp only [binaryOperations, List.mem_cons, Prod.mk.injEq, List.not_mem_nil, or_false] at hm hd
      have noBool : ∀ i j, intOp A op i j ≠ some (.bool x) := by
        intro i j h
        cases op <;> simp only [intOp] at h <;> (repeat' split at h) <;> first | cases h | (obtain ⟨_, _, h⟩ := Option.map_eq_some_iff.1 h; cases h)
      cases op <;> simp only [reduceCtorEq, and_false, and_true, or_false, false_or] at hm <;>
        first
        | exact noBool _ _ hv
        | (exact hd (by simp [hm]))
        | (rcases hm with h | h <;> simp [h] at hd)

/-- C84, violation: dividing by zero is an exception, not a failure or an error of the node. -/
theorem c84_zero (A : Arith) (d : NodeData) (name : String) (a : Int) (hr : Ready d) (hn : value d "operator" = some (.str name))
    (hd : name ∈ ["div", "/", "truediv", "floordiv", "//", "mod", "%"]) (ha : value d "a" = some (.int a)) (hb : value d "b" = some (.int 0)) :
    (tick (operation A) d).res = none := by
  apply tick_raise _ _ hr
  simp only [operation, valueAs, value_begun, hn, ha, hb, asStr, need, Option.bind_some]
  simp only [List.mem_cons, List.not_mem_nil, or_false] at hd
  rcases hd with rfl | rfl | rfl | rfl | rfl | rfl | rfl <;> rfl

/-- C85, violation: Convert cannot be set up, whatever its inputs are (it reads an input `clamp`, which the class does not have). -/
theorem c85_convert {T : Type} (asType : Val → Option T) (supported : T → T → Bool) (d : NodeData)
    (hk : d.inputs.map (·.1) = ["input_type", "output_type", "in"]) : convertSetup asType supported d = none := by
  have hv : valueAs asInt d "clamp" = none := by
    have : d.inputs.lookup "clamp" = none := by
      rw [List.lookup_eq_none_iff]
      intro p hp
      have : p.1 ∈ d.inputs.map (·.1) := List.mem_map.mpr ⟨p, hp, rfl⟩
      rw [hk] at this
      simp only [List.mem_cons, List.not_mem_nil, or_false] at this
      rcases this with e | e | e <;> rw [e] <;> decide
    rw [valueAs, value, this]; rfl
  unfold convertSetup
  rw [hv]
  split
  · rename_i h; cases h
  · rfl

/-! ### Examples -/

/-- An Operation node on integers. -/
def sampleOp (name : String) (a b : Int) : NodeData :=
  { inputs := [("operand_type", cont (.string 10 none) (.str "int")), ("operator", cont (.string 10 none) (.str name)),
      ("a", cont (.int (-100) 100) (.int a)), ("b", cont (.int (-100) 100) (.int b))],
    outputs := [("result", cont (.int (-100) 100) (.int 0))] }

example (A : Arith) : Yields (operation A) (sampleOp "//" (-7) 2) "result" (.int (-4)) :=
  c84_integers_partial A (sampleOp "//" (-7) 2) "//" (-7) 2 (-4) (by simp [Ready, sampleOp, cont]) rfl rfl rfl
    (Or.inr (Or.inr (Or.inr (Or.inl ⟨by decide, 1, by decide, by decide⟩)))) ⟨_, rfl, rfl, .int (.int _) (by decide) (by decide)⟩

example (A : Arith) : (tick (operation A) (sampleOp "&" (-3) 6)).res = some (.ok .succeeded) := rfl

example : pyAnd (-3) 6 = 4 ∧ pyOr (-3) 6 = -1 ∧ pyXor (-3) 6 = -5 ∧ (-7) / 2 ^ 1 = (-4 : Int) := by decide

example (A : Arith) : Typed (sampleOp "/" 6 2) (.int (-100) 100) ∧ ∀ s, (tick (operation A) (sampleOp "/" 6 2)).res ≠ some (.ok s) :=
  ⟨⟨_, rfl, rfl⟩, c84_div_integers A _ "/" 6 2 (-100) 100 rfl (by decide) rfl rfl ⟨_, rfl, rfl⟩⟩

/-- An Operation node on bools. -/
def sampleBools (name : String) (a b : Bool) : NodeData :=
  { inputs := [("operand_type", cont (.string 10 none) (.str "bool")), ("operator", cont (.string 10 none) (.str name)),
      ("a", cont .bool (.bool a)), ("b", cont .bool (.bool b))],
    outputs := [("result", cont .bool (.bool false))] }

example (A : Arith) : Yields (operation A) (sampleBools "^" true false) "result" (.bool true) :=
  c84_bools A _ "^" true false true (by simp [Ready, sampleBools, cont]) rfl rfl rfl (by decide) ⟨_, rfl, rfl, .bool _⟩

example (A : Arith) : ∀ s, (tick (operation A) (sampleBools "+" true true)).res ≠ some (.ok s) :=
  c84_add_bools A _ "+" true true rfl (by decide) rfl rfl ⟨_, rfl, rfl⟩

example (A : Arith) : (tick (operation A) (sampleOp "%" 6 0)).res = none :=
  c84_zero A _ "%" 6 (by simp [Ready, sampleOp, cont]) rfl (by decide) rfl rfl

/-- A UnaryOperation node on integers. -/
def sampleUnary (name : String) (a : Int) : NodeData :=
  { inputs := [("operand_type", cont (.string 10 none) (.str "int")), ("operator", cont (.string 10 none) (.str name)),
      ("in", cont (.int (-100) 100) (.int a))],
    outputs := [("result", cont (.int (-100) 100) (.int 0))] }

example (A : Arith) : Yields (unaryOperation A) (sampleUnary "factorial" 4) "result" (.int 24) :=
  c84_unary A _ "factorial" 4 24 (by simp [Ready, sampleUnary, cont]) rfl rfl (Or.inr (Or.inr (Or.inr ⟨rfl, by decide, by decide⟩)))
    ⟨_, rfl, rfl, .int (.int _) (by decide) (by decide)⟩

example (A : Arith) : Yields (unaryOperation A) (sampleUnary "not" 4) "result" (.bool false) :=
  c84_not A _ (.int 4) false (by simp [Ready, sampleUnary, cont]) rfl rfl (by decide) (by decide) ⟨_, rfl, rfl, .int .no (by decide) (by decide)⟩

/-- The inputs of a Convert node. -/
def sampleConvert : NodeData :=
  { inputs := [("input_type", cont (.string 10 none) (.str "int")), ("output_type", cont (.string 10 none) (.str "bool")),
      ("in", cont (.int 0 1) (.int 1))],
    outputs := [("out", cont .bool (.bool false))] }

example : convertSetup asStr (fun _ _ => true) sampleConvert = none := c85_convert _ _ _ rfl

end Verif.Nodes
