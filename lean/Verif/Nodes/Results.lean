import Verif.Nodes.Model

/-! C115: results, and the `do` notation for them (`vendor/result/result.py`). The hooks of the data nodes are written with
them; the model of these hooks writes them as nested matches, which is justified here. -/

set_option autoImplicit false

namespace Verif.Nodes.Results

/-! ### The model -/

variable {W X A B C E F : Type}

/-- result.py 54-230 (`Ok`) and 246-435 (`Err`). -/
inductive Result (A E : Type)
  | ok (a : A)
  | err (e : E)
  deriving DecidableEq

/-- A Python expression: it may change the world `W`, and it has a value or raises an exception `X`. -/
abbrev Expr (W X A : Type) : Type := W → Except X A × W

/-- An expression without effect. -/
def Expr.pure (a : A) : Expr W X A := fun w => (.ok a, w)

/-- One expression after the other; an exception of the first one leaves both. -/
def Expr.bind (x : Expr W X A) (f : A → Expr W X B) : Expr W X B := fun w =>
  match x w with
  | (.error e, w) => (.error e, w)
  | (.ok a, w) => f a w

/-- result.py 197-202 and 405-409: `and_then`. -/
def Result.andThen (f : A → Expr W X (Result B E)) : Result A E → Expr W X (Result B E)
  | .ok a => f a
  | .err e => .pure (.err e)

/-- result.py 163-168 and 373-377: `map`. -/
def Result.map (f : A → Expr W X B) : Result A E → Expr W X (Result B E)
  | .ok a => (f a).bind fun b => .pure (.ok b)
  | .err e => .pure (.err e)

/-- result.py 191-195 and 398-403: `map_err`. -/
def Result.mapErr (f : E → Expr W X F) : Result A E → Expr W X (Result A F)
  | .ok a => .pure (.ok a)
  | .err e => (f e).bind fun e => .pure (.err e)

/-- result.py 213-217 and 417-422: `or_else`. -/
def Result.orElse (f : E → Expr W X (Result A F)) : Result A E → Expr W X (Result A F)
  | .ok a => .pure (.ok a)
  | .err e => f e

/-- result.py 145-149 and 354-358: `unwrap_or`. -/
def Result.unwrapOr (d : A) : Result A E → A
  | .ok a => a
  | .err _ => d

/-- result.py 133-137 and 336-346: `unwrap`; `exc` makes the `UnwrapError` (454-476). -/
def Result.unwrap (exc : E → X) : Result A E → Expr W X A
  | .ok a => .pure a
  | .err e => fun w => (.error (exc e), w)

/-- A generator expression `body for a in src for b in … `: the expressions that its clauses iterate over and its body. -/
inductive Gen (W X B E : Type) : Type 1
  | body (x : Expr W X (Result B E))
  | clause {A : Type} (src : Expr W X (Result A E)) (rest : A → Gen W X B E)

/-- What may leave a generator: a `DoException` (result.py 233-243) or an exception of one of its expressions. Simplified: the
expressions themselves raise no `DoException`, i.e. they iterate over results only within a `do` of their own. -/
inductive Raised (X E : Type)
  | done (e : E)
  | exc (x : X)

/-- `next(gen)`: the first value that the generator yields. An `Ok` yields its value once (result.py 62-63), an `Err` raises a
`DoException` when it is advanced (254-260). -/
def Gen.next : Gen W X B E → W → Except (Raised X E) (Result B E) × W
  | .body x, w =>
    match x w with
    | (.error e, w) => (.error (.exc e), w)
    | (.ok r, w) => (.ok r, w)
  | .clause src rest, w =>
    match src w with
    | (.error e, w) => (.error (.exc e), w)
    | (.ok (.err e), w) => (.error (.done e), w)
    | (.ok (.ok a), w) => (rest a).next w

/-- result.py 578-620: `do`. The first expression is evaluated before the generator is made, which makes no difference here. -/
def doNotation (g : Gen W X B E) : Expr W X (Result B E) := fun w =>
  match g.next w with
  | (.ok r, w) => (.ok r, w)
  | (.error (.done e), w) => (.ok (.err e), w)
  | (.error (.exc x), w) => (.error x, w)

/-- A Python value that is a result or not; results are compared with `==` in result.py 71-72 and 268-269. -/
inductive Obj (A E : Type)
  | result (r : Result A E)
  | other (a : A)

/-- `r == x` -/
def pyEqual [DecidableEq A] [DecidableEq E] (r : Result A E) : Obj A E → Bool
  | .result r' => match r, r' with
    | .ok a, .ok b => a = b
    | .err a, .err b => a = b
    | _, _ => false
  | .other _ => false

/-! ### What is meant -/

/-- The meaning of a `do`: the expressions are evaluated one after the other up to the first one that is an `Err` or raises; the
first `Err` is the answer; if there is none, the body is. -/
inductive Runs : Gen W X B E → W → Except X (Result B E) → W → Prop
  | body {x : Expr W X (Result B E)} {w w' : W} {r : Except X (Result B E)} : x w = (r, w') → Runs (.body x) w r w'
  | raises {A : Type} {src : Expr W X (Result A E)} {rest : A → Gen W X B E} {w w' : W} {x : X} :
    src w = (.error x, w') → Runs (.clause src rest) w (.error x) w'
  | stops {A : Type} {src : Expr W X (Result A E)} {rest : A → Gen W X B E} {w w' : W} {e : E} :
    src w = (.ok (.err e), w') → Runs (.clause src rest) w (.ok (.err e)) w'
  | goesOn {A : Type} {src : Expr W X (Result A E)} {rest : A → Gen W X B E} {w w' w'' : W} {a : A} {r : Except X (Result B E)} :
    src w = (.ok (.ok a), w') → Runs (rest a) w' r w'' → Runs (.clause src rest) w r w''

/-- The nested `and_then` calls that a `do` abbreviates (result.py 579). -/
def Gen.chain : Gen W X B E → Expr W X (Result B E)
  | .body x => x
  | .clause src rest => src.bind fun r => r.andThen fun a => (rest a).chain

/-! ### C115 -/

/-- **C115.** A `do` does what it means, effects and exceptions included. -/
theorem c115_do (g : Gen W X B E) (w w' : W) (r : Except X (Result B E)) :
    doNotation g w = (r, w') ↔ Runs g w r w' := by
  induction g generalizing w with
  | body x =>
    have e : doNotation (.body x) w = x w := by
      simp only [doNotation, Gen.next]
      cases h : x w with
      | mk a b => cases a <;> rfl
    rw [e]
    exact ⟨.body, fun h => by cases h; assumption⟩
  | clause src rest ih =>
    simp only [doNotation, Gen.next]
    cases h : src w with
    | mk a b =>
      cases a with
      | error x =>
        refine ⟨fun he => ?_, fun hr => ?_⟩
        · obtain ⟨rfl, rfl⟩ := Prod.mk.inj he
          exact .raises h
        · cases hr with
          | raises h' => rw [h] at h'; cases h'; rfl
          | stops h' => rw [h] at h'; cases h'
          | goesOn h' _ => rw [h] at h'; cases h'
      | ok s =>
        cases s with
        | err e =>
          refine ⟨fun he => ?_, fun hr => ?_⟩
          · obtain ⟨rfl, rfl⟩ := Prod.mk.inj he
            exact .stops h
          · cases hr with
            | raises h' => rw [h] at h'; cases h'
            | stops h' => rw [h] at h'; cases h'; rfl
            | goesOn h' _ => rw [h] at h'; cases h'
        | ok a =>
          refine ⟨fun he => .goesOn h ((ih a b).1 he), fun hr => ?_⟩
          cases hr with
          | raises h' => rw [h] at h'; cases h'
          | stops h' => rw [h] at h'; cases h'
          | goesOn h' hr => rw [h] at h'; cases h'; exact (ih a b).2 hr

/-- **C115.** A `do` is the same as nested `and_then` calls, as its documentation says. -/
theorem c115_chain (g : Gen W X B E) : doNotation g = g.chain := by
  funext w
  induction g generalizing w with
  | body x =>
    simp only [doNotation, Gen.next, Gen.chain]
    cases h : x w with
    | mk a b => cases a <;> rfl
  | clause src rest ih =>
    simp only [doNotation, Gen.next, Gen.chain, Expr.bind]
    cases h : src w with
    | mk a b =>
      cases a with
      | error x => rfl
      | ok s =>
        cases s with
        | err e => rfl
        | ok a => exact ih a b

/-- The expressions after an `Err` are not even evaluated. -/
theorem c115_stops (src : Expr W X (Result A E)) (rest : A → Gen W X B E) (w w' : W) (e : E)
    (h : src w = (.ok (.err e), w')) : doNotation (.clause src rest) w = (.ok (.err e), w') :=
  (c115_do _ _ _ _).2 (.stops h)

/-- **C115, laws.** `and_then` is associative, `Ok` is neutral for it, and `map` is `and_then` with `Ok`. -/
theorem c115_and_then (r : Result A E) (f : A → Expr W X (Result B E)) (g : B → Expr W X (Result C E)) (a : A) (h : A → Expr W X B) :
    (r.andThen f).bind (Result.andThen g) = r.andThen (fun a => (f a).bind (Result.andThen g)) ∧
    r.andThen (fun a => Expr.pure (W := W) (X := X) (.ok a)) = Expr.pure r ∧
    (Result.ok a : Result A E).andThen f = f a ∧
    r.map h = r.andThen (fun a => (h a).bind fun b => .pure (.ok b)) := by
  cases r <;> exact ⟨rfl, rfl, rfl, rfl⟩

/-- **C115, laws.** `or_else` and `map_err` look at errors only, `and_then` and `map` at values only. -/
theorem c115_or_else (r : Result A E) (f : E → Expr W X (Result A F)) (h : E → Expr W X F) (d : A) (exc : E → X) (w : W) :
    r.mapErr h = r.orElse (fun e => (h e).bind fun e => .pure (.err e)) ∧
    (∀ a, r = .ok a → r.orElse f = Expr.pure (.ok a) ∧ r.unwrapOr d = a ∧ r.unwrap exc w = (.ok a, w)) ∧
    (∀ e, r = .err e → r.orElse f = f e ∧ r.unwrapOr d = d ∧ r.unwrap exc w = (.error (exc e), w)) := by
  refine ⟨by cases r <;> rfl, ?_, ?_⟩
  · intro a h; subst h; exact ⟨rfl, rfl, rfl⟩
  · intro e h; subst h; exact ⟨rfl, rfl, rfl⟩

/-- **C115.** Results are equal if both are `Ok` or both are `Err` with equal values; a result never equals anything that is no
result (see C76 for a node that compares a result with a state). -/
theorem c115_equal [DecidableEq A] [DecidableEq E] (r : Result A E) :
    (∀ r', pyEqual r (.result r') = true ↔ r = r') ∧ ∀ a, pyEqual r (.other a) = false := by
  refine ⟨fun r' => ?_, fun a => rfl⟩
  cases r <;> cases r' <;> simp [pyEqual]

/-! ### The hooks of the data nodes -/

open Verif.BT (BTState Res)
open Verif.Data

/-- The expressions of a hook: the inputs and outputs of the node are the world; all errors are alike, as are all exceptions. -/
abbrev HookExpr (A : Type) : Type := Expr NodeData Unit A

/-- An input as a result. -/
def input {A : Type} (f : NodeData → Option A) : HookExpr (Result A Unit) := fun d =>
  (.ok (match f d with | none => .err () | some a => .ok a), d)

/-- node_config.py 109-123: `outputs.set_value` as a result. -/
def output (k : String) (v : Val) : HookExpr (Result Unit Unit) := fun d =>
  match put d k v .succeeded with
  | ⟨d, none⟩ => (.error (), d)
  | ⟨d, some .err⟩ => (.ok (.err ()), d)
  | ⟨d, some (.ok _)⟩ => (.ok (.ok ()), d)

/-- What a hook does, as an expression. -/
def asExpr (hook : NodeData → Out) : HookExpr (Result BTState Unit) := fun d =>
  match hook d with
  | ⟨d, none⟩ => (.error (), d)
  | ⟨d, some .err⟩ => (.ok (.err ()), d)
  | ⟨d, some (.ok s)⟩ => (.ok (.ok s), d)

/-- list.py 98-108, literally: the `do` expression followed by `and_then` and `map`. -/
def insertExpr : HookExpr (Result BTState Unit) :=
  ((doNotation
      (.clause (input fun d => valueAs asList d "list") fun l =>
        .clause (input fun d => valueAs asInt d "index") fun i =>
        .clause (input fun d => value d "element") fun v =>
        .body (.pure (.ok (pyInsert l i v))))).bind
    (Result.andThen fun l => output "list" (.list l))).bind
  (Result.map fun _ => .pure .succeeded)

/-- setters.py 63-72, literally. -/
def appendExpr : HookExpr (Result BTState Unit) :=
  ((doNotation
      (.clause (input fun d => valueAs asList d "list") fun l =>
        .clause (input fun d => value d "value") fun v =>
        .body (.pure (.ok (l ++ [v]))))).bind
    (Result.andThen fun l => output "new_list" (.list l))).bind
  (Result.map fun _ => .pure .succeeded)

/-- setters.py 147-161, literally. -/
def setDictExpr : HookExpr (Result BTState Unit) :=
  ((doNotation
      (.clause (input fun d => valueAs asDict d "object") fun l =>
        .clause (input fun d => valueAs asStr d "attr_name") fun k =>
        .clause (input fun d => value d "attr_value") fun v =>
        .body (.pure (.ok (pySet l k v))))).bind
    (Result.andThen fun l => output "new_object" (.dict l))).bind
  (Result.map fun _ => .pure .succeeded)

/-- compare.py 62-67, literally. -/
def compareExpr : HookExpr (Result BTState Unit) :=
  (doNotation
      (.clause (input fun d => value d "a") fun a =>
        .clause (input fun d => value d "b") fun b =>
        .body (.pure (.ok (pyEq a b))))).bind
  (Result.map fun b => .pure (if b then .succeeded else .failed))

/-- list.py 141-146, literally. -/
def isInExpr : HookExpr (Result BTState Unit) :=
  (doNotation
      (.clause (input fun d => value d "in") fun v =>
        .clause (input fun d => valueAs asList d "list") fun l =>
        .body (.pure (.ok (l.any (pyEq · v)))))).bind
  (Result.map fun b => .pure (if b then .succeeded else .failed))

/-- compare.py 151-156, literally; `a < b` may raise. -/
def lessExpr : HookExpr (Result BTState Unit) :=
  (doNotation
      (.clause (input fun d => value d "a") fun a =>
        .clause (input fun d => value d "b") fun b =>
        .body (fun d => ((pyLt a b).elim (.error ()) (fun r => .ok (.ok r)), d)))).bind
  (Result.map fun b => .pure (if b then .succeeded else .failed))

/-- format.py 91-100, literally. -/
def concatenateExpr : HookExpr (Result BTState Unit) :=
  ((doNotation
      (.clause (input fun d => valueAs asStr d "a") fun a =>
        .clause (input fun d => valueAs asStr d "b") fun b =>
        .body (.pure (.ok (a ++ b))))).bind
    (Result.andThen fun s => output "formatted_string" (.str s))).bind
  (Result.map fun _ => .pure .succeeded)

theorem output_put (k : String) (v : Val) (d : NodeData) :
    ((output k v).bind (Result.map fun _ => .pure .succeeded)) d = asExpr (fun d => put d k v .succeeded) d := by
  have hs : ∀ s, (put d k v .succeeded).res = some (.ok s) → s = .succeeded := by
    intro s h
    simp only [put] at h
    split at h
    · cases h
    · simp only at h
      revert h
      cases Cont.set _ v |>.2 <;> simp [ansRes] <;> exact fun h => h.symm
  simp only [Expr.bind, output, asExpr]
  cases h : put d k v .succeeded with
  | mk d' r =>
    rw [h] at hs
    cases r with
    | none => rfl
    | some r =>
      cases r with
      | err => rfl
      | ok s => rw [hs s rfl]; rfl

theorem bind_assoc (x : Expr W X A) (f : A → Expr W X B) (g : B → Expr W X C) :
    (x.bind f).bind g = x.bind fun a => (f a).bind g := by
  funext w
  simp only [Expr.bind]
  cases h : x w with
  | mk a b => cases a <;> rfl

/-- The first input of a hook. -/
theorem first_input {A : Type} (f : NodeData → Option A) (rest : A → Gen NodeData Unit B Unit)
    (k : Result B Unit → HookExpr (Result C Unit)) (hk : k (.err ()) = Expr.pure (.err ())) (d : NodeData) :
    ((doNotation (.clause (input f) rest)).bind k) d =
      match f d with
      | none => (.ok (.err ()), d)
      | some a => ((doNotation (rest a)).bind k) d := by
  rw [c115_chain, Gen.chain, bind_assoc]
  simp only [Expr.bind, input]
  cases h : f d with
  | none => simp only [Result.andThen, Expr.pure]; rw [hk]; rfl
  | some a => simp only [Result.andThen]; rw [← c115_chain]

/-- **C115, the hooks.** The `do` expressions of the code and the nested matches of the model are the same. -/
theorem c115_hooks :
    insertExpr = asExpr insertInList ∧ appendExpr = asExpr appendListItem ∧ setDictExpr = asExpr setDictItem ∧
    compareExpr = asExpr compare ∧ isInExpr = asExpr isInList ∧ lessExpr = asExpr aLessThanB ∧
    concatenateExpr = asExpr concatenate := by
  refine ⟨?_, ?_, ?_, ?_, ?_, ?_, ?_⟩ <;> funext d
  · rw [insertExpr, bind_assoc, first_input _ _ _ (by rfl)]
    simp only [asExpr, insertInList]
    cases valueAs asList d "list" with
    | none => rfl
    | some l =>
      simp only [need]
      rw [first_input _ _ _ (by rfl)]
      cases valueAs asInt d "index" with
      | none => rfl
      | some i =>
        dsimp only
        rw [first_input _ _ _ (by rfl)]
        cases value d "element" with
        | none => rfl
        | some v => exact output_put _ _ d
  · rw [appendExpr, bind_assoc, first_input _ _ _ (by rfl)]
    simp only [asExpr, appendListItem]
    cases valueAs asList d "list" with
    | none => rfl
    | some l =>
      simp only [need]
      rw [first_input _ _ _ (by rfl)]
      cases value d "value" with
      | none => rfl
      | some v => exact output_put _ _ d
  · rw [setDictExpr, bind_assoc, first_input _ _ _ (by rfl)]
    simp only [asExpr, setDictItem]
    cases valueAs asDict d "object" with
    | none => rfl
    | some l =>
      simp only [need]
      rw [first_input _ _ _ (by rfl)]
      cases valueAs asStr d "attr_name" with
      | none => rfl
      | some i =>
        dsimp only
        rw [first_input _ _ _ (by rfl)]
        cases value d "attr_value" with
        | none => rfl
        | some v => exact output_put _ _ d
  · rw [compareExpr, first_input _ _ _ (by rfl)]
    simp only [asExpr, compare]
    cases value d "a" with
    | none => rfl
    | some a =>
      simp only [need]
      rw [first_input _ _ _ (by rfl)]
      cases value d "b" with
      | none => rfl
      | some b => rfl
  · rw [isInExpr, first_input _ _ _ (by rfl)]
    simp only [asExpr, isInList]
    cases value d "in" with
    | none => rfl
    | some a =>
      simp only [need]
      rw [first_input _ _ _ (by rfl)]
      cases valueAs asList d "list" with
      | none => rfl
      | some b => rfl
  · rw [lessExpr, first_input _ _ _ (by rfl)]
    simp only [asExpr, aLessThanB]
    cases value d "a" with
    | none => rfl
    | some a =>
      simp only [need]
      rw [first_input _ _ _ (by rfl)]
      cases value d "b" with
      | none => rfl
      | some b =>
        dsimp only
        simp only [doNotation, Gen.next, Expr.bind]
        cases pyLt a b <;> rfl
  · rw [concatenateExpr, bind_assoc, first_input _ _ _ (by rfl)]
    simp only [asExpr, concatenate]
    cases valueAs asStr d "a" with
    | none => rfl
    | some l =>
      simp only [need]
      rw [first_input _ _ _ (by rfl)]
      cases valueAs asStr d "b" with
      | none => rfl
      | some v => exact output_put _ _ d

/-- Three expressions that each count their evaluation; the second one is an `Err`, so that the third one is not evaluated. -/
def sampleDo : Gen Nat String Nat String :=
  .clause (fun w => (.ok (.ok 5), w + 1)) fun a =>
    .clause (A := Nat) (fun w => (.ok (.err "no value"), w + 1)) fun b =>
      .clause (fun w => (.ok (.ok 7), w + 1)) fun c => .body (.pure (.ok (a + b + c)))

example : doNotation sampleDo 0 = (.ok (.err "no value"), 2) := rfl

example : Runs sampleDo 0 (.ok (.err "no value")) 2 := .goesOn rfl (.stops rfl)

example : (Result.ok 3 : Result Nat Nat).andThen (W := Nat) (X := Unit) (fun a => .pure (.ok (a + 1))) 0 = (.ok (.ok 4), 0) := rfl

example : pyEqual (Result.ok 3 : Result Nat Nat) (.other 3) = false := rfl

end Verif.Nodes.Results
