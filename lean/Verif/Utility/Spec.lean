import Mathlib.Data.List.Forall2
import Mathlib.Algebra.Order.Ring.Rat
import Mathlib.Tactic.Linarith
import Verif.Utility.Model
import Verif.BT.Table

/-! What the utility estimate promises, independent of how it is computed.

`Costs` collects the possible complete executions of a node: result and cost. -/

set_option autoImplicit false

namespace Verif.Utility
open Verif.BT (BTState Kind)

/-- The executions a node may have: `E s c` if it may finish with result `s` at cost `c`. -/
def Costs := BTState → Rat → Prop

/-- The promise of an estimate `b` for a node with executions `E`. -/
structure Sound (b : Bounds) (E : Costs) : Prop where
  ls : b.can = true → b.hasLS = true → ∀ c, E .succeeded c → b.ls ≤ c
  us : b.can = true → b.hasUS = true → ∀ c, E .succeeded c → c ≤ b.us
  lf : b.can = true → b.hasLF = true → ∀ c, E .failed c → b.lf ≤ c
  uf : b.can = true → b.hasUF = true → ∀ c, E .failed c → c ≤ b.uf

/-- The promise of the answer of `calculate_utility`. -/
def SoundR (r : Res) (E : Costs) : Prop := ∀ b, r = .ok b → Sound b E

/-- `Each s Es cs`: the children `Es` all finish with result `s`, at the costs `cs`. -/
def Each (s : BTState) (Es : List Costs) (cs : List Rat) : Prop := List.Forall₂ (fun E c => E s c) Es cs

/-- Executions that run the children in order, each once, as long as they answer `go`; the first
child that answers `stop` ends the execution with `stop`. -/
def InOrder (go stop : BTState) (Es : List Costs) : Costs := fun s c =>
  (s = go ∧ ∃ cs, Each go Es cs ∧ c = cs.sum) ∨
  (s = stop ∧ ∃ pre E post cs x, Es = pre ++ E :: post ∧ Each go pre cs ∧ E stop x ∧ c = cs.sum + x)

/-- Sequence: go on while children succeed. -/
def SequenceCosts (Es : List Costs) : Costs := InOrder .succeeded .failed Es

/-- Fallback: go on while children fail. -/
def FallbackCosts (Es : List Costs) : Costs := InOrder .failed .succeeded Es

/-- Executions of a Parallel: exactly `need` children (those that decided the result) succeed, or
exactly `n - need + 1` fail; their costs count. -/
def ParallelCosts (need : Nat) (Es : List Costs) : Costs := fun s c =>
  (s = .succeeded ∧ ∃ sel cs, sel.Sublist Es ∧ sel.length = need ∧ Each .succeeded sel cs ∧ c = cs.sum) ∨
  (s = .failed ∧ ∃ sel cs, sel.Sublist Es ∧ sel.length = Es.length - need + 1 ∧ Each .failed sel cs ∧
    c = cs.sum)

/-- `AtLeast`: beside the deciding children further costs arise. -/
def AndMore (E : Costs) : Costs := fun s c => ∃ c' ≤ c, E s c'

/-- Executions of a decorator of kind `k`: the child is executed and reset while its answers make
the decorator restart it, then the last answer is translated (see C22). -/
inductive DecoratorCosts (k : Kind) (opt : Bool) (E : Costs) : Costs
  | last (a : BTState) (c : Rat) (h : E a c) (hr : Verif.BT.restarts k a = false) :
      DecoratorCosts k opt E (Verif.BT.translate k opt a) c
  | again (a : BTState) (c : Rat) (h : E a c) (hr : Verif.BT.restarts k a = true) (s : BTState) (c' : Rat)
      (h' : DecoratorCosts k opt E s c') : DecoratorCosts k opt E s (c + c')

/-- Executions of an Optional: those of the child if it can execute, otherwise success at once. -/
def OptionalCosts (can : Bool) (E : Costs) : Costs := fun s c =>
  if can then E s c else s = .succeeded ∧ c = 0

end Verif.Utility
