import Verif.Exec.Model

/-! Notions in which the properties of execution control are stated. -/

set_option autoImplicit false

namespace Verif.Exec

open Verif.BT (Op Res BTState Ops)

variable {N : Type}

/-- The tick thread is at work on the nodes: it may still call an operation on the root. -/
def Executing (t : Thread) : Prop := ∃ pc, t = .alive pc ∧ pc ≠ .failed ∧ pc ≠ .ended

/-- Results that end TICK_UNTIL_RESULT. -/
def Final (s : BTState) : Prop := s = .succeeded ∨ s = .failed

/-- Ticks that the root has answered. -/
def ticks (ss : List BTState) : List (Op × Option Res) := ss.map fun s => (.tick, some (.ok s))

/-- What may come before the first tick: nothing, or a setup. -/
def Opening (l : List (Op × Option Res)) : Prop := l = [] ∨ ∃ r, l = [(.setup, some r)]

/-- The operations called on the root by one tick thread, in words: perhaps a setup; ticks; then perhaps one more tick that failed or raised an
exception, or one untick. With `untilResult`, only the last result is SUCCEEDED or FAILED. There is an untick only if a stop was asked for or
the result was wanted and is there. -/
structure Story (untilResult asked : Bool) (opening : List (Op × Option Res)) (ss : List BTState) (ending : List (Op × Option Res)) : Prop where
  first : Opening opening ∨ opening = [(Op.setup, none)] ∧ ss = [] ∧ ending = []
  early : untilResult = true → ∀ s ∈ ss.dropLast, ¬ Final s
  last : ending = [] ∨ (ending = [(Op.tick, none)] ∨ ending = [(Op.tick, some .err)]) ∧ (untilResult = true → ∀ s ∈ ss, ¬ Final s) ∨
    (∃ r, ending = [(Op.untick, r)]) ∧ (asked = true ∨ untilResult = true ∧ ∃ s, ss.getLast? = some s ∧ Final s)

/-- An operation raised an exception. -/
def Raised (calls : List (Op × Option Res)) : Prop := ∃ op, (op, none) ∈ calls

/-- A fresh manager: nothing has been executed yet. -/
def Start (m : Mgr N) : Prop := m.state = .editable ∧ m.thread = .absent ∧ m.lost = []

end Verif.Exec
