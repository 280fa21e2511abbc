import Verif.Edit.Basic

/-! C31, C32: child limits and validity of wirings after every history of edit requests. -/

set_option autoImplicit false

namespace Verif.Edit

variable {C : Nat → Nat → Bool}

/-- C31. No history of requests, whatever their arguments, gives a node more children than it
declares. -/
theorem c31_limits (rs : List Req) (h : FreshIds C rs {}) : LimitsKept (history C rs {}) :=
  fun r _ m hm => (history_basic rs init_basic h).lim r m hm

/-- C31. The same from any tree that keeps the limits. -/
theorem c31_limits_step (r : Req) (s : St) (hs : ∀ x m, (s.heap x).spec.max = some m → (s.heap x).children.length ≤ m)
    (hd : Dict s) (hw : ∀ w ∈ s.wirings, WiringValid C s w) (h : r.FreshId s) : LimitsKept (handle C r s).1 :=
  fun x _ m hm => (handle_basic r ⟨hd, hs, fun w hm _ => hw w hm⟩ h).lim x m hm

/-- C32. After every history of requests every wiring connects an existing output of an existing node
to an existing input of an existing node, and the types are compatible. -/
theorem c32_wirings (rs : List Req) (h : FreshIds C rs {}) :
    ∀ w ∈ (history C rs {}).wirings, WiringValid C (history C rs {}) w :=
  fun w hw => (history_basic rs init_basic h).wired w hw fun _ hf => hf.elim

/-- The dictionary of nodes stays consistent in every history. -/
theorem c32_dict (rs : List Req) (h : FreshIds C rs {}) : Dict (history C rs {}) := (history_basic rs init_basic h).dict

/-! ### Examples -/

/-- Types are compatible iff equal. -/
def exC : Nat → Nat → Bool := fun a b => a = b

/-- A leaf with one input (key 1, type 7) and one output (key 2, type 7). -/
def exLeaf : Spec := { cls := 1, max := some 0, ins := [(1, 7)], outs := [(2, 7)] }

/-- A control node without limit. -/
def exSeq : Spec := { cls := 2 }

/-- A decorator. -/
def exDeco : Spec := { cls := 3, max := some 1 }

/-- Build a decorator over a sequence over two leaves; wire the leaves; try too many children. -/
def exReqs : List Req :=
  [.add 1 (some exDeco) (some 0) (-1) [], .add 2 (some exSeq) (some 1) (-1) [], .add 3 (some exLeaf) (some 2) (-1) [],
   .add 4 (some exLeaf) (some 2) (-1) [], .wire [⟨some 3, 2, some 4, 1⟩] false, .move (some 4) (some 1) 0,
   .setOptions (some 3) (some { exLeaf with cls := 9 })]

instance (s : St) (i : Id) : Decidable (Fresh s i) :=
  decidable_of_iff (∀ x ∈ s.nodes, x.1 ≠ i) ⟨fun h r hr => h _ hr rfl, fun h x hx he => h x.2 (he ▸ hx)⟩

instance (r : Req) (s : St) : Decidable (r.FreshId s) := by
  cases r <;> unfold Req.FreshId <;> infer_instance

instance decFreshIds (C : Nat → Nat → Bool) : (rs : List Req) → (s : St) → Decidable (FreshIds C rs s)
  | [], _ => isTrue trivial
  | r :: rs, s => by
    unfold FreshIds
    exact @instDecidableAnd _ _ _ (decFreshIds C rs _)

example : FreshIds exC exReqs {} ∧ (history exC exReqs {}).nodes.length = 4 ∧ (history exC exReqs {}).wirings.length = 1 ∧
    (handle exC (.move (some 4) (some 1) 0) (history exC (exReqs.take 5) {})).2 = .err := by decide +kernel

end Verif.Edit
