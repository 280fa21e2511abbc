import Verif.BT.Sem

/-!
# Specification vocabulary for trees

Nothing in this file is used by the model. These are the notions in which the properties about
trees are stated.
-/

set_option autoImplicit false

namespace Verif.BT

/-- Specification: states in which the documentation allows an operation
(`node.py` docstrings of `setup`, `tick`, `untick`, `reset`). -/
def Allowed : Op → BTState → Prop
  | .setup, s => s = .uninitialized ∨ s = .shutdown
  | .shutdown, _ => True
  | _, s => s ≠ .uninitialized ∧ s ≠ .shutdown ∧ s ≠ .broken

/-- Specification: result states documented for an operation. -/
def Documented : Op → BTState → Prop
  | .setup, s => s = .idle
  | .reset, s => s = .idle
  | .tick, s => s ∈ [.running, .succeeded, .failed, .assigned, .unassigned]
  | .untick, s => s ∈ [.idle, .paused]
  | .shutdown, s => s = .shutdown

/-- What can be observed of a node from outside: `(id, state)` as published in
`TreeState.node_states` (`tree_exec_manager.py:1457-1461`). -/
def nodeStates : (n : Nat) → Tree n → List (Nat × BTState)
  | 0, t => Empty.elim t
  | n + 1, t =>
    let nd : Node (Tree n) := t
    (nd.id, nd.state) :: nd.children.flatMap (nodeStates n)

/-- Ids of all nodes of a tree. -/
def nodeIds (n : Nat) (t : Tree n) : List Nat := (nodeStates n t).map (·.1)

/-- A hook of some node has been entered. -/
def Ev.isHook : Ev → Bool
  | .hook _ _ => true
  | _ => false

/-- Number of tick calls to the node with the given id. -/
def tickCalls (id : Nat) (t : List Ev) : Nat := t.count (.call .tick id)

/-- Maximum number of children declared by the class: `max_children` in the `NodeConfig`
of each class (`decorators.py:40-666`, `getters.py:56`, `list.py:165`, `throttle.py:42`, `106`;
`None` in `sequence.py:41`, `144`, `fallback.py:44`, `112`, `212`, `parallel.py:46`, `279`,
`enum_switch.py:52`; leaves 0; a Subtree has one nested root). -/
def maxChildren : Kind → Option Nat
  | .leaf => some 0
  | .sequence | .memSequence | .fallback | .memFallback | .nameSwitch | .enumSwitch
  | .parallel | .parallelTol => none
  | _ => some 1

/-- The number of children respects the class's limit (kept by `Node.add_child`,
`node.py:794-803`). -/
def childrenOk (k : Kind) (len : Nat) : Prop := ∀ m, maxChildren k = some m → len ≤ m

/-- Every node of the tree satisfies `P`. -/
def AllNodes (P : {N : Type} → Node N → Prop) : (n : Nat) → Tree n → Prop
  | 0, t => Empty.elim t
  | n + 1, t =>
    let nd : Node (Tree n) := t
    P nd ∧ ∀ c ∈ nd.children, AllNodes P n c

/-- Child counts respect the limits everywhere. -/
def WF (n : Nat) (t : Tree n) : Prop :=
  AllNodes (fun nd => childrenOk nd.kind nd.children.length) n t

/-- Every node of the tree is UNINITIALIZED. -/
def Untouched (n : Nat) (t : Tree n) : Prop := AllNodes (fun nd => nd.state = .uninitialized) n t

/-- A freshly created tree: every node is UNINITIALIZED and has its initial attributes
(`node.py:132-266` and the `__init__` methods of the classes). -/
def Fresh (n : Nat) (t : Tree n) : Prop :=
  AllNodes (fun nd => nd.state = .uninitialized ∧ nd.mem = {}) n t

/-- Every node *in use* satisfies `P`: as `AllNodes`, but not looking below nodes for which
`skip` holds. -/
def AllUsed (skip : Kind → Mem → Bool) (P : BTState → Prop) : (n : Nat) → Tree n → Prop
  | 0, t => Empty.elim t
  | n + 1, t =>
    let nd : Node (Tree n) := t
    P nd.state ∧ (skip nd.kind nd.mem = false → ∀ c ∈ nd.children, AllUsed skip P n c)

/-- An Optional whose child cannot execute: its child is not in use. -/
def idleOptional (k : Kind) (m : Mem) : Bool :=
  match k with
  | .optional => !m.execChild
  | _ => false

/-- A Subtree whose nested tree has never been set up. -/
def unusedSubtree (k : Kind) (m : Mem) : Bool :=
  match k with
  | .subtree => !m.rootSet
  | _ => false

/-- Either of the two. -/
def unusedBelow (k : Kind) (m : Mem) : Bool := idleOptional k m || unusedSubtree k m

end Verif.BT
