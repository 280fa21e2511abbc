import Verif.BT.Spec

/-!
# Sample trees

Used only in `example`s, to show that hypotheses of theorems are met by non-trivial trees.
-/

set_option autoImplicit false

namespace Verif.BT

instance (k : Kind) (len : Nat) : Decidable (childrenOk k len) :=
  match h : maxChildren k with
  | none => .isTrue fun m hm => by simp [h] at hm
  | some m0 =>
    if hl : len ≤ m0 then .isTrue fun m hm => by rw [h] at hm; cases hm; exact hl
    else .isFalse fun hc => hl (hc m0 h)

/-- `AllNodes` of a decidable predicate can be decided. -/
def decAllNodes (P : {N : Type} → Node N → Prop) (d : {N : Type} → (nd : Node N) → Decidable (P nd)) :
    (n : Nat) → (t : Tree n) → Decidable (AllNodes P n t)
  | 0, t => Empty.elim t
  | n + 1, t =>
    letI := d (N := Tree n) t
    letI := fun c => decAllNodes P d n c
    inferInstanceAs (Decidable (_ ∧ ∀ c ∈ Node.children (N := Tree n) t, AllNodes P n c))

instance (n : Nat) (t : Tree n) : Decidable (WF n t) :=
  decAllNodes _ (fun _ => inferInstance) n t

instance (n : Nat) (t : Tree n) : Decidable (Fresh n t) :=
  decAllNodes _ (fun _ => inferInstance) n t

/-- `AllUsed` of a decidable predicate can be decided. -/
def decAllUsed (skip : Kind → Mem → Bool) (P : BTState → Prop) (d : DecidablePred P) :
    (n : Nat) → (t : Tree n) → Decidable (AllUsed skip P n t)
  | 0, t => Empty.elim t
  | n + 1, t =>
    letI := fun c => decAllUsed skip P d n c
    inferInstanceAs (Decidable (P (Node.state (N := Tree n) t) ∧
      (skip (Node.kind (N := Tree n) t) (Node.mem (N := Tree n) t) = false →
        ∀ c ∈ Node.children (N := Tree n) t, AllUsed skip P n c)))

instance (skip : Kind → Mem → Bool) (P : BTState → Prop) [d : DecidablePred P] (n : Nat)
    (t : Tree n) : Decidable (AllUsed skip P n t) := decAllUsed skip P d n t

/-- A fresh node (as created by `Node.__init__`, `node.py:132-266`). -/
def mk (n : Nat) (id : Nat) (k : Kind) (cs : List (Tree n)) (env : Nat → Env := fun _ => {}) :
    Tree (n + 1) :=
  (⟨id, id, k, .uninitialized, {}, env, 0, cs⟩ : Node (Tree n))

/-- A leaf whose hook answers setup, then the given list of results, then SHUTDOWN. -/
def mkLeaf (n : Nat) (id : Nat) (answers : List Res) : Tree (n + 1) :=
  mk n id .leaf [] fun i => { hook := answers.getD i (.ok .shutdown) }

/-- Sequence of a Fallback over two leaves and an Inverter. -/
def sampleSeq : Tree 3 :=
  mk 2 1 .sequence
    [mk 1 2 .fallback [mkLeaf 0 3 [.ok .idle, .ok .failed, .ok .idle],
                       mkLeaf 0 4 [.ok .idle, .ok .running, .ok .idle]],
     mk 1 5 .inverter [mkLeaf 0 6 [.ok .idle, .ok .idle]]]

/-- A Parallel over a Subtree, an Optional and a Retry. -/
def samplePar : Tree 3 :=
  mk 2 1 .parallel
    [mk 1 2 .subtree [mkLeaf 0 3 [.ok .idle, .ok .running, .ok .idle]],
     mk 1 4 .optional [mkLeaf 0 5 []],
     mk 1 6 .retry [mkLeaf 0 7 [.ok .idle, .ok .failed, .ok .idle, .ok .idle]]]
    (fun _ => { num := 2 })

theorem sampleSeq_wf : WF 3 sampleSeq := by decide

theorem samplePar_wf : WF 3 samplePar := by decide

end Verif.BT
