import Verif.Edit.Model

/-! What the editor promises: statements over the node dictionary, the links of its nodes and the
wirings, without reference to how requests are carried out. -/

set_option autoImplicit false

namespace Verif.Edit

/-- `r` is a node of the tree. -/
def Reg (s : St) (r : Ref) : Prop := ∃ i, (i, r) ∈ s.nodes

/-- C29: links agree and stay inside the tree. -/
structure LinksAgree (s : St) : Prop where
  child : ∀ r, Reg s r → ∀ c ∈ (s.heap r).children, Reg s c ∧ (s.heap c).parent = some r
  parent : ∀ r, Reg s r → ∀ p, (s.heap r).parent = some p → Reg s p ∧ (s.heap p).children.count r = 1

/-- `Above h a b`: `b` is reached from `a` by following parent links, at least one. -/
inductive Above (h : Ref → Obj) : Ref → Ref → Prop
  | one {a b : Ref} : (h a).parent = some b → Above h a b
  | more {a b c : Ref} : (h a).parent = some b → Above h b c → Above h a c

/-- C30: no node is above itself. -/
def NoCycle (s : St) : Prop := ∀ r, Reg s r → ¬ Above s.heap r r

/-- C31: no node has more children than it declares. -/
def LimitsKept (s : St) : Prop := ∀ r, Reg s r → ∀ m, (s.heap r).spec.max = some m → (s.heap r).children.length ≤ m

/-- C32: both ends of the wiring exist and are compatible. -/
def WiringValid (C : Nat → Nat → Bool) (s : St) (w : Wiring) : Prop :=
  ∃ a b ra rb to ti, w.src = some a ∧ w.tgt = some b ∧ (a, ra) ∈ s.nodes ∧ (b, rb) ∈ s.nodes ∧
    (w.srcKey, to) ∈ (s.heap ra).spec.outs ∧ (w.tgtKey, ti) ∈ (s.heap rb).spec.ins ∧ C ti to = true

/-- The dictionary is a dictionary: keys are the ids of their objects, all different, and all
objects have been allocated. -/
structure Dict (s : St) : Prop where
  key : ∀ i r, (i, r) ∈ s.nodes → (s.heap r).nid = i
  keys : (s.nodes.map (·.1)).Nodup
  alloc : ∀ i r, (i, r) ∈ s.nodes → r < s.next

/-- What a client sees of a tree: for each node id its spec, the id of its parent and the ids of its
children; and the wirings. -/
structure View where
  node : Id → Option (Spec × Option Id × List Id)
  wirings : List Wiring

/-- The view of a state. -/
def view (s : St) : View :=
  { node := fun i => (dictGet s.nodes i).map fun r =>
      ((s.heap r).spec, (s.heap r).parent.map fun p => (s.heap p).nid, s.childIds r)
    wirings := s.wirings }

/-- The spec of a node, by id; `none` if there is no such node. -/
def specOf (s : St) (i : Id) : Option Spec := (dictGet s.nodes i).map fun r => (s.heap r).spec

/-- The id of the parent of a node. -/
def parentOf (s : St) (i : Id) : Option Id := (dictGet s.nodes i).bind fun r => (s.heap r).parent.map fun p => (s.heap p).nid

/-- The ids of the children of a node, in order. -/
def kids (s : St) (i : Id) : List Id := ((dictGet s.nodes i).map fun r => s.childIds r).getD []

/-- `j` lies below `i`: it is a child of `i` or of a node below `i`. -/
inductive Below (s : St) (i : Id) : Id → Prop
  | child {j : Id} : j ∈ kids s i → Below s i j
  | deeper {j k : Id} : Below s i j → k ∈ kids s j → Below s i k

end Verif.Edit
