import Verif.Exec.Rest
import Verif.Edit.Extract

/-! C118: editing, controlling and ticking together. The node objects of the edit model (`Verif.Edit`) have a state and a memory; the tree that the commands
and the tick thread (`Verif.Exec`) work on is read off these objects, and what they do to the nodes is written back to them. -/

set_option autoImplicit false

namespace Verif.Whole

open Verif.BT (Op Res BTState Ops Tree ops Node Kind Mem Env WF NestedInv AllNodes childrenOk nodeStates nodeIds maxChildren)
open Verif.Edit (St Req Ref Id Obj Spec Reg handle findRoot structureMsg TreeMsg preorder)
open Verif.Exec (Topo Mgr World Cmd TState control threadStep Holds Mild Kept Stable)

/-! ### The model -/

/-- The attributes of a node object that its operations change: `state`, those of its class, and how far the outside world has got. The defaults are
those of a new object (node.py 132-266). -/
structure Local where
  state : BTState := .uninitialized
  mem : Mem := {}
  ctr : Nat := 0

/-- Class and name that a node has by its configuration, and what the outside world answers to it. -/
structure Classes where
  kind : Spec → Kind
  name : Spec → Nat
  env : Ref → Nat → Env

/-- The tree below an object, to depth `n + 1`. (Python recursion is limited, too; take `n` at least as large as the number of nodes. The nested tree of
a Subtree is not part of the heap; classes are not Subtrees below.) -/
def read (cl : Classes) (h : Ref → Obj) (loc : Ref → Local) : (n : Nat) → Ref → Tree (n + 1)
  | 0, r => (⟨r, cl.name (h r).spec, cl.kind (h r).spec, (loc r).state, (loc r).mem, cl.env r, (loc r).ctr, []⟩ : Node (Tree 0))
  | n + 1, r => (⟨r, cl.name (h r).spec, cl.kind (h r).spec, (loc r).state, (loc r).mem, cl.env r, (loc r).ctr,
      (h r).children.map (read cl h loc n)⟩ : Node (Tree (n + 1)))

/-- What `find_root` (tree_exec_manager.py 585-621) finds, with the tree below. -/
def topo (cl : Classes) (s : St) (loc : Ref → Local) (n : Nat) : Topo (Tree (n + 1)) :=
  match findRoot s with
  | none => .bad
  | some none => .empty
  | some (some r) => .root (read cl s.heap loc n r)

/-- tree_exec_manager.py 649-654: nodes whose parent is not in the tree. -/
def orphans (s : St) : Bool :=
  s.nodes.any fun x => match (s.heap x.2).parent with | none => false | some p => (s.heap p).nid ∉ s.nodes.map (·.1)

/-- The objects of a tree with what they hold. -/
def locals : (n : Nat) → Tree n → List (Ref × Local)
  | 0, t => Empty.elim t
  | n + 1, t =>
    let nd : Node (Tree n) := t
    (nd.id, ⟨nd.state, nd.mem, nd.ctr⟩) :: nd.children.flatMap (locals n)

/-- The objects after something has been done to the tree. -/
def store {n : Nat} (loc : Ref → Local) : Topo (Tree n) → Ref → Local
  | .root t => fun r => ((locals n t).lookup r).getD (loc r)
  | _ => loc

/-- tree_exec_manager.py 962-973: SHUTDOWN of nodes that do not form a tree. `find_root` brings `_children` up to date, then the links are erased. (Later
commands that call `find_root`, such as a second SHUTDOWN, bring `_children` up to date again; except for SHUTDOWN this is left out.) -/
def erase (s : St) : St :=
  { Edit.sync s with heap := fun r => if (s.nodes.map (·.2)).contains r then { s.heap r with parent := none, children := [] } else s.heap r }

/-- Editor, node objects, manager, and the structure published last (tree_exec_manager.py 528-546). -/
structure Sys (n : Nat) where
  ed : St := {}
  loc : Ref → Local := fun _ => {}
  mgr : Mgr (Tree (n + 1))
  shown : TreeMsg := { nodes := [], wirings := [] }

/-- What can happen: an edit service, `control_execution`, a step of the tick thread. -/
inductive Act
  | service (r : Req)
  | command (c : Cmd) (timely : Bool)
  | think

/-- Does the command come to lines 971-973? -/
def erases {n : Nat} (c : Cmd) (m : Mgr (Tree (n + 1))) (ok : Bool) : Bool :=
  match c, m.tree with
  | .shutdown, .bad => ok
  | _, _ => false

variable (C : Nat → Nat → Bool) (cl : Classes) {n : Nat}

/-- tree_exec_manager.py 92-124 with the services of tree_edit_manager.py; 1157-1340; 623-748. An edit ends with `publish_structure` (line 122), commands publish
the state of the nodes only. -/
def step : Act → Sys n → Sys n
  | .service r, w =>
    if w.mgr.state ≠ .editable then w
    else
      let ed := (handle C r w.ed).1
      let loc : Ref → Local := fun x => if x < w.ed.next then w.loc x else {}
      { ed, loc, mgr := (Exec.edit (fun _ => (topo cl ed loc n, orphans ed)) w.mgr).1, shown := structureMsg ed }
  | .command c b, w =>
    let out := control (ops (n + 1)) b c w.mgr
    let ed := if erases c w.mgr out.2.success then erase w.ed else w.ed
    { w with ed, loc := store w.loc out.1.tree, mgr := { out.1 with orphans := orphans ed } }
  | .think, w =>
    let m := threadStep (ops (n + 1)) w.mgr
    { w with loc := store w.loc m.tree, mgr := { m with orphans := orphans w.ed } }

/-- One after the other. -/
def run (as : List Act) (w : Sys n) : Sys n := as.foldl (fun w a => step C cl a w) w

/-- The start: no nodes. `world` says when exceptions occur (`Verif.Exec.World`). -/
def start (n : Nat) (world : Nat → World (Tree (n + 1))) : Sys n := { mgr := { tree := .empty, world } }

/-! ### Specification -/

/-- Every request to edit is careful (`Verif.Edit.Req.Careful`: those that are not break the links or make cycles, see C29 and C30). -/
def Sane : List Act → Sys n → Prop
  | [], _ => True
  | a :: as, w => (∀ r, a = .service r → w.mgr.state = .editable → r.Careful w.ed) ∧ Sane as (step C cl a w)

/-- No SHUTDOWN fails while the tree can be edited. -/
def Tame : List Act → Sys n → Prop
  | [], _ => True
  | a :: as, w => (∀ c b, a = .command c b → w.mgr.state = .editable → c = .shutdown ∨ c = .setupAndShutdown →
      (control (ops (n + 1)) b c w.mgr).2.success = true) ∧ Tame as (step C cl a w)

/-- A tree without what its nodes hold. -/
def skel : (n : Nat) → Tree n → Tree n
  | 0, t => Empty.elim t
  | n + 1, t =>
    let nd : Node (Tree n) := t
    ({ nd with state := .uninitialized, mem := {}, ctr := 0, children := nd.children.map (skel n) } : Node (Tree n))

/-- Exceptions change what the nodes hold, but not the structure. -/
def Faithful (world : Nat → World (Tree n)) : Prop := ∀ i f t, (world i).raise = some f → skel n (f t) = skel n t

/-- The classes are as declared, and no Subtrees. -/
structure Classes.Ok (cl : Classes) : Prop where
  max : ∀ sp m, maxChildren (cl.kind sp) = some m → sp.max = some m
  sub : ∀ sp, cl.kind sp ≠ .subtree

/-- Not set up. -/
def Local.AtRest (l : Local) : Prop := l.state = .shutdown ∨ l.state = .uninitialized

/-! ### Trees and objects -/

theorem skel_run (n : Nat) (op : Op) (t : Tree n) : skel n ((ops n).run op t).node = skel n t := by
  induction n generalizing op with
  | zero => exact Empty.elim t
  | succ n ih =>
    have h1 := BT.run_children_map (ops n) (skel n) (fun op c => ih op c) op t
    have h2 := BT.run_static (ops n) op t
    obtain ⟨g1, g2, g3, g4, _, _⟩ := h2
    show (⟨(Node.run (ops n) op t).node.id, (Node.run (ops n) op t).node.name, (Node.run (ops n) op t).node.kind, _, _, (Node.run (ops n) op t).node.env, _,
      (Node.run (ops n) op t).node.children.map (skel n)⟩ : Node (Tree n)) = _
    rw [g1, g2, g3, g4, h1]
    rfl

theorem nodeIds_cons (n : Nat) (t : Node (Tree n)) : nodeIds (n + 1) t = t.id :: t.children.flatMap (nodeIds n) := by
  simp only [nodeIds, nodeStates, List.map_cons, List.cons.injEq, true_and]
  induction t.children with
  | nil => rfl
  | cons c cs ih => simp [ih, nodeIds]

theorem nodeIds_skel (n : Nat) (t : Tree n) : nodeIds n (skel n t) = nodeIds n t := by
  induction n with
  | zero => exact Empty.elim t
  | succ n ih =>
    have e : nodeIds (n + 1) (skel (n + 1) t) = (t : Node (Tree n)).id :: ((t : Node (Tree n)).children.map (skel n)).flatMap (nodeIds n) :=
      nodeIds_cons n _
    rw [e, nodeIds_cons n t, List.flatMap_map]
    congr 1
    congr 1
    funext c
    exact ih c

theorem locals_fst (n : Nat) (t : Tree n) : (locals n t).map (·.1) = nodeIds n t := by
  induction n with
  | zero => exact Empty.elim t
  | succ n ih =>
    rw [nodeIds_cons n t]
    simp only [locals, List.map_cons, List.cons.injEq, true_and, List.map_flatMap]
    congr 1
    funext c
    exact ih c

theorem locals_state (n : Nat) (t : Tree n) : (locals n t).map (fun p => (p.1, p.2.state)) = nodeStates n t := by
  induction n with
  | zero => exact Empty.elim t
  | succ n ih =>
    simp only [locals, nodeStates, List.map_cons, List.cons.injEq, true_and, List.map_flatMap]
    congr 1
    funext c
    exact ih c

theorem read_ids (s : St) (loc : Ref → Local) (n : Nat) : ∀ r, nodeIds (n + 1) (read cl s.heap loc n r) = preorder s (n + 1) r := by
  induction n with
  | zero => intro r; simp [read, nodeIds, nodeStates, locals, preorder]
  | succ n ih =>
    intro r
    rw [read, nodeIds_cons]
    simp only [preorder, List.cons.injEq, true_and, List.flatMap_map]
    congr 1
    funext c
    exact ih c

/-- What the objects below `r` hold. -/
theorem read_locals (s : St) (loc : Ref → Local) (n : Nat) : ∀ r, locals (n + 1) (read cl s.heap loc n r) = (preorder s (n + 1) r).map fun x => (x, loc x) := by
  induction n with
  | zero => intro r; simp [read, nodeIds, nodeStates, locals, preorder]
  | succ n ih =>
    intro r
    have e : locals (n + 2) (read cl s.heap loc (n + 1) r) = (r, loc r) :: ((s.heap r).children.map (read cl s.heap loc n)).flatMap (locals (n + 1)) := rfl
    have e' : preorder s (n + 2) r = r :: (s.heap r).children.flatMap (preorder s (n + 1)) := rfl
    rw [e, e', List.map_cons, List.map_flatMap, List.flatMap_map]
    congr 2
    funext c
    exact ih c

theorem map_read {h : Ref → Obj} {loc loc' : Ref → Local}
    (ih : ∀ (r : Ref) (t : Tree (n + 1)), skel (n + 1) t = skel (n + 1) (read cl h loc n r) → (∀ p ∈ locals (n + 1) t, loc' p.1 = p.2) → read cl h loc' n r = t) :
    ∀ (l : List Ref) (ts : List (Tree (n + 1))), ts.map (skel (n + 1)) = l.map (fun r => skel (n + 1) (read cl h loc n r)) →
      (∀ t ∈ ts, ∀ p ∈ locals (n + 1) t, loc' p.1 = p.2) → l.map (read cl h loc' n) = ts := by
  intro l
  induction l with
  | nil => intro ts h _; simpa using h.symm
  | cons r l ihl =>
    intro ts h hl
    cases ts with
    | nil => simp at h
    | cons t ts =>
      simp only [List.map_cons, List.cons.injEq] at h
      rw [List.map_cons, ih r t h.1 (hl t (by simp)), ihl ts h.2 fun t ht => hl t (by simp [ht])]

/-- A tree with the structure of the objects is the one that is read if the objects hold what it holds. -/
theorem read_of_locals {h : Ref → Obj} {loc loc' : Ref → Local} (n : Nat) : ∀ (r : Ref) (t : Tree (n + 1)), skel (n + 1) t = skel (n + 1) (read cl h loc n r) →
    (∀ p ∈ locals (n + 1) t, loc' p.1 = p.2) → read cl h loc' n r = t := by
  induction n with
  | zero =>
    intro r t hs hl
    obtain ⟨id, name, kind, state, mem, env, ctr, cs⟩ := (t : Node (Tree 0))
    have hs' : (⟨id, name, kind, .uninitialized, {}, env, 0, cs.map (skel 0)⟩ : Node (Tree 0)) =
      ⟨r, cl.name (h r).spec, cl.kind (h r).spec, .uninitialized, {}, cl.env r, 0, []⟩ := hs
    simp only [Node.mk.injEq, List.map_eq_nil_iff, true_and] at hs'
    obtain ⟨rfl, rfl, rfl, rfl, rfl⟩ := hs'
    have := hl (id, ⟨state, mem, ctr⟩) (List.mem_cons_self ..)
    simp only [read]
    rw [this]
  | succ n ih =>
    intro r t hs hl
    obtain ⟨id, name, kind, state, mem, env, ctr, cs⟩ := (t : Node (Tree (n + 1)))
    have hs' : (⟨id, name, kind, .uninitialized, {}, env, 0, cs.map (skel (n + 1))⟩ : Node (Tree (n + 1))) =
      ⟨r, cl.name (h r).spec, cl.kind (h r).spec, .uninitialized, {}, cl.env r, 0, ((h r).children.map (read cl h loc n)).map (skel (n + 1))⟩ := hs
    simp only [Node.mk.injEq, true_and] at hs'
    obtain ⟨rfl, rfl, rfl, rfl, h5⟩ := hs'
    rw [List.map_map] at h5
    have := hl (id, ⟨state, mem, ctr⟩) (List.mem_cons_self ..)
    have hc := map_read cl ih (h id).children cs h5 (fun t ht p hp => hl p (List.mem_cons_of_mem _ (List.mem_flatMap.2 ⟨t, ht, hp⟩)))
    simp only [read]
    rw [this, hc]

theorem lookup_nodup {l : List (Ref × Local)} (h : (l.map (·.1)).Nodup) {p : Ref × Local} (hp : p ∈ l) : l.lookup p.1 = some p.2 := by
  induction l with
  | nil => cases hp
  | cons a l ih =>
    simp only [List.map_cons, List.nodup_cons, List.mem_map, not_exists, not_and] at h
    rcases List.mem_cons.1 hp with rfl | hp
    · simp [List.lookup]
    · have hne : p.1 ≠ a.1 := fun e => h.1 p hp e
      have hb : (p.1 == a.1) = false := by simpa using hne
      simp only [List.lookup, hb]
      exact ih h.2 hp

theorem lookup_none {l : List (Ref × Local)} {r : Ref} (h : r ∉ l.map (·.1)) : l.lookup r = none := by
  induction l with
  | nil => rfl
  | cons a l ih =>
    simp only [List.map_cons, List.mem_cons, not_or] at h
    have hb : (r == a.1) = false := by simpa using h.1
    simp only [List.lookup, hb]
    exact ih h.2

/-- Writing a tree back and reading it again. -/
theorem read_store {s : St} {loc : Ref → Local} {n : Nat} {r : Ref} {t : Tree (n + 1)} (hs : skel (n + 1) t = skel (n + 1) (read cl s.heap loc n r))
    (hn : (preorder s (n + 1) r).Nodup) : read cl s.heap (store loc (.root t)) n r = t := by
  refine read_of_locals cl n r t hs fun p hp => ?_
  have hids : nodeIds (n + 1) t = preorder s (n + 1) r := by
    rw [← nodeIds_skel, hs, nodeIds_skel, read_ids]
  have := lookup_nodup (l := locals (n + 1) t) (by rw [locals_fst, hids]; exact hn) hp
  simp only [store]
  rw [this]
  rfl

/-! ### The structure is kept -/

/-- The same structure. -/
def SameShape {n : Nat} : Topo (Tree n) → Topo (Tree n) → Prop
  | .bad, .bad => True
  | .empty, .empty => True
  | .root a, .root b => skel n a = skel n b
  | _, _ => False

theorem sameShape_refl {n : Nat} (x : Topo (Tree n)) : SameShape x x := by
  cases x <;> first | trivial | exact (rfl : skel n _ = _)

/-- A property that says the structure is `x`. -/
def Like {n : Nat} (x : Topo (Tree n)) (m : Mgr (Tree n)) : Prop := SameShape x m.tree ∧ Faithful m.world

theorem like_root {n : Nat} {x : Topo (Tree n)} {t t' : Tree n} (h : SameShape x (.root t)) (e : skel n t' = skel n t) : SameShape x (.root t') := by
  cases x with
  | root a => exact (h : skel n a = skel n t).trans e.symm
  | bad => exact h
  | empty => exact h

theorem like_stable (n : Nat) (x : Topo (Tree n)) : Stable (ops n) (Like x) where
  think := by
    intro m h
    cases ht : m.thread with
    | absent | fresh | dead => rw [Exec.threadStep_still _ (by rw [ht]; rfl)]; exact h
    | alive pc =>
      have mv := Exec.moves (o := ops n) m ht
      generalize threadStep (ops n) m = m' at mv
      obtain ⟨h1, h2⟩ := h
      cases mv with
      | startRaise t f e hw => rw [e] at h1; exact ⟨like_root h1 (h2 _ f t hw), h2⟩
      | tickRaise t f e hw => rw [e] at h1; exact ⟨like_root h1 (h2 _ f t hw), h2⟩
      | untickRaise t f e hw => rw [e] at h1; exact ⟨like_root h1 (h2 _ f t hw), h2⟩
      | startSetup t e => rw [e] at h1; exact ⟨like_root h1 (skel_run n _ t), h2⟩
      | startBad t e => rw [e] at h1; exact ⟨like_root h1 (skel_run n _ t), h2⟩
      | tickErr t e => rw [e] at h1; exact ⟨like_root h1 (skel_run n _ t), h2⟩
      | tickOk t s e => rw [e] at h1; exact ⟨like_root h1 (skel_run n _ t), h2⟩
      | untickErr t e => rw [e] at h1; exact ⟨like_root h1 (skel_run n _ t), h2⟩
      | untickOk t s e => rw [e] at h1; exact ⟨like_root h1 (skel_run n _ t), h2⟩
      | _ => exact ⟨h1, h2⟩
  op := fun m t op h ht => ⟨like_root (by rw [← ht]; exact h.1) (skel_run n op t), h.2⟩
  rest := fun m m' h e w => ⟨by rw [e]; exact h.1, by rw [w]; exact h.2⟩

/-- Limits are kept and there is no Subtree. -/
def Plain (n : Nat) (t : Tree n) : Prop := AllNodes (fun nd => childrenOk nd.kind nd.children.length ∧ nd.kind ≠ .subtree) n t

theorem plain_skel (n : Nat) (t : Tree n) : Plain n (skel n t) ↔ Plain n t := by
  induction n with
  | zero => exact Empty.elim t
  | succ n ih =>
    show ((childrenOk (t : Node (Tree n)).kind ((t : Node (Tree n)).children.map (skel n)).length ∧ (t : Node (Tree n)).kind ≠ .subtree) ∧
      ∀ c ∈ ((t : Node (Tree n)).children.map (skel n)), Plain n c) ↔
      ((childrenOk (t : Node (Tree n)).kind (t : Node (Tree n)).children.length ∧ (t : Node (Tree n)).kind ≠ .subtree) ∧
      ∀ c ∈ (t : Node (Tree n)).children, Plain n c)
    rw [List.length_map]
    refine and_congr Iff.rfl ?_
    simp only [List.mem_map, forall_exists_index, and_imp, forall_apply_eq_imp_iff₂]
    exact ⟨fun h c hc => (ih c).1 (h c hc), fun h c hc => (ih c).2 (h c hc)⟩

theorem plain_run (n : Nat) (op : Op) (t : Tree n) (h : Plain n t) : Plain n ((ops n).run op t).node := by
  rw [← plain_skel, skel_run, plain_skel]; exact h

theorem plain_good (n : Nat) (t : Tree n) (h : Plain n t) : Exec.Rest.Good n t := by
  induction n with
  | zero => exact Empty.elim t
  | succ n ih =>
    obtain ⟨h1, h2⟩ := h
    exact ⟨⟨h1.1, fun c hc => (ih c (h2 c hc)).1⟩, fun e => absurd e h1.2, fun c hc => (ih c (h2 c hc)).2⟩

theorem plain_read {cl : Classes} (hcl : cl.Ok) {s : St} (hl : Edit.Lim s) (loc : Ref → Local) (n : Nat) : ∀ r, Plain (n + 1) (read cl s.heap loc n r) := by
  induction n with
  | zero => exact fun r => ⟨⟨fun m _ => Nat.zero_le _, hcl.sub _⟩, fun c hc => nomatch hc⟩
  | succ n ih =>
    intro r
    refine ⟨⟨fun m hm => ?_, hcl.sub _⟩, fun c hc => ?_⟩
    · show ((s.heap r).children.map _).length ≤ m
      rw [List.length_map]
      exact hl r m (hcl.max _ _ hm)
    · obtain ⟨x, _, rfl⟩ := List.mem_map.1 (show c ∈ (s.heap r).children.map _ from hc)
      exact ih x

/-! ### Erasing the links -/

variable {C}

theorem erase_nid (s : St) (x : Ref) : ((erase s).heap x).nid = (s.heap x).nid := by simp only [erase]; split <;> rfl

theorem erase_heap {s : St} {x : Ref} (h : Reg s x) : ((erase s).heap x).parent = none ∧ ((erase s).heap x).children = [] := by
  obtain ⟨i, hi⟩ := h
  have : (s.nodes.map (·.2)).contains x = true := List.contains_iff_mem.2 (List.mem_map.2 ⟨_, hi, rfl⟩)
  simp only [erase, Edit.sync]
  rw [if_pos this]
  exact ⟨rfl, rfl⟩

theorem erase_inv {s : St} (v : Edit.Inv2 C s) : Edit.Inv2 C (erase s) := by
  have hsame : Edit.Same s (erase s) := ⟨rfl, rfl, rfl, erase_nid s, fun x => by simp only [erase, Edit.sync]; split <;> rfl⟩
  have hlim : Edit.Lim s → Edit.Lim (erase s) := by
    intro h r m hm
    rw [hsame.spec] at hm
    simp only [erase, Edit.sync]
    split
    · exact Nat.zero_le _
    · exact h r m hm
  have hreg : ∀ x, Reg (erase s) x → Reg s x := fun x h => h
  refine ⟨⟨v.basic.relink ⟨hsame, hlim⟩, ?_, ?_, ?_⟩, ?_⟩
  · intro r hr c hc; rw [(erase_heap (hreg r hr)).2] at hc; cases hc
  · intro r hr p hp; rw [(erase_heap (hreg r hr)).1] at hp; cases hp
  · intro r hr; rw [(erase_heap (hreg r hr)).2]; exact List.nodup_nil
  · intro r hr ha
    have := (erase_heap (hreg r hr)).1
    cases ha with
    | one e => rw [this] at e; cases e
    | more e _ => rw [this] at e; cases e

theorem erase_covers (s : St) : Edit.Covers (erase s) := by
  intro i r hr c hc
  rw [(erase_heap (s := s) ⟨i, hr⟩).2] at hc
  cases hc

theorem erase_root {s : St} (v : Edit.Inv2 C s) (h : findRoot s = none) : findRoot (erase s) = none := by
  have hne : s.nodes ≠ [] := fun e => by rw [(Edit.c34_empty s).2 e] at h; cases h
  have h2 : ∀ x, s.nodes ≠ [x] := by
    intro x e
    have hx : Reg s x.2 := ⟨x.1, by rw [e]; exact List.mem_singleton.2 rfl⟩
    have hroot := (Edit.c34_root_parent s v.basic.dict ((Edit.links_iff _).2 v.links) x.2).2 ⟨⟨hx, by
      cases hp : (s.heap x.2).parent with
      | none => rfl
      | some p =>
        obtain ⟨⟨j, hj⟩, _⟩ := v.links.up _ hx p hp
        rw [e] at hj
        have : p = x.2 := by rw [← List.mem_singleton.1 hj]
        rw [this] at hp
        exact absurd (.one hp) (v.acyc _ hx)⟩, by
      rintro r ⟨j, hj⟩ _
      rw [e] at hj
      rw [← List.mem_singleton.1 hj]⟩
    rw [h] at hroot
    cases hroot
  cases hf : findRoot (erase s) with
  | none => rfl
  | some o =>
    cases o with
    | none => exact absurd ((Edit.c34_empty _).1 hf) hne
    | some r =>
      have v' := erase_inv v
      obtain ⟨_, k⟩ := (Edit.c34_root_parent _ v'.basic.dict ((Edit.links_iff _).2 v'.links) r).1 hf
      have hall : ∀ x ∈ s.nodes, x.2 = r := fun x hx => k x.2 ⟨x.1, hx⟩ (erase_heap ⟨x.1, hx⟩).1
      match hn : s.nodes, hne, h2 with
      | [x], _, h2 => exact absurd rfl (h2 x)
      | x :: y :: l, _, _ =>
        exfalso
        rw [hn] at hall
        have e1 := hall x (by simp)
        have e2 := hall y (by simp)
        have k1 := v.basic.dict.key x.1 x.2 (by rw [hn]; simp)
        have k2 := v.basic.dict.key y.1 y.2 (by rw [hn]; simp)
        have := v.basic.dict.keys
        rw [hn] at this
        simp only [List.map_cons, List.nodup_cons, List.mem_cons, not_or] at this
        exact this.1.1 (by rw [← k1, ← k2, e1, e2])

/-! ### Invariant -/

/-- Editor and manager are about the same nodes. -/
structure Coherent (C : Nat → Nat → Bool) (cl : Classes) (w : Sys n) : Prop where
  ed : Edit.Inv2 C w.ed
  covers : Edit.Covers w.ed
  tree : w.mgr.tree = topo cl w.ed w.loc n
  orphans : w.mgr.orphans = orphans w.ed
  world : Faithful w.mgr.world
  exec : Exec.Inv w.mgr

/-- Nodes outside the tree, and those of a tree that can be edited, are not set up. -/
structure Quiet (w : Sys n) : Prop where
  out : ∀ r, (∀ t, w.mgr.tree = .root t → r ∉ nodeIds (n + 1) t) → (w.loc r).AtRest
  calm : Exec.Rest.Calm (Exec.Rest.AtRest (n + 1)) w.mgr

theorem reg_root {s : St} (v : Edit.Inv2 C s) {r : Ref} (h : findRoot s = some (some r)) : Reg s r :=
  ((Edit.c34_root_parent s v.basic.dict ((Edit.links_iff _).2 v.links) r).1 h).1.1

/-- Whatever has been done to the nodes, in the tree as it was. -/
theorem store_tree {w : Sys n} (h : Coherent C cl w) {x : Topo (Tree (n + 1))} (hx : SameShape w.mgr.tree x) : x = topo cl w.ed (store w.loc x) n := by
  rw [h.tree] at hx
  cases hf : findRoot w.ed with
  | none =>
    simp only [topo, hf] at hx ⊢
    cases x with
    | bad => rfl
    | empty => exact hx.elim
    | root t => exact hx.elim
  | some o =>
    cases o with
    | none =>
      simp only [topo, hf] at hx ⊢
      cases x with
      | bad => exact hx.elim
      | empty => rfl
      | root t => exact hx.elim
    | some r =>
      simp only [topo, hf] at hx ⊢
      cases x with
      | bad => exact hx.elim
      | empty => exact hx.elim
      | root t =>
        rw [read_store cl (Eq.symm hx) (Edit.preorder_nodup h.ed.links h.ed.acyc (n + 1) (reg_root h.ed hf))]

theorem sameShape_bad {x : Topo (Tree n)} (h : SameShape .bad x) : x = .bad := by
  cases x with
  | bad => rfl
  | empty => exact h.elim
  | root t => exact h.elim

theorem topo_bad {s : St} {loc : Ref → Local} (h : topo cl s loc n = .bad) : findRoot s = none := by
  unfold topo at h
  split at h
  · assumption
  · cases h
  · cases h

theorem control_shape {w : Sys n} (h : Coherent C cl w) (c : Cmd) (b : Bool) :
    SameShape w.mgr.tree (control (ops (n + 1)) b c w.mgr).1.tree ∧ Faithful (control (ops (n + 1)) b c w.mgr).1.world :=
  (like_stable (n + 1) w.mgr.tree).control b c (⟨sameShape_refl _, h.world⟩ : Like w.mgr.tree w.mgr)

theorem think_shape {w : Sys n} (h : Coherent C cl w) :
    SameShape w.mgr.tree (threadStep (ops (n + 1)) w.mgr).tree ∧ Faithful (threadStep (ops (n + 1)) w.mgr).world :=
  (like_stable (n + 1) w.mgr.tree).think w.mgr (⟨sameShape_refl _, h.world⟩ : Like w.mgr.tree w.mgr)

theorem erases_bad {c : Cmd} {m : Mgr (Tree (n + 1))} {ok : Bool} (h : erases c m ok = true) : c = .shutdown ∧ m.tree = .bad ∧ ok = true := by
  unfold erases at h
  split at h
  · rename_i e; exact ⟨rfl, e, h⟩
  · cases h

theorem coherent_step {w : Sys n} (h : Coherent C cl w) (a : Act) (hs : ∀ r, a = .service r → w.mgr.state = .editable → r.Careful w.ed) :
    Coherent C cl (step C cl a w) := by
  cases a with
  | service r =>
    simp only [step]
    split
    · exact h
    · rename_i he
      have he : w.mgr.state = .editable := by simpa using he
      have v := Edit.handle_inv2 r h.ed h.covers (hs r rfl he)
      have e : ∀ f, (Exec.edit f w.mgr).1 = { w.mgr with tree := (f (w.mgr.tree, w.mgr.orphans)).1, orphans := (f (w.mgr.tree, w.mgr.orphans)).2 } := by
        intro f; unfold Exec.edit; rw [if_neg (by simp [he])]
      refine ⟨v.toInv2, v.synced.covers, ?_, ?_, ?_, Exec.inv_step (o := ops (n + 1)) (.edit _) h.exec⟩
      · dsimp only; rw [e]
      · dsimp only; rw [e]
      · dsimp only; rw [e]; exact h.world
  | command c b =>
    obtain ⟨h1, h2⟩ := control_shape cl h c b
    have hi := Exec.inv_step (o := ops (n + 1)) (.command c b) h.exec
    simp only [step]
    split
    · rename_i he
      obtain ⟨_, e2, _⟩ := erases_bad he
      have hr := topo_bad cl (h.tree.symm.trans e2)
      refine ⟨erase_inv h.ed, erase_covers _, ?_, rfl, h2, ⟨hi.lost, hi.quiet, hi.idle⟩⟩
      rw [e2] at h1
      dsimp only
      rw [sameShape_bad h1]
      simp only [topo, erase_root h.ed hr]
    · exact ⟨h.ed, h.covers, store_tree cl h h1, rfl, h2, ⟨hi.lost, hi.quiet, hi.idle⟩⟩
  | think =>
    obtain ⟨h1, h2⟩ := think_shape cl h
    have hi := Exec.inv_step (o := ops (n + 1)) .think h.exec
    exact ⟨h.ed, h.covers, store_tree cl h h1, rfl, h2, ⟨hi.lost, hi.quiet, hi.idle⟩⟩

theorem coherent_start (world : Nat → World (Tree (n + 1))) (hw : Faithful world) : Coherent C cl (start n world) :=
  ⟨(Edit.init_inv3 (C := C)).toInv2, (Edit.init_inv3 (C := C)).synced.covers, rfl, rfl, hw, Exec.inv_start ⟨rfl, rfl, rfl⟩⟩

theorem coherent_run (as : List Act) : ∀ {w : Sys n}, Coherent C cl w → Sane C cl as w → Coherent C cl (run C cl as w) := by
  induction as with
  | nil => intro w h _; exact h
  | cons a as ih => intro w h hs; exact ih (coherent_step cl h a hs.1) hs.2

end Verif.Whole
