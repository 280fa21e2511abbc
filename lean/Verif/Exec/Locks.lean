/-
# Requests never wait for each other in a circle (C134)

The service handlers of a tree run in the threads of the ROS executor, the tree is ticked in a
thread of its own, and the callbacks of subscriptions and actions run in further threads.  They
share four kinds of locks: the edit lock and the tree lock of every tree manager, the lock of every
subtree manager, and the locks of the nodes that receive messages.  Here is what every piece of
code takes and releases, and a proof that no set of requests, whatever their number and however
the scheduler interleaves them, gets into a state in which none of them can go on.

What is simplified: everything that is not a lock is one step `work` that always ends.  Waiting for
the tick thread is not part of this file; the handlers that do so hold no lock
(`tree_exec_manager.py` 1166-1240 are not edit services).  The tree of nested subtree managers that
a call walks is whatever it is at that time, so that it is a parameter of the call.  A handler that
stops early, by `return` or by an exception, runs a shorter body; `with` releases the lock in any
case.
-/

set_option autoImplicit false

namespace Verif.Exec.Locks

/-! ## The locks -/

/-- A tree manager, and the subtree manager that belongs to it, by its place: `[]` is the manager
of the main tree, and `i :: m` is the manager that the `Subtree` node number `i` in the tree of `m`
made for itself (`ros_nodes/subtree.py` 100-121). -/
abbrev Place := List Nat

/-- The locks: `_edit_lock` (`tree_exec_manager.py` 361), `_tree_lock` (`tree_exec_manager.py` 345),
the lock of a subtree manager (`subtree_manager.py` 59), the lock that all nodes of one subscriber
class share (`ros_nodes/topic.py` 81, 273), and the lock of one action node (`ros_nodes/action.py`
144). -/
inductive Lock where
  | edit (m : Place)
  | tree (m : Place)
  | sub (m : Place)
  | topic (cls : Nat)
  | action (node : Nat)
  deriving DecidableEq, Repr

/-- Only `_edit_lock` is an `RLock`, which the thread that holds it may take again
(`tree_exec_manager.py` 361); all others are plain `Lock`s. -/
def Lock.reentrant : Lock → Bool
  | .edit _ => true
  | _ => false

/-- What a thread does next. -/
inductive Instr where
  | work
  | acq (l : Lock)
  | rel (l : Lock)
  deriving DecidableEq, Repr

/-- `with lock: body`. -/
def within (l : Lock) (body : List Instr) : List Instr :=
  .acq l :: (body ++ [.rel l])

/-! ## The code -/

/-- The nested subtree managers of a subtree manager (`nested_subtree_managers`,
`subtree_manager.py` 55). -/
inductive Nest where
  | none
  | add (i : Nat) (inner : Nest) (rest : Nest)

/-- The methods of a subtree manager that hold the own lock and call the same method of all nested
managers meanwhile: the setter of `publish_subtrees`, `set_publish_data`, `get_subtree_structures`,
`get_subtree_states`, `get_subtree_data` (`subtree_manager.py` 69-74, 80-84, 86-93, 95-102,
104-111).  `visitAll` is the loop over the nested managers. -/
def visitAll (m : Place) : Nest → List Instr
  | .none => []
  | .add i inner rest => within (.sub (i :: m)) (visitAll (i :: m) inner) ++ visitAll m rest

/-- See `visitAll` (`subtree_manager.py` 69-74, 80-84, 86-93, 95-102, 104-111). -/
def visit (m : Place) (n : Nest) : List Instr :=
  within (.sub m) (visitAll m n)

/-- Pieces of code that take locks, of the tree manager at some place and of the nodes in its
tree. -/
inductive Code where
  /-- Nothing. -/
  | skip
  /-- One after the other. -/
  | seq (a b : Code)
  /-- Anything without locks. -/
  | work
  /-- The setters of `tree_id`, `name`, `root_id`, `state` and `tick_frequency_hz`. -/
  | setter
  /-- The locked part of `clear`. -/
  | clearPart
  /-- The methods of the subtree manager without nested calls. -/
  | subOp
  /-- The methods of the subtree manager with nested calls. -/
  | visit (n : Nest)
  /-- `add_nested_manager`. -/
  | addNested (i : Nat) (n : Nest)
  /-- `publish_state` and what is built on it. -/
  | publishState (n : Nest)
  | publishStructure (n n' : Nest)
  | publishData (n n' : Nest)
  /-- An edit service: the handler, and the managers that are nested when it is done. -/
  | edit (body : Code) (n n' : Nest)
  /-- Code of another manager that is below this one. -/
  | inner (i : Nat) (body : Code)
  /-- A subscriber node or its callback. -/
  | topic (cls : Nat)
  /-- An action node or its callback. -/
  | action (node : Nat)

/-- What a piece of code of the manager at `m` takes and releases.

* the setters: `tree_exec_manager.py` 394-399, 408-411, 420-422, 431-436, 445-452
* `clear`, locked part: `tree_exec_manager.py` 764-771
* `get_publish_subtrees`, `get_publish_data`, `add_subtree_structure`, `add_subtree_state`,
  `add_subtree_data`, `clear_subtrees`, `remove_subtree`: `subtree_manager.py` 61-63, 76-78,
  113-125, 133-138, 140-151
* `add_nested_manager`: `subtree_manager.py` 127-131
* `publish_structure`, `publish_state`, `publish_data`: `tree_exec_manager.py` 530-582; without a
  callback to publish with, the code is `skip`
* `is_edit_service`: `tree_exec_manager.py` 107-124
* the manager of a `Subtree` node: `ros_nodes/subtree.py` 113-127, 139-160, 196-283; the temporary
  manager of `generate_subtree`: `tree_edit_manager.py` 1056-1086
* subscribers: `ros_nodes/topic.py` 92-94, 157-165, 290-292, 356-364
* actions: `ros_nodes/action.py` 160-163, 207-210 -/
def compile : Place → Code → List Instr
  | _, .skip => []
  | m, .seq a b => compile m a ++ compile m b
  | _, .work => [.work]
  | m, .setter => within (.tree m) [.work]
  | m, .clearPart => within (.tree m) [.work]
  | m, .subOp => within (.sub m) [.work]
  | m, .visit n => visit m n
  | m, .addNested i n =>
    visit (i :: m) n ++ (within (.sub m) [.work] ++
      (visit (i :: m) n ++ within (.sub m) [.work]))
  | m, .publishState n => visit m n ++ [.work]
  | m, .publishStructure n n' => visit m n ++ (.work :: (visit m n' ++ [.work]))
  | m, .publishData n n' => visit m n ++ (.work :: (visit m n' ++ [.work]))
  | m, .edit body n n' =>
    within (.edit m) (compile m body) ++ (visit m n ++ (.work :: (visit m n' ++ [.work])))
  | m, .inner i body => compile (i :: m) body
  | _, .topic cls => within (.topic cls) [.work]
  | _, .action node => within (.action node) [.work]

/-! ## Threads -/

/-- A thread: what it still has to do, and the locks that it holds, with the number of times. -/
structure Thread where
  todo : List Instr
  held : List Lock

/-- One step of a thread while others hold the locks in `others`.  A lock can be taken if nobody
else holds it, and by the thread that holds it only if it is an `RLock`. -/
inductive Move (others : List Lock) : Thread → Thread → Prop
  | work (p : List Instr) (h : List Lock) : Move others ⟨.work :: p, h⟩ ⟨p, h⟩
  | acq (l : Lock) (p : List Instr) (h : List Lock) (hfree : l ∉ others)
      (hown : l ∈ h → l.reentrant = true) : Move others ⟨.acq l :: p, h⟩ ⟨p, l :: h⟩
  | rel (l : Lock) (p : List Instr) (h : List Lock) (hheld : l ∈ h) :
      Move others ⟨.rel l :: p, h⟩ ⟨p, h.erase l⟩

/-- The locks that some threads hold. -/
def heldBy (s : List Thread) : List Lock := s.flatMap Thread.held

/-- One step of one of the threads; which one is up to the scheduler. -/
inductive Step : List Thread → List Thread → Prop
  | mk (pre post : List Thread) (t t' : Thread) (h : Move (heldBy (pre ++ post)) t t') :
      Step (pre ++ t :: post) (pre ++ t' :: post)

/-- Any number of steps. -/
inductive Steps : Nat → List Thread → List Thread → Prop
  | nil (s : List Thread) : Steps 0 s s
  | cons (k : Nat) (s s' s'' : List Thread) (h : Step s s') (hs : Steps k s' s'') :
      Steps (k + 1) s s''

/-- The states that can occur: requests, ticks and callbacks come at any time, for the manager of
any tree, and run any code. -/
inductive Reach : List Thread → Prop
  | nil : Reach []
  | arrive (s : List Thread) (h : Reach s) (m : Place) (c : Code) :
      Reach (s ++ [⟨compile m c, []⟩])
  | step (s s' : List Thread) (h : Reach s) (hs : Step s s') : Reach s'

/-! ## The order of the locks -/

/-- The order in which locks are taken: edit locks from the outside to the inside, then the locks
of subtree managers from the outside to the inside, then all others. -/
def lt : Lock → Lock → Prop
  | .edit a, .edit b => a.length < b.length
  | .edit _, _ => True
  | .sub a, .sub b => a.length < b.length
  | _, _ => False

theorem lt_irrefl (a : Lock) : ¬ lt a a := by
  cases a <;> simp [lt]

theorem lt_trans (a b c : Lock) (h1 : lt a b) (h2 : lt b c) : lt a c := by
  cases a <;> cases b <;> cases c <;> simp_all [lt] <;> omega

/-- What a thread still has to do respects the order, given what it holds, and everything is
released in the end. -/
def Disc : List Lock → List Instr → Prop
  | h, [] => h = []
  | h, .work :: p => Disc h p
  | h, .acq l :: p => ((l ∈ h ∧ l.reentrant = true) ∨ ∀ x ∈ h, lt x l) ∧ Disc (l :: h) p
  | h, .rel l :: p => l ∈ h ∧ Disc (h.erase l) p

/-- `Disc` for a part of a program: what comes after it starts with the same locks. -/
def Part (h : List Lock) (p : List Instr) : Prop :=
  ∀ q, Disc h q → Disc h (p ++ q)

theorem part_nil (h : List Lock) : Part h [] := fun _ hq => hq

theorem part_work (h : List Lock) : Part h [.work] := fun _ hq => hq

theorem part_append (h : List Lock) (p p' : List Instr) (h1 : Part h p) (h2 : Part h p') :
    Part h (p ++ p') := by
  intro q hq
  rw [List.append_assoc]
  exact h1 _ (h2 _ hq)

theorem part_within (h : List Lock) (l : Lock) (p : List Instr)
    (hl : (l ∈ h ∧ l.reentrant = true) ∨ ∀ x ∈ h, lt x l) (hp : Part (l :: h) p) :
    Part h (within l p) := by
  intro q hq
  show Disc h (.acq l :: ((p ++ [.rel l]) ++ q))
  refine ⟨hl, ?_⟩
  rw [List.append_assoc]
  apply hp
  show l ∈ l :: h ∧ Disc ((l :: h).erase l) q
  refine ⟨List.mem_cons_self, ?_⟩
  rw [List.erase_cons_head]
  exact hq

/-- The locks that are held around code of the subtree manager at `m`. -/
def Above (h : List Lock) (m : Place) : Prop :=
  ∀ x ∈ h, lt x (.sub m)

theorem above_cons (h : List Lock) (m : Place) (i : Nat) (hA : Above h m) :
    Above (.sub m :: h) (i :: m) := by
  intro x hx
  rcases List.mem_cons.mp hx with rfl | hx
  · show m.length < (i :: m).length
    simp
  · exact lt_trans _ _ _ (hA x hx) (by show m.length < (i :: m).length; simp)

theorem visitAll_part (n : Nest) : ∀ (m : Place) (h : List Lock), (∀ i, Above h (i :: m)) →
    Part h (visitAll m n) := by
  induction n with
  | none => intro m h _; exact part_nil h
  | add i inner rest ih ihr =>
    intro m h hA
    refine part_append _ _ _ ?_ (ihr m h hA)
    exact part_within _ _ _ (Or.inr (hA i)) (ih _ _ (fun j => above_cons _ _ j (hA i)))

theorem visit_part (n : Nest) (m : Place) (h : List Lock) (hA : Above h m) :
    Part h (visit m n) :=
  part_within _ _ _ (Or.inr hA) (visitAll_part n m _ (fun i => above_cons _ _ i hA))

/-- The locks that are held around code of the tree manager at `m`: edit locks of this manager and
of those above it. -/
def Around (h : List Lock) (m : Place) : Prop :=
  ∀ x ∈ h, ∃ a, x = .edit a ∧ (a = m ∨ a.length < m.length)

theorem around_above (h : List Lock) (m m' : Place) (hA : Around h m) : Above h m' := by
  intro x hx
  obtain ⟨a, rfl, _⟩ := hA x hx
  trivial

theorem around_inner (h : List Lock) (m : Place) (i : Nat) (hA : Around h m) :
    Around h (i :: m) := by
  intro x hx
  obtain ⟨a, rfl, ha⟩ := hA x hx
  refine ⟨a, rfl, Or.inr ?_⟩
  rcases ha with rfl | ha
  · simp
  · simp; omega

theorem around_edit (h : List Lock) (m : Place) (hA : Around h m) : Around (.edit m :: h) m := by
  intro x hx
  rcases List.mem_cons.mp hx with rfl | hx
  · exact ⟨m, rfl, Or.inl rfl⟩
  · exact hA x hx

theorem edit_ok (h : List Lock) (m : Place) (hA : Around h m) :
    (Lock.edit m ∈ h ∧ (Lock.edit m).reentrant = true) ∨ ∀ x ∈ h, lt x (.edit m) := by
  by_cases hm : Lock.edit m ∈ h
  · exact Or.inl ⟨hm, rfl⟩
  · refine Or.inr (fun x hx => ?_)
    obtain ⟨a, rfl, ha⟩ := hA x hx
    rcases ha with rfl | ha
    · exact absurd hx hm
    · exact ha

theorem leaf_part (h : List Lock) (m : Place) (l : Lock) (hA : Around h m)
    (hl : ∀ a, lt (.edit a) l) : Part h (within l [.work]) := by
  refine part_within _ _ _ (Or.inr (fun x hx => ?_)) (part_work _)
  obtain ⟨a, rfl, _⟩ := hA x hx
  exact hl a

theorem publish_part (n n' : Nest) (m : Place) (h : List Lock) (hA : Above h m) :
    Part h (visit m n ++ (.work :: (visit m n' ++ [.work]))) := by
  refine part_append _ _ _ (visit_part n m h hA) ?_
  exact part_append h [.work] _ (part_work h)
    (part_append _ _ _ (visit_part n' m h hA) (part_work h))

theorem compile_part (c : Code) : ∀ (m : Place) (h : List Lock), Around h m →
    Part h (compile m c) := by
  induction c with
  | skip => intro m h _; exact part_nil h
  | seq a b iha ihb => intro m h hA; exact part_append _ _ _ (iha m h hA) (ihb m h hA)
  | work => intro m h _; exact part_work h
  | setter => intro m h hA; exact leaf_part h m _ hA (fun _ => trivial)
  | clearPart => intro m h hA; exact leaf_part h m _ hA (fun _ => trivial)
  | subOp => intro m h hA; exact leaf_part h m _ hA (fun _ => trivial)
  | visit n => intro m h hA; exact visit_part n m h (around_above h m m hA)
  | addNested i n =>
    intro m h hA
    refine part_append _ _ _ (visit_part n _ h (around_above h m _ hA)) ?_
    refine part_append _ _ _ (leaf_part h m _ hA (fun _ => trivial)) ?_
    exact part_append _ _ _ (visit_part n _ h (around_above h m _ hA))
      (leaf_part h m _ hA (fun _ => trivial))
  | publishState n =>
    intro m h hA
    exact part_append _ _ _ (visit_part n m h (around_above h m m hA)) (part_work h)
  | publishStructure n n' => intro m h hA; exact publish_part n n' m h (around_above h m m hA)
  | publishData n n' => intro m h hA; exact publish_part n n' m h (around_above h m m hA)
  | edit body n n' ih =>
    intro m h hA
    refine part_append _ _ _ ?_ (publish_part n n' m h (around_above h m m hA))
    exact part_within _ _ _ (edit_ok h m hA) (ih m _ (around_edit h m hA))
  | inner i body ih => intro m h hA; exact ih _ h (around_inner h m i hA)
  | topic cls => intro m h hA; exact leaf_part h m _ hA (fun _ => trivial)
  | action node => intro m h hA; exact leaf_part h m _ hA (fun _ => trivial)

theorem compile_disc (m : Place) (c : Code) : Disc [] (compile m c) := by
  have h := compile_part c m [] (fun x hx => by cases hx) [] rfl
  rwa [List.append_nil] at h

/-! ## The invariant -/

/-- Every thread respects the order, and no two threads hold the same lock. -/
structure Inv (s : List Thread) : Prop where
  disc : ∀ t ∈ s, Disc t.held t.todo
  excl : s.Pairwise (fun t u => ∀ l, l ∈ t.held → l ∉ u.held)

theorem mem_heldBy (s : List Thread) (l : Lock) : l ∈ heldBy s ↔ ∃ t ∈ s, l ∈ t.held := by
  simp [heldBy]

theorem move_disc (o : List Lock) (t t' : Thread) (hm : Move o t t')
    (hd : Disc t.held t.todo) : Disc t'.held t'.todo := by
  cases hm with
  | work p h => exact hd
  | acq l p h _ _ => exact hd.2
  | rel l p h _ => exact hd.2

theorem move_held (o : List Lock) (t t' : Thread) (hm : Move o t t') (l : Lock)
    (hl : l ∈ t'.held) : l ∈ t.held ∨ l ∉ o := by
  cases hm with
  | work p h => exact Or.inl hl
  | acq l' p h hfree _ =>
    rcases List.mem_cons.mp hl with rfl | hl
    · exact Or.inr hfree
    · exact Or.inl hl
  | rel l' p h _ => exact Or.inl (List.mem_of_mem_erase hl)

theorem step_inv (s s' : List Thread) (hs : Step s s') (hi : Inv s) : Inv s' := by
  cases hs with
  | mk pre post t t' hm =>
    have hx := hi.excl
    rw [List.pairwise_append] at hx
    obtain ⟨hpre, hmid, hcross⟩ := hx
    rw [List.pairwise_cons] at hmid
    refine ⟨?_, ?_⟩
    · intro u hu
      rcases List.mem_append.mp hu with hu | hu
      · exact hi.disc u (List.mem_append_left _ hu)
      · rcases List.mem_cons.mp hu with rfl | hu
        · exact move_disc _ _ _ hm (hi.disc t (by simp))
        · exact hi.disc u (List.mem_append_right _ (List.mem_cons_of_mem _ hu))
    · rw [List.pairwise_append]
      refine ⟨hpre, List.pairwise_cons.mpr ⟨?_, hmid.2⟩, ?_⟩
      · intro u hu l hl hlu
        rcases move_held _ _ _ hm l hl with h | h
        · exact hmid.1 u hu l h hlu
        · exact h ((mem_heldBy _ _).mpr ⟨u, List.mem_append_right _ hu, hlu⟩)
      · intro u hu v hv l hl hlv
        rcases List.mem_cons.mp hv with rfl | hv
        · rcases move_held _ _ _ hm l hlv with h | h
          · exact hcross u hu t List.mem_cons_self l hl h
          · exact h ((mem_heldBy _ _).mpr ⟨u, List.mem_append_left _ hu, hl⟩)
        · exact hcross u hu v (List.mem_cons_of_mem _ hv) l hl hlv

theorem reach_inv (s : List Thread) (h : Reach s) : Inv s := by
  induction h with
  | nil => exact ⟨(fun t ht => by cases ht), List.Pairwise.nil⟩
  | arrive s h m c ih =>
    refine ⟨?_, ?_⟩
    · intro t ht
      rcases List.mem_append.mp ht with ht | ht
      · exact ih.disc t ht
      · rw [List.mem_singleton] at ht
        subst ht
        exact compile_disc m c
    · rw [List.pairwise_append]
      refine ⟨ih.excl, List.pairwise_singleton _ _, ?_⟩
      intro t ht u hu l hl
      rw [List.mem_singleton] at hu
      subst hu
      exact fun h => by cases h
  | step s s' h hs ih => exact step_inv _ _ hs ih

theorem steps_reach (k : Nat) (s s' : List Thread) (h : Reach s) (hs : Steps k s s') :
    Reach s' := by
  induction hs with
  | nil s => exact h
  | cons k s s' s'' h1 _ ih => exact ih (Reach.step _ _ h h1)

/-! ## Somebody can always go on -/

/-- A list that is not empty has an element that is below no other one. -/
theorem exists_max (ls : List Lock) (hne : ls ≠ []) : ∃ l ∈ ls, ∀ x ∈ ls, ¬ lt l x := by
  induction ls with
  | nil => exact absurd rfl hne
  | cons a r ih =>
    by_cases hr : r = []
    · subst hr
      refine ⟨a, List.mem_cons_self, fun x hx => ?_⟩
      rw [List.mem_singleton] at hx
      subst hx
      exact lt_irrefl _
    · obtain ⟨l, hl, hmax⟩ := ih hr
      by_cases hla : lt l a
      · refine ⟨a, List.mem_cons_self, fun x hx hax => ?_⟩
        rcases List.mem_cons.mp hx with rfl | hx
        · exact lt_irrefl _ hax
        · exact hmax x hx (lt_trans _ _ _ hla hax)
      · refine ⟨l, List.mem_cons_of_mem _ hl, fun x hx => ?_⟩
        rcases List.mem_cons.mp hx with rfl | hx
        · exact hla
        · exact hmax x hx

/-- The lock that a thread wants to take next. -/
def wants (t : Thread) : Option Lock :=
  match t.todo with
  | .acq l :: _ => some l
  | _ => none

theorem wants_todo (t : Thread) (l : Lock) (h : wants t = some l) :
    ∃ p, t.todo = .acq l :: p := by
  unfold wants at h
  split at h
  · next l' p heq => cases h; exact ⟨p, heq⟩
  · cases h

/-- A thread that cannot go on wants a lock that another one holds. -/
theorem blocked (o : List Lock) (t : Thread) (hd : Disc t.held t.todo) (hne : t.todo ≠ [])
    (hb : ∀ t', ¬ Move o t t') : ∃ l, wants t = some l ∧ l ∈ o := by
  obtain ⟨p, h⟩ := t
  cases p with
  | nil => exact absurd rfl hne
  | cons a p =>
    cases a with
    | work => exact absurd (Move.work p h) (hb _)
    | rel l => exact absurd (Move.rel l p h hd.1) (hb _)
    | acq l =>
      refine ⟨l, rfl, ?_⟩
      by_cases ho : l ∈ o
      · exact ho
      · refine absurd (Move.acq l p h ho (fun hl => ?_)) (hb _)
        rcases hd.1 with h' | h'
        · exact h'.2
        · exact absurd (h' l hl) (lt_irrefl l)

theorem progress (s : List Thread) (hi : Inv s) (hun : ∃ t ∈ s, t.todo ≠ []) :
    ∃ s', Step s s' := by
  refine Classical.byContradiction (fun hno => ?_)
  have hb : ∀ pre post t, s = pre ++ t :: post → t.todo ≠ [] →
      ∃ l, wants t = some l ∧ l ∈ heldBy (pre ++ post) := by
    intro pre post t hs hne
    refine blocked _ t (hi.disc t (by rw [hs]; simp)) hne (fun t' hm => hno ?_)
    exact ⟨pre ++ t' :: post, by rw [hs]; exact Step.mk pre post t t' hm⟩
  obtain ⟨t0, ht0, hne0⟩ := hun
  obtain ⟨pre0, post0, hs0⟩ := List.append_of_mem ht0
  obtain ⟨l0, hw0, _⟩ := hb pre0 post0 t0 hs0 hne0
  obtain ⟨l, hl, hmax⟩ := exists_max (s.filterMap wants) (by
    intro h
    have : l0 ∈ s.filterMap wants := List.mem_filterMap.mpr ⟨t0, ht0, hw0⟩
    rw [h] at this
    cases this)
  obtain ⟨t, ht, hw⟩ := List.mem_filterMap.mp hl
  obtain ⟨pre, post, hs⟩ := List.append_of_mem ht
  obtain ⟨p, hp⟩ := wants_todo t l hw
  obtain ⟨l', hw', hheld⟩ := hb pre post t hs (by rw [hp]; simp)
  rw [hw] at hw'
  cases hw'
  obtain ⟨u, hu, hlu⟩ := (mem_heldBy _ _).mp hheld
  have hus : u ∈ s := by
    rw [hs]
    rcases List.mem_append.mp hu with h | h
    · exact List.mem_append_left _ h
    · exact List.mem_append_right _ (List.mem_cons_of_mem _ h)
  have hdu := hi.disc u hus
  have hune : u.todo ≠ [] := by
    intro h
    rw [h] at hdu
    have hdu : u.held = [] := hdu
    rw [hdu] at hlu
    cases hlu
  obtain ⟨preu, postu, hsu⟩ := List.append_of_mem hus
  obtain ⟨k, hku, hko⟩ := hb preu postu u hsu hune
  obtain ⟨q, hq⟩ := wants_todo u k hku
  rw [hq] at hdu
  rcases hdu.1 with ⟨hk, _⟩ | hlt
  · -- the lock is held twice
    obtain ⟨v, hv, hkv⟩ := (mem_heldBy _ _).mp hko
    have hx := hi.excl
    rw [hsu, List.pairwise_append, List.pairwise_cons] at hx
    rcases List.mem_append.mp hv with h | h
    · exact hx.2.2 v h u List.mem_cons_self k hkv hk
    · exact hx.2.1.1 v h k hk hkv
  · exact hmax k (List.mem_filterMap.mpr ⟨u, hus, hku⟩) (hlt l hlu)

/-- How much all threads together still have to do. -/
def load (s : List Thread) : Nat := (s.map (fun t => t.todo.length)).sum

theorem step_load (s s' : List Thread) (hs : Step s s') : load s = load s' + 1 := by
  cases hs with
  | mk pre post t t' hm =>
    have : t.todo.length = t'.todo.length + 1 := by cases hm <;> rfl
    simp only [load, List.map_append, List.map_cons, List.sum_append_nat, List.sum_cons, this]
    omega

theorem steps_load (k : Nat) (s s' : List Thread) (hs : Steps k s s') : load s = load s' + k := by
  induction hs with
  | nil s => rfl
  | cons k s s' s'' h _ ih => rw [step_load _ _ h, ih]; omega

theorem load_zero (s : List Thread) (h : ∀ t ∈ s, t.todo = []) : load s = 0 := by
  induction s with
  | nil => rfl
  | cons a r ih =>
    have := ih (fun t ht => h t (List.mem_cons_of_mem _ ht))
    simp only [load, List.map_cons, List.sum_cons] at this ⊢
    rw [this, h a List.mem_cons_self]
    rfl

/-! ## The property -/

/-- **C134.**  In every state that can occur, if some request is not answered, then some request
can go on. -/
theorem c134_progress (s : List Thread) (h : Reach s) (hun : ∃ t ∈ s, t.todo ≠ []) :
    ∃ s', Step s s' :=
  progress s (reach_inv s h) hun

/-- **C134.**  No two requests hold the same lock at the same time; in particular no two edits of
the same tree overlap. -/
theorem c134_exclusive (s : List Thread) (h : Reach s) (pre mid post : List Thread) (t u : Thread)
    (hs : s = pre ++ t :: (mid ++ u :: post)) (l : Lock) (ht : l ∈ t.held) : l ∉ u.held := by
  have hx := (reach_inv s h).excl
  rw [hs, List.pairwise_append, List.pairwise_cons] at hx
  exact hx.2.1.1 u (by simp) l ht

/-- **C134.**  Whatever the scheduler does, the requests that are there have been answered after so
many steps as they have instructions, unless new ones come; and then no lock is held. -/
theorem c134_answered_partial (s : List Thread) (h : Reach s) (k : Nat) (s' : List Thread)
    (hs : Steps k s s') :
    k ≤ load s ∧
    ((¬ ∃ s'', Step s' s'') → ∀ t ∈ s', t.todo = [] ∧ t.held = []) ∧
    (k = load s → ∀ t ∈ s', t.todo = [] ∧ t.held = []) := by
  have hl := steps_load k s s' hs
  have hr := steps_reach k s s' h hs
  have hend : (¬ ∃ s'', Step s' s'') → ∀ t ∈ s', t.todo = [] ∧ t.held = [] := by
    intro hno t ht
    have h0 : t.todo = [] := by
      refine Classical.byContradiction (fun hne => hno ?_)
      exact progress s' (reach_inv s' hr) ⟨t, ht, hne⟩
    have hd := (reach_inv s' hr).disc t ht
    rw [h0] at hd
    exact ⟨h0, hd⟩
  refine ⟨by omega, hend, fun hk => hend ?_⟩
  rintro ⟨s'', h1⟩
  have := step_load _ _ h1
  omega

/-- A request that is there can always be led to its end, whatever has happened before. -/
theorem c134_can_end (s : List Thread) (h : Reach s) :
    ∃ s', Steps (load s) s s' ∧ ∀ t ∈ s', t.todo = [] ∧ t.held = [] := by
  have key : ∀ (k : Nat) (s : List Thread), Reach s → load s = k →
      ∃ s', Steps k s s' := by
    intro k
    induction k with
    | zero => intro s _ _; exact ⟨s, Steps.nil s⟩
    | succ k ih =>
      intro s h hk
      have hne : ∃ t ∈ s, t.todo ≠ [] := by
        refine Classical.byContradiction (fun hno => ?_)
        have := load_zero s (fun t ht =>
          Classical.byContradiction (fun hne => hno ⟨t, ht, hne⟩))
        omega
      obtain ⟨s1, h1⟩ := progress s (reach_inv s h) hne
      have := step_load _ _ h1
      obtain ⟨s2, h2⟩ := ih s1 (Reach.step _ _ h h1) (by omega)
      exact ⟨s2, Steps.cons _ _ _ _ h1 h2⟩
  obtain ⟨s', hs'⟩ := key _ s h rfl
  exact ⟨s', hs', (c134_answered_partial s h _ s' hs').2.2 rfl⟩

/-! ## The handlers -/

/-- `clear` (`tree_exec_manager.py` 752-781). -/
def clear (n n' : Nest) : Code :=
  .edit (.seq .work (.seq .clearPart (.seq .setter (.seq .setter (.seq .subOp .work))))) n n'

/-- `Subtree.setup_node` (`ros_nodes/subtree.py` 86-137): a new manager, whose constructor sets the
identity, the name, the state (twice) and the rate (`tree_exec_manager.py` 348-351, 370) and
publishes with no callbacks, then `load_tree` of the new manager, then three calls of the own
subtree manager. -/
def setupNode (i : Nat) (load : Code) (n : Nest) : Code :=
  .seq (.inner i (.seq .setter (.seq .setter (.seq .setter (.seq .setter (.seq .setter load))))))
    (.seq .subOp (.addNested i n))

/-- `load_tree` (`tree_exec_manager.py` 815-922): the tree is cleared, the nodes are made, of which
those that are `Subtree` nodes load their own trees, and name, rate and root are set. -/
def loadTree (nodes : Code) (n1 n1' n n' : Nest) : Code :=
  .edit (.seq .work (.seq (clear n1 n1') (.seq nodes
    (.seq .setter (.seq .setter (.seq .setter .work)))))) n n'

/-- `Subtree._do_tick` (`ros_nodes/subtree.py` 219-237) around the tick of the inner tree. -/
def subtreeTick (i : Nat) (tick : Code) : Code :=
  .seq .work (.seq (.inner i tick) (.seq .subOp (.seq .subOp .subOp)))

/-- A tree with one subtree that has one subscriber and one action. -/
def exNest : Nest := .add 0 (.add 3 .none .none) (.add 1 .none .none)

/-- Loading a tree with two subtrees, one of which has a subtree of its own. -/
def exLoad : Code :=
  loadTree
    (.seq (setupNode 0 (loadTree (setupNode 3 (loadTree .work .none .none .none .none) .none)
        .none .none (.add 3 .none .none) (.add 3 .none .none)) (.add 3 .none .none))
      (setupNode 1 (loadTree .work .none .none .none .none) .none))
    .none .none exNest exNest

/-- A tick that goes through the first of the subtrees. -/
def exTick : Code :=
  .seq (subtreeTick 0 (.seq (.topic 0) (.action 4))) (.publishData exNest exNest)

example : (compile [] exLoad).length = 270 := by decide +kernel

/-- The edit lock of the main tree, the one of the inner tree (twice) and its tree lock are held at
once. -/
example : ∃ p q, compile [] exLoad = p ++ q ∧
    (p.foldl (fun h a => match a with
      | .acq l => l :: h
      | .rel l => h.erase l
      | .work => h) []) = [.tree [0], .edit [0], .edit [0], .edit []] := by
  refine ⟨(compile [] exLoad).take 50, (compile [] exLoad).drop 50,
    (List.take_append_drop _ _).symm, ?_⟩
  decide +kernel

/-- Two loads, a tick and a callback at the same time. -/
example : Reach [⟨compile [] exLoad, []⟩, ⟨compile [] exTick, []⟩, ⟨compile [] exLoad, []⟩,
    ⟨compile [0] (.topic 0), []⟩] :=
  Reach.arrive _ (Reach.arrive _ (Reach.arrive _ (Reach.arrive _ Reach.nil [] exLoad) [] exTick)
    [] exLoad) [0] (.topic 0)

/-- If `clear` used the setter of the name within its locked part, which it does only after it
(`tree_exec_manager.py` 764-772), the request would wait for itself, and the theorem would fail. -/
theorem c134_clear_twice (s : List Thread) :
    ¬ Step [⟨within (.tree []) [], [.tree []]⟩] s := by
  intro h
  generalize hs : [(⟨within (.tree []) [], [.tree []]⟩ : Thread)] = s0 at h
  cases h with
  | mk pre post t t' hm =>
    cases pre with
    | cons a r =>
      have := congrArg List.length hs
      simp at this
    | nil =>
      simp only [List.nil_append, List.cons.injEq] at hs
      obtain ⟨rfl, rfl⟩ := hs
      cases hm with
      | acq l p h hfree hown => exact absurd (hown (List.mem_singleton.mpr rfl)) (by decide)

end Verif.Exec.Locks
