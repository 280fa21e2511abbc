import Verif.BT.Broken
import Verif.BT.Sample
import Verif.BT.Laws

/-!
# C126: a Subtree node is its tree

What a Subtree node (`ros_nodes/subtree.py`) answers, and what happens inside, compared to the same tree without the node around it.
-/

set_option autoImplicit false

namespace Verif.BT.Inline

open Verif.BT.Laws (Same Bisim same_bisim same_refl same_symm same_trans)

variable {N : Type}

/-- What a Subtree node needs is there: inputs are set, outputs are delivered (`node.py:435-438`, `474-480`), the nested tree has one root, its wirings can
be initialized and data can be pushed into it (`subtree.py:197-211`, `223-227`). -/
def Served (a : Node N) : Prop := ∀ i, (a.env i).inputsOk = true ∧ (a.env i).pushOk = true ∧ (a.env i).cfgOk = true ∧ (a.env i).outOk = true

/-- An operation that makes sense in a state: one that is accepted (`node.py:353-356`, `423-427`, `531-535`, `593-597`), and shutdown only of
something that has been set up and not been shut down yet. -/
def Due (op : Op) (s : BTState) : Prop := accepts op s = true ∧ (op = .shutdown → s ≠ .shutdown ∧ s ≠ .uninitialized)

instance (op : Op) (s : BTState) : Decidable (Due op s) := inferInstanceAs (Decidable (_ ∧ _))

/-- The operations make sense, and when one of them fails the node is BROKEN. -/
def Proper (o : Ops N) : List Op → N → Prop
  | [], _ => True
  | op :: h, t => Due op (o.state t) ∧ ((o.run op t).res = .err → o.state (o.run op t).node = .broken) ∧ Proper o h (o.run op t).node

instance (o : Ops N) : (h : List Op) → (t : N) → Decidable (Proper o h t)
  | [], _ => .isTrue trivial
  | op :: h, t =>
    have := instDecidableProper o h (o.run op t).node
    inferInstanceAs (Decidable (_ ∧ _ ∧ _))

/-- The Subtree node with the nested tree. -/
structure Over (o : Ops N) (a : Node N) (t : N) : Prop where
  kind : a.kind = .subtree
  children : a.children = [t]
  served : Served a
  state : a.state = o.state t
  rooted : a.mem.rootSet = true ∨ a.state = .uninitialized

theorem over_step (o : Ops N) (hs : Sound o) (op : Op) (a : Node N) (t : N) (h1 : a.kind = .subtree) (h2 : a.children = [t]) (h3 : Served a)
    (h5 : a.mem.rootSet = true ∨ op = .setup) (hd : Due op a.state)
    (hb : (o.run op t).res = .err → o.state (o.run op t).node = .broken) :
    (a.run o op).res = (o.run op t).res ∧ Over o (a.run o op).node (o.run op t).node := by
  obtain ⟨i, nm, k, st, m, e, c, cs⟩ := a
  dsimp only at h1 h2 h5 hd
  subst h1 h2
  obtain ⟨e1, e2, e3, e4⟩ := h3 c
  dsimp only at e1 e2 e3 e4
  obtain ⟨d1, d2⟩ := hd
  have hr : op ≠ .setup → m.rootSet = true := fun hop => h5.resolve_right hop
  have hp : ∃ m' : Mem, m'.rootSet = true ∧ hookProg .subtree op st m (e c) ([t].map o.name) = .call op 0 fun r => .done m' r := by
    cases op with
    | setup => exact ⟨{ m with rootSet := true }, rfl, by simp [hookProg, setupHook, e3, e4]⟩
    | tick => exact ⟨m, hr (by simp), by simp [hookProg, tickHook, e3, hr]⟩
    | untick => exact ⟨m, hr (by simp), by simp [hookProg, untickHook, hr]⟩
    | reset => exact ⟨m, hr (by simp), by simp [hookProg, resetHook, hr]⟩
    | shutdown => exact ⟨m, hr (by simp), by simp [hookProg, shutdownHook, hr]⟩
  obtain ⟨m', hm, hp⟩ := hp
  have hx : ∀ x, x = exec o (hookProg .subtree op st m (e c) ([t].map o.name)) [t] → x.res = (o.run op t).res ∧ x.children = [(o.run op t).node] ∧ x.mem = m' := by
    intro x h
    rw [hp] at h
    subst h
    exact ⟨rfl, rfl, rfl⟩
  apply Verif.BT.run_cases o op _ (P := fun out => out.res = (o.run op t).res ∧ Over o out.node (o.run op t).node)
  · intro h
    dsimp only at h
    rw [h] at d1
    cases d1
  · intro _ _ h
    dsimp only at h
    rw [h] at e1
    cases e1
  · intro x h _ _ h'
    obtain ⟨x1, x2, x3⟩ := hx x h
    rcases h' with h' | ⟨s, _, _, _, h'⟩
    · rw [x1] at h'
      exact ⟨h'.symm, ⟨rfl, x2, h3, (hb h').symm, .inl (x3 ▸ hm)⟩⟩
    · dsimp only at h'
      rw [h'] at e2
      cases e2
  · intro x s h _ _ h' hal
    obtain ⟨x1, x2, x3⟩ := hx x h
    rw [x1] at h'
    rw [(hs _ _ _ h').2] at hal
    cases hal
  · intro x s _ h _ _ h' hal
    obtain ⟨x1, x2, x3⟩ := hx x h
    rw [x1] at h'
    exact ⟨h'.symm, ⟨rfl, x2, h3, (hs _ _ _ h').1.symm, .inl (x3 ▸ hm)⟩⟩
  · intro h h'
    exact absurd h' (d2 h).1
  · intro x hop h _ h'
    obtain ⟨x1, x2, x3⟩ := hx x h
    rw [x1] at h'
    subst hop
    exact ⟨h'.symm, ⟨rfl, x2, h3, (hs _ _ _ h').1.symm, .inl (x3 ▸ hm)⟩⟩

theorem due_fresh {op : Op} (h : Due op .uninitialized) : op = .setup := by
  cases op <;> simp [Due, accepts] at h ⊢

theorem over_runs (o : Ops N) (hs : Sound o) (h : List Op) : ∀ (a : Node N) (t : N), Over o a t → Proper o h t →
    (runs (Node.ops o) h a).1.map (·.res) = (runs o h t).1.map (·.res) ∧ Over o (runs (Node.ops o) h a).2 (runs o h t).2 := by
  induction h with
  | nil => exact fun a t hab _ => ⟨rfl, hab⟩
  | cons op h ih =>
    intro a t hab ⟨p1, p2, p3⟩
    obtain ⟨r1, r2⟩ := over_step o hs op a t hab.kind hab.children hab.served (hab.rooted.imp id fun h => due_fresh (by rw [← h, hab.state]; exact p1)) (hab.state ▸ p1) p2
    obtain ⟨i1, i2⟩ := ih _ _ r2 p3
    refine ⟨?_, i2⟩
    show (Node.run o op a).res :: List.map (·.res) (runs (Node.ops o) h (Node.run o op a).node).1 = (o.run op t).res :: List.map (·.res) (runs o h (o.run op t).node).1
    rw [i1, r1]

/-- C126: a Subtree node answers what its tree would answer, is always in the state of the root, and inside everything is as it would be without the Subtree node: for all operations
that make sense, as long as a failed one leaves the root BROKEN. -/
theorem c126_transparent_partial (n : Nat) (a : Tree (n + 1)) (t : Tree n) (hk : Node.kind (N := Tree n) a = .subtree) (hc : Node.children (N := Tree n) a = [t])
    (hs : Served (N := Tree n) a) (ha : Node.state (N := Tree n) a = .uninitialized) (ht : (ops n).state t = .uninitialized) (h : List Op) (hh : Proper (ops n) h t) :
    (runs (ops (n + 1)) h a).1.map (·.res) = (runs (ops n) h t).1.map (·.res) ∧
    nodeStates (n + 1) (runs (ops (n + 1)) h a).2 = (Node.id (N := Tree n) a, (ops n).state (runs (ops n) h t).2) :: nodeStates n (runs (ops n) h t).2 := by
  obtain ⟨r1, r2⟩ := over_runs (ops n) (ops_sound n) h a t ⟨hk, hc, hs, ha.trans ht.symm, .inr ha⟩ hh
  have hid : ∀ h (a : Node (Tree n)), (runs (Node.ops (ops n)) h a).2.id = a.id := by
    intro h
    induction h with
    | nil => exact fun _ => rfl
    | cons op h ih => exact fun a => (ih _).trans (run_static (ops n) op a).1
  refine ⟨r1, ?_⟩
  have hn : ∀ b : Node (Tree n), b.id = Node.id (N := Tree n) a → Over (ops n) b (runs (ops n) h t).2 →
      nodeStates (n + 1) b = (Node.id (N := Tree n) a, (ops n).state (runs (ops n) h t).2) :: nodeStates n (runs (ops n) h t).2 := by
    intro b h1 h2
    simp only [nodeStates, h1, h2.state, h2.children, List.flatMap_cons, List.flatMap_nil, List.append_nil]
  exact hn _ (hid h a) r2

/-- The operations make sense, and the tree can be shut down without error. -/
def Sensible (o : Ops N) : List Op → N → Prop
  | [], _ => True
  | op :: h, t => Due op (o.state t) ∧ (op = .shutdown → (o.run op t).res ≠ .err) ∧ Sensible o h (o.run op t).node

instance (o : Ops N) : (h : List Op) → (t : N) → Decidable (Sensible o h t)
  | [], _ => .isTrue trivial
  | op :: h, t =>
    have := instDecidableSensible o h (o.run op t).node
    inferInstanceAs (Decidable (_ ∧ _ ∧ _))

theorem proper_sensible (n : Nat) (h : List Op) : ∀ t : Tree (n + 1), Node.kind (N := Tree n) t ≠ .leaf → Caches (n + 1) t → Sensible (ops (n + 1)) h t → Proper (ops (n + 1)) h t := by
  induction h with
  | nil => exact fun _ _ _ _ => trivial
  | cons op h ih =>
    intro t hk hc ⟨p1, p2, p3⟩
    refine ⟨p1, fun he => ?_, ih _ ?_ (caches_run (n + 1) op t hc) p3⟩
    · by_cases hop : op = .shutdown
      · exact absurd he (p2 hop)
      · rcases run_err_breaks (ops n) (ops_sound n) op t hc.1 p1.1 hop he with h | ⟨h, _⟩
        · exact h
        · exact absurd h hk
    · show Node.kind (Node.run (ops n) op t).node ≠ .leaf
      rw [(run_static (ops n) op t).2.2.1]
      exact hk

/-- C126 for trees whose root is not a leaf: all that is asked for is that shutting down the tree does not fail. -/
theorem c126_trees_partial (n : Nat) (a : Tree (n + 2)) (t : Tree (n + 1)) (hk : Node.kind (N := Tree (n + 1)) a = .subtree) (hc : Node.children (N := Tree (n + 1)) a = [t])
    (hs : Served (N := Tree (n + 1)) a) (ha : Node.state (N := Tree (n + 1)) a = .uninitialized) (ht : Fresh (n + 1) t) (hl : Node.kind (N := Tree n) t ≠ .leaf)
    (h : List Op) (hh : Sensible (ops (n + 1)) h t) :
    (runs (ops (n + 2)) h a).1.map (·.res) = (runs (ops (n + 1)) h t).1.map (·.res) ∧
    nodeStates (n + 2) (runs (ops (n + 2)) h a).2 =
      (Node.id (N := Tree (n + 1)) a, (ops (n + 1)).state (runs (ops (n + 1)) h t).2) :: nodeStates (n + 1) (runs (ops (n + 1)) h t).2 :=
  c126_transparent_partial (n + 1) a t hk hc hs ha ht.1.1 h (proper_sensible n h t hl (caches_fresh (n + 1) t ht) hh)

/-! ### In a larger tree -/

/-- A tree that can stand in for its Subtree node whatever is done: calls that are refused, a second shutdown and a shutdown before the first setup have no effect that is seen later, and a
failed operation leaves it BROKEN. -/
structure Meek (o : Ops N) (t : N) : Prop where
  refused : ∀ h op, let y := (runs o h t).2
    accepts op (o.state y) = false → (o.run op y).res = .err ∧ Same o o (o.run op y).node y
  again : ∀ h, let y := (runs o h t).2
    o.state y = .shutdown → (o.run .shutdown y).res = .ok .shutdown ∧ Same o o (o.run .shutdown y).node y
  early : ∀ h, let y := (runs o h t).2
    o.state y = .uninitialized → (o.run .shutdown y).res = .ok .shutdown ∧ (o.run .setup (o.run .shutdown y).node).res = (o.run .setup y).res ∧
      Same o o (o.run .setup (o.run .shutdown y).node).node (o.run .setup y).node
  loud : ∀ h op, let y := (runs o h t).2
    Due op (o.state y) → (o.run op y).res = .err → o.state (o.run op y).node = .broken

theorem meek_run {o : Ops N} {t : N} (h : Meek o t) (op : Op) : Meek o (o.run op t).node :=
  ⟨fun l => h.refused (op :: l), fun l => h.again (op :: l), fun l => h.early (op :: l), fun l => h.loud (op :: l)⟩

/-- Before the first setup. -/
structure Unset (o : Ops N) (a : Node N) (t x : N) : Prop where
  kind : a.kind = .subtree
  children : a.children = [t]
  served : Served a
  rootless : a.mem.rootSet = false
  state : a.state = o.state x
  fresh : o.state t = .uninitialized
  when : o.state x = .uninitialized ∧ Same o o t x ∨ o.state x = .shutdown ∧ (o.run .setup x).res = (o.run .setup t).res ∧ Same o o (o.run .setup x).node (o.run .setup t).node

/-- The Subtree node `a` and what stands in for it. -/
def Stands (o : Ops N) (a : Node N) (x : N) : Prop :=
  a.name = o.name x ∧ Meek o x ∧ ∃ t, Unset o a t x ∨ Over o a t ∧ a.mem.rootSet = true ∧ a.state ≠ .uninitialized ∧ Same o o t x

theorem due_or (op : Op) (s : BTState) : Due op s ∨ accepts op s = false ∨ op = .shutdown ∧ (s = .shutdown ∨ s = .uninitialized) := by
  cases op <;> cases s <;> simp [Due, accepts]

theorem allowed_set (op : Op) (s : BTState) (h : allowedAfter op s = true) : s ≠ .uninitialized := by
  rintro rfl
  cases op <;> simp [allowedAfter] at h

theorem due_shut {op : Op} (h : Due op .shutdown) : op = .setup := by
  cases op <;> simp [Due, accepts] at h ⊢

theorem run_refused (o : Ops N) (op : Op) (a : Node N) (h : accepts op a.state = false) : (Node.run o op a).res = .err ∧ (Node.run o op a).node = { a with ctr := a.ctr + 1 } := by
  cases op with
  | shutdown => simp [accepts] at h
  | tick => simp [Node.run, Node.runTick, h, Node.wrap]
  | setup => simp [Node.run, Node.runPlain, h, Node.wrap]
  | untick => simp [Node.run, Node.runPlain, h, Node.wrap]
  | reset => simp [Node.run, Node.runPlain, h, Node.wrap]

theorem run_again (o : Ops N) (a : Node N) (hk : a.kind = .subtree) (h : a.state = .shutdown) :
    (Node.run o .shutdown a).res = .ok .shutdown ∧ (Node.run o .shutdown a).node = { a with ctr := a.ctr + 1 } := by
  simp [Node.run, Node.runShutdown, h, Node.finishShutdown, hk, visibleChildren, Node.wrap]

theorem run_early (o : Ops N) (a : Node N) (hk : a.kind = .subtree) (hr : a.mem.rootSet = false) (h : a.state = .uninitialized) :
    (Node.run o .shutdown a).res = .ok .shutdown ∧ (Node.run o .shutdown a).node = { a with ctr := a.ctr + 1, state := .shutdown } := by
  simp [Node.run, Node.runShutdown, h, Node.finishShutdown, Node.runHook, hk, visibleChildren, Node.wrap, hookProg, shutdownHook, hr, allowedAfter]

theorem stands_bisim (o : Ops N) (hs : Sound o) (hn : ∀ op t, o.name (o.run op t).node = o.name t) : Bisim (Node.ops o) o (Stands o) := by
  intro a x ⟨h1, h2, t, h3⟩
  have name : ∀ op, (Node.run o op a).node.name = o.name (o.run op x).node := fun op => by rw [(run_static o op a).2.1, hn, h1]
  refine ⟨?_, h1, fun op => ?_⟩
  · rcases h3 with h3 | h3
    · exact h3.state
    · exact h3.1.state.trans h3.2.2.2.state
  have m2 := meek_run h2 op
  show (Node.run o op a).res = _ ∧ Stands o (Node.run o op a).node _
  -- operations that make sense
  have step : ∀ t, a.kind = .subtree → a.children = [t] → Served a → (a.mem.rootSet = true ∨ op = .setup) → Due op a.state → a.state = o.state x →
      (o.run op t).res = (o.run op x).res → Same o o (o.run op t).node (o.run op x).node →
      (Node.run o op a).res = (o.run op x).res ∧ Stands o (Node.run o op a).node (o.run op x).node := by
    intro t k1 k2 k3 k4 hd hst hr hsm
    have loud : (o.run op x).res = .err → o.state (o.run op x).node = .broken := h2.loud [] op (hst ▸ hd)
    obtain ⟨r1, r2⟩ := over_step o hs op a t k1 k2 k3 k4 hd fun he => by rw [hsm.state]; exact loud (hr ▸ he)
    have hne : (Node.run o op a).node.state ≠ .uninitialized := by
      rw [r2.state]
      cases hres : (o.run op t).res with
      | err => rw [hsm.state, loud (hr ▸ hres)]; exact fun h => by cases h
      | ok s => rw [(hs _ _ _ hres).1]; exact allowed_set op s (hs _ _ _ hres).2
    exact ⟨r1.trans hr, name op, m2, _, .inr ⟨r2, r2.rooted.resolve_right hne, hne, hsm⟩⟩
  rcases h3 with hu | ⟨ho, hroot, hne, hsm⟩
  · rcases due_or op (o.state x) with hd | hd | ⟨rfl, hd⟩
    · have hop : op = .setup := by
        rcases hu.when with ⟨h, _⟩ | ⟨h, _⟩
        · exact due_fresh (h ▸ hd)
        · exact due_shut (h ▸ hd)
      subst hop
      rcases hu.when with ⟨_, h⟩ | ⟨_, h, h'⟩
      · exact step t hu.kind hu.children hu.served (.inr rfl) (hu.state ▸ hd) hu.state ((same_bisim _ _ _ _ h).2.2 .setup).1 ((same_bisim _ _ _ _ h).2.2 .setup).2
      · exact step t hu.kind hu.children hu.served (.inr rfl) (hu.state ▸ hd) hu.state h.symm (same_symm h')
    · obtain ⟨r1, r2⟩ := run_refused o op a (hu.state ▸ hd)
      obtain ⟨x1, x2⟩ : (o.run op x).res = .err ∧ Same o o (o.run op x).node x := h2.refused [] op hd
      have hb := (same_bisim _ _ _ _ x2).2.2 .setup
      refine ⟨r1.trans x1.symm, name op, m2, t, .inl ?_⟩
      rw [r2]
      refine ⟨hu.kind, hu.children, hu.served, hu.rootless, hu.state.trans x2.state.symm, hu.fresh, ?_⟩
      rcases hu.when with ⟨h, h'⟩ | ⟨h, h', h''⟩
      · exact .inl ⟨x2.state.trans h, same_trans h' (same_symm x2)⟩
      · exact .inr ⟨x2.state.trans h, hb.1.trans h', same_trans hb.2 h''⟩
    · rcases hd with hd | hd
      · obtain ⟨r1, r2⟩ := run_again o a hu.kind (hu.state.trans hd)
        obtain ⟨x1, x2⟩ : (o.run .shutdown x).res = .ok .shutdown ∧ Same o o (o.run .shutdown x).node x := h2.again [] hd
        have hb := (same_bisim _ _ _ _ x2).2.2 .setup
        refine ⟨r1.trans x1.symm, name .shutdown, m2, t, .inl ?_⟩
        rw [r2]
        refine ⟨hu.kind, hu.children, hu.served, hu.rootless, hu.state.trans x2.state.symm, hu.fresh, ?_⟩
        rcases hu.when with ⟨h, h'⟩ | ⟨h, h', h''⟩
        · rw [h] at hd; cases hd
        · exact .inr ⟨x2.state.trans h, hb.1.trans h', same_trans hb.2 h''⟩
      · obtain ⟨r1, r2⟩ := run_early o a hu.kind hu.rootless (hu.state.trans hd)
        obtain ⟨x1, x2, x3⟩ : (o.run .shutdown x).res = .ok .shutdown ∧ (o.run .setup (o.run .shutdown x).node).res = (o.run .setup x).res ∧
            Same o o (o.run .setup (o.run .shutdown x).node).node (o.run .setup x).node := h2.early [] hd
        refine ⟨r1.trans x1.symm, name .shutdown, m2, t, .inl ?_⟩
        rw [r2]
        refine ⟨hu.kind, hu.children, hu.served, hu.rootless, (hs _ _ _ x1).1.symm, hu.fresh, .inr ⟨(hs _ _ _ x1).1, ?_⟩⟩
        rcases hu.when with ⟨h, h'⟩ | ⟨h, h', h''⟩
        · have hb := (same_bisim _ _ _ _ h').2.2 .setup
          exact ⟨x2.trans hb.1.symm, same_trans x3 (same_symm hb.2)⟩
        · rw [h] at hd; cases hd
  · have hst := ho.state.trans hsm.state
    rcases due_or op (o.state x) with hd | hd | ⟨rfl, hd⟩
    · exact step t ho.kind ho.children ho.served (.inl hroot) (hst ▸ hd) hst ((same_bisim _ _ _ _ hsm).2.2 op).1 ((same_bisim _ _ _ _ hsm).2.2 op).2
    · obtain ⟨r1, r2⟩ := run_refused o op a (hst ▸ hd)
      obtain ⟨x1, x2⟩ : (o.run op x).res = .err ∧ Same o o (o.run op x).node x := h2.refused [] op hd
      refine ⟨r1.trans x1.symm, name op, m2, t, .inr ?_⟩
      rw [r2]
      exact ⟨⟨ho.kind, ho.children, ho.served, ho.state, ho.rooted⟩, hroot, hne, same_trans hsm (same_symm x2)⟩
    · have hd : o.state x = .shutdown := hd.resolve_right fun h => hne (hst.trans h)
      obtain ⟨r1, r2⟩ := run_again o a ho.kind (hst.trans hd)
      obtain ⟨x1, x2⟩ : (o.run .shutdown x).res = .ok .shutdown ∧ Same o o (o.run .shutdown x).node x := h2.again [] hd
      refine ⟨r1.trans x1.symm, name .shutdown, m2, t, .inr ?_⟩
      rw [r2]
      exact ⟨⟨ho.kind, ho.children, ho.served, ho.state, ho.rooted⟩, hroot, hne, same_trans hsm (same_symm x2)⟩

theorem ops_name (n : Nat) (op : Op) (t : Tree n) : (ops n).name ((ops n).run op t).node = (ops n).name t := by
  cases n with
  | zero => exact Empty.elim t
  | succ n => exact (run_static (ops n) op t).2.1

/-- C126: a Subtree node behaves exactly like its tree, if that is one that can stand in for it. (So it can be exchanged for it anywhere, `c98_context`.) -/
theorem c126_same_partial (n : Nat) (a : Tree (n + 1)) (t : Tree n) (hk : Node.kind (N := Tree n) a = .subtree) (hc : Node.children (N := Tree n) a = [t])
    (hs : Served (N := Tree n) a) (ha : Node.state (N := Tree n) a = .uninitialized) (hm : Node.mem (N := Tree n) a = {}) (ht : (ops n).state t = .uninitialized)
    (hn : (ops (n + 1)).name a = (ops n).name t) (hmk : Meek (ops n) t) : Same (ops (n + 1)) (ops n) a t :=
  Laws.same_of_bisim (stands_bisim (ops n) (ops_sound n) (ops_name n)) ⟨hn, hmk, t, .inl ⟨hk, hc, hs, by rw [hm], ha.trans ht.symm, ht, .inl ⟨ht, same_refl _ _⟩⟩⟩

/-! ### Examples -/

/-- A Sequence of two getters; the second is RUNNING at first. -/
def inner : Tree 2 := mk 1 5 .sequence [Laws.source 0 6 [], Laws.source 0 7 [.succeeded, .running]]

/-- The same as a Subtree. -/
def outer : Tree 3 := mk 2 5 .subtree [inner]

example : Node.kind (N := Tree 2) outer = .subtree ∧ Node.children (N := Tree 2) outer = [inner] ∧ Served (N := Tree 2) outer ∧ Node.state (N := Tree 2) outer = .uninitialized ∧
    Fresh 2 inner ∧ Node.kind (N := Tree 1) inner ≠ .leaf ∧ Sensible (ops 2) [.setup, .tick, .tick, .reset, .tick, .untick, .shutdown, .setup, .tick] inner :=
  ⟨rfl, rfl, fun _ => ⟨rfl, rfl, rfl, rfl⟩, rfl, by decide, by decide, by decide⟩

example : (runs (ops 3) [.setup, .tick, .tick, .untick, .shutdown] outer).1.map (·.res) = [.ok .idle, .ok .running, .ok .succeeded, .ok .idle, .ok .shutdown] := by decide +kernel

/-- C126 is violated if the tree cannot be shut down without error: the root is SHUTDOWN, the Subtree node is BROKEN (`node.py:705-713`: the error of a child is the answer although the
state is SHUTDOWN; `subtree.py:259-267` passes it on, `node.py:673-675`). So a setup reaches the nodes in one case but not in the other. -/
theorem c126_shutdown_error : ∃ (a : Tree 3) (t : Tree 2), Node.kind (N := Tree 2) a = .subtree ∧ Node.children (N := Tree 2) a = [t] ∧ Served (N := Tree 2) a ∧ Fresh 3 a ∧
    nodeStates 2 (runs (ops 2) [.setup, .shutdown] t).2 = [(5, .shutdown), (6, .shutdown), (7, .broken)] ∧
    nodeStates 3 (runs (ops 3) [.setup, .shutdown] a).2 = [(4, .broken), (5, .shutdown), (6, .shutdown), (7, .broken)] ∧
    nodeStates 2 (runs (ops 2) [.setup, .shutdown, .setup] t).2 = [(5, .broken), (6, .idle), (7, .broken)] ∧
    nodeStates 3 (runs (ops 3) [.setup, .shutdown, .setup] a).2 = [(4, .broken), (5, .shutdown), (6, .shutdown), (7, .broken)] := by
  refine ⟨mk 2 4 .subtree [mk 1 5 .sequence [Laws.source 0 6 [], mkLeaf 0 7 [.ok .idle, .err]]], mk 1 5 .sequence [Laws.source 0 6 [], mkLeaf 0 7 [.ok .idle, .err]], rfl, rfl,
    fun _ => ⟨rfl, rfl, rfl, rfl⟩, by decide, ?_, ?_, ?_, ?_⟩ <;> decide +kernel

/-- A getter that always answers this. -/
def always (r : OwnRes) (s : BTState) (c : Nat) : Tree 1 := (⟨5, 5, .getter, s, {}, fun _ => { own := r }, c, []⟩ : Node (Tree 0))

/-- The state it is in after an operation, and its answer. -/
def next (r : OwnRes) (op : Op) (s : BTState) : BTState × Res :=
  if accepts op s then match op with
    | .setup | .reset | .untick => (.idle, .ok .idle)
    | .shutdown => (.shutdown, .ok .shutdown)
    | .tick => match r with
      | .err => (.broken, .err)
      | .failed => (.failed, .ok .failed)
      | .running => (.running, .ok .running)
      | .succeeded => (.succeeded, .ok .succeeded)
  else (s, .err)

theorem always_run (r : OwnRes) (op : Op) (s : BTState) (c : Nat) : ((ops 1).run op (always r s c)).node = always r (next r op s).1 (c + 1) ∧ ((ops 1).run op (always r s c)).res = (next r op s).2 := by
  cases op <;> cases s <;> cases r <;> exact ⟨rfl, rfl⟩

theorem always_runs (r : OwnRes) (h : List Op) : ∀ s c, ∃ s' c', (runs (ops 1) h (always r s c)).2 = always r s' c' := by
  induction h with
  | nil => exact fun s c => ⟨s, c, rfl⟩
  | cons op h ih =>
    intro s c
    obtain ⟨s', c', h'⟩ := ih (next r op s).1 (c + 1)
    refine ⟨s', c', ?_⟩
    show (runs (ops 1) h ((ops 1).run op (always r s c)).node).2 = _
    rw [(always_run r op s c).1, h']

theorem always_same (r : OwnRes) (s : BTState) (c c' : Nat) : Same (ops 1) (ops 1) (always r s c) (always r s c') := by
  refine Laws.same_of_bisim (R := fun x y => ∃ s c c', x = always r s c ∧ y = always r s c') ?_ ⟨s, c, c', rfl, rfl⟩
  rintro _ _ ⟨s, c, c', rfl, rfl⟩
  refine ⟨rfl, rfl, fun op => ⟨?_, (next r op s).1, c + 1, c' + 1, (always_run r op s c).1, (always_run r op s c').1⟩⟩
  rw [(always_run r op s c).2, (always_run r op s c').2]

theorem always_meek (r : OwnRes) (s : BTState) (c : Nat) : Meek (ops 1) (always r s c) := by
  have st : ∀ s c, (ops 1).state (always r s c) = s := fun _ _ => rfl
  refine ⟨fun h op => ?_, fun h => ?_, fun h => ?_, fun h op => ?_⟩ <;> obtain ⟨s', c', h'⟩ := always_runs r h s c <;> rw [h'] <;> dsimp only <;> rw [st]
  · intro ha
    have hn : next r op s' = (s', .err) := by simp [next, ha]
    rw [(always_run r op s' c').1, (always_run r op s' c').2, hn]
    exact ⟨rfl, always_same r s' _ _⟩
  · rintro rfl
    rw [(always_run r _ _ c').1, (always_run r _ _ c').2]
    exact ⟨rfl, always_same r _ _ _⟩
  · rintro rfl
    rw [(always_run r _ _ c').1, (always_run r _ _ c').2, (always_run r _ _ _).1, (always_run r _ _ _).2, (always_run r .setup _ _).1, (always_run r .setup _ _).2]
    exact ⟨rfl, rfl, always_same r _ _ _⟩
  · intro hd he
    rw [(always_run r op s' c').2] at he
    rw [(always_run r op s' c').1, st]
    revert hd he
    cases op <;> cases s' <;> cases r <;> decide

example : Node.kind (N := Tree 1) (mk 1 5 .subtree [always .running .uninitialized 0]) = .subtree ∧ Meek (ops 1) (always .running .uninitialized 0) ∧
    Same (ops 2) (ops 1) (mk 1 5 .subtree [always .running .uninitialized 0]) (always .running .uninitialized 0) :=
  ⟨rfl, always_meek _ _ _, c126_same_partial 1 _ _ rfl rfl (fun _ => ⟨rfl, rfl, rfl, rfl⟩) rfl rfl rfl rfl (always_meek _ _ _)⟩

end Verif.BT.Inline
