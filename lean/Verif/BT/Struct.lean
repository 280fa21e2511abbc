import Verif.BT.Spec
import Verif.BT.Loops
import Verif.BT.Lifecycle

/-!
# Generic preservation lemmas
-/

set_option autoImplicit false

namespace Verif.BT

variable {N : Type}

theorem List.forall_mem_set_of {α} {Q : α → Prop} {l : List α} {i : Nat} {a : α}
    (h : ∀ c ∈ l, Q c) (ha : Q a) : ∀ c ∈ l.set i a, Q c := by
  intro c hc
  rcases List.mem_or_eq_of_mem_set hc with h' | h'
  · exact h c h'
  · exact h' ▸ ha

/-- A property of children that every operation keeps is kept by every hook. -/
theorem exec_children (o : Ops N) (Q : N → Prop)
    (hQ : ∀ op c, Q c → Q (o.run op c).node) (p : Prog) :
    ∀ cs : List N, (∀ c ∈ cs, Q c) → ∀ c ∈ (exec o p cs).children, Q c := by
  induction p with
  | done m r => intro cs h; simpa using h
  | call op i k ih =>
    intro cs h
    simp only [exec]
    split
    · exact ih _ cs h
    · rename_i c hc
      apply ih
      exact List.forall_mem_set_of h (hQ op c (h c (List.mem_of_getElem? hc)))
  | peek i k ih =>
    intro cs h
    simp only [exec]
    split
    · exact ih _ cs h
    · exact ih _ cs h

theorem exec_length (o : Ops N) (p : Prog) :
    ∀ cs : List N, (exec o p cs).children.length = cs.length := by
  induction p with
  | done m r => intro cs; simp
  | call op i k ih =>
    intro cs
    simp only [exec]
    split
    · exact ih _ cs
    · rw [ih]; simp
  | peek i k ih =>
    intro cs
    simp only [exec]
    split <;> exact ih _ cs

/-- A function of children that operations do not change is unchanged by hooks, child by child. -/
theorem exec_map {α} (o : Ops N) (f : N → α)
    (hf : ∀ op c, f (o.run op c).node = f c) (p : Prog) :
    ∀ cs : List N, (exec o p cs).children.map f = cs.map f := by
  induction p with
  | done m r => intro cs; simp
  | call op i k ih =>
    intro cs
    simp only [exec]
    split
    · exact ih _ cs
    · rename_i c hc
      rw [ih, List.map_set, hf]
      apply List.ext_getElem?
      intro j
      rw [List.getElem?_set]
      split
      · rename_i hij
        subst hij
        obtain ⟨hlt, hget⟩ := List.getElem?_eq_some_iff.1 hc
        simp [hlt, hget]
      · rfl
  | peek i k ih =>
    intro cs
    simp only [exec]
    split <;> exact ih _ cs

theorem shutdownAll_children (o : Ops N) (Q : N → Prop)
    (hQ : ∀ op c, Q c → Q (o.run op c).node) (cs : List N) (h : ∀ c ∈ cs, Q c) :
    ∀ c ∈ (shutdownAll o cs).1, Q c := by
  induction cs with
  | nil => simp [shutdownAll]
  | cons c cs ih =>
    simp only [shutdownAll, List.mem_cons, forall_eq_or_imp]
    exact ⟨hQ _ _ (h c (by simp)), ih fun c hc => h c (by simp [hc])⟩

theorem shutdownAll_map {α} (o : Ops N) (f : N → α)
    (hf : ∀ op c, f (o.run op c).node = f c) (cs : List N) :
    (shutdownAll o cs).1.map f = cs.map f := by
  induction cs with
  | nil => simp [shutdownAll]
  | cons c cs ih => simp [shutdownAll, hf, ih]

/-- All the ways in which an operation on a node can end. Used for case analysis:
`x` is the outcome of the hook (if it ran). -/
theorem run_cases (o : Ops N) (op : Op) (nd : Node N) (P : Out (Node N) → Prop)
    (hrej : accepts op nd.state = false →
      P (Node.wrap op { nd with ctr := nd.ctr + 1 } .err [] []))
    (hin : op = .tick → accepts op nd.state = true → (nd.env nd.ctr).inputsOk = false →
      P (Node.wrap op { nd with ctr := nd.ctr + 1, state := .broken } .err [] []))
    (herr : ∀ x, x = exec o (hookProg nd.kind op nd.state nd.mem (nd.env nd.ctr)
          (nd.children.map o.name)) nd.children →
      accepts op nd.state = true → (op = .shutdown → nd.state ≠ .shutdown) →
      (x.res = .err ∨ (∃ s, op = .tick ∧ x.res = .ok s ∧ allowedAfter .tick s = true ∧
        (nd.env nd.ctr).pushOk = false)) →
      P (Node.wrap op { nd with ctr := nd.ctr + 1, mem := x.mem, children := x.children, state := .broken } .err x.log
        (.hook op nd.id :: x.trace)))
    (hbad : ∀ x s, x = exec o (hookProg nd.kind op nd.state nd.mem (nd.env nd.ctr)
          (nd.children.map o.name)) nd.children →
      accepts op nd.state = true → (op = .shutdown → nd.state ≠ .shutdown) →
      x.res = .ok s → allowedAfter op s = false →
      P (Node.wrap op { nd with ctr := nd.ctr + 1, mem := x.mem, children := x.children, state := s } .err x.log
        (.hook op nd.id :: x.trace)))
    (hok : ∀ x s, op ≠ .shutdown → x = exec o (hookProg nd.kind op nd.state nd.mem (nd.env nd.ctr)
          (nd.children.map o.name)) nd.children →
      accepts op nd.state = true → (op = .tick → (nd.env nd.ctr).inputsOk = true) →
      x.res = .ok s → allowedAfter op s = true →
      P (Node.wrap op { nd with ctr := nd.ctr + 1, mem := x.mem, children := x.children, state := s } (.ok s) x.log
        (.hook op nd.id :: x.trace)))
    (hsd0 : op = .shutdown → nd.state = .shutdown →
      P (Node.finishShutdown o { nd with ctr := nd.ctr + 1 } [] []))
    (hsd : ∀ x, op = .shutdown → x = exec o (hookProg nd.kind op nd.state nd.mem (nd.env nd.ctr)
          (nd.children.map o.name)) nd.children →
      nd.state ≠ .shutdown → x.res = .ok .shutdown →
      P (Node.finishShutdown o { nd with ctr := nd.ctr + 1, mem := x.mem, children := x.children, state := .shutdown }
        x.log (.hook op nd.id :: x.trace))) :
    P (nd.run o op) := by
  cases op with
  | setup =>
    by_cases ha : accepts .setup nd.state = true
    · simp only [Node.run, Node.runPlain, ha, if_true, Node.runHook]
      split
      · rename_i hr
        exact herr _ rfl ha (by simp) (Or.inl hr)
      · rename_i s hr
        split
        · rename_i hal
          exact hok _ s (by simp) rfl ha (by simp) hr hal
        · rename_i hal
          exact hbad _ s rfl ha (by simp) hr (by simpa using hal)
    · simp only [Node.run, Node.runPlain, ha, Bool.false_eq_true, if_false]
      exact hrej (by simpa using ha)
  | untick =>
    by_cases ha : accepts .untick nd.state = true
    · simp only [Node.run, Node.runPlain, ha, if_true, Node.runHook]
      split
      · rename_i hr
        exact herr _ rfl ha (by simp) (Or.inl hr)
      · rename_i s hr
        split
        · rename_i hal
          exact hok _ s (by simp) rfl ha (by simp) hr hal
        · rename_i hal
          exact hbad _ s rfl ha (by simp) hr (by simpa using hal)
    · simp only [Node.run, Node.runPlain, ha, Bool.false_eq_true, if_false]
      exact hrej (by simpa using ha)
  | reset =>
    by_cases ha : accepts .reset nd.state = true
    · simp only [Node.run, Node.runPlain, ha, if_true, Node.runHook]
      split
      · rename_i hr
        exact herr _ rfl ha (by simp) (Or.inl hr)
      · rename_i s hr
        split
        · rename_i hal
          exact hok _ s (by simp) rfl ha (by simp) hr hal
        · rename_i hal
          exact hbad _ s rfl ha (by simp) hr (by simpa using hal)
    · simp only [Node.run, Node.runPlain, ha, Bool.false_eq_true, if_false]
      exact hrej (by simpa using ha)
  | tick =>
    by_cases ha : accepts .tick nd.state = true
    · simp only [Node.run, Node.runTick, ha, if_true, Node.runHook]
      split
      · rename_i hi
        split
        · rename_i hr
          exact herr _ rfl ha (by simp) (Or.inl hr)
        · rename_i s hr
          split
          · rename_i hal
            split
            · exact hok _ s (by simp) rfl ha (fun _ => hi) hr hal
            · rename_i hp
              exact herr _ rfl ha (by simp) (Or.inr ⟨s, rfl, hr, hal, by simpa using hp⟩)
          · rename_i hal
            exact hbad _ s rfl ha (by simp) hr (by simpa using hal)
      · rename_i hi
        exact hin rfl ha (by simpa using hi)
    · simp only [Node.run, Node.runTick, ha, Bool.false_eq_true, if_false]
      exact hrej (by simpa using ha)
  | shutdown =>
    by_cases hs : nd.state = .shutdown
    · simp only [Node.run, Node.runShutdown, hs, if_true]
      have := hsd0 rfl hs
      simpa [hs] using this
    · simp only [Node.run, Node.runShutdown, hs, if_false, Node.runHook]
      split
      · rename_i hr
        exact herr _ rfl rfl (fun _ => hs) (Or.inl hr)
      · rename_i s hr
        split
        · rename_i hal
          have : s = .shutdown := by simpa [allowedAfter] using hal
          subst this
          exact hsd _ rfl rfl hs hr
        · rename_i hal
          exact hbad _ s rfl rfl (fun _ => hs) hr (by simpa using hal)

/-- The parts of a node that no operation changes. -/
theorem run_static (o : Ops N) (op : Op) (nd : Node N) :
    let nd' := (nd.run o op).node
    nd'.id = nd.id ∧ nd'.name = nd.name ∧ nd'.kind = nd.kind ∧ nd'.env = nd.env ∧
    nd'.ctr = nd.ctr + 1 ∧ nd'.children.length = nd.children.length := by
  have hlen : ∀ cs : List N, (shutdownAll o cs).1.length = cs.length := by
    intro cs; induction cs <;> simp_all [shutdownAll]
  apply run_cases o op nd (P := fun out => let nd' := out.node
    nd'.id = nd.id ∧ nd'.name = nd.name ∧ nd'.kind = nd.kind ∧ nd'.env = nd.env ∧
    nd'.ctr = nd.ctr + 1 ∧ nd'.children.length = nd.children.length)
  · intro _; simp [Node.wrap]
  · intro _ _ _; simp [Node.wrap]
  · intro x hx _ _ _; subst hx; simp [Node.wrap, exec_length]
  · intro x s hx _ _ _ _; subst hx; simp [Node.wrap, exec_length]
  · intro x s _ hx _ _ _ _; subst hx; simp [Node.wrap, exec_length]
  · intro _ _; simp only [Node.finishShutdown]; split <;> simp [Node.wrap, hlen]
  · intro x _ hx _ _; subst hx
    simp only [Node.finishShutdown]; split <;> simp [Node.wrap, exec_length, hlen]

/-- Children keep every property that all operations keep. -/
theorem run_children (o : Ops N) (Q : N → Prop) (hQ : ∀ op c, Q c → Q (o.run op c).node)
    (op : Op) (nd : Node N) (h : ∀ c ∈ nd.children, Q c) :
    ∀ c ∈ (nd.run o op).node.children, Q c := by
  apply run_cases o op nd (P := fun out => ∀ c ∈ out.node.children, Q c)
  · intro _; simpa [Node.wrap] using h
  · intros; simp_all [Node.wrap]
  · intro x hx _ _ _; subst hx; exact exec_children o Q hQ _ _ h
  · intro x s hx _ _ _ _; subst hx; exact exec_children o Q hQ _ _ h
  · intro x s _ hx _ _ _ _; subst hx; exact exec_children o Q hQ _ _ h
  · intro _ _; simp only [Node.finishShutdown]; split
    · exact shutdownAll_children o Q hQ _ h
    · exact h
  · intro x _ hx _ _; subst hx
    simp only [Node.finishShutdown]; split
    · exact shutdownAll_children o Q hQ _ (exec_children o Q hQ _ _ h)
    · exact exec_children o Q hQ _ _ h

theorem run_children_map {α} (o : Ops N) (f : N → α) (hf : ∀ op c, f (o.run op c).node = f c)
    (op : Op) (nd : Node N) :
    (nd.run o op).node.children.map f = nd.children.map f := by
  apply run_cases o op nd (P := fun out => out.node.children.map f = nd.children.map f)
  · intro _; simp [Node.wrap]
  · intros; simp_all [Node.wrap]
  · intro x hx _ _ _; subst hx; exact exec_map o f hf _ _
  · intro x s hx _ _ _ _; subst hx; exact exec_map o f hf _ _
  · intro x s _ hx _ _ _ _; subst hx; exact exec_map o f hf _ _
  · intro _ _; simp only [Node.finishShutdown]; split
    · exact shutdownAll_map o f hf _
    · rfl
  · intro x _ hx _ _; subst hx
    simp only [Node.finishShutdown]; split
    · exact (shutdownAll_map o f hf _).trans (exec_map o f hf _ _)
    · exact exec_map o f hf _ _

/-- Ids never change. -/
theorem nodeIds_run (n : Nat) (op : Op) (t : Tree n) :
    nodeIds n ((ops n).run op t).node = nodeIds n t := by
  induction n generalizing op with
  | zero => exact Empty.elim t
  | succ n ih =>
    have h1 := run_children_map (ops n) (nodeIds n) (fun op c => ih op c) op t
    have h2 := run_static (ops n) op t
    have flat : ∀ cs : List (Tree n),
        (cs.flatMap (nodeStates n)).map (·.1) = (cs.map (nodeIds n)).flatten := by
      intro cs
      induction cs with
      | nil => rfl
      | cons c cs ih => simp [ih, nodeIds]
    simp only [nodeIds, nodeStates, List.map_cons, flat]
    have h3 := congrArg List.flatten h1
    show (Node.run (ops n) op t).node.id :: _ = _
    rw [h2.1]
    exact congrArg _ h3

/-- Child limits stay respected. -/
theorem WF_run (n : Nat) (op : Op) (t : Tree n) (h : WF n t) : WF n ((ops n).run op t).node := by
  induction n generalizing op with
  | zero => exact Empty.elim t
  | succ n ih =>
    have h2 := run_static (ops n) op t
    refine ⟨?_, run_children (ops n) (WF n) (fun op c hc => ih op c hc) op t h.2⟩
    have h3 : childrenOk ((t : Node (Tree n)).kind) (t : Node (Tree n)).children.length := h.1
    have e1 := h2.2.2.1
    have e2 := h2.2.2.2.2.2
    show childrenOk (Node.run (ops n) op t).node.kind (Node.run (ops n) op t).node.children.length
    rw [e1, e2]
    exact h3

end Verif.BT
