import Verif.Exec.Guard
import Verif.BT.Deep

/-! SHUTDOWN: what it leaves (C43), and that it brings a tree back (C44). -/

set_option autoImplicit false

namespace Verif.Exec

open Verif.BT (Op Res BTState Ops Tree ops WF NestedInv AllUsed unusedSubtree)

variable {N : Type} {o : Ops N}

/-! ### A property of the root that everything keeps -/

/-- `P` holds for the root, if there is one. -/
def Holds (P : N → Prop) (tr : Topo N) : Prop := ∀ t, tr = .root t → P t

/-- Whatever the outside world does to the nodes by raising exceptions keeps `P`. -/
def Mild (P : N → Prop) (world : Nat → World N) : Prop := ∀ i f t, (world i).raise = some f → P t → P (f t)

/-- Every edit keeps `P`. -/
def MildEdits (P : N → Prop) (as : List (Action N)) : Prop :=
  ∀ f, Action.edit f ∈ as → ∀ x, Holds P x.1 → Holds P (f x).1

/-- What is to be shown of the manager. -/
def Kept (P : N → Prop) (m : Mgr N) : Prop := Holds P m.tree ∧ Mild P m.world

theorem holds_root {P : N → Prop} {t : N} (h : P t) : Holds P (.root t) := fun _ e => by cases e; exact h

/-- A property of the manager that depends on nodes and world only and is kept by what is done to the nodes. -/
structure Stable (o : Ops N) (Q : Mgr N → Prop) : Prop where
  think : ∀ m, Q m → Q (threadStep o m)
  op : ∀ m t op, Q m → m.tree = .root t → Q { m with tree := .root (o.run op t).node }
  rest : ∀ m m' : Mgr N, Q m → m'.tree = m.tree → m'.world = m.world → Q m'

namespace Stable
variable {Q : Mgr N → Prop}

theorem join (h : Stable o Q) {m : Mgr N} (n : Nat) (hq : Q m) : Q (join o n m) := join_keeps Q h.think n m hq

theorem shutdown (h : Stable o Q) {m : Mgr N} (hq : Q m) : Q (shutdownCmd o m).1 := by
  unfold shutdownCmd
  cases ht : m.tree with
  | bad => exact h.rest m _ hq ht.symm rfl
  | empty => exact h.rest m _ hq ht.symm rfl
  | root t =>
    have := h.op m t .shutdown hq ht
    dsimp only
    split
    · exact this
    · exact h.rest _ _ this rfl rfl

theorem stopPart (h : Stable o Q) {m : Mgr N} (hq : Q m) : Q (stopPart o m).1 := by
  unfold Exec.stopPart
  cases hs : m.state with
  | ticking =>
    dsimp only
    have := h.join joinSteps (h.rest m { m with state := .stopRequested, asked := true } hq rfl rfl)
    split
    · exact this
    · split <;> exact this
  | waiting =>
    dsimp only
    cases ht : m.tree with
    | bad => exact hq
    | empty => exact hq
    | root t =>
      have := h.op m t .untick hq ht
      rw [hs] at this
      dsimp only
      split <;> exact this
  | _ => exact hq

theorem stopCmd (h : Stable o Q) {m : Mgr N} (down : Bool) (hq : Q m) : Q (stopCmd o down m).1 := by
  have := h.stopPart hq
  unfold Exec.stopCmd
  cases hp : Exec.stopPart o m with
  | mk m' r =>
    rw [hp] at this
    cases r with
    | some r => exact this
    | none =>
      dsimp only
      split
      · exact h.shutdown this
      · exact this

theorem dispatch (h : Stable o Q) {m : Mgr N} (c : Cmd) (hq : Q m) : Q (dispatch o c m).1 := by
  have hm : ∀ u, Q (tickMultipleCmd u m).1 := by
    intro u
    unfold tickMultipleCmd
    split
    · exact hq
    · split
      · exact hq
      · exact hq
      · exact h.rest m _ hq rfl rfl
  unfold Exec.dispatch
  split
  · exact hq
  · cases c with
    | setupAndShutdown =>
      dsimp only
      split
      · exact hq
      · split
        · exact hq
        · exact h.stopCmd true hq
    | stop => exact h.stopCmd false hq
    | shutdown => exact h.stopCmd true hq
    | tickOnce =>
      dsimp only
      unfold tickOnceCmd
      split
      · exact hq
      · have := h.join joinSteps (h.rest m (startThread true { m with once := true, untilResult := false, state := .ticking }) hq rfl rfl)
        cases ht : m.tree with
        | bad => exact hq
        | empty => exact hq
        | root t =>
          dsimp only
          rw [← ht]
          split
          · exact this
          · split <;> exact this
    | tickPeriodically => exact hm false
    | tickUntilResult => exact hm true
    | reset =>
      dsimp only
      unfold resetCmd
      split
      · exact hq
      · cases ht : m.tree with
        | bad => exact hq
        | empty => exact h.rest m _ hq ht.symm rfl
        | root t =>
          have := h.op m t .reset hq ht
          dsimp only
          split
          · exact this
          · exact h.rest _ _ this rfl rfl
    | doNothing => exact hq
    | unknown => exact hq

theorem ready (h : Stable o Q) {m : Mgr N} (hq : Q m) : Q (ready o m) := by
  have hr : ∀ m : Mgr N, Q m → Q (renew m) := by
    intro m hq
    unfold renew newThread
    split
    · exact hq
    · exact h.rest m _ hq rfl rfl
  unfold Exec.ready
  split
  · exact hr _ (h.join joinSteps hq)
  · exact hr _ hq

theorem control (h : Stable o Q) {m : Mgr N} (b : Bool) (c : Cmd) (hq : Q m) : Q (control o b c m).1 := by
  rcases control_eq (o := o) m b c with e | ⟨e, _⟩
  · rw [e]; exact h.dispatch c (h.ready hq)
  · rw [e]; exact hq

end Stable

theorem kept_stable {P : N → Prop} (hP : ∀ op t, P t → P (o.run op t).node) : Stable o (Kept P) where
  think := by
    intro m h
    cases ht : m.thread with
    | absent | fresh | dead => rw [threadStep_still _ (by rw [ht]; rfl)]; exact h
    | alive pc =>
      have mv := moves (o := o) m ht
      generalize threadStep o m = m' at mv
      obtain ⟨h1, h2⟩ := h
      cases mv with
      | startRaise t f e hw => exact ⟨holds_root (h2 _ f t hw (h1 t e)), h2⟩
      | tickRaise t f e hw => exact ⟨holds_root (h2 _ f t hw (h1 t e)), h2⟩
      | untickRaise t f e hw => exact ⟨holds_root (h2 _ f t hw (h1 t e)), h2⟩
      | startSetup t e => exact ⟨holds_root (hP _ t (h1 t e)), h2⟩
      | startBad t e => exact ⟨holds_root (hP _ t (h1 t e)), h2⟩
      | tickErr t e => exact ⟨holds_root (hP _ t (h1 t e)), h2⟩
      | tickOk t s e => exact ⟨holds_root (hP _ t (h1 t e)), h2⟩
      | untickErr t e => exact ⟨holds_root (hP _ t (h1 t e)), h2⟩
      | untickOk t s e => exact ⟨holds_root (hP _ t (h1 t e)), h2⟩
      | _ => exact ⟨h1, h2⟩
  op := fun m t op h ht => ⟨holds_root (hP op t (h.1 t ht)), h.2⟩
  rest := fun m m' h e w => ⟨by rw [e]; exact h.1, by rw [w]; exact h.2⟩

theorem kept_run {P : N → Prop} (hP : ∀ op t, P t → P (o.run op t).node) (as : List (Action N)) :
    ∀ {m : Mgr N}, Kept P m → MildEdits P as → Kept P (run o as m) := by
  induction as with
  | nil => intro m h _; exact h
  | cons a as ih =>
    intro m h he
    refine ih ?_ fun f hf => he f (List.mem_cons_of_mem _ hf)
    cases a with
    | command c b => exact (kept_stable hP).control b c h
    | think => exact (kept_stable hP).think m h
    | edit f =>
      show Kept P (edit f m).1
      unfold edit
      split
      · exact h
      · exact ⟨he f (by simp) _ h.1, h.2⟩

/-! ### C43 -/

theorem shutdown_success {m : Mgr N} (hs : (shutdownCmd o m).2.success = true) {t' : N} (hr : (shutdownCmd o m).1.tree = .root t') :
    (shutdownCmd o m).1.state = .editable ∧ ∃ t, m.tree = .root t ∧ (o.run .shutdown t).res.isOk = true ∧ (o.run .shutdown t).node = t' := by
  unfold shutdownCmd at hs hr ⊢
  cases ht : m.tree with
  | bad => rw [ht] at hr; cases hr
  | empty => rw [ht] at hr; cases hr
  | root t =>
    rw [ht] at hs hr
    dsimp only at hs hr ⊢
    cases he : (o.run .shutdown t).res with
    | err => rw [he] at hs; cases hs
    | ok s =>
      rw [he] at hr
      exact ⟨rfl, t, rfl, by rw [he]; rfl, by cases hr; rfl⟩

theorem stopPart_some (m : Mgr N) (r : Resp) (h : (stopPart o m).2 = some r) : r.success = false := by
  unfold stopPart at h
  cases hs : m.state with
  | ticking =>
    rw [hs] at h
    dsimp only at h
    split at h
    · cases h; rfl
    · split at h
      · cases h
      · cases h; rfl
  | waiting =>
    rw [hs] at h
    dsimp only at h
    cases ht : m.tree with
    | bad => rw [ht] at h; cases h; rfl
    | empty => rw [ht] at h; cases h
    | root t =>
      rw [ht] at h
      dsimp only at h
      split at h
      · cases h
      · cases h; rfl
  | _ => rw [hs] at h; cases h

/-- A successful SHUTDOWN has shut down the root after the last thing the tick thread did. -/
theorem shutdown_control {m : Mgr N} (h : Inv m) (b : Bool) (hs : (control o b .shutdown m).2.success = true) {t' : N}
    (hr : (control o b .shutdown m).1.tree = .root t') :
    (control o b .shutdown m).1.state = .editable ∧ ¬ Executing (control o b .shutdown m).1.thread ∧
    ∃ m', Inv m' ∧ (∀ Q, Stable o Q → Q m → Q m') ∧ ∃ t, m'.tree = .root t ∧ (o.run .shutdown t).res.isOk = true ∧ (o.run .shutdown t).node = t' := by
  rcases control_eq (o := o) m b .shutdown with e | ⟨e, _⟩
  · have hi' := inv_control (o := o) b .shutdown h
    rw [e] at hs hr hi' ⊢
    have hi := inv_ready (o := o) h
    have hsp := inv_stopPart (o := o) hi.1 hi.2
    have ed : dispatch o .shutdown (ready o m) = stopCmd o true (ready o m) := by
      unfold dispatch; rw [if_neg (by simp)]
    rw [ed] at hs hr hi' ⊢
    unfold stopCmd at hs hr hi' ⊢
    cases hp : stopPart o (ready o m) with
    | mk m' r =>
      rw [hp] at hs hr hsp hi'
      dsimp only at hs hr hsp hi' ⊢
      cases r with
      | some r =>
        exfalso
        have := stopPart_some (o := o) (ready o m) r (by rw [hp])
        rw [this] at hs; cases hs
      | none =>
        simp only [if_true] at hs hr hi' ⊢
        obtain ⟨h1, h2⟩ := shutdown_success hs hr
        refine ⟨h1, hi'.quiet (by simp [h1]) (by simp [h1]), m', hsp.1, fun Q hQ hm => ?_, h2⟩
        have := hQ.stopPart (hQ.ready hm)
        rw [hp] at this; exact this
  · rw [e] at hs; cases hs

/-- C43 for requests that are handled one after the other: whatever commands, edits, ticks, errors and exceptions have come
before, when SHUTDOWN is answered with success and there is a root, the tree is EDITABLE, the tick thread does not execute and every
node (of a nested tree that has ever been set up) is SHUTDOWN. Edits and exceptions may do to the tree whatever they want as long as
it respects the child limits and unused nested trees stay unused. -/
theorem c43_shutdown_partial (n : Nat) (m : Mgr (Tree n)) (hm : Start m)
    (hg : Kept (fun t => WF n t ∧ NestedInv n t) m) (as : List (Action (Tree n)))
    (he : MildEdits (fun t => WF n t ∧ NestedInv n t) as) (b : Bool)
    (hs : (control (ops n) b .shutdown (run (ops n) as m)).2.success = true) (t : Tree n)
    (ht : (control (ops n) b .shutdown (run (ops n) as m)).1.tree = .root t) :
    (control (ops n) b .shutdown (run (ops n) as m)).1.state = .editable ∧
    ¬ Executing (control (ops n) b .shutdown (run (ops n) as m)).1.thread ∧
    AllUsed unusedSubtree (fun s => s = .shutdown) n t := by
  have hP : ∀ op (t : Tree n), (WF n t ∧ NestedInv n t) → WF n ((ops n).run op t).node ∧ NestedInv n ((ops n).run op t).node := by
    intro op t h
    have := BT.runs_inv n [op] t h.1 h.2
    exact this
  obtain ⟨h1, h2, m', _, h4, t0, h5, h6, h7⟩ := shutdown_control (inv_reached hm as) b hs ht
  have hk := (h4 _ (kept_stable hP) (kept_run hP as hg he)).1 t0 h5
  refine ⟨h1, h2, ?_⟩
  rw [← h7]
  exact (BT.nested_shutdown n).2 t0 hk.1 hk.2 h6

/-! ### C44 -/

/-- A running tick thread is not one for a single tick. -/
def Steady (m : Mgr N) : Prop := m.thread.isAlive = true → m.once = false

theorem steady_dead {m : Mgr N} (h : m.thread.isAlive = false) : Steady m := fun e => by rw [h] at e; cases e

theorem steady_thread {m : Mgr N} (h : Steady m) : Steady (threadStep o m) := by
  cases ht : m.thread with
  | absent | fresh | dead => rw [threadStep_still _ (by rw [ht]; rfl)]; exact h
  | alive pc =>
    have mv := moves (o := o) m ht
    have hh : m.once = false := h (by rw [ht]; rfl)
    generalize threadStep o m = m' at mv
    cases mv <;> simp_all [Steady, Thread.isAlive]

theorem steady_join {m : Mgr N} (n : Nat) (h : Steady m) : Steady (join o n m) := join_keeps Steady (fun _ => steady_thread) n m h

theorem steady_stopPart {m : Mgr N} (h : Steady m) : Steady (stopPart o m).1 := by
  unfold stopPart
  cases m.state with
  | ticking =>
    dsimp only
    have := steady_join (o := o) joinSteps (m := { m with state := .stopRequested, asked := true }) h
    split
    · exact this
    · split <;> exact this
  | waiting =>
    dsimp only
    cases m.tree with
    | bad => exact h
    | empty => exact h
    | root t => dsimp only; split <;> exact h
  | _ => exact h

theorem steady_shutdown {m : Mgr N} (h : Steady m) : Steady (shutdownCmd o m).1 := by
  unfold shutdownCmd
  cases m.tree with
  | bad => exact h
  | empty => exact h
  | root t => dsimp only; split <;> exact h

theorem steady_stopCmd {m : Mgr N} (down : Bool) (h : Steady m) : Steady (stopCmd o down m).1 := by
  have := steady_stopPart (o := o) h
  unfold stopCmd
  cases hp : stopPart o m with
  | mk m' r =>
    rw [hp] at this
    cases r with
    | some r => exact this
    | none =>
      dsimp only
      split
      · exact steady_shutdown this
      · exact this

theorem steady_dispatch {m : Mgr N} (c : Cmd) (hl : m.lost = []) (h : Steady m) : Steady (dispatch o c m).1 := by
  have hm : ∀ u, Steady (tickMultipleCmd u m).1 := by
    intro u
    unfold tickMultipleCmd
    split
    · exact h
    · split
      · exact h
      · exact h
      · exact fun _ => rfl
  unfold dispatch
  split
  · exact h
  · cases c with
    | setupAndShutdown =>
      dsimp only
      split
      · exact h
      · split
        · exact h
        · exact steady_stopCmd true h
    | stop => exact steady_stopCmd false h
    | shutdown => exact steady_stopCmd true h
    | tickOnce =>
      dsimp only
      unfold tickOnceCmd
      split
      · exact h
      · have := steady_dead (once_join (o := o) m hl).1
        cases ht : m.tree with
        | bad => exact h
        | empty => exact h
        | root t =>
          dsimp only
          rw [← ht]
          split
          · exact this
          · split <;> exact this
    | tickPeriodically => exact hm false
    | tickUntilResult => exact hm true
    | reset =>
      dsimp only
      unfold resetCmd
      split
      · exact h
      · cases m.tree with
        | bad => exact h
        | empty => exact h
        | root t => dsimp only; split <;> exact h
    | doNothing => exact h
    | unknown => exact h

theorem steady_ready {m : Mgr N} (h : Steady m) : Steady (ready o m) := by
  have hr : ∀ m : Mgr N, Steady m → Steady (renew m) := by
    intro m hq
    unfold renew
    split
    · exact hq
    · exact steady_dead rfl
  unfold ready
  split
  · exact hr _ (steady_join joinSteps h)
  · exact hr _ h

theorem steady_step {m : Mgr N} (a : Action N) (hi : Inv m) (h : Steady m) : Steady (step o a m) := by
  cases a with
  | command c b =>
    show Steady (control o b c m).1
    rcases control_eq (o := o) m b c with e | ⟨e, _⟩
    · rw [e]; exact steady_dispatch c (inv_ready hi).1.lost (steady_ready h)
    · rw [e]; exact h
  | edit f =>
    show Steady (edit f m).1
    unfold edit
    split <;> exact h
  | think => exact steady_thread h

theorem steady_reached {m : Mgr N} (h : Start m) (as : List (Action N)) : Steady (run o as m) := by
  have hi := inv_start h
  have hs : Steady m := steady_dead (by rw [h.2.1]; rfl)
  clear h
  induction as generalizing m with
  | nil => exact hs
  | cons a as ih => exact ih (inv_step a hi) (steady_step a hi hs)

/-- While a thread for more than one tick runs, WAITING_FOR_TICK is not entered. -/
theorem not_waiting_thread {m : Mgr N} (hs : Steady m) (h : m.state ≠ .waiting) : (threadStep o m).state ≠ .waiting := by
  cases ht : m.thread with
  | absent | fresh | dead => rw [threadStep_still _ (by rw [ht]; rfl)]; exact h
  | alive pc =>
    have mv := moves (o := o) m ht
    have hh : m.once = false := hs (by rw [ht]; rfl)
    generalize threadStep o m = m' at mv
    cases mv <;> simp_all

theorem not_waiting_join {m : Mgr N} (n : Nat) (hs : Steady m) (h : m.state ≠ .waiting) : (join o n m).state ≠ .waiting :=
  (join_keeps (fun m : Mgr N => Steady m ∧ m.state ≠ .waiting) (fun _ h => ⟨steady_thread h.1, not_waiting_thread h.1 h.2⟩) n m ⟨hs, h⟩).2

/-- The tree can be shut down. -/
def Obedient (o : Ops N) (t : N) : Prop := (o.run .shutdown t).res.isOk = true

/-- Nothing is in the way of a shutdown. -/
def Clear (o : Ops N) (m : Mgr N) : Prop :=
  m.state ≠ .ticking ∧ (m.state = .waiting → ∀ t, m.tree = .root t → o.state (o.run .untick t).node = .idle ∨ o.state (o.run .untick t).node = .paused) ∧
  (m.state = .waiting → m.tree ≠ .bad)

theorem shutdown_obedient {m : Mgr N} (h : Holds (Obedient o) m.tree) :
    (shutdownCmd o m).1.state = .editable ∧ (shutdownCmd o m).2.success = true := by
  unfold shutdownCmd
  cases ht : m.tree with
  | bad => exact ⟨rfl, rfl⟩
  | empty => exact ⟨rfl, rfl⟩
  | root t =>
    dsimp only
    have := h t ht
    unfold Obedient at this
    cases hr : (o.run .shutdown t).res with
    | err => rw [hr] at this; cases this
    | ok s => exact ⟨rfl, rfl⟩

theorem stopPart_clear {m : Mgr N} (hc : Clear o m) : (stopPart o m).2 = none := by
  unfold stopPart
  cases hs : m.state with
  | ticking => exact absurd hs hc.1
  | waiting =>
    dsimp only
    cases ht : m.tree with
    | bad => exact absurd ht (hc.2.2 hs)
    | empty => rfl
    | root t => dsimp only; rw [if_pos (hc.2.1 hs t ht)]
  | _ => rfl

theorem shutdown_clear {P : N → Prop} (hP : ∀ op t, P t → P (o.run op t).node) (hd : ∀ t, P t → Obedient o t) {m : Mgr N} (hk : Kept P m)
    (hc : Clear o (ready o m)) :
    (control o true .shutdown m).1.state = .editable ∧ (control o true .shutdown m).2.success = true := by
  rcases control_eq (o := o) m true .shutdown with e | ⟨_, e, _⟩
  · rw [e]
    have ed : dispatch o .shutdown (ready o m) = stopCmd o true (ready o m) := by
      unfold dispatch; rw [if_neg (by simp)]
    rw [ed]
    unfold stopCmd
    have hk' := ((kept_stable hP).stopPart ((kept_stable hP).ready hk)).1
    have hn := stopPart_clear hc
    cases hp : stopPart o (ready o m) with
    | mk m' r =>
      rw [hp] at hk' hn
      dsimp only at hn hk'
      subst hn
      dsimp only
      rw [if_pos rfl]
      exact shutdown_obedient fun t ht => hd t (hk' t ht)
  · cases e

theorem recovery {P : N → Prop} (hP : ∀ op t, P t → P (o.run op t).node) (hd : ∀ t, P t → Obedient o t)
    (m' : Mgr N) (hi : Inv m') (hst : Steady m') (hk : Kept P m')
    (hw : m'.state = .waiting → m'.tree ≠ .bad ∧ ∀ t, m'.tree = .root t →
      o.state (o.run .untick t).node = .idle ∨ o.state (o.run .untick t).node = .paused)
    (m1 m2 : Mgr N × Resp) (e1 : m1 = control o true .shutdown m') (e2 : m2 = control o true .shutdown m1.1) :
    (m1.1.state = .editable ∧ m1.2.success = true ∨ m'.state = .ticking) ∧ m2.1.state = .editable ∧ m2.2.success = true := by
  have hk1 : Kept P m1.1 := by rw [e1]; exact (kept_stable hP).control true .shutdown hk
  have hclear : ∀ m : Mgr N, m.state ≠ .ticking → m.state ≠ .waiting → Clear o m :=
    fun m h1 h2 => ⟨h1, fun h => absurd h h2, fun h => absurd h h2⟩
  have hrenew : ∀ m : Mgr N, (renew m).state = m.state ∧ (renew m).tree = m.tree := by
    intro m; unfold renew newThread; split <;> exact ⟨rfl, rfl⟩
  -- EDITABLE, ERROR, STOP_REQUESTED are fine
  have hfine : ∀ m : Mgr N, m.state = .editable ∨ m.state = .error ∨ m.state = .stopRequested → Clear o (ready o m) := by
    intro m h
    unfold ready
    have hne : ¬ (m.state = .idle ∧ m.thread.isAlive = true) := by rintro ⟨h1, _⟩; rw [h1] at h; simp at h
    rw [if_neg hne]
    refine hclear _ ?_ ?_ <;> rw [(hrenew m).1] <;> rcases h with h | h | h <;> rw [h] <;> simp
  have hone : Clear o (ready o m') → (m1.1.state = .editable ∧ m1.2.success = true ∨ m'.state = .ticking) ∧ m2.1.state = .editable ∧ m2.2.success = true := by
    intro hc
    have h1 := shutdown_clear hP hd hk hc
    rw [← e1] at h1
    rw [e2]
    exact ⟨.inl h1, shutdown_clear hP hd hk1 (hfine _ (.inl h1.1))⟩
  cases hs : m'.state with
  | editable => rw [hs] at hone; exact hone (hfine _ (.inl hs))
  | error => rw [hs] at hone; exact hone (hfine _ (.inr (.inl hs)))
  | stopRequested => rw [hs] at hone; exact hone (hfine _ (.inr (.inr hs)))
  | waiting =>
    rw [hs] at hone
    apply hone
    unfold ready
    rw [if_neg (by simp [hs])]
    refine ⟨?_, ?_, ?_⟩
    · rw [(hrenew m').1, hs]; simp
    · intro _ t ht; rw [(hrenew m').2] at ht; exact (hw hs).2 t ht
    · intro _; rw [(hrenew m').2]; exact (hw hs).1
  | idle =>
    rw [hs] at hone
    apply hone
    unfold ready
    split
    · have h1 := not_waiting_join (o := o) joinSteps hst (by simp [hs])
      have h2 : (join o joinSteps m').state ≠ .ticking := by
        have hx : ∀ x : Mgr N, x.state ≠ .ticking → (threadStep o x).state ≠ .ticking := by
          intro x hx
          cases ht : x.thread with
          | absent | fresh | dead => rw [threadStep_still _ (by rw [ht]; rfl)]; exact hx
          | alive pc =>
            have mv := moves (o := o) x ht
            generalize threadStep o x = x' at mv
            cases mv <;> simp_all
        exact join_keeps (fun x : Mgr N => x.state ≠ .ticking) hx joinSteps m' (by simp [hs])
      refine hclear _ ?_ ?_ <;> rw [(hrenew _).1]
      · exact h2
      · exact h1
    · refine hclear _ ?_ ?_ <;> rw [(hrenew _).1, hs] <;> simp
  | ticking =>
    refine ⟨.inr rfl, ?_⟩
    -- the first SHUTDOWN stops the thread
    have hne : ¬ (m'.state = .idle ∧ m'.thread.isAlive = true) := by simp [hs]
    have e1 : m1 = stopCmd o true (renew m') := by
      rw [e1]
      unfold control
      rw [if_neg hne]
      unfold dispatch
      rw [if_neg (by simp)]
    have hrs : (renew m').state = .ticking := by rw [(hrenew m').1, hs]
    have hst' : Steady (renew m') := by
      unfold renew; split
      · exact hst
      · exact steady_dead rfl
    have hi' := inv_ready (o := o) hi
    unfold ready at hi'
    rw [if_neg hne] at hi'
    have hj := stopping_join (o := o) { renew m' with state := .stopRequested, asked := true }
      ⟨hi'.1.lost, by simp, by simp⟩ (fun _ _ => .inl rfl)
    have hjw := not_waiting_join (o := o) joinSteps (m := { renew m' with state := .stopRequested, asked := true }) hst' (by simp)
    have hjt : (join o joinSteps { renew m' with state := .stopRequested, asked := true }).state ≠ .ticking := by
      have hx : ∀ x : Mgr N, x.state ≠ .ticking → (threadStep o x).state ≠ .ticking := by
        intro x hx
        cases ht : x.thread with
        | absent | fresh | dead => rw [threadStep_still _ (by rw [ht]; rfl)]; exact hx
        | alive pc =>
          have mv := moves (o := o) x ht
          generalize threadStep o x = x' at mv
          cases mv <;> simp_all
      exact join_keeps (fun x : Mgr N => x.state ≠ .ticking) hx joinSteps _ (by simp)
    have hsp : stopPart o (renew m') = ((join o joinSteps { renew m' with state := .stopRequested, asked := true }),
        if (join o joinSteps { renew m' with state := .stopRequested, asked := true }).state = .idle then none else some ⟨false, none⟩) := by
      unfold stopPart
      rw [hrs]
      dsimp only
      rw [if_neg (by simp [hj.1])]
      split <;> rfl
    generalize join o joinSteps { renew m' with state := .stopRequested, asked := true } = j at hj hjw hjt hsp
    have hkj : Kept P j := by
      have := (kept_stable hP).stopPart (m := renew m') (by
        have := (kept_stable hP).ready hk
        unfold ready at this; rw [if_neg hne] at this; exact this)
      rw [hsp] at this; exact this
    rw [e2]
    apply shutdown_clear hP hd hk1
    by_cases hidle : j.state = .idle
    · rw [if_pos hidle] at hsp
      have : m1.1.state = .editable := by
        rw [e1]
        unfold stopCmd
        rw [hsp]
        dsimp only
        rw [if_pos rfl]
        exact (shutdown_obedient fun t ht => hd t (hkj.1 t ht)).1
      exact hfine _ (.inl this)
    · rw [if_neg hidle] at hsp
      have : m1.1 = j := by
        rw [e1]
        unfold stopCmd
        rw [hsp]
      rw [this]
      unfold ready
      rw [if_neg (by simp [hidle])]
      refine hclear _ ?_ ?_ <;> rw [(hrenew _).1]
      · exact hjt
      · exact hjw

/-- C44, for trees that can be shut down: whatever has happened before, and even if a tick is in progress, two SHUTDOWN
commands bring the tree to EDITABLE, and one suffices if the tree is not TICKING. What is missing: in WAITING_FOR_TICK the nodes must
form a tree that can be unticked, and a tick thread that is leaving must not take longer than half a second. -/
theorem c44_recovery_partial {P : N → Prop} (hP : ∀ op t, P t → P (o.run op t).node) (hd : ∀ t, P t → Obedient o t)
    (m : Mgr N) (hm : Start m) (hk : Kept P m) (as : List (Action N)) (he : MildEdits P as)
    (hw : (run o as m).state = .waiting → (run o as m).tree ≠ .bad ∧ ∀ t, (run o as m).tree = .root t →
      o.state (o.run .untick t).node = .idle ∨ o.state (o.run .untick t).node = .paused) :
    let m1 := control o true .shutdown (run o as m)
    let m2 := control o true .shutdown m1.1
    (m1.1.state = .editable ∧ m1.2.success = true ∨ (run o as m).state = .ticking) ∧ m2.1.state = .editable ∧ m2.2.success = true :=
  recovery hP hd (run o as m) (inv_reached hm as) (steady_reached hm as) (kept_run hP as hk he) hw _ _ rfl rfl

/-- Nodes that do what they are told. -/
def toy : Ops BTState where
  run := fun op s =>
    let s' : BTState := match op with | .setup | .untick | .reset => .idle | .tick => .running | .shutdown => .shutdown
    ⟨s', .ok s', [], []⟩
  state := id
  name := fun _ => 0

/-- A tick raises an exception: the tick thread is gone, the tree state is still TICKING. The first SHUTDOWN is answered with a failure,
the second one works. -/
def toyRaises : Mgr BTState :=
  { tree := .root .uninitialized, world := fun i => if i = 2 then { raise := some fun _ => .running } else {} }

example : Start toyRaises ∧ Kept (fun _ => True) toyRaises ∧ (∀ t, Obedient toy t) ∧
    (run toy [.command .tickPeriodically true, .think, .think, .think] toyRaises).state = .ticking ∧
    (run toy [.command .tickPeriodically true, .think, .think, .think] toyRaises).thread = .dead ∧
    (control toy true .shutdown (run toy [.command .tickPeriodically true, .think, .think, .think] toyRaises)).2.success = false :=
  ⟨by decide, ⟨fun _ _ => trivial, fun _ _ _ _ _ => trivial⟩, fun _ => rfl, by decide, by decide, by decide⟩

/-- C43 on the sample tree: it is ticked, the stop request arrives in the middle of a tick. -/
example : Start (sample false) ∧ Kept (fun t => WF 2 t ∧ NestedInv 2 t) (sample false) ∧
    (run (ops 2) [.command .tickPeriodically true, .think, .think] (sample false)).state = .ticking ∧
    (control (ops 2) true .shutdown (run (ops 2) [.command .tickPeriodically true, .think, .think] (sample false))).2.success = true :=
  ⟨by decide, ⟨fun t e => by cases e; exact ⟨by decide, BT.nestedInv_of_fresh 2 _ (by decide)⟩, fun i f t h => by cases h⟩,
    by decide, by decide⟩

/-! A WAITING_FOR_TICK that is not left: the root cannot be unticked. -/

/-- A leaf that succeeds when ticked and fails when unticked. -/
def stubborn : Tree 1 := BT.mkLeaf 0 1 [.ok .idle, .ok .succeeded, .err]

theorem broken_untick (t : Tree 1) (h : (ops 1).state t = .broken) : (ops 1).state ((ops 1).run .untick t).node = .broken := by
  change BT.Node.state (N := Tree 0) t = .broken at h
  show BT.Node.state (N := Tree 0) (BT.Node.run (ops 0) .untick t).node = .broken
  simp [BT.Node.run, BT.Node.runPlain, BT.Node.wrap, BT.accepts, h]

theorem broken_stays (m : Mgr (Tree 1)) (t : Tree 1) (ht : m.tree = .root t) (hb : (ops 1).state t = .broken) (hs : m.state = .waiting)
    (b : Bool) : (control (ops 1) b .shutdown m).1.state = .waiting ∧ (control (ops 1) b .shutdown m).2.success = false ∧
    ∃ t', (control (ops 1) b .shutdown m).1.tree = .root t' ∧ (ops 1).state t' = .broken := by
  have hu := broken_untick t hb
  have hr : (renew m).state = .waiting ∧ (renew m).tree = .root t := by
    unfold renew newThread; split <;> exact ⟨hs, ht⟩
  have e : control (ops 1) b .shutdown m = stopCmd (ops 1) true (renew m) := by
    unfold control
    rw [if_neg (by simp [hs])]
    unfold dispatch
    rw [if_neg (by simp)]
  have e2 : stopPart (ops 1) (renew m) = ({ renew m with tree := .root ((ops 1).run .untick t).node }, some ⟨false, some .error⟩) := by
    unfold stopPart
    rw [hr.1]
    dsimp only
    rw [hr.2]
    dsimp only
    rw [if_neg (by simp [hu])]
    rw [hr.1]
  rw [e]
  unfold stopCmd
  rw [e2]
  exact ⟨hr.1, rfl, _, rfl, hu⟩

/-- C44 does not hold in general: TICK_ONCE on a tree whose root cannot be unticked (but can be shut down). However many SHUTDOWN
commands follow, all are refused and the tree stays in WAITING_FOR_TICK. -/
theorem c44_stuck_in_waiting :
    ∃ m : Mgr (Tree 1), Start m ∧ m.tree = .root stubborn ∧
      ∀ n, (run (ops 1) (.command .tickOnce true :: .command .shutdown true :: List.replicate n (.command .shutdown true)) m).state = .waiting ∧
        (control (ops 1) true .shutdown
          (run (ops 1) (.command .tickOnce true :: .command .shutdown true :: List.replicate n (.command .shutdown true)) m)).2.success = false := by
  refine ⟨{ tree := .root stubborn }, by decide, rfl, fun n => ?_⟩
  have key : ∀ (n : Nat) (m : Mgr (Tree 1)), (m.state = .waiting ∧ ∃ t, m.tree = .root t ∧ (ops 1).state t = .broken) →
      ((run (ops 1) (List.replicate n (.command .shutdown true)) m).state = .waiting ∧
        ∃ t, (run (ops 1) (List.replicate n (.command .shutdown true)) m).tree = .root t ∧ (ops 1).state t = .broken) := by
    intro n
    induction n with
    | zero => intro m h; exact h
    | succ n ih =>
      rintro m ⟨h1, t, h2, h3⟩
      have := broken_stays m t h2 h3 h1 true
      exact ih _ ⟨this.1, this.2.2⟩
  have := key n (run (ops 1) [.command .tickOnce true, .command .shutdown true] { tree := .root stubborn })
    ⟨by decide, _, rfl, by decide⟩
  have hr : run (ops 1) (.command .tickOnce true :: .command .shutdown true :: List.replicate n (.command .shutdown true)) { tree := .root stubborn } =
    run (ops 1) (List.replicate n (.command .shutdown true)) (run (ops 1) [.command .tickOnce true, .command .shutdown true] { tree := .root stubborn }) := rfl
  rw [hr]
  obtain ⟨h1, t, h2, h3⟩ := this
  exact ⟨h1, (broken_stays _ t h2 h3 h1 true).2.1⟩

/-- The tree above can be shut down after the failed untick. -/
example : ((ops 1).run .shutdown (BT.runs (ops 1) [.setup, .tick, .untick] stubborn).2).res.isOk = true := by decide

end Verif.Exec
