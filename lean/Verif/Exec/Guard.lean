import Verif.Exec.Control
import Verif.BT.Sample

/-! What the tree state guards: edits (C39, C40), the ERROR state (C42), the number of tick threads (C46). -/

set_option autoImplicit false

namespace Verif.Exec

open Verif.BT (Op Res BTState Ops)

variable {N : Type} {o : Ops N}

/-- C39: an edit request outside EDITABLE is answered with a failure and changes nothing. -/
theorem c39_rejected (m : Mgr N) (f : Topo N × Bool → Topo N × Bool) (h : m.state ≠ .editable) :
    edit f m = (m, false) := by
  unfold edit; rw [if_pos h]

/-- C39, seen from the nodes: in every run, if an edit request has changed anything the tree was EDITABLE and the request
was answered with success. -/
theorem c39_edit (m : Mgr N) (f : Topo N × Bool → Topo N × Bool)
    (h : (edit f m).1.tree ≠ m.tree ∨ (edit f m).1.orphans ≠ m.orphans ∨ (edit f m).1.state ≠ m.state) :
    m.state = .editable ∧ (edit f m).2 = true ∧ (edit f m).1.state = .editable := by
  by_cases hs : m.state = .editable
  · unfold edit
    rw [if_neg (by simp [hs])]
    exact ⟨hs, rfl, hs⟩
  · rw [c39_rejected m f hs] at h
    simp at h

/-- A command that may lead to EDITABLE. -/
def Action.opens : Action N → Bool
  | .command .shutdown _ => true
  | .command .setupAndShutdown _ => true
  | _ => false

/-- An edit request. -/
def Action.isEdit : Action N → Bool
  | .edit _ => true
  | _ => false

theorem locked_thread {m : Mgr N} (h : m.state ≠ .editable) : (threadStep o m).state ≠ .editable := by
  cases ht : m.thread with
  | absent | fresh | dead => rw [threadStep_still _ (by rw [ht]; rfl)]; exact h
  | alive pc =>
    have mv := moves (o := o) m ht
    generalize threadStep o m = m' at mv
    cases mv <;> simp_all

theorem locked_join {m : Mgr N} (n : Nat) (h : m.state ≠ .editable) : (join o n m).state ≠ .editable :=
  join_keeps (fun m : Mgr N => m.state ≠ .editable) (fun _ => locked_thread) n m h

theorem locked_ready {m : Mgr N} (h : m.state ≠ .editable) : (ready o m).state ≠ .editable := by
  have hr : ∀ m : Mgr N, (renew m).state = m.state := by intro m; unfold renew newThread; split <;> rfl
  unfold ready
  rw [hr]
  split
  · exact locked_join _ h
  · exact h

theorem locked_dispatch {m : Mgr N} (c : Cmd) (hc : c ≠ .shutdown ∧ c ≠ .setupAndShutdown) (h : m.state ≠ .editable) :
    (dispatch o c m).1.state ≠ .editable := by
  unfold dispatch
  split
  · exact h
  · cases c with
    | setupAndShutdown => exact absurd rfl hc.2
    | shutdown => exact absurd rfl hc.1
    | stop =>
      have : (stopPart o m).1.state ≠ .editable := by
        unfold stopPart
        cases hs : m.state with
        | ticking =>
          dsimp only
          have := locked_join (o := o) joinSteps (m := { m with state := .stopRequested, asked := true }) (by simp)
          split
          · exact this
          · split <;> exact this
        | waiting =>
          dsimp only
          cases m.tree with
          | bad => exact h
          | empty => exact h
          | root t => dsimp only; split <;> simp
        | _ => exact h
      dsimp only
      unfold stopCmd
      cases hp : stopPart o m with
      | mk m' r => rw [hp] at this; cases r <;> exact this
    | tickOnce =>
      dsimp only
      unfold tickOnceCmd
      split
      · exact h
      · have := locked_join (o := o) joinSteps (m := startThread true { m with once := true, untilResult := false, state := .ticking })
          (by simp [startThread])
        cases ht : m.tree with
        | bad => exact h
        | empty => exact h
        | root t =>
          dsimp only
          rw [← ht]
          split
          · exact this
          · split <;> exact this
    | tickPeriodically =>
      dsimp only
      unfold tickMultipleCmd
      split
      · exact h
      · split
        · exact h
        · exact h
        · simp [startThread]
    | tickUntilResult =>
      dsimp only
      unfold tickMultipleCmd
      split
      · exact h
      · split
        · exact h
        · exact h
        · simp [startThread]
    | reset =>
      dsimp only
      unfold resetCmd
      split
      · exact h
      · cases m.tree with
        | bad => exact h
        | empty => simp
        | root t =>
          dsimp only
          split
          · exact h
          · simp
    | doNothing => exact h
    | unknown => exact h

/-- C39 over time: once the tree is not EDITABLE it stays so until a SHUTDOWN (or SETUP_AND_SHUTDOWN). Up to then every edit request is refused:
everything goes on as if the edit requests had not been made. -/
theorem c39_locked (as : List (Action N)) (ho : ∀ a ∈ as, a.opens = false) : ∀ (m : Mgr N), m.state ≠ .editable →
    run o as m = run o (as.filter fun a => !a.isEdit) m ∧ (run o as m).state ≠ .editable := by
  induction as with
  | nil => intro m h; exact ⟨rfl, h⟩
  | cons a as ih =>
    intro m h
    have ih := ih (fun x hx => ho x (List.mem_cons_of_mem _ hx))
    have ha := ho a (by simp)
    cases a with
    | edit f =>
      have e : step o (.edit f) m = m := by show (edit f m).1 = m; rw [c39_rejected m f h]
      show run o as (step o (.edit f) m) = _ ∧ (run o as (step o (.edit f) m)).state ≠ _
      rw [e]
      exact ih m h
    | think => exact ih _ (locked_thread h)
    | command c b =>
      refine ih _ ?_
      show (control o b c m).1.state ≠ .editable
      have hc : c ≠ .shutdown ∧ c ≠ .setupAndShutdown := by
        constructor <;> rintro rfl <;> simp [Action.opens] at ha
      rcases control_eq (o := o) m b c with e | ⟨e, _⟩
      · rw [e]; exact locked_dispatch c hc (locked_ready h)
      · rw [e]; exact h

/-- C40 for requests that are handled one after the other: whatever has happened before, when an edit request is let
through the tick thread does not execute. -/
theorem c40_no_tick_during_edit_partial (m : Mgr N) (h : Start m) (as : List (Action N))
    (f : Topo N × Bool → Topo N × Bool) (he : (edit f (run o as m)).2 = true) :
    ¬ Executing (run o as m).thread := by
  have hi := inv_reached (o := o) h as
  by_cases hs : (run o as m).state = .editable
  · exact hi.quiet (by simp [hs]) (by simp [hs])
  · rw [c39_rejected _ f hs] at he; cases he

/-- C42: in ERROR every command but SHUTDOWN is answered with a failure; tree state and nodes stay as they are. -/
theorem c42_command (m : Mgr N) (b : Bool) (c : Cmd) (hs : m.state = .error) (hc : c ≠ .shutdown) :
    (control o b c m).2.success = false ∧ (control o b c m).1.state = .error ∧
    (control o b c m).1.tree = m.tree ∧ (control o b c m).1.orphans = m.orphans := by
  unfold control
  rw [if_neg (by simp [hs])]
  have hr : (renew m).state = .error ∧ (renew m).tree = m.tree ∧ (renew m).orphans = m.orphans := by
    unfold renew newThread
    split <;> exact ⟨hs, rfl, rfl⟩
  unfold dispatch
  rw [if_pos ⟨hr.1, hc⟩]
  exact ⟨rfl, hr⟩

theorem c42_thread {m : Mgr N} (h : Inv m) (hs : m.state = .error) :
    (threadStep o m).state = .error ∧ (threadStep o m).tree = m.tree ∧ (threadStep o m).orphans = m.orphans := by
  have hq := h.quiet (by simp [hs]) (by simp [hs])
  cases ht : m.thread with
  | absent | fresh | dead => rw [threadStep_still _ (by rw [ht]; rfl)]; exact ⟨hs, rfl, rfl⟩
  | alive pc =>
    have mv := moves (o := o) m ht
    rw [ht, exec_alive] at hq
    generalize threadStep o m = m' at mv
    cases mv <;> simp_all

/-- C42: ERROR is left only through SHUTDOWN. Whatever has led to ERROR: after any other commands, edit requests and steps of
the tick thread the tree state is still ERROR and the nodes are as they were. -/
theorem c42_error_stays (m : Mgr N) (h : Start m) (before after : List (Action N)) (hs : (run o before m).state = .error)
    (hc : ∀ c b, Action.command c b ∈ after → c ≠ .shutdown) :
    (run o after (run o before m)).state = .error ∧ (run o after (run o before m)).tree = (run o before m).tree ∧
    (run o after (run o before m)).orphans = (run o before m).orphans := by
  have hi := inv_reached (o := o) h before
  generalize run o before m = m' at hs hi
  clear h
  induction after generalizing m' with
  | nil => exact ⟨hs, rfl, rfl⟩
  | cons a as ih =>
    have hstep : (step o a m').state = .error ∧ (step o a m').tree = m'.tree ∧ (step o a m').orphans = m'.orphans := by
      cases a with
      | command c b => exact (c42_command m' b c hs (hc c b (by simp))).2
      | edit f =>
        have : edit f m' = (m', false) := c39_rejected m' f (by simp [hs])
        show (edit f m').1.state = _ ∧ (edit f m').1.tree = _ ∧ (edit f m').1.orphans = _
        rw [this]; exact ⟨hs, rfl, rfl⟩
      | think => exact c42_thread hi hs
    have := ih (fun c b hm => hc c b (List.mem_cons_of_mem _ hm)) (step o a m') hstep.1 (inv_step a hi)
    exact ⟨this.1, this.2.1.trans hstep.2.1, this.2.2.trans hstep.2.2⟩

/-- C46 for commands that are handled one after the other: no running tick thread is ever replaced by another one. -/
theorem c46_one_thread_partial (m : Mgr N) (h : Start m) (as : List (Action N)) : (run o as m).lost = [] :=
  (inv_reached h as).lost

/-- The tree state tells what the tick thread does. EDITABLE, WAITING_FOR_TICK and ERROR: nothing. IDLE: at most it unticks the
root. STOP_REQUESTED: nothing, since it is left before the command that requested the stop is answered. -/
theorem c40_states_partial (m : Mgr N) (h : Start m) (as : List (Action N)) (hx : Executing (run o as m).thread) :
    (run o as m).state = .ticking ∨ (run o as m).state = .idle ∧ (run o as m).thread = .alive .untick := by
  have hi := inv_reached (o := o) h as
  by_cases h1 : (run o as m).state = .ticking
  · exact .inl h1
  · by_cases h2 : (run o as m).state = .idle
    · obtain ⟨pc, hp, hf, he⟩ := hx
      rcases hi.idle h2 pc hp with rfl | rfl | rfl
      · exact .inr ⟨h2, hp⟩
      · exact absurd rfl hf
      · exact absurd rfl he
    · exact absurd hx (hi.quiet h1 h2)

/-! ### Examples -/

open Verif.BT (mk mkLeaf ops Tree)

/-- A sequence of two leaves; the first one fails to be set up if `bad`. -/
def sampleTree (bad : Bool) : Tree 2 :=
  mk 1 1 .sequence [mkLeaf 0 2 [if bad then .err else .ok .idle, .ok .running, .ok .idle], mkLeaf 0 3 [.ok .idle, .ok .idle]]

/-- A manager with that tree. -/
def sample (bad : Bool) : Mgr (Tree 2) := { tree := .root (sampleTree bad) }

instance (m : Mgr N) : Decidable (Start m) := inferInstanceAs (Decidable (_ ∧ _ ∧ _))

example : Start (sample true) ∧
    (run (ops 2) [.command .tickPeriodically true, .think, .think, .think] (sample true)).state = .error ∧
    (run (ops 2) [.command .tickPeriodically true, .think, .think] (sample false)).thread = .alive .tick ∧
    (run (ops 2) [.command .tickPeriodically true, .think, .think] (sample false)).state = .ticking := by decide

example : (run (ops 2) [.command .tickPeriodically true, .think, .edit fun _ => (.empty, false), .think, .command .stop true] (sample false)).state ≠ .editable := by
  decide

/-- A full run: tick, an edit in between is refused, stop, shutdown, an edit is let through. -/
example :
    (edit id (run (ops 2) [.command .tickPeriodically true, .think, .think, .think] (sample false))).2 = false ∧
    (edit id (run (ops 2) [.command .tickPeriodically true, .think, .think, .think, .command .stop true,
      .command .shutdown true] (sample false))).2 = true := by decide

end Verif.Exec
