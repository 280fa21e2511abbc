import Verif.Exec.Quirks
import Verif.Exec.Restart

/-!
# C144: what a successful answer of `control_execution` says about the tree

A client of the service reads `success` and `tree_state` of the answer and relies on them.
-/

set_option autoImplicit false

namespace Verif.Exec.Answer

open Verif.BT (Op Res BTState Ops Tree Out ops mkLeaf)

variable {N : Type}

/-! ### Specification -/

/-- Specification: the state that a successful command promises. -/
def promised : Cmd → Option TState
  | .tickOnce => some .waiting
  | .tickPeriodically | .tickUntilResult => some .ticking
  | .stop | .reset => some .idle
  | .shutdown | .setupAndShutdown => some .editable
  | .doNothing | .unknown => none

/-- Specification: these commands promise that no tick thread is left, and these that one is at work. -/
def working : Cmd → Option Bool
  | .tickOnce | .stop | .reset => some false
  | .tickPeriodically | .tickUntilResult => some true
  | _ => none

/-- The promises are kept: the tree is in the promised state, which is also the one in the answer, and the
tick thread runs or not as promised. -/
def Kept (c : Cmd) (r : Mgr N × Resp) : Prop :=
  (∀ s, promised c = some s → r.1.state = s ∧ r.2.treeState = some s) ∧
  (∀ w, working c = some w → r.1.thread.isAlive = w)

/-! ### The commands -/

theorem once_kept (o : Ops N) (m : Mgr N) (h : (tickOnceCmd o m).2.success = true)
    (he : (∃ t, m.tree = .root t)) : Kept .tickOnce (tickOnceCmd o m) := by
  unfold tickOnceCmd at h ⊢
  obtain ⟨t, ht⟩ := he
  by_cases ha : m.thread.isAlive = true
  · rw [if_pos ha] at h; cases h
  · rw [if_neg ha] at h ⊢
    rw [ht] at h ⊢
    simp only at h ⊢
    generalize join o joinSteps _ = j at h ⊢
    by_cases h1 : j.thread.isAlive = true
    · rw [if_pos h1] at h; cases h
    · rw [if_neg h1] at h ⊢
      by_cases h2 : j.state = .waiting
      · rw [if_pos h2]
        exact ⟨fun s hs => by cases hs; exact ⟨h2, rfl⟩, fun w hw => by cases hw; simpa using h1⟩
      · rw [if_neg h2] at h; cases h

theorem multiple_kept (u : Bool) (c : Cmd) (hc : c = .tickPeriodically ∨ c = .tickUntilResult) (m : Mgr N)
    (h : (tickMultipleCmd u m).2.success = true) (he : (∃ t, m.tree = .root t)) :
    Kept c (tickMultipleCmd u m) := by
  unfold tickMultipleCmd at h ⊢
  obtain ⟨t, ht⟩ := he
  by_cases ha : m.thread.isAlive = true
  · rw [if_pos ha] at h; cases h
  · rw [if_neg ha, ht]
    rcases hc with rfl | rfl <;>
      exact ⟨fun s hs => by cases hs; exact ⟨rfl, rfl⟩, fun w hw => by cases hw; rfl⟩

theorem reset_kept (o : Ops N) (m : Mgr N) (h : (resetCmd o m).2.success = true) :
    Kept .reset (resetCmd o m) := by
  unfold resetCmd at h ⊢
  by_cases ha : m.thread.isAlive = true
  · rw [if_pos ha] at h; cases h
  · rw [if_neg ha] at h ⊢
    cases ht : m.tree with
    | bad => rw [ht] at h; cases h
    | empty =>
      exact ⟨fun s hs => by cases hs; exact ⟨rfl, rfl⟩, fun w hw => by cases hw; simpa using ha⟩
    | root t =>
      rw [ht] at h
      simp only at h ⊢
      cases hr : (o.run .reset t).res with
      | err => rw [hr] at h; cases h
      | ok a => exact ⟨fun s hs => by cases hs; exact ⟨rfl, rfl⟩, fun w hw => by cases hw; simpa using ha⟩

theorem shutdown_kept (o : Ops N) (c : Cmd) (hc : c = .shutdown ∨ c = .setupAndShutdown) (m : Mgr N)
    (h : (shutdownCmd o m).2.success = true) : Kept c (shutdownCmd o m) := by
  have hw : working c = none := by rcases hc with rfl | rfl <;> rfl
  have hp : promised c = some .editable := by rcases hc with rfl | rfl <;> rfl
  refine ⟨fun s hs => ?_, fun w h => by rw [hw] at h; cases h⟩
  rw [hp] at hs
  cases hs
  unfold shutdownCmd at h ⊢
  cases ht : m.tree with
  | bad => exact ⟨rfl, rfl⟩
  | empty => exact ⟨rfl, rfl⟩
  | root t =>
    rw [ht] at h
    simp only at h ⊢
    cases hr : (o.run .shutdown t).res with
    | err => rw [hr] at h; cases h
    | ok a => exact ⟨rfl, rfl⟩

theorem down_kept (o : Ops N) (c : Cmd) (hc : c = .shutdown ∨ c = .setupAndShutdown) (m : Mgr N)
    (h : (stopCmd o true m).2.success = true) : Kept c (stopCmd o true m) := by
  unfold stopCmd at h ⊢
  cases hp : stopPart o m with
  | mk m' r =>
    rw [hp] at h
    cases r with
    | some r =>
      have := stopPart_some (o := o) m r (by rw [hp])
      simp only at h
      rw [this] at h
      cases h
    | none => exact shutdown_kept o c hc m' h

/-! ### C144 -/

/-- **C144.** In any state of the tree manager, its tick thread and the tree, let a request to
`control_execution` be answered with success. Then the tree is in the state that the command promises, the
answer contains this state, and no tick thread is left or one is at work, as promised. Two cases are missing:
STOP if the tree is not ticking (see `c144_stop_waiting` and `c144_nothing_to_stop`), and the ticking commands
for a manager without nodes (see `c144_empty`). -/
theorem c144_promises_partial (o : Ops N) (b : Bool) (c : Cmd) (m : Mgr N)
    (h : (control o b c m).2.success = true) (hstop : c = .stop → m.state = .ticking)
    (hne : c = .tickOnce ∨ c = .tickPeriodically ∨ c = .tickUntilResult → (control o b c m).1.tree ≠ .empty) :
    Kept c (control o b c m) := by
  by_cases hc : c = .stop
  · subst hc
    obtain ⟨_, h1, h2⟩ := Restart.stop_done o b m (hstop rfl) h
    suffices ht : (control o b .stop m).2.treeState = some .idle from
      ⟨fun s hs => by cases hs; exact ⟨h2, ht⟩, fun w hw => by cases hw; exact h1⟩
    clear h1 h2 hne
    obtain ⟨m', _, e⟩ := Restart.control_same o b .stop m h
    rw [e] at h ⊢
    unfold dispatch at h ⊢
    by_cases he : m'.state = .error ∧ Cmd.stop ≠ .shutdown
    · rw [if_pos he] at h; cases h
    · rw [if_neg he] at h ⊢
      simp only at h ⊢
      unfold stopCmd at h ⊢
      cases hp : stopPart o m' with
      | mk m2 r =>
        rw [hp] at h
        cases r with
        | some r =>
          have := stopPart_some (o := o) m' r (by rw [hp])
          simp only at h
          rw [this] at h
          cases h
        | none =>
          simp only [Bool.false_eq_true, if_false] at h ⊢
          revert h
          unfold stopResp
          split <;> intro h <;> first | rfl | cases h
  · obtain ⟨m', _, e⟩ := Restart.control_same o b c m h
    rw [e] at h hne ⊢
    clear e
    unfold dispatch at h hne ⊢
    by_cases he : m'.state = .error ∧ c ≠ .shutdown
    · rw [if_pos he] at h; cases h
    · rw [if_neg he] at h hne ⊢
      cases c with
      | doNothing => exact ⟨(fun _ hs => nomatch hs), (fun _ hw => nomatch hw)⟩
      | unknown => exact ⟨(fun _ hs => nomatch hs), (fun _ hw => nomatch hw)⟩
      | stop => exact absurd rfl hc
      | tickOnce =>
        have hn : (tickOnceCmd o m').1.tree ≠ .empty := hne (Or.inl rfl)
        refine once_kept o m' h ?_
        have h : (tickOnceCmd o m').2.success = true := h
        unfold tickOnceCmd at h hn
        by_cases ha : m'.thread.isAlive = true
        · rw [if_pos ha] at h; cases h
        · rw [if_neg ha] at h hn
          cases ht : m'.tree with
          | bad => rw [ht] at h; cases h
          | empty => rw [ht] at hn; exact absurd ht hn
          | root t => exact ⟨t, rfl⟩
      | tickPeriodically =>
        have hn : (tickMultipleCmd false m').1.tree ≠ .empty := hne (Or.inr (Or.inl rfl))
        refine multiple_kept false _ (Or.inl rfl) m' h ?_
        have h : (tickMultipleCmd false m').2.success = true := h
        unfold tickMultipleCmd at h hn
        by_cases ha : m'.thread.isAlive = true
        · rw [if_pos ha] at h; cases h
        · rw [if_neg ha] at h hn
          cases ht : m'.tree with
          | bad => rw [ht] at h; cases h
          | empty => rw [ht] at hn; exact absurd ht hn
          | root t => exact ⟨t, rfl⟩
      | tickUntilResult =>
        have hn : (tickMultipleCmd true m').1.tree ≠ .empty := hne (Or.inr (Or.inr rfl))
        refine multiple_kept true _ (Or.inr rfl) m' h ?_
        have h : (tickMultipleCmd true m').2.success = true := h
        unfold tickMultipleCmd at h hn
        by_cases ha : m'.thread.isAlive = true
        · rw [if_pos ha] at h; cases h
        · rw [if_neg ha] at h hn
          cases ht : m'.tree with
          | bad => rw [ht] at h; cases h
          | empty => rw [ht] at hn; exact absurd ht hn
          | root t => exact ⟨t, rfl⟩
      | reset => exact reset_kept o m' h
      | shutdown => exact down_kept o _ (Or.inl rfl) m' h
      | setupAndShutdown =>
        simp only at h ⊢
        split
        · rename_i h1; rw [if_pos h1] at h; cases h
        · rename_i h1
          rw [if_neg h1] at h
          split
          · rename_i ht; rw [ht] at h; cases h
          · rename_i ht
            refine down_kept o _ (Or.inr rfl) m' ?_
            revert h
            split
            · rename_i ht'; exact absurd ht' ht
            · exact id

/-- **C144, a STOP between two single ticks.** If the tree waits for the next tick by hand and STOP is answered
with success, the answer says IDLE, but the state of the tree is still WAITING_FOR_TICK. -/
theorem c144_stop_waiting (o : Ops N) (b : Bool) (m : Mgr N) (hs : m.state = .waiting)
    (h : (control o b .stop m).2.success = true) :
    (control o b .stop m).2.treeState = some .idle ∧ (control o b .stop m).1.state = .waiting :=
  stop_waiting_stays m b hs h

/-- **C144, nothing to stop.** A STOP for a tree that is neither ticking nor waiting for a tick by hand (and is
not just being unticked by its thread) is not answered with success, and changes nothing. -/
theorem c144_nothing_to_stop (o : Ops N) (b : Bool) (m : Mgr N) (h1 : m.state ≠ .ticking)
    (h2 : m.state ≠ .waiting) (h3 : m.state = .idle → m.thread.isAlive = false) :
    control o b .stop m = (renew m, ⟨false, none⟩) := by
  have hr : (renew m).state = m.state := by unfold renew; split <;> rfl
  unfold control
  rw [if_neg (fun h => by rw [h3 h.1] at h; cases h.2)]
  unfold dispatch
  split
  · rfl
  · simp only
    unfold stopCmd stopPart stopResp
    rw [hr]
    cases hs : m.state with
    | ticking => exact absurd hs h1
    | waiting => exact absurd hs h2
    | idle => rfl
    | editable => rfl
    | stopRequested => rfl
    | error => rfl

/-- **C144, without nodes.** A ticking command for a tree manager without nodes, not in ERROR and with no tick
thread, is answered with success, but nothing happens: the state stays what it was, and the answer says so. -/
theorem c144_empty (o : Ops N) (b : Bool) (c : Cmd) (m : Mgr N)
    (hc : c = .tickOnce ∨ c = .tickPeriodically ∨ c = .tickUntilResult) (ht : m.tree = .empty)
    (hs : m.state ≠ .error) (ha : m.thread.isAlive = false) :
    (control o b c m).2 = ⟨true, some m.state⟩ ∧ (control o b c m).1 = newThread m := by
  have hn : (newThread m).tree = .empty := ht
  have e : control o b c m = dispatch o c (newThread m) := by
    unfold control renew
    rw [ha, if_neg (by simp), if_neg (by decide)]
  rw [e]
  unfold dispatch
  rw [if_neg (fun h => hs h.1)]
  rcases hc with rfl | rfl | rfl
  · simp only
    unfold tickOnceCmd
    rw [if_neg (by rintro ⟨⟩), hn]
    exact ⟨rfl, rfl⟩
  · simp only
    unfold tickMultipleCmd
    rw [if_neg (by rintro ⟨⟩), hn]
    exact ⟨rfl, rfl⟩
  · simp only
    unfold tickMultipleCmd
    rw [if_neg (by rintro ⟨⟩), hn]
    exact ⟨rfl, rfl⟩

/-! ### Example -/

/-- A leaf that is ticked by hand and then stopped. -/
def sample : Mgr (Tree 1) := { tree := .root (mkLeaf 0 1 [.ok .idle, .ok .running, .ok .idle]) }

example : (control (ops 1) true .tickOnce sample).2 = ⟨true, some .waiting⟩ ∧
    (control (ops 1) true .tickPeriodically sample).2 = ⟨true, some .ticking⟩ ∧
    (control (ops 1) true .shutdown { tree := .root (mkLeaf 0 1 [.ok .shutdown]) }).2 =
      ⟨true, some .editable⟩ := by
  decide +kernel

example : (control (ops 1) true .tickOnce sample).1.state = .waiting ∧
    (control (ops 1) true .stop (control (ops 1) true .tickOnce sample).1).2.success = true := by
  decide +kernel

example : let m := run (ops 1) [.command .tickPeriodically true, .think, .think, .think] sample
    m.state = .ticking ∧ (control (ops 1) true .stop m).2 = ⟨true, some .idle⟩ := by
  decide +kernel

end Verif.Exec.Answer
