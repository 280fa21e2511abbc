import Verif.Exec.Calls

/-! Behaviour of `control_execution` that a user would not expect. Each theorem is a fact about the code; none is a property
that is claimed. -/

set_option autoImplicit false

namespace Verif.Exec

open Verif.BT (Op Res BTState Ops Tree ops mkLeaf)

variable {N : Type} {o : Ops N}

/-- When the setup fails the tick thread sets ERROR twice (tree_exec_manager.py 680 and 632). A SHUTDOWN that comes in between is
answered with success and EDITABLE; then the tree state is ERROR again. -/
theorem setup_error_twice :
    let m : Mgr (Tree 1) := { tree := .root (mkLeaf 0 1 [.err]) }
    let m1 := control (ops 1) true .shutdown (run (ops 1) [.command .tickPeriodically true, .think] m)
    m1.2 = ⟨true, some .editable⟩ ∧ m1.1.state = .editable ∧ (run (ops 1) [.think] m1.1).state = .error := by decide

/-- RESET on an empty EDITABLE tree makes it IDLE, so that nodes can no longer be added (until SHUTDOWN). -/
theorem reset_empty_locks :
    let m : Mgr (Tree 1) := { tree := .empty }
    (control (ops 1) true .reset m).2.success = true ∧ (edit id (control (ops 1) true .reset m).1).2 = false := by decide

/-- STOP in WAITING_FOR_TICK is answered with IDLE, but the tree state stays WAITING_FOR_TICK. -/
theorem stop_waiting_stays (m : Mgr N) (b : Bool) (hs : m.state = .waiting) (hok : (control o b .stop m).2.success = true) :
    (control o b .stop m).2.treeState = some .idle ∧ (control o b .stop m).1.state = .waiting := by
  have hr : (renew m).state = .waiting := by unfold renew newThread; split <;> exact hs
  have e : control o b .stop m = stopCmd o false (renew m) := by
    unfold control
    rw [if_neg (by simp [hs])]
    unfold dispatch
    rw [if_neg (by simp [hr])]
  rw [e] at hok ⊢
  have hk : (stopPart o (renew m)).1.state = .waiting := by
    unfold stopPart
    rw [hr]
    dsimp only
    cases (renew m).tree with
    | bad => exact hr
    | empty => exact hr
    | root t => dsimp only; split <;> rfl
  unfold stopCmd at hok ⊢
  cases hp : stopPart o (renew m) with
  | mk m' r =>
    rw [hp] at hk hok
    cases r with
    | some r =>
      have := stopPart_some (o := o) (renew m) r (by rw [hp])
      rw [this] at hok; cases hok
    | none => dsimp only; rw [hr]; exact ⟨rfl, hk⟩

/-- SETUP_AND_SHUTDOWN sets nothing up: on a tree that is not running it does what SHUTDOWN does. -/
theorem setupAndShutdown_is_shutdown (m : Mgr N) (b : Bool) (h1 : m.state ≠ .error) (h2 : m.state ≠ .ticking) (h3 : m.thread.isAlive = false)
    (h4 : m.tree ≠ .bad) : control o b .setupAndShutdown m = control o b .shutdown m := by
  have hr : renew m = newThread m := by unfold renew; rw [if_neg (by simp [h3])]
  have e1 : dispatch o .setupAndShutdown (newThread m) = stopCmd o true (newThread m) := by
    unfold dispatch
    rw [if_neg (by simp [newThread, h1])]
    dsimp only
    rw [if_neg (by simp [newThread, h2, Thread.isAlive])]
    have : (newThread m).tree = m.tree := rfl
    rw [this]
    cases ht : m.tree with
    | bad => exact absurd ht h4
    | empty => rfl
    | root t => rfl
  have e2 : dispatch o .shutdown (newThread m) = stopCmd o true (newThread m) := by
    unfold dispatch
    rw [if_neg (by simp)]
  unfold control
  rw [if_neg (by simp [h3]), hr, e1, e2]
  rw [if_neg (by simp [h3])]

/-- An exception in a node ends the tick thread but not the state TICKING: no command but STOP and SHUTDOWN is possible,
and the first of them is refused. -/
theorem exception_leaves_ticking :
    let m := run toy [.command .tickPeriodically true, .think, .think, .think] toyRaises
    m.state = .ticking ∧ m.thread = .dead ∧ (control toy true .stop m).2.success = false ∧ (control toy true .stop m).1.state = .stopRequested := by
  decide

end Verif.Exec
