import Verif.Exec.Down
import Verif.BT.Lifecycle

/-! C109: while the tree can be edited, none of its nodes is set up. C110: `TreeNode.shutdown` (tree_node.py 481-498). -/

set_option autoImplicit false

namespace Verif.Exec.Rest

open Verif.BT (Op Res BTState Ops Tree ops WF NestedInv AllUsed unusedSubtree nodeStates)

variable {N : Type} {o : Ops N}

/-! ### Specification -/

/-- No node of the tree is set up. -/
def AtRest (n : Nat) (t : Tree n) : Prop := ∀ p ∈ nodeStates n t, p.2 = .shutdown ∨ p.2 = .uninitialized

/-- A SHUTDOWN of a tree that can be edited does not fail. -/
def Tame (o : Ops N) : List (Action N) → Mgr N → Prop
  | [], _ => True
  | a :: as, m => (∀ c b, a = .command c b → m.state = .editable → c = .shutdown ∨ c = .setupAndShutdown → (control o b c m).2.success = true) ∧
      Tame o as (step o a m)

/-! ### Invariant -/

/-- What is shown of the manager, for a notion of rest. -/
def Calm (R : N → Prop) (m : Mgr N) : Prop := m.state = .editable → Holds R m.tree

theorem never_thread {m : Mgr N} (h : m.state ≠ .editable) : (threadStep o m).state ≠ .editable := by
  cases ht : m.thread with
  | absent | fresh | dead => rw [threadStep_still _ (by rw [ht]; rfl)]; exact h
  | alive pc =>
    have mv := moves (o := o) m ht
    generalize threadStep o m = m' at mv
    cases mv <;> first | exact h | simp

theorem never_join {m : Mgr N} (n : Nat) (h : m.state ≠ .editable) : (join o n m).state ≠ .editable :=
  join_keeps (fun m => m.state ≠ .editable) (fun _ => never_thread) n m h

theorem calm_never {R : N → Prop} {m : Mgr N} (h : m.state ≠ .editable) : Calm R m := fun e => absurd e h

/-- The tick thread does not touch a tree that can be edited. -/
theorem calm_thread {R : N → Prop} {m : Mgr N} (hi : Inv m) (h : Calm R m) : Calm R (threadStep o m) := by
  by_cases hs : m.state = .editable
  · have hq := hi.quiet (by simp [hs]) (by simp [hs])
    cases ht : m.thread with
    | absent | fresh | dead => rw [threadStep_still _ (by rw [ht]; rfl)]; exact h
    | alive pc =>
      have : pc = .failed ∨ pc = .ended := by
        by_cases h1 : pc = .failed
        · exact .inl h1
        · by_cases h2 : pc = .ended
          · exact .inr h2
          · exact absurd ⟨pc, ht, h1, h2⟩ hq
      have mv := moves (o := o) m ht
      generalize threadStep o m = m' at mv
      rcases this with rfl | rfl
      · cases mv; exact calm_never (by simp)
      · cases mv; exact h
  · exact calm_never (never_thread hs)

theorem calm_ready {R : N → Prop} {m : Mgr N} (h : Calm R m) : Calm R (ready o m) ∧ ((ready o m).state = .editable ↔ m.state = .editable) := by
  have hn : ∀ m : Mgr N, (renew m).state = m.state ∧ (renew m).tree = m.tree := by
    intro m; unfold renew; split <;> exact ⟨rfl, rfl⟩
  unfold ready
  split
  · rename_i hh
    have h1 : (join o joinSteps m).state ≠ .editable := never_join _ (by simp [hh.1])
    refine ⟨calm_never (by rw [(hn _).1]; exact h1), ?_⟩
    rw [(hn _).1]
    simp [h1, hh.1]
  · refine ⟨fun e => ?_, by rw [(hn _).1]⟩
    rw [(hn _).1] at e
    rw [(hn _).2]
    exact h e

theorem stopPart_editable {m : Mgr N} (h : m.state = .editable) : stopPart o m = (m, none) := by
  unfold stopPart
  rw [h]

theorem stopPart_never {m : Mgr N} (h : m.state ≠ .editable) : (stopPart o m).1.state ≠ .editable := by
  unfold stopPart
  cases hs : m.state with
  | editable => exact absurd hs h
  | ticking =>
    dsimp only
    have : (join o joinSteps { m with state := .stopRequested, asked := true }).state ≠ .editable := never_join _ (by simp)
    split
    · exact this
    · split <;> exact this
  | waiting =>
    dsimp only
    cases m.tree with
    | bad => exact h
    | empty => exact h
    | root t =>
      dsimp only
      split <;> simp
  | _ => dsimp only; exact h

theorem calm_shutdown {R : N → Prop} {P : N → Prop} (hd : ∀ t, P t → (o.run .shutdown t).res.isOk = true → R (o.run .shutdown t).node)
    {m : Mgr N} (hk : Holds P m.tree) (h : m.state = .editable → (shutdownCmd o m).2.success = true) : Calm R (shutdownCmd o m).1 := by
  intro he t ht
  unfold shutdownCmd at he ht h
  cases hm : m.tree with
  | bad => rw [hm] at ht; cases ht
  | empty => rw [hm] at ht; cases ht
  | root t0 =>
    rw [hm] at he ht h
    dsimp only at he ht h
    cases hr : (o.run .shutdown t0).res with
    | err =>
      rw [hr] at he h
      exact absurd (h he) (by simp)
    | ok s =>
      rw [hr] at ht
      cases ht
      exact hd t0 (hk t0 hm) (by rw [hr]; rfl)

theorem calm_stopCmd {R : N → Prop} {P : N → Prop} (hP : ∀ op t, P t → P (o.run op t).node)
    (hd : ∀ t, P t → (o.run .shutdown t).res.isOk = true → R (o.run .shutdown t).node)
    (down : Bool) {m : Mgr N} (hk : Kept P m) (hc : Calm R m) (h : down = true → m.state = .editable → (stopCmd o down m).2.success = true) :
    Calm R (stopCmd o down m).1 := by
  have hk' := (kept_stable hP).stopPart hk
  by_cases hs : m.state = .editable
  · unfold stopCmd at h ⊢
    rw [stopPart_editable hs] at h ⊢
    dsimp only at h ⊢
    cases down with
    | false => exact hc
    | true => exact calm_shutdown hd hk.1 (fun _ => h rfl hs)
  · have hn := stopPart_never (o := o) hs
    unfold stopCmd
    cases hp : stopPart o m with
    | mk m' r =>
      rw [hp] at hn hk'
      cases r with
      | some r => exact calm_never hn
      | none =>
        dsimp only
        cases down with
        | false => exact calm_never hn
        | true => exact calm_shutdown hd hk'.1 (fun e => absurd e hn)

theorem calm_dispatch {R : N → Prop} {P : N → Prop} (hP : ∀ op t, P t → P (o.run op t).node)
    (hd : ∀ t, P t → (o.run .shutdown t).res.isOk = true → R (o.run .shutdown t).node) (hr : ∀ t, R t → R (o.run .reset t).node)
    (c : Cmd) {m : Mgr N} (hk : Kept P m) (hc : Calm R m)
    (h : m.state = .editable → c = .shutdown ∨ c = .setupAndShutdown → (dispatch o c m).2.success = true) : Calm R (dispatch o c m).1 := by
  unfold dispatch at h ⊢
  by_cases hx : m.state = .error ∧ c ≠ .shutdown
  · rw [if_pos hx]; exact hc
  · simp only [if_neg hx] at h ⊢
    cases c with
    | setupAndShutdown =>
      dsimp only at h ⊢
      split
      · exact hc
      · rename_i hq
        simp only [if_neg hq] at h
        cases ht : m.tree with
        | bad => exact hc
        | empty => rw [ht] at h; exact calm_stopCmd hP hd true hk hc (fun _ e => h e (.inr trivial))
        | root t => rw [ht] at h; exact calm_stopCmd hP hd true hk hc (fun _ e => h e (.inr trivial))
    | stop => exact calm_stopCmd hP hd false hk hc (fun e => by cases e)
    | shutdown => exact calm_stopCmd hP hd true hk hc (fun _ e => h e (.inl rfl))
    | tickOnce =>
      dsimp only
      unfold tickOnceCmd
      split
      · exact hc
      · cases ht : m.tree with
        | bad => exact hc
        | empty => exact hc
        | root t =>
          dsimp only
          split
          · exact calm_never (never_join _ (by simp [startThread]))
          · split <;> exact calm_never (never_join _ (by simp [startThread]))
    | tickPeriodically | tickUntilResult =>
      dsimp only
      unfold tickMultipleCmd
      split
      · exact hc
      · cases ht : m.tree with
        | bad => exact hc
        | empty => exact hc
        | root t => exact calm_never (by simp [startThread])
    | reset =>
      dsimp only
      unfold resetCmd
      split
      · exact hc
      · cases ht : m.tree with
        | bad => exact hc
        | empty => exact calm_never (by simp)
        | root t =>
          dsimp only
          cases (o.run .reset t).res with
          | ok s => exact calm_never (by simp)
          | err => exact fun e => holds_root (hr t (hc e t ht))
    | doNothing => exact hc
    | unknown => exact hc

theorem calm_step {R : N → Prop} {P : N → Prop} (hP : ∀ op t, P t → P (o.run op t).node)
    (hd : ∀ t, P t → (o.run .shutdown t).res.isOk = true → R (o.run .shutdown t).node) (hr : ∀ t, R t → R (o.run .reset t).node)
    (a : Action N) {m : Mgr N} (hi : Inv m) (hk : Kept P m) (hc : Calm R m)
    (he : ∀ f, a = .edit f → ∀ x, Holds R x.1 → Holds R (f x).1)
    (h : ∀ c b, a = .command c b → m.state = .editable → c = .shutdown ∨ c = .setupAndShutdown → (control o b c m).2.success = true) :
    Calm R (step o a m) := by
  cases a with
  | think => exact calm_thread hi hc
  | edit f =>
    show Calm R (edit f m).1
    unfold edit
    split
    · exact hc
    · rename_i hs
      exact fun _ => he f rfl _ (hc (by simpa using hs))
  | command c b =>
    show Calm R (control o b c m).1
    have h' := h c b rfl
    rcases control_eq (o := o) m b c with e | ⟨e, _⟩
    · rw [e] at h' ⊢
      have hc' := calm_ready (o := o) hc
      exact calm_dispatch hP hd hr c ((kept_stable hP).ready hk) hc'.1 (fun e2 => h' (hc'.2.mp e2))
    · rw [e]; exact hc

theorem calm_run {R : N → Prop} {P : N → Prop} (hP : ∀ op t, P t → P (o.run op t).node)
    (hd : ∀ t, P t → (o.run .shutdown t).res.isOk = true → R (o.run .shutdown t).node) (hr : ∀ t, R t → R (o.run .reset t).node)
    (as : List (Action N)) : ∀ {m : Mgr N}, Inv m → Kept P m → Calm R m → MildEdits P as → MildEdits R as → Tame o as m →
    Calm R (run o as m) := by
  induction as with
  | nil => intro m _ _ hc _ _ _; exact hc
  | cons a as ih =>
    intro m hi hk hc h1 h2 h3
    have hs : Kept P (step o a m) := kept_run hP [a] hk (fun f hf => h1 f (by simp at hf; simp [hf]))
    exact ih (inv_step a hi) hs (calm_step hP hd hr a hi hk hc (fun f hf => h2 f (by simp [hf])) h3.1)
      (fun f hf => h1 f (List.mem_cons_of_mem _ hf)) (fun f hf => h2 f (List.mem_cons_of_mem _ hf)) h3.2

/-! ### Trees -/

/-- What is known of every tree. -/
def Good (n : Nat) (t : Tree n) : Prop := WF n t ∧ NestedInv n t

theorem good_run (n : Nat) (op : Op) (t : Tree n) (h : Good n t) : Good n ((ops n).run op t).node := BT.runs_inv n [op] t h.1 h.2

theorem rest_shutdown (n : Nat) (t : Tree n) (h : Good n t) (hs : ((ops n).run .shutdown t).res.isOk = true) :
    AtRest n ((ops n).run .shutdown t).node :=
  BT.allNodes_of_used n _ (good_run n .shutdown t h).2 ((BT.nested_shutdown n).2 t h.1 h.2 hs)

theorem rest_root (n : Nat) (t : Tree n) (h : AtRest n t) : (ops n).state t = .shutdown ∨ (ops n).state t = .uninitialized := by
  cases n with
  | zero => exact Empty.elim t
  | succ n => exact h (BT.Node.id (N := Tree n) t, BT.Node.state (N := Tree n) t) (by simp [nodeStates])

theorem rest_reset (n : Nat) (t : Tree n) (h : AtRest n t) : AtRest n ((ops n).run .reset t).node := by
  have := (BT.c01_rejected_call_has_no_effect n .reset t (by rcases rest_root n t h with e | e <;> simp [e, BT.Allowed])).2.1
  unfold AtRest
  rw [this]
  exact h

/-! ### C109 -/

/-- Whatever has happened: while the tree can be edited, no node of it is set up, neither running nor holding anything, provided that no
SHUTDOWN failed while it could be edited. -/
theorem c109_rest_partial (n : Nat) (m : Mgr (Tree n)) (hm : Start m) (hg : Kept (Good n) m) (h0 : Holds (AtRest n) m.tree)
    (as : List (Action (Tree n))) (h1 : MildEdits (Good n) as) (h2 : MildEdits (AtRest n) as) (h3 : Tame (ops n) as m)
    (he : (run (ops n) as m).state = .editable) (t : Tree n) (ht : (run (ops n) as m).tree = .root t) : AtRest n t :=
  calm_run (good_run n) (rest_shutdown n) (rest_reset n) as (inv_start hm) hg (fun _ => h0) h1 h2 h3 he t ht

/-- It is needed that no SHUTDOWN failed: a leaf that refuses to be shut down is BROKEN, and the tree can still be edited. -/
theorem c109_failed_shutdown : ∃ m : Mgr (Tree 1), Start m ∧ Kept (Good 1) m ∧ Holds (AtRest 1) m.tree ∧
    (control (ops 1) true .shutdown m).2.success = false ∧ (control (ops 1) true .shutdown m).1.state = .editable ∧
    ∃ t, (control (ops 1) true .shutdown m).1.tree = .root t ∧ nodeStates 1 t = [(1, .broken)] :=
  ⟨{ tree := .root (BT.mkLeaf 0 1 [.err]) }, by decide,
    ⟨fun t e => by cases e; exact ⟨by decide, BT.nestedInv_of_fresh 1 _ (by decide)⟩, fun i f t h => by cases h⟩,
    (fun t e => by cases e; intro p hp; simp [nodeStates, BT.mkLeaf, BT.mk] at hp; simp [hp]), by decide, by decide, _, rfl, by decide⟩

/-- It is ticked, stopped, reset and shut down. -/
def history : List (Action (Tree 2)) :=
  [.command .tickPeriodically true, .think, .think, .think, .command .stop true, .command .reset true, .command .shutdown true, .command .reset true,
   .command .shutdown true]

example : Start (sample false) ∧ Kept (Good 2) (sample false) ∧ Holds (AtRest 2) (sample false).tree ∧ Tame (ops 2) history (sample false) ∧
    (run (ops 2) (history.take 4) (sample false)).state = .ticking ∧ (run (ops 2) history (sample false)).state = .editable :=
  ⟨by decide, ⟨fun t e => by cases e; exact ⟨by decide, BT.nestedInv_of_fresh 2 _ (by decide)⟩, fun i f t h => by cases h⟩,
    (fun t e => by cases e; unfold AtRest; decide),
    (by
      simp only [history, Tame, and_true]
      refine ⟨?_, ?_, ?_, ?_, ?_, ?_, ?_, ?_, ?_⟩ <;> intro c b h <;> cases h <;> first | decide | (intro _ h; rcases h with h | h <;> cases h) |
        (intro h; exact absurd h (by decide))), by decide, by decide⟩

/-- A new tree. -/
def fresh : Tree 2 := BT.mk 1 1 .sequence [BT.mkLeaf 0 2 [], BT.mkLeaf 0 3 []]

/-- An edit that brings in a new tree. -/
example : MildEdits (AtRest 2) [.edit fun _ => (.root fresh, false)] ∧ MildEdits (Good 2) [.edit fun _ => (.root fresh, false)] := by
  refine ⟨?_, ?_⟩ <;> intro f hf x _ t ht <;> simp only [List.mem_singleton, Action.edit.injEq] at hf <;> subst hf <;> cases ht
  · unfold AtRest; decide
  · exact ⟨by decide, BT.nestedInv_of_fresh 2 _ (by decide)⟩

/-! ### C110 -/

/-- tree_node.py 481-498: `TreeNode.shutdown`. -/
def nodeShutdown (o : Ops N) (b : Bool) (m : Mgr N) : Mgr N :=
  if m.state = .idle ∨ m.state = .editable ∨ m.state = .error then m else (control o b .shutdown m).1

/-- After `TreeNode.shutdown` no node is set up if the tree could be edited, or was ticking or waiting and the SHUTDOWN succeeded. -/
theorem c110_shutdown_partial (n : Nat) (m : Mgr (Tree n)) (hm : Start m) (hg : Kept (Good n) m) (h0 : Holds (AtRest n) m.tree)
    (as : List (Action (Tree n))) (h1 : MildEdits (Good n) as) (h2 : MildEdits (AtRest n) as) (h3 : Tame (ops n) as m) (b : Bool)
    (he : (run (ops n) as m).state = .editable ∨ (run (ops n) as m).state ≠ .idle ∧ (run (ops n) as m).state ≠ .error ∧
      (control (ops n) b .shutdown (run (ops n) as m)).2.success = true)
    (t : Tree n) (ht : (nodeShutdown (ops n) b (run (ops n) as m)).tree = .root t) :
    (nodeShutdown (ops n) b (run (ops n) as m)).state = .editable ∧ AtRest n t := by
  by_cases hs : (run (ops n) as m).state = .editable
  · have e : nodeShutdown (ops n) b (run (ops n) as m) = run (ops n) as m := if_pos (.inr (.inl hs))
    rw [e] at ht ⊢
    exact ⟨hs, c109_rest_partial n m hm hg h0 as h1 h2 h3 hs t ht⟩
  · rcases he with he | ⟨e1, e2, e3⟩
    · exact absurd he hs
    · have e : nodeShutdown (ops n) b (run (ops n) as m) = (control (ops n) b .shutdown (run (ops n) as m)).1 := if_neg (by simp [e1, e2, hs])
      rw [e] at ht ⊢
      have h4 := kept_run (good_run n) as hg h1
      obtain ⟨k1, _, m', _, k2, t0, k3, k4, k5⟩ := shutdown_control (inv_reached hm as) b e3 ht
      refine ⟨k1, ?_⟩
      rw [← k5]
      exact rest_shutdown n t0 ((k2 _ (kept_stable (good_run n)) h4).1 t0 k3) k4

example : Start (sample false) ∧ Kept (Good 2) (sample false) ∧ (run (ops 2) (history.take 4) (sample false)).state = .ticking ∧
    (control (ops 2) true .shutdown (run (ops 2) (history.take 4) (sample false))).2.success = true :=
  ⟨by decide, ⟨fun t e => by cases e; exact ⟨by decide, BT.nestedInv_of_fresh 2 _ (by decide)⟩, fun i f t h => by cases h⟩, by decide, by decide⟩

/-- A leaf that works. -/
def worker : Tree 1 := BT.mkLeaf 0 1 [.ok .idle, .ok .running, .ok .idle]

/-- After STOP the nodes are set up; `TreeNode.shutdown` leaves them so, although SHUTDOWN would work. -/
theorem c110_idle_left : ∃ as : List (Action (Tree 1)), (run (ops 1) as { tree := .root worker }).state = .idle ∧
    (∃ t, (nodeShutdown (ops 1) true (run (ops 1) as { tree := .root worker })).tree = .root t ∧ nodeStates 1 t = [(1, .idle)]) ∧
    (control (ops 1) true .shutdown (run (ops 1) as { tree := .root worker })).2.success = true :=
  ⟨[.command .tickPeriodically true, .think, .think, .think, .command .stop true], by decide, ⟨_, rfl, by decide⟩, by decide⟩

/-- A sequence of a leaf that succeeds and one that reports an error. -/
def halves : Tree 2 := BT.mk 1 1 .sequence [BT.mkLeaf 0 2 [.ok .idle, .ok .succeeded], BT.mkLeaf 0 3 [.ok .idle, .err]]

/-- After an error the other nodes are still set up; `TreeNode.shutdown` leaves them so, although SHUTDOWN would work. -/
theorem c110_error_left : ∃ as : List (Action (Tree 2)), (run (ops 2) as { tree := .root halves }).state = .error ∧
    (∃ t, (nodeShutdown (ops 2) true (run (ops 2) as { tree := .root halves })).tree = .root t ∧
      nodeStates 2 t = [(1, .broken), (2, .succeeded), (3, .broken)]) ∧
    (control (ops 2) true .shutdown (run (ops 2) as { tree := .root halves })).2.success = true :=
  ⟨[.command .tickPeriodically true, .think, .think, .think, .think, .think], by decide, ⟨_, rfl, by decide⟩, by decide⟩

/-- If a tick has raised an exception, the single SHUTDOWN is refused and the nodes stay as they are. -/
theorem c110_raised_left : ∃ as : List (Action BTState), (run toy as toyRaises).state = .ticking ∧
    (nodeShutdown toy true (run toy as toyRaises)).tree = .root .running :=
  ⟨[.command .tickPeriodically true, .think, .think, .think], by decide, by rfl⟩

end Verif.Exec.Rest
