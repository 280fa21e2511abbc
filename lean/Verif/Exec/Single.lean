import Verif.Exec.Periodic

/-!
# C142: a tree is worked through in the same way by all commands

C140 and C141 are about TICK_UNTIL_RESULT and TICK_PERIODICALLY. Here is TICK_ONCE, and all of them as
requests to `control_execution`.
-/

set_option autoImplicit false

namespace Verif.Exec.Single

open Verif.BT (Op Res BTState Ops Tree Out ops runs ops_sound Sound)
open Verif.BT.Again (Series ticks c139_rounds)
open Until Takes

variable {N : Type}

/-! ### Requests -/

/-- Nothing runs, the tree is not in ERROR, and nothing disturbs what is to come. -/
def Resting (m : Mgr N) (t : N) : Prop :=
  m.tree = .root t ∧ m.thread.isAlive = false ∧ m.orphans = false ∧ Undisturbed m ∧ m.state ≠ .error

theorem resting_new (m : Mgr N) (t : N) (h : Resting m t) : Resting (newThread m) t :=
  ⟨h.1, rfl, h.2.2.1, h.2.2.2.1, h.2.2.2.2⟩

theorem control_rest (o : Ops N) (b : Bool) (c : Cmd) (m : Mgr N) (t : N) (h : Resting m t) :
    control o b c m = dispatch o c (newThread m) := by
  unfold control renew
  rw [h.2.1, if_neg (by simp), if_neg (by decide)]

theorem control_until (o : Ops N) (b : Bool) (m : Mgr N) (t : N) (h : Resting m t) :
    control o b .tickUntilResult m = tickMultipleCmd true (newThread m) := by
  rw [control_rest o b _ m t h]
  unfold dispatch
  rw [if_neg (fun hh => h.2.2.2.2 hh.1)]

theorem control_periodically (o : Ops N) (b : Bool) (m : Mgr N) (t : N) (h : Resting m t) :
    control o b .tickPeriodically m = tickMultipleCmd false (newThread m) := by
  rw [control_rest o b _ m t h]
  unfold dispatch
  rw [if_neg (fun hh => h.2.2.2.2 hh.1)]

theorem control_once (o : Ops N) (b : Bool) (m : Mgr N) (t : N) (h : Resting m t) :
    control o b .tickOnce m = tickOnceCmd o (newThread m) := by
  rw [control_rest o b _ m t h]
  unfold dispatch
  rw [if_neg (fun hh => h.2.2.2.2 hh.1)]

/-! ### A single tick -/

/-- The manager when TICK_ONCE has started its thread. -/
def begun (m : Mgr N) : Mgr N :=
  startThread true { m with once := true, untilResult := false, state := .ticking }

theorem once_cmd (o : Ops N) (m : Mgr N) (t : N) (h2 : m.thread.isAlive = false) (h1 : m.tree = .root t) :
    tickOnceCmd o m =
      if (join o joinSteps (begun m)).thread.isAlive then
        (join o joinSteps (begun m), ⟨false, some (join o joinSteps (begun m)).state⟩)
      else if (join o joinSteps (begun m)).state = .waiting then
        (join o joinSteps (begun m), ⟨true, some .waiting⟩)
      else (join o joinSteps (begun m), ⟨false, none⟩) := by
  unfold tickOnceCmd
  rw [if_neg (by rw [h2]; decide)]
  split
  · rename_i h; rw [h1] at h; cases h
  · rename_i h; rw [h1] at h; cases h
  · rfl

/-- The thread of a TICK_ONCE from the head of its loop. -/
theorem once_head (o : Ops N) (k : Nat) (s : BTState) (m : Mgr N) (t : N) (hth : m.thread = .alive .head)
    (htr : m.tree = .root t) (hw : Undisturbed m) (hst : m.state = .ticking) (hu : m.untilResult = false)
    (ho : m.once = true) (hr : (o.run .tick t).res = .ok s) :
    let e := join o (k + 4) m
    e.thread = .dead ∧ e.state = .waiting ∧ e.tree = .root (o.run .tick t).node ∧ e.orphans = m.orphans ∧
    e.world = m.world ∧ e.calls = m.calls ++ [(.tick, some (.ok s))] := by
  intro e
  have e0 : e = join o (k + 3) (threadStep o m) := join_step o (k + 3) m (by rw [hth]; rfl)
  have e1 : threadStep o m = ({ m with clock := m.clock + 1 } : Mgr N).goto .tick := by
    simp only [threadStep, hth, hst]
    rfl
  rw [e0, e1, join_step o _ _ rfl]
  have e2 : threadStep o (({ m with clock := m.clock + 1 } : Mgr N).goto .tick) =
      (after m (m.clock + 1 + 1) (o.run .tick t).node (m.calls ++ [(.tick, some (.ok s))])).goto
        (.result s) := by
    simp only [threadStep, Mgr.goto, tickStep, (hw (m.clock + 1)).2, htr, Mgr.call,
      (hw (m.clock + 1)).1, hr]
    rfl
  rw [e2, join_step o _ _ rfl]
  have e3 : threadStep o ((after m (m.clock + 1 + 1) (o.run .tick t).node
      (m.calls ++ [(.tick, some (.ok s))])).goto (.result s)) =
      ({ after m (m.clock + 1 + 1 + 1) (o.run .tick t).node (m.calls ++ [(.tick, some (.ok s))]) with
         once := false, state := .waiting } : Mgr N).goto .ended := by
    simp only [threadStep, Mgr.goto, resultStep, after, hu, ho]
    rw [if_neg (by rintro ⟨h, _⟩; cases h), if_pos trivial]
  rw [e3, join_step o _ _ rfl, join_dead o k _ rfl]
  exact ⟨rfl, rfl, rfl, rfl, rfl, rfl⟩

/-- TICK_ONCE for a tree that is set up. -/
theorem once_up (o : Ops N) (b : Bool) (s : BTState) (m : Mgr N) (t : N) (h : Resting m t)
    (hst : ¬ (o.state t = .uninitialized ∨ o.state t = .shutdown)) (hr : (o.run .tick t).res = .ok s) :
    let r := control o b .tickOnce m
    r.2.success = true ∧ Resting r.1 (o.run .tick t).node ∧ r.1.state = .waiting ∧
    r.1.calls = [(.tick, some (.ok s))] := by
  intro r
  have h' := resting_new m t h
  have hr0 : r = tickOnceCmd o (newThread m) := control_once o b m t h
  rw [hr0]
  clear hr0 r
  generalize newThread m = m at h'
  obtain ⟨h1, h2, h3, h4, _⟩ := h'
  have hj := once_head o 3 s ((after (begun m) (m.clock + 1) t []).goto .head) t rfl rfl h4 rfl rfl rfl hr
  have e1 : join o joinSteps (begun m) = join o (3 + 4) ((after (begun m) (m.clock + 1) t []).goto .head) := by
    rw [show joinSteps = 3 + 4 + 1 from rfl, join_step _ _ _ rfl]
    congr 1
    simp only [threadStep, begun, startThread, startStep, h3, h1]
    rw [if_neg (by decide), if_neg hst]
    simp only [after, Mgr.goto]
  rw [← e1] at hj
  rw [once_cmd o m t h2 h1]
  generalize join o joinSteps (begun m) = j at hj
  obtain ⟨j1, j2, j3, j4, j5, j6⟩ := hj
  rw [if_neg (by rw [j1]; decide), if_pos j2]
  exact ⟨rfl, ⟨j3, by rw [j1]; rfl, j4.trans h3, fun i => by rw [j5]; exact h4 i, by rw [j2]; decide⟩, j2, j6⟩

/-- TICK_ONCE for a tree that is not set up. -/
theorem once_down (o : Ops N) (b : Bool) (a s : BTState) (m : Mgr N) (t : N) (h : Resting m t)
    (hst : o.state t = .uninitialized ∨ o.state t = .shutdown) (hset : (o.run .setup t).res = .ok a)
    (hidle : o.state (o.run .setup t).node = .idle)
    (hr : (o.run .tick (o.run .setup t).node).res = .ok s) :
    let r := control o b .tickOnce m
    r.2.success = true ∧ Resting r.1 (o.run .tick (o.run .setup t).node).node ∧ r.1.state = .waiting ∧
    r.1.calls = [(.setup, some (.ok a)), (.tick, some (.ok s))] := by
  intro r
  have h' := resting_new m t h
  have hr0 : r = tickOnceCmd o (newThread m) := control_once o b m t h
  rw [hr0]
  clear hr0 r
  generalize newThread m = m at h'
  obtain ⟨h1, h2, h3, h4, _⟩ := h'
  have hj := once_head o 3 s ((after (begun m) (m.clock + 1) (o.run .setup t).node [(.setup, some (.ok a))]).goto .head)
      (o.run .setup t).node rfl rfl h4 rfl rfl rfl hr
  have e1 : join o joinSteps (begun m) = join o (3 + 4) ((after (begun m) (m.clock + 1) (o.run .setup t).node
      [(.setup, some (.ok a))]).goto .head) := by
    rw [show joinSteps = 3 + 4 + 1 from rfl, join_step _ _ _ rfl]
    congr 1
    simp only [threadStep, begun, startThread, startStep, h3, h1, Mgr.call, (h4 m.clock).1]
    rw [if_neg (by decide), if_pos hst, if_pos hidle, hset]
    rfl
  rw [← e1] at hj
  rw [once_cmd o m t h2 h1]
  generalize join o joinSteps (begun m) = j at hj
  obtain ⟨j1, j2, j3, j4, j5, j6⟩ := hj
  rw [if_neg (by rw [j1]; decide), if_pos j2]
  exact ⟨rfl, ⟨j3, by rw [j1]; rfl, j4.trans h3, fun i => by rw [j5]; exact h4 i, by rw [j2]; decide⟩, j2, j6⟩

/-! ### Many single ticks -/

/-- `k` requests TICK_ONCE, one after the other: the answers and what the tick thread called on the root. -/
def onces (o : Ops N) (b : Bool) : Nat → Mgr N → List (Bool × List (Op × Option Res)) × Mgr N
  | 0, m => ([], m)
  | k + 1, m =>
    let r := control o b .tickOnce m
    let l := onces o b k r.1
    ((r.2.success, r.1.calls) :: l.1, l.2)

theorem onces_up (o : Ops N) (hs : Sound o) (b : Bool) : ∀ (k : Nat) (m : Mgr N) (t : N), Resting m t →
    ¬ (o.state t = .uninitialized ∨ o.state t = .shutdown) →
    (∀ out ∈ (runs o (List.replicate k .tick) t).1, out.res.isOk = true) →
    (onces o b k m).1 = (runs o (List.replicate k .tick) t).1.map (fun out => (true, [(.tick, some out.res)])) ∧
    Resting (onces o b k m).2 (runs o (List.replicate k .tick) t).2 := by
  intro k
  induction k with
  | zero => intro m t h _ _; exact ⟨rfl, h⟩
  | succ k ih =>
    intro m t h hst hok
    have h0 := hok (o.run .tick t) List.mem_cons_self
    cases hr : (o.run .tick t).res with
    | err => rw [hr] at h0; cases h0
    | ok s =>
      obtain ⟨r1, r2, _, r4⟩ := once_up o b s m t h hst hr
      have hsound := hs .tick t s hr
      have hst' : ¬ (o.state (o.run .tick t).node = .uninitialized ∨
          o.state (o.run .tick t).node = .shutdown) := by
        rw [hsound.1]
        have := hsound.2
        revert this
        cases s <;> decide
      have h2 := ih _ _ r2 hst' (fun out h => hok out (List.mem_cons_of_mem _ h))
      refine ⟨?_, h2.2⟩
      show ((control o b .tickOnce m).2.success, (control o b .tickOnce m).1.calls) ::
        (onces o b k (control o b .tickOnce m).1).1 = (true, [(.tick, some (o.run .tick t).res)]) :: _
      rw [r1, r4, h2.1, hr]

/-! ### C142 -/

/-- **C142, ticks by hand.** No tick thread runs, the tree is not in ERROR, and it was reset or set up before,
after any other operations. Let the durations and results of its rounds, computed from its atoms, be `ps`, and
let its ticks not fail. Then so many requests TICK_ONCE are all answered with success, each one ticks the root
exactly once and calls nothing else on it, and the answers of these ticks are the same as with
TICK_PERIODICALLY: RUNNING as often as computed, and then the result, round after round. -/
theorem c142_by_hand (n : Nat) (t : Tree n) (before : List Op) (op : Op) (hop : op = .setup ∨ op = .reset)
    (b : Bool) (m : Mgr (Tree n)) (ps : List (Nat × BTState)) :
    let start := (ops n).run op (runs (ops n) before t).2
    Resting m start.node → start.res.isOk = true → Series n start.node ps →
    (∀ out ∈ (runs (ops n) (List.replicate (ticks ps) .tick) start.node).1, out.res.isOk = true) →
    (onces (ops n) b (ticks ps) m).1 = (Periodic.rounds ps).map fun c => (true, [c]) := by
  intro start hm hset hl hok
  have hc := c139_rounds n t before op hop ps hset hl hok
  have hst : ¬ ((ops n).state start.node = .uninitialized ∨ (ops n).state start.node = .shutdown) := by
    cases hr : start.res with
    | err => rw [hr] at hset; cases hset
    | ok a =>
      have hsound := ops_sound n op _ a hr
      rw [hsound.1]
      have := hsound.2
      revert this
      rcases hop with rfl | rfl <;> cases a <;> decide
  refine (onces_up (ops n) (ops_sound n) b (ticks ps) m _ hm hst hok).1.trans ?_
  have e2 : ∀ l : List (Out (Tree n)),
      l.map (fun out => ((true, [(.tick, some out.res)]) : Bool × List (Op × Option Res))) =
      (l.map Out.res).map fun r => (true, [(.tick, some r)]) := by
    intro l
    rw [List.map_map]
    rfl
  rw [e2, hc]
  unfold Periodic.rounds
  rw [List.map_flatMap, List.map_flatMap]
  congr 1
  funext p
  rw [List.map_append, List.map_append, List.map_replicate, List.map_replicate]
  rfl

/-- **C142, the first tick by hand** sets a tree up that is not: the request is answered with success, and what
was called on the root is the setup and one tick. -/
theorem c142_first (n : Nat) (t : Tree n) (b : Bool) (m : Mgr (Tree n)) (s : BTState) :
    let start := (ops n).run .setup t
    Resting m t → (ops n).state t = .uninitialized ∨ (ops n).state t = .shutdown → start.res.isOk = true →
    ((ops n).run .tick start.node).res = .ok s →
    let r := control (ops n) b .tickOnce m
    r.2.success = true ∧ Resting r.1 ((ops n).run .tick start.node).node ∧ r.1.state = .waiting ∧
    r.1.calls = [(.setup, some start.res), (.tick, some (.ok s))] := by
  intro start hm hst hset hr
  cases ha : start.res with
  | err => rw [ha] at hset; cases hset
  | ok a =>
    have hsound := ops_sound n .setup t a ha
    have hidle : (ops n).state start.node = .idle := by
      rw [hsound.1]
      have := hsound.2
      revert this
      cases a <;> decide
    exact once_down (ops n) b a s m t hm hst ha hidle hr

/-- **C142, until a result, as a request.** C140 for `control_execution`. -/
theorem c142_until (n : Nat) (t : Tree n) (before : List Op) (b : Bool) (m : Mgr (Tree n)) (T : Nat)
    (s : BTState) :
    let now := (runs (ops n) before t).2
    let start := (ops n).run .setup now
    Resting m now → (ops n).state now = .uninitialized ∨ (ops n).state now = .shutdown →
    start.res.isOk = true → BT.Duration.Lasts n start.node T s →
    (∀ out ∈ (runs (ops n) (List.replicate (T + 1) .tick) start.node).1, out.res.isOk = true) →
    let answer := control (ops n) b .tickUntilResult m
    answer.2.success = true ∧
    Ended (ops n) [(.setup, some start.res)] T s start.node (join (ops n) (enough T) answer.1) := by
  intro now start hm hst hset hl hok answer
  have e : answer = tickMultipleCmd true (newThread m) := control_until (ops n) b m now hm
  rw [e]
  obtain ⟨h1, h2, h3, h4, _⟩ := resting_new m now hm
  exact c140_setup n t before (newThread m) T s h1 h2 h3 h4 hst hset hl hok

/-! ### Example -/

/-- A manager with the sample tree of `Again.lean`, which was set up. -/
def sample : Mgr (Tree 2) := { tree := .root ((ops 2).run .setup BT.Again.sampleAgain).node, state := .idle }

example : Resting sample ((ops 2).run .setup (runs (ops 2) [] BT.Again.sampleAgain).2).node :=
  ⟨rfl, rfl, rfl, fun _ => ⟨rfl, rfl⟩, by decide⟩

example : (onces (ops 2) true 5 sample).1 =
    [(true, [(.tick, some (.ok .running))]), (true, [(.tick, some (.ok .succeeded))]),
     (true, [(.tick, some (.ok .running))]), (true, [(.tick, some (.ok .running))]),
     (true, [(.tick, some (.ok .succeeded))])] := by
  decide +kernel

example : (control (ops 2) true .tickOnce { tree := .root BT.Again.sampleAgain }).1.calls =
    [(.setup, some (.ok .idle)), (.tick, some (.ok .running))] := by
  decide +kernel

end Verif.Exec.Single
