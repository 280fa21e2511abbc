import Verif.Exec.Takes
import Verif.BT.Again

/-!
# C141: TICK_PERIODICALLY runs the tree round after round

C139 computes the durations and results of all rounds of a tree from its atoms. Here the tick thread that
TICK_PERIODICALLY starts is put on top of that.
-/

set_option autoImplicit false

namespace Verif.Exec.Periodic

open Verif.BT (Op Res BTState Ops Tree Out ops runs ops_sound)
open Verif.BT.Again (Series ticks c139_rounds)
open Until Takes

variable {N : Type}

/-! ### Specification -/

/-- Specification: the ticks of all rounds with their answers: RUNNING as often as the round lasts, and then
its result. -/
def rounds (ps : List (Nat × BTState)) : List (Op × Option Res) :=
  ps.flatMap fun p => List.replicate p.1 (.tick, some (.ok .running)) ++ [(.tick, some (.ok p.2))]

/-! ### The loop -/

/-- The tick thread is at the head of its loop and will tick the root `t` again. -/
def AtHead (m : Mgr N) (t : N) : Prop :=
  m.thread = .alive .head ∧ m.tree = .root t ∧ Undisturbed m ∧ m.state = .ticking ∧
  m.untilResult = false ∧ m.once = false

theorem loop (o : Ops N) : ∀ (k : Nat) (m : Mgr N) (t : N), AtHead m t →
    (∀ out ∈ (runs o (List.replicate k .tick) t).1, out.res.isOk = true) →
    AtHead (join o (3 * k) m) (runs o (List.replicate k .tick) t).2 ∧
    (join o (3 * k) m).calls = m.calls ++
      (runs o (List.replicate k .tick) t).1.map (fun out => (.tick, some out.res)) := by
  intro k
  induction k with
  | zero => intro m t h _; exact ⟨h, (List.append_nil _).symm⟩
  | succ k ih =>
    intro m t ⟨hth, htr, hw, hst, hu, ho⟩ hok
    have h0 := hok (o.run .tick t) List.mem_cons_self
    cases hr : (o.run .tick t).res with
    | err => rw [hr] at h0; cases h0
    | ok s =>
      rw [show 3 * (k + 1) = 3 * k + 3 by omega, join_step o _ m (by rw [hth]; rfl)]
      have e1 : threadStep o m = ({ m with clock := m.clock + 1 } : Mgr N).goto .tick := by
        simp only [threadStep, hth, hst]
        rfl
      rw [e1, join_step o _ _ rfl]
      have e2 : threadStep o (({ m with clock := m.clock + 1 } : Mgr N).goto .tick) =
          (after m (m.clock + 1 + 1) (o.run .tick t).node (m.calls ++ [(.tick, some (.ok s))])).goto
            (.result s) := by
        simp only [threadStep, Mgr.goto, tickStep, (hw (m.clock + 1)).2, htr, Mgr.call,
          (hw (m.clock + 1)).1, hr]
        rfl
      rw [e2, join_step o _ _ rfl]
      have e3 : threadStep o ((after m (m.clock + 1 + 1) (o.run .tick t).node
          (m.calls ++ [(.tick, some (.ok s))])).goto (.result s)) =
          (after m (m.clock + 1 + 1 + 1) (o.run .tick t).node (m.calls ++ [(.tick, some (.ok s))])).goto
            .head := by
        simp only [threadStep, Mgr.goto, resultStep, after, hu, ho]
        rw [if_neg (by rintro ⟨h, _⟩; cases h), if_neg (by decide)]
      rw [e3]
      have h := ih ((after m (m.clock + 1 + 1 + 1) (o.run .tick t).node
        (m.calls ++ [(.tick, some (.ok s))])).goto .head) (o.run .tick t).node ⟨rfl, rfl, hw, hst, hu, ho⟩
        (fun out h => hok out (List.mem_cons_of_mem _ h))
      refine ⟨h.1, h.2.trans ?_⟩
      show (m.calls ++ [(.tick, some (.ok s))]) ++ _ = m.calls ++ ((.tick, some (o.run .tick t).res) :: _)
      rw [List.append_assoc, hr]
      rfl

/-- The steps until so many ticks have been made. -/
def steps (k : Nat) : Nat := 3 * k + 1

/-! ### C141 -/

/-- **C141.** No tick thread runs, and the nodes form a tree that has not been set up yet or has been shut
down, whatever was done with it before. Let its setup succeed, let the durations and results of its first
rounds, computed from its atoms, be `ps`, and let its ticks not fail. Then TICK_PERIODICALLY is answered with
success; when the thread has made as many ticks as these rounds have, it has called on the root the setup once
and then the ticks of all rounds, one after the other, with the computed answers, and nothing else: finished
rounds are followed by the next one without a RESET. It goes on ticking. A STOP then unticks the root once,
ends the thread, and is answered with success unless the untick fails. -/
theorem c141_periodic (n : Nat) (t : Tree n) (before : List Op) (m : Mgr (Tree n)) (ps : List (Nat × BTState)) :
    let now := (runs (ops n) before t).2
    let start := (ops n).run .setup now
    let last := (runs (ops n) (List.replicate (ticks ps) .tick) start.node).2
    m.tree = .root now → m.thread.isAlive = false → m.orphans = false → Undisturbed m →
    (ops n).state now = .uninitialized ∨ (ops n).state now = .shutdown →
    start.res.isOk = true → Series n start.node ps →
    (∀ out ∈ (runs (ops n) (List.replicate (ticks ps) .tick) start.node).1, out.res.isOk = true) →
    let answer := tickMultipleCmd false m
    let e := join (ops n) (steps (ticks ps)) answer.1
    let stop := stopCmd (ops n) false e
    answer.2.success = true ∧
    e.thread = .alive .head ∧ e.state = .ticking ∧ e.tree = .root last ∧
    e.calls = (.setup, some start.res) :: rounds ps ∧
    stop.1.thread = .dead ∧ stop.1.tree = .root ((ops n).run .untick last).node ∧
    stop.1.calls = e.calls ++ [(.untick, some ((ops n).run .untick last).res)] ∧
    stop.2.success = ((ops n).run .untick last).res.isOk := by
  intro now start last hm ha hor hw hst hset hl hok answer e stop
  have hans : answer = (startThread false { m with state := .ticking, once := false, untilResult := false },
      ⟨true, some .ticking⟩) := by
    show tickMultipleCmd false m = _
    unfold tickMultipleCmd
    rw [ha, hm]
    rfl
  have hc := c139_rounds n t before .setup (Or.inl rfl) ps hset hl hok
  have he : AtHead e last ∧ e.calls = (.setup, some start.res) :: rounds ps := by
    show AtHead (join (ops n) (steps (ticks ps)) answer.1) last ∧
      (join (ops n) (steps (ticks ps)) answer.1).calls = _
    rw [hans]
    cases hr : start.res with
    | err => rw [hr] at hset; cases hset
    | ok a =>
      have hsound := ops_sound n .setup now a hr
      have hidle : (ops n).state start.node = .idle := by
        rw [hsound.1]
        have := hsound.2
        revert this
        cases a <;> decide
      rw [show steps (ticks ps) = 3 * ticks ps + 1 from rfl, join_step _ _ _ rfl]
      have e1 : threadStep (ops n)
          (startThread false { m with state := .ticking, once := false, untilResult := false }) =
          (after (startThread false { m with state := .ticking, once := false, untilResult := false })
            (m.clock + 1) start.node [(.setup, some (.ok a))]).goto .head := by
        simp only [threadStep, startThread, startStep, hor, hm, Mgr.call, (hw m.clock).1]
        rw [if_neg (by decide), if_pos hst, if_pos hidle]
        show Mgr.goto _ _ = _
        rw [show ((ops n).run .setup now).res = .ok a from hr]
        rfl
      rw [e1]
      obtain ⟨h1, h2⟩ := loop (ops n) (ticks ps)
        ((after (startThread false { m with state := .ticking, once := false, untilResult := false })
            (m.clock + 1) start.node [(.setup, some (.ok a))]).goto .head) start.node
        ⟨rfl, rfl, hw, rfl, rfl, rfl⟩ hok
      refine ⟨h1, h2.trans ?_⟩
      show ((Op.setup, some (Res.ok a)) : Op × Option Res) :: _ = _
      congr 1
      refine (List.nil_append _).trans ?_
      have e2 : ∀ l : List (Out (Tree n)), l.map (fun out => ((Op.tick, some out.res) : Op × Option Res)) =
          (l.map Out.res).map fun r => (.tick, some r) := by
        intro l
        rw [List.map_map]
        rfl
      rw [e2, hc]
      unfold rounds
      rw [List.map_flatMap]
      congr 1
      funext p
      rw [List.map_append, List.map_replicate]
      rfl
  obtain ⟨⟨g1, g2, g3, g4, g5, g6⟩, gc⟩ := he
  refine ⟨by rw [hans], g1, g4, g2, gc, ?_⟩
  have hstop : stop = match stopPart (ops n) e with
      | (m', some r) => (m', r)
      | (m', none) => (m', stopResp e.state) := by
    show stopCmd (ops n) false e = _
    unfold stopCmd
    rcases stopPart (ops n) e with ⟨m', r⟩
    cases r with
    | none => exact if_neg (by decide)
    | some r => rfl
  have hpart : stopPart (ops n) e =
      let j := join (ops n) joinSteps { e with state := .stopRequested, asked := true }
      if j.thread.isAlive then (j, some ⟨false, none⟩)
      else if j.state = .idle then (j, none)
      else (j, some ⟨false, none⟩) := by
    unfold stopPart
    rw [g4]
  have hj : join (ops n) joinSteps { e with state := .stopRequested, asked := true } =
      join (ops n) (3 + 3) (({ e with clock := e.clock + 1 + 1, state := .idle, asked := true } : Mgr (Tree n)).goto
        .untick) := by
    rw [show joinSteps = 3 + 3 + 1 + 1 from rfl, join_step _ _ _ (by rw [show _ = _ from g1]; rfl)]
    have e1 : threadStep (ops n) { e with state := .stopRequested, asked := true } =
        ({ e with state := .stopRequested, asked := true, clock := e.clock + 1 } : Mgr (Tree n)).goto .leave := by
      simp only [threadStep, g1]
      rfl
    rw [e1, join_step _ _ _ rfl]
    rfl
  have hu := work_untick (ops n) 3 (({ e with clock := e.clock + 1 + 1, state := .idle, asked := true } :
    Mgr (Tree n)).goto .untick) last rfl g2 g3 rfl
  rw [← hj] at hu
  rw [hstop, hpart]
  generalize join (ops n) joinSteps { e with state := .stopRequested, asked := true } = j at hu
  obtain ⟨u1, u2, u3, u4⟩ := hu
  simp only [u1, Thread.isAlive, Bool.false_eq_true, if_false]
  cases hb : ((ops n).run .untick last).res.isOk with
  | true =>
    rw [hb] at u4
    rw [if_pos (by simpa using u4)]
    exact ⟨u1, u3, u2, by rw [g4]; rfl⟩
  | false =>
    rw [hb] at u4
    rw [if_neg (by rw [u4]; decide)]
    exact ⟨u1, u3, u2, rfl⟩

/-! ### Example -/

/-- A manager with the sample tree of `Again.lean`, whose first rounds take one and two further ticks. -/
def sample : Mgr (Tree 2) := { tree := .root BT.Again.sampleAgain }

example : (ops 2).state BT.Again.sampleAgain = .uninitialized ∧
    Series 2 ((ops 2).run .setup BT.Again.sampleAgain).node [(1, .succeeded), (2, .succeeded)] ∧
    Undisturbed sample :=
  ⟨by decide +kernel, BT.Again.sample_series, fun _ => ⟨rfl, rfl⟩⟩

example : (join (ops 2) (steps 5) (tickMultipleCmd false sample).1).calls =
    (.setup, some (.ok .idle)) :: rounds [(1, .succeeded), (2, .succeeded)] := by
  decide +kernel

end Verif.Exec.Periodic
