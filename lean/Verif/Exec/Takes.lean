import Verif.Exec.Until
import Verif.BT.Duration

/-!
# C140: how many ticks TICK_UNTIL_RESULT takes

C139 computes the duration and the result of a tree from its atoms. Here the tick thread that
TICK_UNTIL_RESULT starts is put on top of that.
-/

set_option autoImplicit false

namespace Verif.Exec.Takes

open Verif.BT (Op Res BTState Ops Tree Out ops runs Sound ops_sound allowedAfter)
open Verif.BT.Rounds (course)
open Verif.BT.Duration (Lasts Fin lasts_fin c139_duration part beginOf Begin chain_go allThen_fresh onHead_fresh
  takes_runs lasts_takes par_kind)
open Until

variable {N : Type}

/-- Nothing from outside disturbs the tick thread: inputs arrive and nothing raises an exception. -/
def Undisturbed (m : Mgr N) : Prop := ∀ i, (m.world i).raise = none ∧ (m.world i).push = true

/-- Specification: what the tick thread calls on the root, from the first tick on, if the root is RUNNING
for `T` ticks and then answers `s`; `u` is the answer to the untick. -/
def work (T : Nat) (s : BTState) (u : Res) : List (Op × Option Res) :=
  List.replicate T (.tick, some (.ok .running)) ++ [(.tick, some (.ok s)), (.untick, some u)]

/-- How the run ends. -/
def Ended (o : Ops N) (before : List (Op × Option Res)) (T : Nat) (s : BTState) (t : N) (e : Mgr N) : Prop :=
  let u := o.run .untick (runs o (List.replicate (T + 1) .tick) t).2
  e.thread = .dead ∧ e.calls = before ++ work T s u.res ∧ e.tree = .root u.node ∧
  e.state = (if u.res.isOk then .idle else .error)

/-- The manager after some steps of the tick thread. -/
def after (m : Mgr N) (c : Nat) (t : N) (l : List (Op × Option Res)) : Mgr N :=
  { m with clock := c, tree := .root t, calls := l }

theorem join_dead (o : Ops N) (k : Nat) (m : Mgr N) (h : m.thread = .dead) : join o k m = m :=
  join_over o k m (by unfold Over; rw [h]; rfl)

/-- The untick at the end. -/
theorem work_untick (o : Ops N) (k : Nat) (m : Mgr N) (t : N) (hth : m.thread = .alive .untick)
    (htr : m.tree = .root t) (hw : Undisturbed m) (hst : m.state = .idle) :
    let e := join o (k + 3) m
    e.thread = .dead ∧ e.calls = m.calls ++ [(.untick, some (o.run .untick t).res)] ∧
    e.tree = .root (o.run .untick t).node ∧
    e.state = (if (o.run .untick t).res.isOk then .idle else .error) := by
  intro e
  have e1 : e = join o (k + 2) (threadStep o m) := join_step o (k + 2) m (by rw [hth]; rfl)
  have e2 : threadStep o m = untickStep o (m.world m.clock) { m with clock := m.clock + 1 } := by
    simp only [threadStep, hth]
  rw [e1, e2]
  unfold untickStep
  simp only [htr, Mgr.call, (hw m.clock).1]
  cases hr : (o.run .untick t).res with
  | ok a =>
    simp only
    rw [join_dead o _ _ rfl]
    exact ⟨rfl, rfl, rfl, hst⟩
  | err =>
    simp only
    rw [join_step o (k + 1) _ rfl, join_step o k _ rfl, join_dead o k _ rfl]
    exact ⟨rfl, rfl, rfl, rfl⟩

/-- The loop of the tick thread. -/
theorem work_head (o : Ops N) (s : BTState) (hs : Fin s) (k : Nat) : ∀ (T : Nat) (m : Mgr N) (t : N),
    m.thread = .alive .head → m.tree = .root t → Undisturbed m → m.state = .ticking →
    m.untilResult = true → m.once = false →
    (runs o (List.replicate (T + 1) .tick) t).1.map Out.res = course T s →
    Ended o m.calls T s t (join o (3 * T + (k + 7)) m) := by
  intro T
  induction T with
  | zero =>
    intro m t hth htr hw hst hu ho hr
    have hr0 : (o.run .tick t).res = .ok s := (List.cons.inj hr).1
    rw [show 3 * 0 + (k + 7) = (k + 3) + 4 by omega, join_step o _ m (by rw [hth]; rfl)]
    have e1 : threadStep o m = ({ m with clock := m.clock + 1 } : Mgr N).goto .tick := by
      simp only [threadStep, hth, hst]
      rfl
    rw [e1, join_step o _ _ rfl]
    have e2 : threadStep o (({ m with clock := m.clock + 1 } : Mgr N).goto .tick) =
        (after m (m.clock + 1 + 1) (o.run .tick t).node (m.calls ++ [(.tick, some (.ok s))])).goto (.result s) := by
      simp only [threadStep, Mgr.goto, tickStep, (hw (m.clock + 1)).2, htr, Mgr.call,
        (hw (m.clock + 1)).1, hr0]
      rfl
    rw [e2, join_step o _ _ rfl]
    have e3 : threadStep o ((after m (m.clock + 1 + 1) (o.run .tick t).node (m.calls ++
        [(.tick, some (.ok s))])).goto (.result s)) =
        (after m (m.clock + 1 + 1 + 1) (o.run .tick t).node (m.calls ++ [(.tick, some (.ok s))])).goto .leave := by
      simp only [threadStep, Mgr.goto, resultStep, after, hu]
      rw [if_pos ⟨trivial, hs.symm⟩]
    rw [e3, join_step o _ _ rfl]
    have h := work_untick o k (threadStep o ((after m (m.clock + 1 + 1 + 1) (o.run .tick t).node
      (m.calls ++ [(.tick, some (.ok s))])).goto .leave)) (o.run .tick t).node
      rfl rfl hw rfl
    refine ⟨h.1, h.2.1.trans ?_, h.2.2⟩
    show (m.calls ++ [(.tick, some (.ok s))]) ++ _ = _
    rw [List.append_assoc]
    rfl
  | succ T ih =>
    intro m t hth htr hw hst hu ho hr
    have hr' := List.cons.inj hr
    have hr0 : (o.run .tick t).res = .ok .running := hr'.1
    rw [show 3 * (T + 1) + (k + 7) = (3 * T + (k + 7)) + 3 by omega, join_step o _ m (by rw [hth]; rfl)]
    have e1 : threadStep o m = ({ m with clock := m.clock + 1 } : Mgr N).goto .tick := by
      simp only [threadStep, hth, hst]
      rfl
    rw [e1, join_step o _ _ rfl]
    have e2 : threadStep o (({ m with clock := m.clock + 1 } : Mgr N).goto .tick) =
        (after m (m.clock + 1 + 1) (o.run .tick t).node (m.calls ++ [(.tick, some (.ok .running))])).goto
          (.result .running) := by
      simp only [threadStep, Mgr.goto, tickStep, (hw (m.clock + 1)).2, htr, Mgr.call,
        (hw (m.clock + 1)).1, hr0]
      rfl
    rw [e2, join_step o _ _ rfl]
    have e3 : threadStep o ((after m (m.clock + 1 + 1) (o.run .tick t).node (m.calls ++ [(.tick, some (.ok .running))])).goto
          (.result .running)) =
        (after m (m.clock + 1 + 1 + 1) (o.run .tick t).node (m.calls ++ [(.tick, some (.ok .running))])).goto .head := by
      simp only [threadStep, Mgr.goto, resultStep, after, ho]
      rw [if_neg (by rintro ⟨_, h | h⟩ <;> cases h), if_neg (by decide)]
    rw [e3]
    have h := ih ((after m (m.clock + 1 + 1 + 1) (o.run .tick t).node
      (m.calls ++ [(.tick, some (.ok .running))])).goto .head) (o.run .tick t).node
      rfl rfl hw hst hu ho hr'.2
    refine ⟨h.1, h.2.1.trans ?_, h.2.2⟩
    show (m.calls ++ [(.tick, some (.ok .running))]) ++ _ = _
    rw [List.append_assoc]
    rfl

/-! ### C140 -/

/-- **C140, a tree that has to be set up.** No tick thread runs, and the nodes form a tree that has not
been set up yet or has been shut down, whatever was done with it before. If its setup succeeds, and the
duration and result computed from its atoms are `T` and `s`, and its ticks do not fail, then
TICK_UNTIL_RESULT is answered with success and sets it up once, ticks it exactly `T + 1` times, where
`T` ticks are answered RUNNING and the last one `s`, and then unticks it once. Then the thread has ended,
and the state is IDLE (ERROR if the untick failed). -/
theorem c140_setup (n : Nat) (t : Tree n) (before : List Op) (m : Mgr (Tree n)) (T : Nat) (s : BTState) :
    let now := (runs (ops n) before t).2
    let start := (ops n).run .setup now
    m.tree = .root now → m.thread.isAlive = false → m.orphans = false → Undisturbed m →
    (ops n).state now = .uninitialized ∨ (ops n).state now = .shutdown →
    start.res.isOk = true → Lasts n start.node T s →
    (∀ out ∈ (runs (ops n) (List.replicate (T + 1) .tick) start.node).1, out.res.isOk = true) →
    let answer := tickMultipleCmd true m
    answer.2.success = true ∧
    Ended (ops n) [(.setup, some start.res)] T s start.node (join (ops n) (enough T) answer.1) := by
  intro now start hm ha hor hw hst hset hl hok answer
  have hans : answer = (startThread false { m with state := .ticking, once := false, untilResult := true },
      ⟨true, some .ticking⟩) := by
    show tickMultipleCmd true m = _
    unfold tickMultipleCmd
    rw [ha, hm]
    rfl
  rw [hans]
  refine ⟨rfl, ?_⟩
  have hc := c139_duration n t before .setup (Or.inl rfl) T s hset hl hok
  cases hr : start.res with
  | err => rw [hr] at hset; cases hset
  | ok a =>
    have hsound := ops_sound n .setup now a hr
    have hidle : (ops n).state start.node = .idle := by
      rw [hsound.1]
      have := hsound.2
      revert this
      cases a <;> decide
    rw [show enough T = 3 * T + (0 + 7) + 1 from rfl, join_step _ _ _ rfl]
    have e1 : threadStep (ops n)
        (startThread false { m with state := .ticking, once := false, untilResult := true }) =
        (after (startThread false { m with state := .ticking, once := false, untilResult := true })
          (m.clock + 1) start.node [(.setup, some (.ok a))]).goto .head := by
      simp only [threadStep, startThread, startStep, hor, hm, Mgr.call, (hw m.clock).1]
      rw [if_neg (by decide), if_pos hst, if_pos hidle]
      show Mgr.goto _ _ = _
      rw [show ((ops n).run .setup now).res = .ok a from hr]
      rfl
    rw [e1]
    exact work_head (ops n) s (lasts_fin n _ _ _ hl) 0 T _ start.node rfl rfl hw rfl rfl rfl hc

/-- **C140, a tree that was reset.** The same after a RESET that was answered with success: the tree is
not set up again. -/
theorem c140_reset (n : Nat) (t : Tree n) (before : List Op) (m : Mgr (Tree n)) (T : Nat) (s : BTState) :
    let now := (runs (ops n) before t).2
    let start := (ops n).run .reset now
    let reset := resetCmd (ops n) m
    m.tree = .root now → m.thread.isAlive = false → m.orphans = false → Undisturbed m →
    reset.2.success = true → Lasts n start.node T s →
    (∀ out ∈ (runs (ops n) (List.replicate (T + 1) .tick) start.node).1, out.res.isOk = true) →
    let answer := tickMultipleCmd true reset.1
    answer.2.success = true ∧
    Ended (ops n) [] T s start.node (join (ops n) (enough T) answer.1) := by
  intro now start reset hm ha hor hw hres hl hok answer
  cases hr : start.res with
  | err =>
    have : reset.2.success = false := by
      show (resetCmd (ops n) m).2.success = false
      unfold resetCmd
      simp only [ha, hm]
      show (match start.res with | .err => _ | .ok _ => _ : Mgr (Tree n) × Resp).2.success = false
      rw [hr]
    rw [this] at hres
    cases hres
  | ok a =>
    have he : reset = ({ m with tree := .root start.node, state := .idle }, ⟨true, some .idle⟩) := by
      show resetCmd (ops n) m = _
      unfold resetCmd
      simp only [ha, hm]
      show (match start.res with | .err => _ | .ok _ => _ : Mgr (Tree n) × Resp) = _
      rw [hr]
    have hans : answer = (startThread false { m with
          tree := .root start.node, state := .ticking, once := false, untilResult := true }, ⟨true, some .ticking⟩) := by
      show tickMultipleCmd true reset.1 = _
      rw [he]
      unfold tickMultipleCmd
      simp only [ha]
      rfl
    rw [hans]
    refine ⟨rfl, ?_⟩
    have hc := c139_duration n t before .reset (Or.inr rfl) T s (by show start.res.isOk = true; rw [hr]; rfl)
      hl hok
    have hsound := ops_sound n .reset now a hr
    have hst : ¬ ((ops n).state start.node = .uninitialized ∨ (ops n).state start.node = .shutdown) := by
      rw [hsound.1]
      have := hsound.2
      revert this
      cases a <;> decide
    rw [show enough T = 3 * T + (0 + 7) + 1 from rfl, join_step _ _ _ rfl]
    have e1 : threadStep (ops n)
        (startThread false { m with
          tree := .root start.node, state := .ticking, once := false, untilResult := true }) =
        (after (startThread false { m with state := .ticking, once := false, untilResult := true })
          (m.clock + 1) start.node []).goto .head := by
      simp only [threadStep, startThread, startStep, hor]
      rw [if_neg (by decide), if_neg hst]
      rfl
    rw [e1]
    exact work_head (ops n) s (lasts_fin n _ _ _ hl) 0 T _ start.node rfl rfl hw rfl rfl rfl hc

/-! ### Without a RESET -/

/-- No MemoryFallback is among the nodes above the atoms. -/
def Steady : (n : Nat) → Tree n → Prop
  | 0, t => Empty.elim t
  | n + 1, t =>
    let nd : BT.Node (Tree n) := t
    nd.kind ≠ .memFallback ∧ (part nd.kind ≠ .atom → ∀ c ∈ nd.children, Steady n c)

theorem steady_run (n : Nat) : ∀ (t : Tree n) (op : Op), Steady n t → Steady n ((ops n).run op t).node := by
  induction n with
  | zero => intro t; exact Empty.elim t
  | succ n ih =>
    intro t op h
    have h : BT.Node.kind (N := Tree n) t ≠ .memFallback ∧ (part (BT.Node.kind (N := Tree n) t) ≠ .atom →
      ∀ c ∈ BT.Node.children (N := Tree n) t, Steady n c) := h
    have hk := (BT.run_static (ops n) op t).2.2.1
    show BT.Node.kind (BT.Node.run (ops n) op t).node ≠ .memFallback ∧
      (part (BT.Node.kind (BT.Node.run (ops n) op t).node) ≠ .atom →
        ∀ c ∈ BT.Node.children (BT.Node.run (ops n) op t).node, Steady n c)
    rw [hk]
    exact ⟨h.1, fun hp => BT.run_children (ops n) (Steady n) (fun op c hc => ih c op hc) op t (h.2 hp)⟩

theorem steady_runs (n : Nat) (l : List Op) : ∀ t : Tree n, Steady n t → Steady n (runs (ops n) l t).2 := by
  induction l with
  | nil => intro t h; exact h
  | cons op l ih => intro t h; exact ih _ (steady_run n t op h)

/-- Unticking such a node lets it begin a new round. -/
theorem node_untick (o : Ops N) (B : N → Prop) (nd : BT.Node N) (s : BTState)
    (hB : part nd.kind ≠ .atom → ∀ c a, (o.run .untick c).res = .ok a → B (o.run .untick c).node)
    (hk : nd.kind ≠ .memFallback)
    (h : (nd.run o .untick).res = .ok s) (hs : allowedAfter .untick s = true) :
    beginOf B (nd.run o .untick).node := by
  obtain ⟨x, hx, hr, hn, _, _⟩ := BT.run_ok o .untick (by simp) nd s h
  rw [hn]
  refine ⟨by show BT.finished s = false; revert hs; cases s <;> decide, ?_⟩
  have hlen : (nd.children.map o.name).length = nd.children.length := List.length_map _
  show match part nd.kind with
    | .chain _ => x.mem.lastRunning = 0 ∧ ∀ c ∈ x.children, B c
    | .together => ∀ c ∈ x.children, B c
    | .rename _ _ => ∀ c, x.children[0]? = some c → B c
    | .atom => True
  rw [hx] at hr
  rw [hx]
  clear hx hn
  split
  · rename_i go hp
    have hB := hB (by rw [hp]; simp)
    rcases chain_go _ _ hp with ⟨e, _⟩ | ⟨e, _⟩
    · rw [e] at hr ⊢
      obtain ⟨h1, h2⟩ := allThen_fresh o B .untick hB { nd.mem with lastRunning := 0 } .idle s nd.children _
        hlen hr
      exact ⟨by rw [show (BT.exec o (BT.hookProg .memSequence .untick nd.state nd.mem (nd.env nd.ctr)
        (nd.children.map o.name)) nd.children).mem = _ from h1], h2⟩
    · exact absurd e hk
  · rename_i hp
    have hB := hB (by rw [hp]; simp)
    rcases par_kind _ hp with e | e <;> rw [e] at hr ⊢ <;>
      exact (allThen_fresh o B .untick hB nd.mem .idle s nd.children _ hlen hr).2
  · rename_i f d hp
    have hB := hB (by rw [hp]; simp)
    have key : ∃ (b : BTState) (m : BT.Mem), BT.hookProg nd.kind .untick nd.state nd.mem (nd.env nd.ctr)
        (nd.children.map o.name) = BT.Prog.onHead (nd.children.map o.name).length .untick m id b := by
      cases hkd : nd.kind <;> rw [hkd] at hp <;> simp [part] at hp <;> exact ⟨_, _, rfl⟩
    obtain ⟨b, m, hb⟩ := key
    rw [hb] at hr ⊢
    exact onHead_fresh o B .untick hB _ b s nd.children _ hlen hr
  · trivial

theorem begin_untick (n : Nat) : ∀ (t : Tree n) (s : BTState), Steady n ((ops n).run .untick t).node →
    ((ops n).run .untick t).res = .ok s → Begin n ((ops n).run .untick t).node := by
  induction n with
  | zero => intro t; exact Empty.elim t
  | succ n ih =>
    intro t s hst h
    have hk := (BT.run_static (ops n) .untick t).2.2.1
    have hst : BT.Node.kind (BT.Node.run (ops n) .untick t).node ≠ .memFallback ∧
      (part (BT.Node.kind (BT.Node.run (ops n) .untick t).node) ≠ .atom →
        ∀ c ∈ BT.Node.children (BT.Node.run (ops n) .untick t).node, Steady n c) := hst
    have hb : beginOf (fun c => Steady n c → Begin n c) (BT.Node.run (ops n) .untick t).node :=
      node_untick (ops n) _ t s (fun _ c a hc hs => ih c a hs hc) (by rw [← hk]; exact hst.1) h
        ((ops_sound (n + 1) .untick t s h).2)
    show beginOf (Begin n) (BT.Node.run (ops n) .untick t).node
    generalize BT.Node.run (ops n) .untick t = u at hst hb
    unfold beginOf at hb ⊢
    refine ⟨hb.1, ?_⟩
    have h2 := hb.2
    have h3 := hst.2
    split
    · rename_i go hp
      rw [hp] at h2 h3
      exact ⟨h2.1, fun c hc => h2.2 c hc (h3 (by simp) c hc)⟩
    · rename_i hp
      rw [hp] at h2 h3
      exact fun c hc => h2 c hc (h3 (by simp) c hc)
    · rename_i f d hp
      rw [hp] at h2 h3
      exact fun c hc => h2 c hc (h3 (by simp) c (List.mem_of_getElem? hc))
    · trivial

/-- **C140, once more.** A tree without MemoryFallback (above its atoms) that was unticked, as it is at the
end of every TICK_UNTIL_RESULT or by STOP, begins from the start as well: no RESET is needed. -/
theorem c140_again (n : Nat) (t : Tree n) (before : List Op) (m : Mgr (Tree n)) (T : Nat) (s : BTState) :
    let start := (ops n).run .untick (runs (ops n) before t).2
    Steady n t → m.tree = .root start.node → m.thread.isAlive = false → m.orphans = false → Undisturbed m →
    start.res.isOk = true → Lasts n start.node T s →
    (∀ out ∈ (runs (ops n) (List.replicate (T + 1) .tick) start.node).1, out.res.isOk = true) →
    let answer := tickMultipleCmd true m
    answer.2.success = true ∧
    Ended (ops n) [] T s start.node (join (ops n) (enough T) answer.1) := by
  intro start hs hm ha hor hw hres hl hok answer
  cases hr : start.res with
  | err => rw [hr] at hres; cases hres
  | ok a =>
    have hans : answer = (startThread false { m with
          state := .ticking, once := false, untilResult := true }, ⟨true, some .ticking⟩) := by
      show tickMultipleCmd true m = _
      unfold tickMultipleCmd
      rw [ha, hm]
      rfl
    rw [hans]
    refine ⟨rfl, ?_⟩
    have hb : Begin n start.node :=
      begin_untick n _ a (steady_run n _ .untick (steady_runs n before t hs)) hr
    have hc := takes_runs (ops n) s T _ (lasts_takes n _ T s hb hl) hok
    have hsound := ops_sound n .untick _ a hr
    have hst : ¬ ((ops n).state start.node = .uninitialized ∨ (ops n).state start.node = .shutdown) := by
      rw [hsound.1]
      have := hsound.2
      revert this
      cases a <;> decide
    rw [show enough T = 3 * T + (0 + 7) + 1 from rfl, join_step _ _ _ rfl]
    have e1 : threadStep (ops n)
        (startThread false { m with state := .ticking, once := false, untilResult := true }) =
        (after (startThread false { m with state := .ticking, once := false, untilResult := true })
          (m.clock + 1) start.node []).goto .head := by
      simp only [threadStep, startThread, startStep, hor, hm]
      rw [if_neg (by decide), if_neg hst]
      rfl
    rw [e1]
    exact work_head (ops n) s (lasts_fin n _ _ _ hl) 0 T _ start.node rfl rfl hw rfl rfl rfl hc

/-- A MemoryFallback of two leaves. In the first run the first one fails, and the second one answers RUNNING
and then SUCCEEDED; what they answer afterwards is `a` and `b`. -/
def sampleTwice (a b : List Res) : Mgr (Tree 2) := { tree := .root (BT.mk 1 1 .memFallback
  [BT.mkLeaf 0 2 ([.ok .idle, .ok .failed, .ok .idle] ++ a),
   BT.mkLeaf 0 3 ([.ok .idle, .ok .running, .ok .succeeded, .ok .idle] ++ b)]) }

/-- The manager after one TICK_UNTIL_RESULT. -/
def once (a b : List Res) : Mgr (Tree 2) :=
  join (ops 2) (enough 1) (tickMultipleCmd true (sampleTwice a b)).1

/-- **C140, the RESET matters.** If the tree is run a second time without a RESET in between, a
MemoryFallback that was unticked at the end of the first run begins with the child at which it was RUNNING
then. Here the first child would succeed at once, but it is not asked, and the tree fails. After a RESET the
first child is asked and the tree succeeds. -/
theorem c140_twice :
    (let m := once [.ok .succeeded] [.ok .running, .ok .failed]
     m.thread = .dead ∧ m.state = .idle ∧
     m.calls = [(.setup, some (.ok .idle)), (.tick, some (.ok .running)), (.tick, some (.ok .succeeded)),
       (.untick, some (.ok .idle))] ∧
     (join (ops 2) (enough 1) (tickMultipleCmd true m).1).calls.take 2 =
       [(.tick, some (.ok .running)), (.tick, some (.ok .failed))]) ∧
    (let m := once [.ok .idle, .ok .succeeded, .ok .idle] [.ok .idle, .ok .idle, .ok .idle]
     (join (ops 2) (enough 1) (tickMultipleCmd true (resetCmd (ops 2) m).1).1).calls =
       [(.tick, some (.ok .succeeded)), (.untick, some (.ok .idle))]) := by
  decide +kernel

/-! ### Example -/

/-- A manager with the sample tree of C139, which takes three further ticks. -/
def sample : Mgr (Tree 3) := { tree := .root BT.Duration.sampleTree }

example : (ops 3).state BT.Duration.sampleTree = .uninitialized ∧
    Lasts 3 ((ops 3).run .setup BT.Duration.sampleTree).node 3 .succeeded ∧ Undisturbed sample :=
  ⟨by decide +kernel, BT.Duration.sample_lasts, fun _ => ⟨rfl, rfl⟩⟩

example : (join (ops 3) (enough 3) (tickMultipleCmd true sample).1).calls.map (·.1) =
    [.setup, .tick, .tick, .tick, .tick, .untick] := by
  decide +kernel

/-- An Inverter over a leaf, which was set up. -/
def sampleUp : Tree 2 := (runs (ops 2) [.setup] (BT.mk 1 1 .inverter
  [BT.mkLeaf 0 2 [.ok .idle, .ok .idle, .ok .running, .ok .failed, .ok .idle]])).2

/-- After a RESET it takes one further tick, and succeeds. -/
theorem sample_reset : Lasts 2 ((ops 2).run .reset sampleUp).node 1 .succeeded :=
  ⟨.failed, ⟨BT.Duration.takes_of_runs (ops 1) _ 1 _ (by decide +kernel), Or.inr rfl⟩, rfl⟩

example : let m : Mgr (Tree 2) := { tree := .root sampleUp, state := .idle }
    (resetCmd (ops 2) m).2.success = true ∧
    (join (ops 2) (enough 1) (tickMultipleCmd true (resetCmd (ops 2) m).1).1).calls =
      [(.tick, some (.ok .running)), (.tick, some (.ok .succeeded)), (.untick, some (.ok .idle))] := by
  decide +kernel

/-- The same Inverter after two TICK_UNTIL_RESULT without a RESET. -/
def sampleMore : Tree 2 := BT.mk 1 1 .inverter
  [BT.mkLeaf 0 2 [.ok .idle, .ok .failed, .ok .idle, .ok .running, .ok .failed, .ok .idle]]

/-- The hypotheses of `c140_again` hold for it. -/
theorem sample_more : Steady 2 sampleMore ∧
    Lasts 2 ((ops 2).run .untick (runs (ops 2) [.setup, .tick] sampleMore).2).node 1 .succeeded :=
  ⟨⟨by decide, fun _ c hc => by
      rw [List.mem_singleton.1 hc]
      exact ⟨by decide, fun h => absurd rfl h⟩⟩,
    .failed, ⟨BT.Duration.takes_of_runs (ops 1) _ 1 _ (by decide +kernel), Or.inr rfl⟩, rfl⟩

example : let m := join (ops 2) (enough 0) (tickMultipleCmd true { tree := .root sampleMore }).1
    m.thread = .dead ∧ m.state = .idle ∧
    (join (ops 2) (enough 1) (tickMultipleCmd true m).1).calls =
      [(.tick, some (.ok .running)), (.tick, some (.ok .succeeded)), (.untick, some (.ok .idle))] := by
  decide +kernel

end Verif.Exec.Takes
