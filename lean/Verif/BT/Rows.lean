import Verif.BT.Same
import Verif.BT.Logic

/-!
# Rows and relabelling decorators as functions on lists

`rowOps` says what Sequence and Fallback do as a function on the list of children, `decOps` what
a decorator does that only exchanges the answer of a tick. Both are compared with the model of the
code, `row_same` and `dec_same`; the laws in `Laws.lean` are then proved about them.
-/

set_option autoImplicit false

namespace Verif.BT.Laws

variable {N M : Type}

/-- Perform an operation on the children one after the other, up to the first error. -/
def sweep (o : Ops N) (op : Op) : List N → List N × Bool
  | [] => ([], true)
  | c :: cs =>
    if (o.run op c).res = .err then ((o.run op c).node :: cs, false)
    else ((o.run op c).node :: (sweep o op cs).1, (sweep o op cs).2)

/-- How ticking a row ends: all children passed, one is RUNNING, one decides, an error. -/
inductive Went
  | through
  | waits
  | stops (s : BTState)
  | fails
  deriving DecidableEq

/-- The row goes on to the next child after this answer: `seq` tells a Sequence from a Fallback. -/
def goesOn (seq : Bool) (s : BTState) : Bool :=
  if seq then s = .succeeded else !(s = .running || s = .succeeded)

/-- Tick the children of a row; those behind a deciding one are unticked. -/
def pass (o : Ops N) (seq : Bool) : List N → List N × Went
  | [] => ([], .through)
  | c :: cs =>
    match (o.run .tick c).res with
    | .err => ((o.run .tick c).node :: cs, .fails)
    | .ok s =>
      if goesOn seq s then ((o.run .tick c).node :: (pass o seq cs).1, (pass o seq cs).2)
      else if s = .running then ((o.run .tick c).node :: cs, .waits)
      else ((o.run .tick c).node :: (sweep o .untick cs).1, if (sweep o .untick cs).2 then .stops s else .fails)

/-- The answer of the row. -/
def Went.res (seq : Bool) : Went → Res
  | .through => .ok (if seq then .succeeded else .failed)
  | .waits => .ok .running
  | .stops s => .ok s
  | .fails => .err

/-- Shut down all children. -/
def close (o : Ops N) (cs : List N) : List N := cs.map fun c => (o.run .shutdown c).node

/-- Did a child answer the shutdown with an error? -/
def closeErr (o : Ops N) (cs : List N) : Bool := cs.any fun c => (o.run .shutdown c).res == .err

/-- An operation without ticks: state, children and answer afterwards. -/
def rowPlain (o : Ops N) (op : Op) (st : BTState) (cs : List N) : BTState × List N × Res :=
  if accepts op st then
    if (sweep o op cs).2 then (.idle, (sweep o op cs).1, .ok .idle) else (.broken, (sweep o op cs).1, .err)
  else (st, cs, .err)

/-- The children when the tick begins, and whether it can. -/
def rowStart (o : Ops N) (st : BTState) (cs : List N) : List N × Bool :=
  if finished st then sweep o .reset cs else (cs, true)

/-- What is stored and answered at the end of a tick. -/
def rowEnd (seq : Bool) (p : List N × Went) : BTState × List N × Res :=
  match p.2.res seq with
  | .ok s => (s, p.1, .ok s)
  | .err => (.broken, p.1, .err)

/-- A tick of a row. -/
def rowTick (o : Ops N) (seq : Bool) (st : BTState) (cs : List N) : BTState × List N × Res :=
  if accepts .tick st then
    if (rowStart o st cs).2 then rowEnd seq (pass o seq (rowStart o st cs).1)
    else (.broken, (rowStart o st cs).1, .err)
  else (st, cs, .err)

/-- Any operation on a row. -/
def rowStep (o : Ops N) (seq : Bool) (op : Op) (st : BTState) (cs : List N) : BTState × List N × Res :=
  match op with
  | .shutdown => (.shutdown, close o cs, if closeErr o cs then .err else .ok .shutdown)
  | .tick => rowTick o seq st cs
  | op => rowPlain o op st cs

/-- A row: state, name and children. -/
structure Row (N : Type) where
  state : BTState
  name : Nat
  children : List N

/-- Rows as things that can be operated on. -/
def rowOps (o : Ops N) (seq : Bool) : Ops (Row N) where
  run op r := ⟨⟨(rowStep o seq op r.state r.children).1, r.name, (rowStep o seq op r.state r.children).2.1⟩, (rowStep o seq op r.state r.children).2.2, [], []⟩
  state := Row.state
  name := Row.name

/-! ### Comparison with the model of the code -/

/-- What matters of the outcome of a hook. -/
def core (x : ExecOut N) : List N × Mem × Res := (x.children, x.mem, x.res)

theorem core_call (o : Ops N) (op : Op) (k : Res → Prog) (pre : List N) (c : N) (cs : List N) :
    core (exec o (.call op pre.length k) (pre ++ c :: cs)) = core (exec o (k (o.run op c).res) (pre ++ (o.run op c).node :: cs)) := by
  simp [exec, core]

theorem core_forAll (o : Ops N) (op : Op) (m : Mem) (k : Prog) : ∀ (cs pre : List N),
    core (exec o (Prog.forAll op m (List.range' pre.length cs.length) k) (pre ++ cs)) =
    if (sweep o op cs).2 then core (exec o k (pre ++ (sweep o op cs).1)) else (pre ++ (sweep o op cs).1, m, .err) := by
  intro cs
  induction cs with
  | nil => intro pre; simp [Prog.forAll, sweep]
  | cons c cs ih =>
    intro pre
    simp only [List.length_cons, List.range'_succ, Prog.forAll]
    rw [core_call]
    have ih' := ih (pre ++ [(o.run op c).node])
    simp only [List.length_append, List.length_cons, List.length_nil, List.append_assoc, List.singleton_append, Nat.zero_add] at ih'
    cases hr : (o.run op c).res with
    | err => simp [sweep, hr, core, exec]
    | ok s => simp only [sweep, hr, ih']; simp

theorem core_forAll0 (o : Ops N) (op : Op) (m : Mem) (k : Prog) (cs : List N) :
    core (exec o (Prog.forAll op m (List.range cs.length) k) cs) =
    if (sweep o op cs).2 then core (exec o k (sweep o op cs).1) else ((sweep o op cs).1, m, .err) := by
  have := core_forAll o op m k cs []
  simpa [List.range_eq_range'] using this

theorem core_seqLoop (o : Ops N) (m : Mem) : ∀ (cs pre : List N),
    core (exec o (Prog.seqLoop false m (List.range' pre.length cs.length)) (pre ++ cs)) = (pre ++ (pass o true cs).1, m, (pass o true cs).2.res true) := by
  intro cs
  induction cs with
  | nil => intro pre; simp [Prog.seqLoop, pass, core, Went.res]
  | cons c cs ih =>
    intro pre
    simp only [List.length_cons, List.range'_succ, Prog.seqLoop]
    rw [core_call]
    have ih' := ih (pre ++ [(o.run .tick c).node])
    have hf := core_forAll o .untick m
    simp only [List.length_append, List.length_cons, List.length_nil, List.append_assoc, List.singleton_append, Nat.zero_add] at ih'
    cases hr : (o.run .tick c).res with
    | err => simp [pass, hr, core, exec, Went.res]
    | ok s =>
      simp only [pass, hr, goesOn, if_true]
      by_cases h1 : s = .succeeded
      · subst h1; simp [ih']
      · simp only [h1, if_false, decide_false, Bool.false_eq_true]
        by_cases h2 : s = .running
        · subst h2; simp [core, Went.res]
        · simp only [h2, if_false]
          have hf' := hf (.done m (.ok s)) cs (pre ++ [(o.run .tick c).node])
          simp only [List.length_append, List.length_cons, List.length_nil, List.append_assoc, List.singleton_append, Nat.zero_add] at hf'
          rw [hf']
          cases (sweep o .untick cs).2 <;> simp [core, exec, Went.res]

theorem core_fbLoop (o : Ops N) (m : Mem) : ∀ (cs pre : List N),
    core (exec o (Prog.fbLoop false m (List.range' pre.length cs.length)) (pre ++ cs)) = (pre ++ (pass o false cs).1, m, (pass o false cs).2.res false) := by
  intro cs
  induction cs with
  | nil => intro pre; simp [Prog.fbLoop, pass, core, Went.res]
  | cons c cs ih =>
    intro pre
    simp only [List.length_cons, List.range'_succ, Prog.fbLoop]
    rw [core_call]
    have ih' := ih (pre ++ [(o.run .tick c).node])
    have hf := core_forAll o .untick m
    simp only [List.length_append, List.length_cons, List.length_nil, List.append_assoc, List.singleton_append, Nat.zero_add] at ih'
    cases hr : (o.run .tick c).res with
    | err => simp [pass, hr, core, exec, Went.res]
    | ok s =>
      simp only [pass, hr, goesOn]
      by_cases h2 : s = .running
      · subst h2; simp [core, Went.res]
      · by_cases h1 : s = .succeeded
        · subst h1
          have hf' := hf (.done m (.ok .succeeded)) cs (pre ++ [(o.run .tick c).node])
          simp only [List.length_append, List.length_cons, List.length_nil, List.append_assoc, List.singleton_append, Nat.zero_add] at hf'
          simp only [h2, if_false, if_true]
          rw [hf']
          cases (sweep o .untick cs).2 <;> simp [core, exec, Went.res]
        · simp [h1, h2, ih']

/-- The class of a row. -/
def rowKind (seq : Bool) : Kind := if seq then .sequence else .fallback

/-- The node has no inputs that could be missing and delivers no outputs that could be refused
(`node.py:435-438`, `474-480`): Sequence, Fallback and the decorators below have none. -/
def Calm (nd : Node N) : Prop := ∀ i, (nd.env i).inputsOk = true ∧ (nd.env i).pushOk = true

theorem calm_run (o : Ops N) (op : Op) (nd : Node N) (h : Calm nd) : Calm (nd.run o op).node := by
  intro i
  rw [(run_static o op nd).2.2.2.1]
  exact h i

theorem pass_allowed (o : Ops N) (hs : Sound o) (seq : Bool) : ∀ cs s, (pass o seq cs).2.res seq = .ok s → allowedAfter .tick s = true := by
  intro cs
  induction cs with
  | nil => intro s h; cases seq <;> simp [pass, Went.res] at h <;> subst h <;> rfl
  | cons c cs ih =>
    intro s h
    simp only [pass] at h
    split at h
    · simp [Went.res] at h
    · rename_i s' hr
      split at h
      · exact ih s h
      · split at h
        · simp [Went.res] at h; subst h; rfl
        · split at h
          · simp [Went.res] at h; subst h; exact (hs _ _ _ hr).2
          · simp [Went.res] at h

theorem shutdownAll_close (o : Ops N) : ∀ cs, (shutdownAll o cs).1 = close o cs ∧ (shutdownAll o cs).2.1 = closeErr o cs := by
  intro cs
  induction cs with
  | nil => exact ⟨rfl, rfl⟩
  | cons c cs ih => exact ⟨by simp [shutdownAll, close, ih.1], by simp [shutdownAll, closeErr, ih.2]⟩

/-- State, children and answer after an operation. -/
def seen (out : Out (Node N)) : BTState × List N × Res := (out.node.state, out.node.children, out.res)

theorem core_eq {x : ExecOut N} {a : List N} {b : Mem} {c : Res} (h : core x = (a, b, c)) : x.children = a ∧ x.mem = b ∧ x.res = c := by
  simpa [core] using h

theorem row_run (o : Ops N) (hs : Sound o) (seq : Bool) (nd : Node N) (hk : nd.kind = rowKind seq) (hc : Calm nd) (op : Op) :
    seen (nd.run o op) = rowStep o seq op nd.state nd.children := by
  have hp : ∀ op, (op = .setup ∨ op = .untick ∨ op = .reset) → seen (nd.run o op) = rowPlain o op nd.state nd.children := by
    intro op hop
    have hh : hookProg nd.kind op nd.state nd.mem (nd.env nd.ctr) (nd.children.map o.name) = Prog.allThen nd.children.length op nd.mem .idle := by
      rcases hop with rfl | rfl | rfl <;> cases seq <;> simp [hk, rowKind, hookProg, setupHook, untickHook, resetHook]
    have hx : core (exec o (hookProg nd.kind op nd.state nd.mem (nd.env nd.ctr) (nd.children.map o.name)) nd.children) =
        ((sweep o op nd.children).1, nd.mem, if (sweep o op nd.children).2 then .ok .idle else .err) := by
      rw [hh, Prog.allThen, core_forAll0]
      cases (sweep o op nd.children).2 <;> simp [core, exec]
    obtain ⟨x1, x2, x3⟩ := core_eq hx
    have hal : allowedAfter op .idle = true := by rcases hop with rfl | rfl | rfl <;> rfl
    have : seen (nd.run o op) = seen (Node.runPlain o op (nd.env nd.ctr) { nd with ctr := nd.ctr + 1 }) := by
      rcases hop with rfl | rfl | rfl <;> rfl
    rw [this]
    unfold Node.runPlain Node.runHook rowPlain
    dsimp only
    rw [x3, x1, x2]
    cases accepts op nd.state
    · simp [seen, Node.wrap]
    · cases (sweep o op nd.children).2
      · simp [seen, Node.wrap]
      · simp [seen, Node.wrap, hal]
  cases op with
  | setup => exact hp .setup (by simp)
  | untick => exact hp .untick (by simp)
  | reset => exact hp .reset (by simp)
  | tick =>
    have hh : hookProg nd.kind .tick nd.state nd.mem (nd.env nd.ctr) (nd.children.map o.name) =
        if nd.children.length = 0 then .done nd.mem (Went.through.res seq)
        else Prog.resetIfFinished nd.children.length nd.state nd.mem
          (if seq then Prog.seqLoop false nd.mem (List.range nd.children.length) else Prog.fbLoop false nd.mem (List.range nd.children.length)) := by
      cases seq <;> simp [hk, rowKind, hookProg, tickHook, Went.res]
    have loop : ∀ cs : List N, core (exec o (if seq then Prog.seqLoop false nd.mem (List.range cs.length) else Prog.fbLoop false nd.mem (List.range cs.length)) cs) =
        ((pass o seq cs).1, nd.mem, (pass o seq cs).2.res seq) := by
      intro cs
      cases seq
      · simpa [List.range_eq_range'] using core_fbLoop o nd.mem cs []
      · simpa [List.range_eq_range'] using core_seqLoop o nd.mem cs []
    have hlen : ∀ cs : List N, (sweep o .reset cs).1.length = cs.length := by
      intro cs
      induction cs with
      | nil => rfl
      | cons c cs ih => simp only [sweep]; split <;> simp [ih]
    have hx : core (exec o (hookProg nd.kind .tick nd.state nd.mem (nd.env nd.ctr) (nd.children.map o.name)) nd.children) =
        if (rowStart o nd.state nd.children).2 then ((pass o seq (rowStart o nd.state nd.children).1).1, nd.mem, (pass o seq (rowStart o nd.state nd.children).1).2.res seq)
        else ((rowStart o nd.state nd.children).1, nd.mem, .err) := by
      rw [hh]
      split
      · rename_i h0
        have h0 : nd.children = [] := List.length_eq_zero_iff.1 h0
        simp [h0, rowStart, sweep, pass, core, exec]
      · unfold Prog.resetIfFinished
        by_cases hf : nd.state = .succeeded ∨ nd.state = .failed
        · have hf' : finished nd.state = true := by rcases hf with h | h <;> simp [finished, h]
          simp only [hf, if_true, rowStart, hf']
          rw [core_forAll0]
          have := loop (sweep o .reset nd.children).1
          rw [hlen] at this
          rw [this]
        · have hf' : finished nd.state = false := by simpa [finished] using hf
          simp only [hf, if_false, rowStart, hf']
          rw [loop]
          simp
    show seen (Node.runTick o (nd.env nd.ctr) { nd with ctr := nd.ctr + 1 }) = rowTick o seq nd.state nd.children
    unfold Node.runTick Node.runHook rowTick
    dsimp only
    rw [(hc nd.ctr).1, (hc nd.ctr).2]
    cases accepts .tick nd.state
    · simp [seen, Node.wrap]
    · simp only [if_true]
      cases hb : (rowStart o nd.state nd.children).2
      · rw [hb] at hx
        obtain ⟨x1, x2, x3⟩ := core_eq (hx.trans (if_neg (by simp)))
        rw [x3, x1, x2]
        simp [seen, Node.wrap]
      · rw [hb] at hx
        obtain ⟨x1, x2, x3⟩ := core_eq (hx.trans (if_pos rfl))
        rw [x3, x1, x2]
        simp only [if_true, rowEnd]
        cases hr : (pass o seq (rowStart o nd.state nd.children).1).2.res seq with
        | err => simp [seen, Node.wrap]
        | ok s => simp [seen, Node.wrap, pass_allowed o hs seq _ s hr]
  | shutdown =>
    have hh : hookProg nd.kind .shutdown nd.state nd.mem (nd.env nd.ctr) (nd.children.map o.name) = .done nd.mem (.ok .shutdown) := by
      cases seq <;> simp [hk, rowKind, hookProg, shutdownHook]
    have hv : visibleChildren nd.kind = true := by rw [hk]; cases seq <;> rfl
    obtain ⟨c1, c2⟩ := shutdownAll_close o nd.children
    show seen (Node.runShutdown o (nd.env nd.ctr) { nd with ctr := nd.ctr + 1 }) = _
    unfold Node.runShutdown Node.runHook
    dsimp only
    rw [hh]
    simp only [exec, allowedAfter, Node.finishShutdown, hv, if_true, c1, c2, rowStep]
    by_cases h : nd.state = .shutdown <;> cases closeErr o nd.children <;> simp [seen, Node.wrap, h]

/-- Sequence and Fallback behave as the row functions say. -/
theorem row_same (o : Ops N) (hs : Sound o) (seq : Bool) (nd : Node N) (hk : nd.kind = rowKind seq) (hc : Calm nd) :
    Same (Node.ops o) (rowOps o seq) nd ⟨nd.state, nd.name, nd.children⟩ := by
  refine same_of_bisim (R := fun nd r => nd.kind = rowKind seq ∧ Calm nd ∧ r = ⟨nd.state, nd.name, nd.children⟩) ?_ ⟨hk, hc, rfl⟩
  rintro nd r ⟨hk, hc, rfl⟩
  refine ⟨rfl, rfl, fun op => ?_⟩
  have h := row_run o hs seq nd hk hc op
  have hst := run_static o op nd
  simp only [seen] at h
  refine ⟨?_, hst.2.2.1.trans hk, calm_run o op nd hc, ?_⟩
  · simp only [rowOps]; rw [← h]; rfl
  · simp only [rowOps]; rw [← h]
    show Row.mk _ _ _ = Row.mk (Node.run o op nd).node.state (Node.run o op nd).node.name (Node.run o op nd).node.children
    rw [hst.2.1]

/-! ### Decorators that only exchange the answer of a tick -/

/-- Any operation on such a decorator with its child. -/
def decStep (o : Ops N) (f : BTState → BTState) (op : Op) (st : BTState) (c : N) : BTState × N × Res :=
  match op with
  | .shutdown => (.shutdown, (o.run .shutdown c).node, if (o.run .shutdown c).res = .err then .err else .ok .shutdown)
  | op =>
    if accepts op st then
      match (o.run op c).res with
      | .err => (.broken, (o.run op c).node, .err)
      | .ok s => (if op = .tick then f s else s, (o.run op c).node, .ok (if op = .tick then f s else s))
    else (st, c, .err)

/-- A decorator: state, name and child. -/
structure Dec (N : Type) where
  state : BTState
  name : Nat
  child : N

/-- Decorators as things that can be operated on. -/
def decOps (o : Ops N) (f : BTState → BTState) : Ops (Dec N) where
  run op r := ⟨⟨(decStep o f op r.state r.child).1, r.name, (decStep o f op r.state r.child).2.1⟩, (decStep o f op r.state r.child).2.2, [], []⟩
  state := Dec.state
  name := Dec.name

/-- The decorators with one child that exchange answers, and what they make of the child's answer. -/
def relabels : Kind → Option (BTState → BTState)
  | .inverter => some fun s => if s = .failed then .succeeded else if s = .succeeded then .failed else s
  | .ignoreFailure => some fun s => if s = .failed then .succeeded else s
  | .ignoreSuccess => some fun s => if s = .succeeded then .failed else s
  | _ => none

theorem relabels_allowed (k : Kind) (f : BTState → BTState) (h : relabels k = some f) (s : BTState) (ha : allowedAfter .tick s = true) : allowedAfter .tick (f s) = true := by
  cases k <;> simp [relabels] at h <;> subst h <;> cases s <;> simp_all [allowedAfter]

theorem dec_run (o : Ops N) (hs : Sound o) (f : BTState → BTState) (nd : Node N) (c : N) (hk : relabels nd.kind = some f) (hc : Calm nd) (h1 : nd.children = [c]) (op : Op) :
    seen (nd.run o op) = ((decStep o f op nd.state c).1, [(decStep o f op nd.state c).2.1], (decStep o f op nd.state c).2.2) := by
  have hp : ∀ op, (op = .setup ∨ op = .untick ∨ op = .reset) → seen (nd.run o op) = ((decStep o f op nd.state c).1, [(decStep o f op nd.state c).2.1], (decStep o f op nd.state c).2.2) := by
    intro op hop
    have hh : hookProg nd.kind op nd.state nd.mem (nd.env nd.ctr) (nd.children.map o.name) = .call op 0 fun r => .done nd.mem (r.map id) := by
      rcases hop with rfl | rfl | rfl <;> revert hk <;> cases nd.kind <;> simp [relabels, h1, hookProg, setupHook, untickHook, resetHook, Prog.onHead]
    have hx : core (exec o (hookProg nd.kind op nd.state nd.mem (nd.env nd.ctr) (nd.children.map o.name)) nd.children) = ([(o.run op c).node], nd.mem, (o.run op c).res) := by
      rw [hh, h1]
      cases hr : (o.run op c).res <;> simp [exec, core, Res.map, hr]
    obtain ⟨x1, x2, x3⟩ := core_eq hx
    have : seen (nd.run o op) = seen (Node.runPlain o op (nd.env nd.ctr) { nd with ctr := nd.ctr + 1 }) := by
      rcases hop with rfl | rfl | rfl <;> rfl
    have hd : decStep o f op nd.state c = if accepts op nd.state then match (o.run op c).res with
      | .err => (.broken, (o.run op c).node, .err)
      | .ok s => (s, (o.run op c).node, .ok s)
      else (nd.state, c, .err) := by
      rcases hop with rfl | rfl | rfl <;> rfl
    rw [this, hd]
    unfold Node.runPlain Node.runHook
    dsimp only
    rw [x3, x1, x2]
    cases accepts op nd.state
    · simp [seen, Node.wrap, h1]
    · cases hr : (o.run op c).res with
      | err => simp [seen, Node.wrap]
      | ok s => simp [seen, Node.wrap, (hs op c s hr).2]
  cases op with
  | setup => exact hp .setup (by simp)
  | untick => exact hp .untick (by simp)
  | reset => exact hp .reset (by simp)
  | tick =>
    have hh : hookProg nd.kind .tick nd.state nd.mem (nd.env nd.ctr) (nd.children.map o.name) = .call .tick 0 fun r => .done nd.mem (r.map f) := by
      revert hk
      cases nd.kind <;> simp [relabels, h1, hookProg, tickHook, Prog.onHead] <;> intro h <;> subst h <;> rfl
    have hx : core (exec o (hookProg nd.kind .tick nd.state nd.mem (nd.env nd.ctr) (nd.children.map o.name)) nd.children) = ([(o.run .tick c).node], nd.mem, (o.run .tick c).res.map f) := by
      rw [hh, h1]
      simp [exec, core]
    obtain ⟨x1, x2, x3⟩ := core_eq hx
    show seen (Node.runTick o (nd.env nd.ctr) { nd with ctr := nd.ctr + 1 }) = _
    unfold Node.runTick Node.runHook decStep
    dsimp only
    rw [(hc nd.ctr).1, (hc nd.ctr).2, x3, x1, x2]
    cases accepts .tick nd.state
    · simp [seen, Node.wrap, h1]
    · cases hr : (o.run .tick c).res with
      | err => simp [seen, Node.wrap, Res.map]
      | ok s => simp [seen, Node.wrap, Res.map, relabels_allowed _ f hk s (hs .tick c s hr).2]
  | shutdown =>
    have hh : hookProg nd.kind .shutdown nd.state nd.mem (nd.env nd.ctr) (nd.children.map o.name) = .done nd.mem (.ok .shutdown) := by
      revert hk
      cases nd.kind <;> simp [relabels, hookProg, shutdownHook]
    have hv : visibleChildren nd.kind = true := by
      revert hk
      cases nd.kind <;> simp [relabels, visibleChildren]
    obtain ⟨c1, c2⟩ := shutdownAll_close o nd.children
    show seen (Node.runShutdown o (nd.env nd.ctr) { nd with ctr := nd.ctr + 1 }) = _
    unfold Node.runShutdown Node.runHook
    dsimp only
    rw [hh]
    simp only [exec, allowedAfter, Node.finishShutdown, hv, if_true, c1, c2, decStep]
    rw [h1]
    cases hr : (o.run .shutdown c).res <;> by_cases h : nd.state = .shutdown <;> simp [seen, Node.wrap, h, close, closeErr, hr]

/-- Inverter, IgnoreFailure and IgnoreSuccess behave as the function says. -/
theorem dec_same (o : Ops N) (hs : Sound o) (f : BTState → BTState) (nd : Node N) (c : N) (hk : relabels nd.kind = some f) (hc : Calm nd) (h1 : nd.children = [c]) :
    Same (Node.ops o) (decOps o f) nd ⟨nd.state, nd.name, c⟩ := by
  refine same_of_bisim (R := fun nd r => relabels nd.kind = some f ∧ Calm nd ∧ nd.children = [r.child] ∧ nd.state = r.state ∧ nd.name = r.name) ?_ ⟨hk, hc, h1, rfl, rfl⟩
  rintro nd ⟨s, nm, c⟩ ⟨hk, hc, h1, rfl, rfl⟩
  refine ⟨rfl, rfl, fun op => ?_⟩
  have h := dec_run o hs f nd c hk hc h1 op
  have hst := run_static o op nd
  simp only [seen, Prod.mk.injEq] at h
  refine ⟨h.2.2, ?_, calm_run o op nd hc, h.2.1, h.1, hst.2.1⟩
  show relabels (nd.run o op).node.kind = some f
  rw [hst.2.2.1]
  exact hk

end Verif.BT.Laws
