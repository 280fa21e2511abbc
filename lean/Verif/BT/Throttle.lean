import Verif.BT.Counts

/-! # C60, C76: Throttle and ThrottleSuccess (`ros_nodes/throttle.py`) -/

set_option autoImplicit false

namespace Verif.BT

/-! ### C60: Throttle -/

/-- Specification: `tick_interval` as read by the last setup, and the last answer of the child other
than RUNNING since then, with its time. -/
structure Cached where
  interval : Int := 0
  last : Option (Int × BTState) := none
  deriving DecidableEq

/-- What the only child answered to its tick. -/
def Step.childAnswer (x : Step) : Option BTState :=
  match x.log with
  | ⟨.tick, 0, .ok s⟩ :: _ => some s
  | _ => none

def throttleStep (σ : Cached) (x : Step) : Cached :=
  if x.res = .err then σ
  else match x.op with
    | .setup => ⟨x.env.num, none⟩
    | .tick =>
      match x.childAnswer with
      | none => σ
      | some s => if s = .running then σ else ⟨σ.interval, some (x.env.now, s)⟩
    | _ => σ

def cached (xs : List Step) : Cached := xs.foldl throttleStep {}

/-- Specification of a tick of a Throttle with `n` children at the time `now`. -/
def ThrottleTick (σ : Cached) (n : Nat) (now : Int) (l : List Call) (s : BTState) : Prop :=
  if n = 0 then l = [] ∧ s = .failed
  else
    match σ.last with
    | none => l = ⟨.tick, 0, .ok s⟩ :: if s = .running then [] else [⟨.reset, 0, .ok .idle⟩]
    | some (t, r) =>
      if σ.interval < now - t then l = ⟨.tick, 0, .ok s⟩ :: if s = .running then [] else [⟨.reset, 0, .ok .idle⟩]
      else l = [] ∧ s = r

/-- How the attributes relate to the record. -/
def CacheRel (c : Nat) (σ : Cached) (m : Mem) : Prop :=
  m.limit = σ.interval ∧ m.lastTick = σ.last.map (·.1) ∧
    (∀ x, σ.last = some x → m.lastRes = .ok x.2) ∧ (c = 0 → m.lastRes = .ok .failed)

theorem throttle_tick (σ : Cached) (prev : BTState) (m : Mem) (e : Env) (names : List Nat)
    (st : List BTState) (hl : st.length = names.length) (h : CacheRel names.length σ m) :
    (tickHook .throttle prev m e names).PostS
      (fun _ l m' r => ∀ s, r = .ok s → ThrottleTick σ names.length e.now l s ∧
        CacheRel names.length (throttleStep σ ⟨.tick, e, .ok s, l⟩) m') st := by
  obtain ⟨h1, h2, h3, h4⟩ := h
  have hdue : names.length ≠ 0 → ∀ s l, m.lastTick.all (fun t => decide (m.limit < e.now - t)) = true →
      l = ⟨.tick, 0, .ok s⟩ :: (if s = .running then [] else [⟨.reset, 0, .ok .idle⟩]) →
      ThrottleTick σ names.length e.now l s := by
    intro hn s l ha hlog
    unfold ThrottleTick
    rw [if_neg hn]
    rw [h2] at ha
    split
    · exact hlog
    · rename_i t r hlast
      rw [hlast] at ha
      simp only [Option.map_some, Option.all_some, h1, decide_eq_true_eq] at ha
      rw [if_pos ha]
      exact hlog
  simp only [tickHook]
  split
  · rename_i ha
    split
    · rename_i h0
      intro s hs
      rw [h4 h0] at hs
      cases hs
      have hstep : throttleStep σ ⟨.tick, e, .ok .failed, []⟩ = σ := by simp [throttleStep, Step.childAnswer]
      exact ⟨by simp [ThrottleTick, h0], by rw [hstep]; exact ⟨h1, h2, h3, h4⟩⟩
    · rename_i h0
      refine ⟨by omega, fun r s' hr => ?_⟩
      dsimp only
      split
      · rename_i hrun
        intro s hs
        rw [hs] at hrun
        cases hrun
        rw [hs]
        refine ⟨hdue h0 _ _ ha rfl, ?_⟩
        have hstep : throttleStep σ ⟨.tick, e, .ok .running, [⟨.tick, 0, .ok .running⟩]⟩ = σ := by
          simp [throttleStep, Step.childAnswer]
        rw [hstep]
        exact ⟨h1, h2, h3, h4⟩
      · rename_i hrun
        refine ⟨by simp; omega, fun r' s'' hr' => ?_⟩
        dsimp only
        split
        · intro s hs; cases hs
        · rename_i hr'err
          intro s hs
          subst hs
          have hs : s ≠ .running := fun h => hrun (by rw [h])
          have hidle : r' = .ok .idle := by
            cases r' with
            | err => exact absurd rfl hr'err
            | ok b =>
              obtain ⟨rfl, hb⟩ := hr' b rfl
              simp [allowedAfter] at hb
              rw [hb]
          subst hidle
          refine ⟨hdue h0 _ _ ha (by simp [hs]), ?_⟩
          simp only [throttleStep, Step.childAnswer, CacheRel, reduceCtorEq, if_false, hs]
          exact ⟨h1, rfl, fun x hx => by cases hx; rfl, fun h => absurd h h0⟩
  · rename_i ha
    intro s hs
    have hstep : throttleStep σ ⟨.tick, e, .ok s, []⟩ = σ := by simp [throttleStep, Step.childAnswer]
    refine ⟨?_, by rw [hstep]; exact ⟨h1, h2, h3, h4⟩⟩
    unfold ThrottleTick
    split
    · rename_i h0
      rw [h4 h0] at hs
      cases hs
      exact ⟨rfl, rfl⟩
    · rw [h2] at ha
      split
      · rename_i hlast
        simp [hlast] at ha
      · rename_i t r hlast
        rw [hlast] at ha
        simp only [Option.map_some, Option.all_some, h1, decide_eq_true_eq] at ha
        rw [if_neg ha]
        rw [h3 _ hlast] at hs
        cases hs
        exact ⟨rfl, rfl⟩

theorem throttle_step (σ : Cached) (op : Op) (prev : BTState) (m : Mem) (e : Env) (names : List Nat)
    (st : List BTState) (hop : op ≠ .shutdown) (hl : st.length = names.length)
    (h : op ≠ .setup → CacheRel names.length σ m) :
    (hookProg .throttle op prev m e names).PostS
      (fun _ l m' r => ∀ s, r = .ok s → CacheRel names.length (throttleStep σ ⟨op, e, .ok s, l⟩) m') st := by
  cases op with
  | shutdown => exact absurd rfl hop
  | tick =>
    exact postS_mono _ _ _ _ (fun _ _ _ _ _ hp s hs => (hp s hs).2)
      (throttle_tick σ prev m e names st hl (h (by simp)))
  | setup =>
    simp only [hookProg, setupHook]
    split
    · apply postS_onHead _ _ _ _ _ _ _ hl
      · intro _ s _; exact ⟨rfl, rfl, (by intro x hx; cases hx), fun _ => rfl⟩
      · intro _ _ _ _ s _; exact ⟨rfl, rfl, (by intro x hx; cases hx), fun _ => rfl⟩
    · intro s hs; cases hs
  | untick =>
    obtain h := h (by simp)
    apply postS_onHead _ _ _ _ _ _ _ hl
    · intro _ s _; exact h
    · intro _ _ _ _ s _; exact h
  | reset =>
    obtain h := h (by simp)
    apply postS_onHead _ _ _ _ _ _ _ hl
    · intro _ s _; exact h
    · intro _ _ _ _ s _; exact h

/-- **C60.** Take a freshly created Throttle over any child and any history of operations with any
outcome. A following tick that answers `Ok(s)` behaves as `ThrottleTick` says for what is computed from
the record of the history: if the child last finished at most `tick_interval` ago the tick answers
as the child did then and does not touch it; otherwise it ticks the child, passes on its answer, and
resets the child unless it is RUNNING. -/
theorem c60_throttle (n : Nat) (t : Tree (n + 1)) (hk : rootKind n t = .throttle)
    (hf : Fresh (n + 1) t) (history : List Op) (s : BTState)
    (h : ((ops (n + 1)).run .tick (runs (ops (n + 1)) history t).2).res = .ok s) :
    ThrottleTick (cached (steps (ops n) history t)) (rootChildren n t).length
      (nextEnv n (runs (ops (n + 1)) history t).2).now
      ((ops (n + 1)).run .tick (runs (ops (n + 1)) history t).2).log s := by
  have ht := track_runs (ops n) (ops_sound n) .throttle (rootChildren n t).length (by simp) throttleStep
    (CacheRel (rootChildren n t).length) (by intro σ op e l; simp [throttleStep])
    (fun σ op prev m e names st hop hl hc _ hm => hc ▸ throttle_step σ op prev m e names st hop hl (hc ▸ hm))
    history {} t (tracked_fresh n .throttle _ t hk hf)
  exact tracked_tick n .throttle _ _ _ ht
    (fun e l s => ThrottleTick (cached (steps (ops n) history t)) (rootChildren n t).length e.now l s)
    (fun prev m e names st hm hl hc => hc ▸ postS_mono _ _ _ _ (fun _ _ _ _ _ hp s hs => (hp s hs).1)
        (throttle_tick _ prev m e names st hl (hc ▸ hm))) s h

/-- A Throttle with `tick_interval = 2` over a child that succeeds, runs and fails; the clock advances
by one with every call. -/
def sampleSlow : Tree 2 :=
  mk 1 1 .throttle [mkLeaf 0 2 [.ok .idle, .ok .succeeded, .ok .idle, .ok .running, .ok .failed, .ok .idle]]
    (fun i => { num := 2, now := i })

example : rootKind 1 sampleSlow = .throttle ∧ Fresh 2 sampleSlow ∧ WF 2 sampleSlow ∧
    (runs (ops 2) [.setup, .tick, .tick, .tick, .tick, .tick, .tick] sampleSlow).1.map (·.res) =
      [.ok .idle, .ok .succeeded, .ok .succeeded, .ok .succeeded, .ok .running, .ok .failed, .ok .failed] ∧
    cached (steps (ops 1) [.setup, .tick, .tick, .tick, .tick, .tick] sampleSlow) = ⟨2, some (5, .failed)⟩ := by decide

/-- A remark on C60: the answer is also kept if the Throttle is reset in between; the tick after the reset does
not tick the child. -/
theorem c60_reset_keeps : ∃ t : Tree 2, rootKind 1 t = .throttle ∧ Fresh 2 t ∧ WF 2 t ∧
    (runs (ops 2) [.setup, .tick, .reset, .tick] t).1.map (·.res) = [.ok .idle, .ok .succeeded, .ok .idle, .ok .succeeded] ∧
    ((ops 2).run .tick (runs (ops 2) [.setup, .tick, .reset] t).2).log = [] :=
  ⟨mk 1 1 .throttle [mkLeaf 0 2 [.ok .idle, .ok .succeeded, .ok .idle, .ok .idle]] (fun i => { num := 9, now := i }), by decide⟩

/-! ### C76: ThrottleSuccess -/

/-- Specification of a tick of ThrottleSuccess with `n` children as its documentation says, if the child
answers `a`: RUNNING and SUCCEEDED are passed on, everything else is FAILED. -/
def PassesOn (n : Nat) (l : List Call) (s : BTState) : Prop :=
  if n = 0 then s = .failed
  else ∀ a, l = [⟨.tick, 0, .ok a⟩] → s = if a = .succeeded ∨ a = .running then a else .failed

theorem throttleSuccess_tick (prev : BTState) (m : Mem) (e : Env) (names : List Nat) (st : List BTState)
    (hl : st.length = names.length) (h : m.lastTick = none) :
    (tickHook .throttleSuccess prev m e names).PostS
      (fun _ l m' r => m'.lastTick = none ∧ ∀ s, r = .ok s → s = .failed ∧ (names.length ≠ 0 → ∃ a, l = [⟨.tick, 0, a⟩])) st := by
  simp only [tickHook, h, Option.all_none, if_true]
  split
  · rename_i h0
    exact ⟨h, fun s hs => by cases hs; exact ⟨rfl, fun hn => absurd h0 hn⟩⟩
  · refine ⟨by omega, fun r s' _ => ⟨h, fun s hs => ?_⟩⟩
    cases hs
    exact ⟨rfl, fun _ => ⟨r, rfl⟩⟩

theorem throttleSuccess_step (op : Op) (prev : BTState) (m : Mem) (e : Env) (names : List Nat)
    (st : List BTState) (hop : op ≠ .shutdown) (hl : st.length = names.length)
    (h : op ≠ .setup → m.lastTick = none) :
    (hookProg .throttleSuccess op prev m e names).PostS (fun _ _ m' r => ∀ s, r = .ok s → m'.lastTick = none) st := by
  cases op with
  | shutdown => exact absurd rfl hop
  | tick =>
    exact postS_mono _ _ _ _ (fun _ _ _ _ _ hp _ _ => hp.1) (throttleSuccess_tick prev m e names st hl (h (by simp)))
  | setup =>
    simp only [hookProg, setupHook]
    split
    · apply postS_onHead _ _ _ _ _ _ _ hl
      · intro _ s _; rfl
      · intro _ _ _ _ s _; rfl
    · intro s hs; cases hs
  | untick =>
    obtain h := h (by simp)
    apply postS_onHead _ _ _ _ _ _ _ hl
    · intro _ s _; exact h
    · intro _ _ _ _ s _; exact h
  | reset =>
    apply postS_onHead _ _ _ _ _ _ _ hl
    · intro _ s _; rfl
    · intro _ _ _ _ s _; rfl

/-- **C76 is violated** in every execution: a ThrottleSuccess answers FAILED to every tick that does not
fail, whatever the child answered, and ticks the child every time. -/
theorem c76_always_failed (n : Nat) (t : Tree (n + 1)) (hk : rootKind n t = .throttleSuccess)
    (hf : Fresh (n + 1) t) (history : List Op) (s : BTState)
    (h : ((ops (n + 1)).run .tick (runs (ops (n + 1)) history t).2).res = .ok s) :
    s = .failed ∧ ((rootChildren n t).length ≠ 0 →
      ∃ a, ((ops (n + 1)).run .tick (runs (ops (n + 1)) history t).2).log = [⟨.tick, 0, a⟩]) := by
  have ht := track_runs (ops n) (ops_sound n) .throttleSuccess (rootChildren n t).length (by simp) (fun (σ : Unit) _ => σ)
    (fun _ m => m.lastTick = none) (by intro σ op e l; rfl)
    (fun σ op prev m e names st hop hl hc _ hm => throttleSuccess_step op prev m e names st hop hl hm)
    history () t (tracked_fresh n .throttleSuccess _ t hk hf)
  exact tracked_tick n .throttleSuccess _ _ _ ht
    (fun _ l s => s = .failed ∧ ((rootChildren n t).length ≠ 0 → ∃ a, l = [⟨.tick, 0, a⟩]))
    (fun prev m e names st hm hl hc => hc ▸ postS_mono _ _ _ _ (fun _ _ _ _ _ hp s hs => hp.2 s hs)
        (throttleSuccess_tick prev m e names st hl hm)) s h

/-- **C76 (partial).** For children that answer FAILED, and without a child, the answer is as documented.
Missing: children that answer SUCCEEDED or RUNNING, see `c76_not_passed_on`. -/
theorem c76_failed_partial (n : Nat) (t : Tree (n + 1)) (hk : rootKind n t = .throttleSuccess)
    (hf : Fresh (n + 1) t) (history : List Op) (s : BTState)
    (h : ((ops (n + 1)).run .tick (runs (ops (n + 1)) history t).2).res = .ok s)
    (hc : ∀ a, ⟨.tick, 0, .ok a⟩ ∈ ((ops (n + 1)).run .tick (runs (ops (n + 1)) history t).2).log →
      a ≠ .succeeded ∧ a ≠ .running) :
    PassesOn (rootChildren n t).length ((ops (n + 1)).run .tick (runs (ops (n + 1)) history t).2).log s := by
  obtain ⟨h1, h2⟩ := c76_always_failed n t hk hf history s h
  unfold PassesOn
  split
  · exact h1
  · intro a hl
    obtain ⟨g1, g2⟩ := hc a (by rw [hl]; simp)
    simp [g1, g2, h1]

/-- A ThrottleSuccess over a child that fails, succeeds and runs. -/
def sampleRare : Tree 2 :=
  mk 1 1 .throttleSuccess [mkLeaf 0 2 [.ok .idle, .ok .failed, .ok .succeeded, .ok .running]] (fun i => { num := 2, now := i })

example : rootKind 1 sampleRare = .throttleSuccess ∧ Fresh 2 sampleRare ∧ WF 2 sampleRare ∧
    (runs (ops 2) [.setup, .tick, .tick, .tick] sampleRare).1.map (·.res) =
      [.ok .idle, .ok .failed, .ok .failed, .ok .failed] := by decide

/-- **C76 is violated**: the child succeeds for the first time, and the node answers FAILED. -/
theorem c76_not_passed_on : ∃ t : Tree 2, rootKind 1 t = .throttleSuccess ∧ Fresh 2 t ∧ WF 2 t ∧
    ((ops 2).run .tick (runs (ops 2) [.setup] t).2).log = [⟨.tick, 0, .ok .succeeded⟩] ∧
    ((ops 2).run .tick (runs (ops 2) [.setup] t).2).res = .ok .failed :=
  ⟨mk 1 1 .throttleSuccess [mkLeaf 0 2 [.ok .idle, .ok .succeeded]], by decide⟩

end Verif.BT
