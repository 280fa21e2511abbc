import Verif.BT.Config
import Verif.BT.Sample

/-!
# C19–C21, C23, C24: nodes that count

The statements speak about the record of a history (`steps`): which operation was called, what
the inputs were, which calls the node made to its child and what everybody answered. What a node
should do next is computed from the record by small functions that know nothing about the
attributes of the node.
-/

set_option autoImplicit false

namespace Verif.BT

variable {N : Type}

/-! ### Records -/

/-- One operation of a history: what was called, what the inputs were, the answer and the calls to
children. -/
structure Step where
  op : Op
  env : Env
  res : Res
  log : List Call

/-- The record of a history. -/
def steps (o : Ops N) : List Op → Node N → List Step
  | [], _ => []
  | op :: l, nd => ⟨op, nd.env nd.ctr, (nd.run o op).res, (nd.run o op).log⟩ ::
      steps o l (nd.run o op).node

/-- The only child answered its tick with `s`. -/
def Step.childSaid (x : Step) (s : BTState) : Bool := decide (Call.mk .tick 0 (.ok s) ∈ x.log)

/-- The node can be ticked. -/
def alive (s : BTState) : Bool := accepts .tick s

/-- What is known about a node while its attributes are tracked by a function of the record. -/
structure Tracked (k : Kind) (c : Nat) (P : Mem → Prop) (nd : Node N) : Prop where
  kind : nd.kind = k
  cache : CacheOk nd.mem
  count : nd.children.length = c
  rel : alive nd.state = true → P nd.mem

theorem track_run {S : Type} (o : Ops N) (hs : Sound o) (k : Kind) (c : Nat) (hk : k ≠ .leaf)
    (step : S → Step → S) (R : S → Mem → Prop)
    (herr : ∀ σ op e l, step σ ⟨op, e, .err, l⟩ = σ)
    (hstep : ∀ σ op prev m e names st, op ≠ .shutdown → st.length = names.length →
      names.length = c → accepts op prev = true → (op ≠ .setup → R σ m) →
      (hookProg k op prev m e names).PostS
        (fun _ l m' r => ∀ s, r = .ok s → R (step σ ⟨op, e, .ok s, l⟩) m') st)
    (σ : S) (op : Op) (nd : Node N) (h : Tracked k c (R σ) nd) :
    Tracked k c (R (step σ ⟨op, nd.env nd.ctr, (nd.run o op).res, (nd.run o op).log⟩))
      (nd.run o op).node := by
  obtain ⟨hkind, hm, hcount, hrel⟩ := h
  obtain ⟨_, _, h3, _, _, h6⟩ := run_static o op nd
  refine ⟨h3.trans hkind, run_cacheOk o hs op nd hm, h6.trans hcount, ?_⟩
  apply run_cases o op nd (P := fun out => alive out.node.state = true →
    R (step σ ⟨op, nd.env nd.ctr, out.res, out.log⟩) out.node.mem)
  · intro _ h
    simp only [Node.wrap, herr]
    exact hrel h
  · intro _ _ _ h; cases h
  · intro x _ _ _ _ h; cases h
  · intro x s hx _ _ hr hal
    have := (hook_good o hs op nd (by rw [hkind]; exact hk) hm (nd.env nd.ctr)).2 s
      (by rw [← hx]; exact hr)
    simp [hal] at this
  · intro x s hop hx hacc _ hr hal _
    have hp := hstep σ op nd.state nd.mem (nd.env nd.ctr) (nd.children.map o.name)
      (nd.children.map o.state) hop (by simp) (by simpa using hcount) hacc (by
        intro hne
        apply hrel
        cases op with
        | setup => exact absurd rfl hne
        | shutdown => exact absurd rfl hop
        | tick => exact hacc
        | untick => exact hacc
        | reset => exact hacc)
    have := exec_postS o hs _ _ nd.children hp
    rw [hkind] at hx
    rw [← hx] at this
    exact this s hr
  · intro _ hst h
    rw [(finishShutdown_mem o _ _ _).2] at h
    have : alive nd.state = true := h
    rw [hst] at this
    cases this
  · intro x _ _ _ _ h
    rw [(finishShutdown_mem o _ _ _).2] at h
    cases h

theorem track_runs {S : Type} (o : Ops N) (hs : Sound o) (k : Kind) (c : Nat) (hk : k ≠ .leaf)
    (step : S → Step → S) (R : S → Mem → Prop)
    (herr : ∀ σ op e l, step σ ⟨op, e, .err, l⟩ = σ)
    (hstep : ∀ σ op prev m e names st, op ≠ .shutdown → st.length = names.length →
      names.length = c → accepts op prev = true → (op ≠ .setup → R σ m) →
      (hookProg k op prev m e names).PostS
        (fun _ l m' r => ∀ s, r = .ok s → R (step σ ⟨op, e, .ok s, l⟩) m') st)
    (l : List Op) : ∀ (σ : S) (nd : Node N), Tracked k c (R σ) nd →
    Tracked k c (R ((steps o l nd).foldl step σ)) (runs (Node.ops o) l nd).2 := by
  induction l with
  | nil => intro σ nd h; exact h
  | cons op l ih => intro σ nd h; exact ih _ _ (track_run o hs k c hk step R herr hstep σ op nd h)

/-- The attributes of a fresh node satisfy everything one wants, since it must be set up first. -/
theorem tracked_fresh (n : Nat) (k : Kind) (P : Mem → Prop) (t : Tree (n + 1))
    (hk : rootKind n t = k) (hf : Fresh (n + 1) t) :
    Tracked (N := Tree n) k (rootChildren n t).length P t := by
  have e : Node.state (N := Tree n) t = .uninitialized := hf.1.1
  have em : Node.mem (N := Tree n) t = {} := hf.1.2
  refine ⟨hk, ?_, rfl, ?_⟩
  · rw [em]; intro s h; cases h; rfl
  · rw [e]; intro h; cases h

/-- What an accepted operation on a tracked node does, given a verified hook. -/
theorem tracked_ok (o : Ops N) (hs : Sound o) (k : Kind) (c : Nat) (P : Mem → Prop) (nd : Node N)
    (h : Tracked k c P nd) (op : Op) (hop : op = .tick ∨ op = .untick ∨ op = .reset) (Q : PostCond)
    (hq : ∀ m names st, P m → st.length = names.length → names.length = c →
      (hookProg k op nd.state m (nd.env nd.ctr) names).PostS Q st)
    (s : BTState) (hr : (nd.run o op).res = .ok s) :
    Q ((nd.run o op).node.children.map o.state) (nd.run o op).log (nd.run o op).node.mem
      (.ok s) := by
  have hop' : op ≠ .shutdown := by rcases hop with rfl | rfl | rfl <;> simp
  obtain ⟨_, _, _, _, _, ha⟩ := run_ok o op hop' nd s hr
  have hlive : alive nd.state = true := by
    rcases hop with rfl | rfl | rfl <;> exact ha
  refine (run_ok_post o hs op hop' nd s Q ?_ hr).1
  rw [h.kind]
  exact hq nd.mem _ _ (h.rel hlive) (by simp) (by simpa using h.count)

/-- The same for a tick at the root of a tree. -/
theorem tracked_tick (n : Nat) (k : Kind) (c : Nat) (P : Mem → Prop) (t : Tree (n + 1))
    (h : Tracked (N := Tree n) k c P t) (Q : Env → List Call → BTState → Prop)
    (hq : ∀ prev m e names st, P m → st.length = names.length → names.length = c →
      (tickHook k prev m e names).PostS (fun _ l _ r => ∀ s, r = .ok s → Q e l s) st)
    (s : BTState) (hr : ((ops (n + 1)).run .tick t).res = .ok s) :
    Q (nextEnv n t) ((ops (n + 1)).run .tick t).log s :=
  tracked_ok (ops n) (ops_sound n) k c P t h .tick (by simp)
    (fun _ l _ r => ∀ s, r = .ok s → Q (nextEnv n t) l s)
    (fun m names st hm hl hc => hq _ m _ names st hm hl hc) s hr s rfl

/-- Shape of `for child in self.children: return child.op()`. -/
theorem postS_onHead (n : Nat) (op : Op) (m : Mem) (f : BTState → BTState) (dflt : BTState)
    (P : PostCond) (st : List BTState) (hl : st.length = n) (h0 : n = 0 → P st [] m (.ok dflt))
    (h1 : ∀ r s', (∀ s, r = .ok s → s' = s ∧ allowedAfter op s = true) → n ≠ 0 →
      P (st.set 0 s') [⟨op, 0, r⟩] m (r.map f)) : (Prog.onHead n op m f dflt).PostS P st := by
  unfold Prog.onHead
  split
  · rename_i h; exact h0 h
  · rename_i h
    exact ⟨by omega, fun r s' hr => h1 r s' hr h⟩

/-! ### C19: Retry -/

/-- The limit in force and a number of counted events. -/
structure Tally where
  limit : Int
  n : Nat
  deriving DecidableEq

/-- Specification: the number of failures of the child since the last setup, reset or give-up, and
`num_retries` as read by the last setup. A tick gives up if it answers FAILED. -/
def retryStep (σ : Tally) (x : Step) : Tally :=
  if x.res = .err then σ
  else match x.op with
    | .setup => ⟨x.env.num, 0⟩
    | .reset => ⟨σ.limit, 0⟩
    | .tick =>
      if x.childSaid .failed then
        if x.res = .ok .failed then ⟨σ.limit, 0⟩ else ⟨σ.limit, σ.n + 1⟩
      else σ
    | _ => σ

/-- Failures counted in a record. -/
def failures (xs : List Step) : Tally := xs.foldl retryStep ⟨0, 0⟩

/-- Specification of a tick of Retry with `n` children. -/
def RetryTick (σ : Tally) (n : Nat) (l : List Call) (s : BTState) : Prop :=
  if n = 0 then l = [] ∧ s = .succeeded
  else
    (s ≠ .failed ∧ l = [⟨.tick, 0, .ok s⟩]) ∨
    (σ.n < σ.limit ∧ s = .running ∧ l = [⟨.tick, 0, .ok .failed⟩, ⟨.reset, 0, .ok .idle⟩]) ∨
    ((σ.n : Int) = max σ.limit 0 ∧ s = .failed ∧ l = [⟨.tick, 0, .ok .failed⟩])

/-- How the attributes relate to the record. -/
def CountRel (σ : Tally) (m : Mem) : Prop :=
  m.limit = σ.limit ∧ m.count = σ.n ∧ (σ.n : Int) ≤ max σ.limit 0

theorem res_map_ok (r : Res) (f : BTState → BTState) (s : BTState) (h : r.map f = .ok s) :
    ∃ a, r = .ok a ∧ f a = s := by
  cases r with
  | err => simp [Res.map] at h
  | ok a => exact ⟨a, rfl, by simpa [Res.map] using h⟩

theorem retry_tick (σ : Tally) (prev : BTState) (m : Mem) (e : Env) (names : List Nat)
    (st : List BTState) (hl : st.length = names.length) (h : CountRel σ m) :
    (tickHook .retry prev m e names).PostS
      (fun _ l m' r => ∀ s, r = .ok s → RetryTick σ names.length l s ∧
        CountRel (retryStep σ ⟨.tick, e, .ok s, l⟩) m') st := by
  obtain ⟨h1, h2, h3⟩ := h
  simp only [tickHook]
  split
  · rename_i h0
    intro s hs; cases hs
    exact ⟨by simp [RetryTick, h0], by simp [retryStep, Step.childSaid, CountRel, h1, h2, h3]⟩
  · rename_i h0
    refine ⟨by omega, fun r s' hr => ?_⟩
    cases r with
    | err => intro s hs; cases hs
    | ok a =>
      obtain ⟨rfl, hal⟩ := hr a rfl
      simp only
      split
      · rename_i hf
        subst hf
        split
        · rename_i hlt
          refine ⟨by simp; omega, fun r' s'' hr' => ?_⟩
          intro s hs
          obtain ⟨b, rfl, rfl⟩ := res_map_ok _ _ _ hs
          obtain ⟨rfl, hb⟩ := hr' b rfl
          have hb' : s'' = .idle := by simpa [allowedAfter] using hb
          subst hb'
          rw [h1, h2] at hlt
          refine ⟨?_, ?_⟩
          · simp only [RetryTick, h0, if_false]
            exact Or.inr (Or.inl ⟨hlt, trivial, trivial⟩)
          · simp only [retryStep, Step.childSaid, CountRel, List.mem_cons, true_or, decide_true,
              if_true, reduceCtorEq, if_false, Res.ok.injEq]
            refine ⟨h1, by simp [h2], ?_⟩
            have : ((σ.n + 1 : Nat) : Int) = (σ.n : Int) + 1 := by simp
            rw [this]
            omega
        · rename_i hlt
          intro s hs; cases hs
          rw [h1, h2] at hlt
          refine ⟨?_, ?_⟩
          · simp only [RetryTick, h0, if_false]
            exact Or.inr (Or.inr ⟨by omega, trivial, trivial⟩)
          · simp only [retryStep, Step.childSaid, CountRel, List.mem_cons, true_or, decide_true,
              if_true, reduceCtorEq, if_false]
            exact ⟨h1, rfl, by omega⟩
      · rename_i hf
        intro s hs
        cases hs
        refine ⟨?_, ?_⟩
        · simp only [RetryTick, h0, if_false]
          exact Or.inl ⟨hf, trivial⟩
        · have : (Call.mk .tick 0 (.ok .failed)) ∉ [Call.mk .tick 0 (.ok s')] := by
            simp; exact fun h => hf h.symm
          simp only [retryStep, Step.childSaid, CountRel, this, decide_false, reduceCtorEq,
            if_false, Bool.false_eq_true]
          exact ⟨h1, h2, h3⟩

theorem retry_step (σ : Tally) (op : Op) (prev : BTState) (m : Mem) (e : Env) (names : List Nat)
    (st : List BTState) (hop : op ≠ .shutdown) (hl : st.length = names.length)
    (h : op ≠ .setup → CountRel σ m) :
    (hookProg .retry op prev m e names).PostS
      (fun _ l m' r => ∀ s, r = .ok s → CountRel (retryStep σ ⟨op, e, .ok s, l⟩) m') st := by
  cases op with
  | shutdown => exact absurd rfl hop
  | tick =>
    exact postS_mono _ _ _ _ (fun _ _ _ _ _ hp s hs => (hp s hs).2)
      (retry_tick σ prev m e names st hl (h (by simp)))
  | setup =>
    simp only [hookProg, setupHook]
    split
    · apply postS_onHead _ _ _ _ _ _ _ hl
      · intro _ s _; exact ⟨rfl, rfl, by show (0 : Int) ≤ _; omega⟩
      · intro _ _ _ _ s _; exact ⟨rfl, rfl, by show (0 : Int) ≤ _; omega⟩
    · intro s hs; cases hs
  | untick =>
    obtain h := h (by simp)
    simp only [hookProg, untickHook, Prog.untickPaused, List.range_eq_range']
    apply postS_forAll _ _ _ _ _ _ _ (by omega)
    · intro _ _ _ _ _ s hs; cases hs
    · intro _ _ _ _ _ _ s _; exact h
  | reset =>
    obtain ⟨h1, h2, h3⟩ := h (by simp)
    apply postS_onHead _ _ _ _ _ _ _ hl
    · intro _ s _; exact ⟨h1, rfl, by show (0 : Int) ≤ _; omega⟩
    · intro _ _ _ _ s _; exact ⟨h1, rfl, by show (0 : Int) ≤ _; omega⟩

theorem retryStep_err (σ : Tally) (op : Op) (e : Env) (l : List Call) :
    retryStep σ ⟨op, e, .err, l⟩ = σ := by simp [retryStep]

/-- **C19.** Take a freshly created Retry over any child and any history of operations with any
outcome. A following tick that answers `Ok(s)` behaves as `RetryTick` says for the number of
failures and the limit computed from the record of the history: it passes on any answer but
FAILED; a failure is answered by RUNNING and a reset of the child as long as fewer than `num_retries`
failures have been counted; and FAILED is answered exactly at the failure after that. -/
theorem c19_retry (n : Nat) (t : Tree (n + 1)) (hk : rootKind n t = .retry)
    (hf : Fresh (n + 1) t) (history : List Op) (s : BTState)
    (h : ((ops (n + 1)).run .tick (runs (ops (n + 1)) history t).2).res = .ok s) :
    RetryTick (failures (steps (ops n) history t))
      (rootChildren n t).length
      ((ops (n + 1)).run .tick (runs (ops (n + 1)) history t).2).log s := by
  have ht := track_runs (ops n) (ops_sound n) .retry _ (by simp) retryStep CountRel retryStep_err
    (fun σ op prev m e names st hop hl _ _ hm => retry_step σ op prev m e names st hop hl hm)
    history ⟨0, 0⟩ t (tracked_fresh n .retry _ t hk hf)
  exact tracked_tick n .retry _ _ _ ht (fun _ l s => RetryTick (failures (steps (ops n) history t)) (rootChildren n t).length l s)
    (fun prev m e names st hm hl hc => hc ▸ postS_mono _ _ _ _ (fun _ _ _ _ _ hp s hs => (hp s hs).1)
        (retry_tick _ prev m e names st hl hm)) s h

/-- A Retry with `num_retries = 2` over a child that always fails: RUNNING twice, then FAILED, and
again from the start. -/
def sampleRetry : Tree 2 :=
  mk 1 1 .retry [mkLeaf 0 2 [.ok .idle, .ok .failed, .ok .idle, .ok .failed, .ok .idle,
    .ok .failed, .ok .failed, .ok .idle]] (fun _ => { num := 2 })

example : rootKind 1 sampleRetry = .retry ∧ Fresh 2 sampleRetry ∧ WF 2 sampleRetry ∧
    (runs (ops 2) [.setup, .tick, .tick, .tick, .tick] sampleRetry).1.map (·.res) =
      [.ok .idle, .ok .running, .ok .running, .ok .failed, .ok .running] ∧
    failures (steps (ops 1) [.setup, .tick, .tick] sampleRetry) = ⟨2, 2⟩ := by decide

/-! ### C20: Repeat -/

/-- Specification: the number of successes of the child since the last setup or reset, and
`num_repeats` as read by the last setup. The success that ends the repetition is not counted. -/
def repeatStep (σ : Tally) (x : Step) : Tally :=
  if x.res = .err then σ
  else match x.op with
    | .setup => ⟨x.env.num, 0⟩
    | .reset => ⟨σ.limit, 0⟩
    | .tick => if x.childSaid .succeeded ∧ x.res ≠ .ok .succeeded then ⟨σ.limit, σ.n + 1⟩ else σ
    | _ => σ

/-- Successes counted in a record. -/
def successes (xs : List Step) : Tally := xs.foldl repeatStep ⟨0, 0⟩

/-- Specification of a tick of Repeat with `n` children. -/
def RepeatTick (σ : Tally) (n : Nat) (l : List Call) (s : BTState) : Prop :=
  if n = 0 then l = [] ∧ s = .succeeded
  else
    (s ≠ .succeeded ∧ l = [⟨.tick, 0, .ok s⟩]) ∨
    (σ.n < σ.limit ∧ s = .running ∧ l = [⟨.tick, 0, .ok .succeeded⟩, ⟨.reset, 0, .ok .idle⟩]) ∨
    ((σ.n : Int) = max σ.limit 0 ∧ s = .succeeded ∧ l = [⟨.tick, 0, .ok .succeeded⟩])

theorem repeat_tick (σ : Tally) (prev : BTState) (m : Mem) (e : Env) (names : List Nat)
    (st : List BTState) (hl : st.length = names.length) (h : CountRel σ m) :
    (tickHook .repeat prev m e names).PostS
      (fun _ l m' r => ∀ s, r = .ok s → RepeatTick σ names.length l s ∧
        CountRel (repeatStep σ ⟨.tick, e, .ok s, l⟩) m') st := by
  obtain ⟨h1, h2, h3⟩ := h
  simp only [tickHook]
  split
  · rename_i h0
    intro s hs; cases hs
    exact ⟨by simp [RepeatTick, h0], by simp [repeatStep, Step.childSaid, CountRel, h1, h2, h3]⟩
  · rename_i h0
    refine ⟨by omega, fun r s' hr => ?_⟩
    cases r with
    | err => intro s hs; cases hs
    | ok a =>
      obtain ⟨rfl, hal⟩ := hr a rfl
      simp only
      split
      · rename_i hf
        subst hf
        split
        · rename_i hlt
          refine ⟨by simp; omega, fun r' s'' hr' => ?_⟩
          intro s hs
          obtain ⟨b, rfl, rfl⟩ := res_map_ok _ _ _ hs
          obtain ⟨rfl, hb⟩ := hr' b rfl
          have hb' : s'' = .idle := by simpa [allowedAfter] using hb
          subst hb'
          rw [h1, h2] at hlt
          refine ⟨?_, ?_⟩
          · simp only [RepeatTick, h0, if_false]
            exact Or.inr (Or.inl ⟨hlt, trivial, trivial⟩)
          · simp only [repeatStep, Step.childSaid, CountRel, List.mem_cons, true_or, decide_true,
              if_true, reduceCtorEq, if_false, Res.ok.injEq, ne_eq, not_false_eq_true, and_self]
            refine ⟨h1, by simp [h2], ?_⟩
            have : ((σ.n + 1 : Nat) : Int) = (σ.n : Int) + 1 := by simp
            rw [this]
            omega
        · rename_i hlt
          intro s hs; cases hs
          rw [h1, h2] at hlt
          refine ⟨?_, ?_⟩
          · simp only [RepeatTick, h0, if_false]
            exact Or.inr (Or.inr ⟨by omega, trivial, trivial⟩)
          · simp only [repeatStep, CountRel, ne_eq, not_true_eq_false, and_false, if_false,
              reduceCtorEq]
            exact ⟨h1, h2, h3⟩
      · rename_i hf
        intro s hs
        cases hs
        refine ⟨?_, ?_⟩
        · simp only [RepeatTick, h0, if_false]
          exact Or.inl ⟨hf, trivial⟩
        · have : (Call.mk .tick 0 (.ok .succeeded)) ∉ [Call.mk .tick 0 (.ok s')] := by
            simp; exact fun h => hf h.symm
          simp only [repeatStep, Step.childSaid, CountRel, this, decide_false, reduceCtorEq,
            if_false, Bool.false_eq_true, false_and]
          exact ⟨h1, h2, h3⟩

theorem repeat_step (σ : Tally) (op : Op) (prev : BTState) (m : Mem) (e : Env) (names : List Nat)
    (st : List BTState) (hop : op ≠ .shutdown) (hl : st.length = names.length)
    (h : op ≠ .setup → CountRel σ m) :
    (hookProg .repeat op prev m e names).PostS
      (fun _ l m' r => ∀ s, r = .ok s → CountRel (repeatStep σ ⟨op, e, .ok s, l⟩) m') st := by
  cases op with
  | shutdown => exact absurd rfl hop
  | tick =>
    exact postS_mono _ _ _ _ (fun _ _ _ _ _ hp s hs => (hp s hs).2)
      (repeat_tick σ prev m e names st hl (h (by simp)))
  | setup =>
    simp only [hookProg, setupHook]
    split
    · apply postS_onHead _ _ _ _ _ _ _ hl
      · intro _ s _; exact ⟨rfl, rfl, by show (0 : Int) ≤ _; omega⟩
      · intro _ _ _ _ s _; exact ⟨rfl, rfl, by show (0 : Int) ≤ _; omega⟩
    · intro s hs; cases hs
  | untick =>
    obtain h := h (by simp)
    simp only [hookProg, untickHook, Prog.untickPaused, List.range_eq_range']
    apply postS_forAll _ _ _ _ _ _ _ (by omega)
    · intro _ _ _ _ _ s hs; cases hs
    · intro _ _ _ _ _ _ s _; exact h
  | reset =>
    obtain ⟨h1, h2, h3⟩ := h (by simp)
    apply postS_onHead _ _ _ _ _ _ _ hl
    · intro _ s _; exact ⟨h1, rfl, by show (0 : Int) ≤ _; omega⟩
    · intro _ _ _ _ s _; exact ⟨h1, rfl, by show (0 : Int) ≤ _; omega⟩

/-- **C20.** Take a freshly created Repeat over any child and any history of operations with any
outcome. A following tick that answers `Ok(s)` behaves as `RepeatTick` says for the number of
successes and the limit computed from the record: any answer but SUCCEEDED (in particular FAILED)
is passed on; a success is answered by RUNNING and a reset of the child for the first `num_repeats`
successes, and by SUCCEEDED from the next one on. -/
theorem c20_repeat (n : Nat) (t : Tree (n + 1)) (hk : rootKind n t = .repeat)
    (hf : Fresh (n + 1) t) (history : List Op) (s : BTState)
    (h : ((ops (n + 1)).run .tick (runs (ops (n + 1)) history t).2).res = .ok s) :
    RepeatTick (successes (steps (ops n) history t))
      (rootChildren n t).length
      ((ops (n + 1)).run .tick (runs (ops (n + 1)) history t).2).log s := by
  have ht := track_runs (ops n) (ops_sound n) .repeat _ (by simp) repeatStep CountRel
    (fun σ op e l => by simp [repeatStep])
    (fun σ op prev m e names st hop hl _ _ hm => repeat_step σ op prev m e names st hop hl hm)
    history ⟨0, 0⟩ t (tracked_fresh n .repeat _ t hk hf)
  exact tracked_tick n .repeat _ _ _ ht (fun _ l s => RepeatTick (successes (steps (ops n) history t)) (rootChildren n t).length l s)
    (fun prev m e names st hm hl hc => hc ▸ postS_mono _ _ _ _ (fun _ _ _ _ _ hp s hs => (hp s hs).1)
        (repeat_tick _ prev m e names st hl hm)) s h

/-- A node of class `k` with limit 2 over a child that succeeds whenever it is ticked. -/
def sampleRepeat (k : Kind) : Tree 2 :=
  mk 1 1 k [mkLeaf 0 2 [.ok .idle, .ok .succeeded, .ok .idle, .ok .succeeded, .ok .idle,
    .ok .succeeded, if k = .repeat then .ok .succeeded else .ok .idle]] (fun i => { num := 2, flag := i = 5 })

example : rootKind 1 (sampleRepeat .repeat) = .repeat ∧ Fresh 2 (sampleRepeat .repeat) ∧
    WF 2 (sampleRepeat .repeat) ∧
    (runs (ops 2) [.setup, .tick, .tick, .tick, .tick] (sampleRepeat .repeat)).1.map (·.res) =
      [.ok .idle, .ok .running, .ok .running, .ok .succeeded, .ok .succeeded] ∧
    successes (steps (ops 1) [.setup, .tick, .tick] (sampleRepeat .repeat)) = ⟨2, 2⟩ := by decide

/-! ### C21: RepeatNoAutoReset -/

/-- Specification: successes of the child since the last setup or the last tick with a request on
the `reset` input. -/
def quotaStep (σ : Tally) (x : Step) : Tally :=
  if x.res = .err then σ
  else match x.op with
    | .setup => ⟨x.env.num, 0⟩
    | .tick =>
      ⟨σ.limit, (if x.env.flag then 0 else σ.n) + (if x.childSaid .succeeded then 1 else 0)⟩
    | _ => σ

/-- Successes since the last reset request in a record. -/
def quotaUsed (xs : List Step) : Tally := xs.foldl quotaStep ⟨0, 0⟩

/-- Specification of a tick of RepeatNoAutoReset with `n` children: `c` successes have been used. -/
def QuotaTick (limit : Int) (c n : Nat) (l : List Call) (s : BTState) : Prop :=
  if limit ≤ c ∨ n = 0 then l = [] ∧ s = .succeeded
  else
    (s ≠ .succeeded ∧ l = [⟨.tick, 0, .ok s⟩]) ∨
    ((c + 1 : Nat) ≤ limit ∧ s = .running ∧
      l = [⟨.tick, 0, .ok .succeeded⟩, ⟨.reset, 0, .ok .idle⟩])

theorem quota_tick (σ : Tally) (prev : BTState) (m : Mem) (e : Env) (names : List Nat)
    (st : List BTState) (hl : st.length = names.length) (h : CountRel σ m) :
    (tickHook .repeatNoAutoReset prev m e names).PostS
      (fun _ l m' r => ∀ s, r = .ok s →
        QuotaTick σ.limit (if e.flag then 0 else σ.n) names.length l s ∧
        CountRel (quotaStep σ ⟨.tick, e, .ok s, l⟩) m') st := by
  obtain ⟨h1, h2, h3⟩ := h
  simp only [tickHook]
  split
  · have hm' : ∃ c : Nat, (if e.flag then 0 else σ.n) = c ∧
        (if e.flag then { m with count := 0 } else m).limit = σ.limit ∧
        (if e.flag then { m with count := 0 } else m).count = c ∧ (c : Int) ≤ max σ.limit 0 := by
      cases e.flag with
      | true => exact ⟨0, rfl, h1, rfl, by omega⟩
      | false => exact ⟨σ.n, rfl, h1, h2, h3⟩
    obtain ⟨c, hc, hlim, hcnt, hb⟩ := hm'
    generalize (if e.flag = true then { m with count := 0 } else m) = m' at hlim hcnt ⊢
    have hstep : ∀ s l, (Call.mk .tick 0 (.ok .succeeded)) ∉ l →
        CountRel (quotaStep σ ⟨.tick, e, .ok s, l⟩) m' := by
      intro s l hl
      simp only [quotaStep, Step.childSaid, hl, CountRel, hc, reduceCtorEq, if_false, decide_false,
        Bool.false_eq_true, Nat.add_zero]
      exact ⟨hlim, hcnt, hb⟩
    simp only [hc]
    split
    · rename_i hlt
      rw [hlim, hcnt] at hlt
      split
      · rename_i h0
        intro s hs; cases hs
        exact ⟨by simp [QuotaTick, h0], hstep _ _ (by simp)⟩
      · rename_i h0
        have hq : ¬ (σ.limit ≤ (c : Int) ∨ names.length = 0) := by omega
        refine ⟨by omega, fun r s' hr => ?_⟩
        cases r with
        | err => intro s hs; cases hs
        | ok a =>
          obtain ⟨rfl, hal⟩ := hr a rfl
          simp only
          split
          · rename_i hf
            subst hf
            have hlt' : m'.count < m'.limit := by rw [hlim, hcnt]; exact hlt
            first
            | rw [if_pos hlt']
            | skip
            refine ⟨by simp; omega, fun r' s'' hr' => ?_⟩
            intro s hs
            obtain ⟨b, rfl, rfl⟩ := res_map_ok _ _ _ hs
            obtain ⟨rfl, hb'⟩ := hr' b rfl
            have hb' : s'' = .idle := by simpa [allowedAfter] using hb'
            subst hb'
            refine ⟨?_, ?_⟩
            · simp only [QuotaTick, hq, if_false]
              exact Or.inr ⟨by omega, trivial, trivial⟩
            · simp only [quotaStep, Step.childSaid, CountRel, List.mem_cons, true_or, decide_true,
                if_true, reduceCtorEq, if_false, hc]
              refine ⟨hlim, by simp [hcnt], ?_⟩
              have : ((c + 1 : Nat) : Int) = (c : Int) + 1 := by simp
              rw [this]
              omega
          · rename_i hf
            intro s hs
            cases hs
            refine ⟨?_, hstep _ _ (by simp; exact fun h => hf h.symm)⟩
            simp only [QuotaTick, hq, if_false]
            exact Or.inl ⟨hf, trivial⟩
    · rename_i hlt
      rw [hlim, hcnt] at hlt
      have hq : σ.limit ≤ (c : Int) ∨ names.length = 0 := by omega
      intro s hs; cases hs
      exact ⟨by rw [QuotaTick, if_pos hq]; exact ⟨rfl, rfl⟩, hstep _ _ (by simp)⟩
  · intro s hs; cases hs

theorem quota_step (σ : Tally) (op : Op) (prev : BTState) (m : Mem) (e : Env) (names : List Nat)
    (st : List BTState) (hop : op ≠ .shutdown) (hl : st.length = names.length)
    (h : op ≠ .setup → CountRel σ m) :
    (hookProg .repeatNoAutoReset op prev m e names).PostS
      (fun _ l m' r => ∀ s, r = .ok s → CountRel (quotaStep σ ⟨op, e, .ok s, l⟩) m') st := by
  cases op with
  | shutdown => exact absurd rfl hop
  | tick =>
    exact postS_mono _ _ _ _ (fun _ _ _ _ _ hp s hs => (hp s hs).2)
      (quota_tick σ prev m e names st hl (h (by simp)))
  | setup =>
    simp only [hookProg, setupHook]
    split
    · apply postS_onHead _ _ _ _ _ _ _ hl
      · intro _ s _; exact ⟨rfl, rfl, by show (0 : Int) ≤ _; omega⟩
      · intro _ _ _ _ s _; exact ⟨rfl, rfl, by show (0 : Int) ≤ _; omega⟩
    · intro s hs; cases hs
  | untick =>
    obtain h := h (by simp)
    simp only [hookProg, untickHook, Prog.untickPaused, List.range_eq_range']
    apply postS_forAll _ _ _ _ _ _ _ (by omega)
    · intro _ _ _ _ _ s hs; cases hs
    · intro _ _ _ _ _ _ s _; exact h
  | reset =>
    obtain h := h (by simp)
    simp only [hookProg, resetHook]
    split
    · apply postS_onHead _ _ _ _ _ _ _ hl
      · intro _ s _; exact h
      · intro _ _ _ _ s _; exact h
    · intro s _; exact h

/-- **C21.** Take a freshly created RepeatNoAutoReset over any child and any history of operations
with any outcome. A following tick that answers `Ok(s)`: if since the last setup or reset request
(which may come with this very tick) the child has succeeded `num_repeats` times, the answer is
SUCCEEDED and the child is not touched. Otherwise the child is ticked, and a success of it is within the
quota of `num_repeats`. -/
theorem c21_quota (n : Nat) (t : Tree (n + 1)) (hk : rootKind n t = .repeatNoAutoReset)
    (hf : Fresh (n + 1) t) (history : List Op) (s : BTState)
    (h : ((ops (n + 1)).run .tick (runs (ops (n + 1)) history t).2).res = .ok s) :
    let used := quotaUsed (steps (ops n) history t)
    QuotaTick used.limit (if (nextEnv n (runs (ops (n + 1)) history t).2).flag then 0 else used.n)
      (rootChildren n t).length
      ((ops (n + 1)).run .tick (runs (ops (n + 1)) history t).2).log s := by
  have ht := track_runs (ops n) (ops_sound n) .repeatNoAutoReset _ (by simp) quotaStep CountRel
    (fun σ op e l => by simp [quotaStep])
    (fun σ op prev m e names st hop hl _ _ hm => quota_step σ op prev m e names st hop hl hm)
    history ⟨0, 0⟩ t (tracked_fresh n .repeatNoAutoReset _ t hk hf)
  exact tracked_tick n .repeatNoAutoReset _ _ _ ht
    (fun e l s => QuotaTick (quotaUsed (steps (ops n) history t)).limit
      (if e.flag then 0 else (quotaUsed (steps (ops n) history t)).n) (rootChildren n t).length l s)
    (fun prev m e names st hm hl hc => hc ▸ postS_mono _ _ _ _ (fun _ _ _ _ _ hp s hs => (hp s hs).1)
        (quota_tick _ prev m e names st hl hm)) s h

/-- Two successes, then nothing until the request that comes with the sixth operation. -/
example : rootKind 1 (sampleRepeat .repeatNoAutoReset) = .repeatNoAutoReset ∧
    Fresh 2 (sampleRepeat .repeatNoAutoReset) ∧ WF 2 (sampleRepeat .repeatNoAutoReset) ∧
    (runs (ops 2) [.setup, .tick, .tick, .tick, .tick, .tick]
      (sampleRepeat .repeatNoAutoReset)).1.map (fun x => (x.res, x.log.length)) =
      [(.ok .idle, 1), (.ok .running, 2), (.ok .running, 2), (.ok .succeeded, 0),
       (.ok .succeeded, 0), (.ok .running, 2)] := by decide

end Verif.BT
