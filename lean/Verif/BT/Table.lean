import Verif.BT.Iterate

/-!
# C22: result tables of the decorators
-/

set_option autoImplicit false

namespace Verif.BT

variable {N : Type}

/-- Documented answer of a decorator that ticks its child and translates the answer
(class doc-strings in `decorators.py`). `opt` is the option `running_is_success`. -/
def translate (k : Kind) (opt : Bool) (a : BTState) : BTState :=
  match k, a with
  | .ignoreFailure, .failed => .succeeded
  | .ignoreSuccess, .succeeded => .failed
  | .ignoreRunning, .running => if opt then .succeeded else .failed
  | .inverter, .failed => .succeeded
  | .inverter, .succeeded => .failed
  | _, a => a

/-- Documented: which answers of the child make the decorator reset it and answer RUNNING. -/
def restarts (k : Kind) (a : BTState) : Bool :=
  match k with
  | .untilSuccess | .repeatIfFail => a = .failed
  | .repeatUntilFail => a = .succeeded
  | .repeatAlways => a ≠ .running
  | _ => false

/-- Answer without a child. -/
def withoutChild (k : Kind) : BTState :=
  match k with
  | .ignoreRunning | .ignoreSuccess => .failed
  | _ => .succeeded

/-- The decorators of the first group. -/
def isTable (k : Kind) : Bool :=
  match k with
  | .ignoreFailure | .ignoreSuccess | .ignoreRunning | .inverter | .untilSuccess | .repeatIfFail
  | .repeatUntilFail | .repeatAlways => true
  | _ => false

/-- Specification of a tick with `c` children. -/
def TableTick (k : Kind) (opt : Bool) (c : Nat) (l : List Call) (s : BTState) : Prop :=
  if c = 0 then l = [] ∧ s = withoutChild k
  else ∃ a, if restarts k a then
      s = .running ∧ l = [⟨.tick, 0, .ok a⟩, ⟨.reset, 0, .ok .idle⟩]
    else s = translate k opt a ∧ l = [⟨.tick, 0, .ok a⟩]

/-- Specification: the option `running_is_success` as read by the last successful setup. -/
def optionStep (σ : Bool) (x : Step) : Bool :=
  if x.res ≠ .err ∧ x.op = .setup then x.env.flag else σ

/-- The option in force after a record. -/
def optionRead (xs : List Step) : Bool := xs.foldl optionStep false

/-- How the attribute relates to the record. -/
def OptionRel (k : Kind) (σ : Bool) (m : Mem) : Prop := k = .ignoreRunning → m.runIsSucc = σ

theorem table_tick (k : Kind) (hk : isTable k = true) (σ : Bool) (prev : BTState) (m : Mem) (e : Env)
    (names : List Nat) (st : List BTState) (hl : st.length = names.length) (h : OptionRel k σ m) :
    (tickHook k prev m e names).PostS
      (fun _ l m' r => ∀ s, r = .ok s → TableTick k σ names.length l s ∧ m' = m) st := by
  have head : ∀ f, (∀ a, allowedAfter .tick a = true → restarts k a = false ∧ f a = translate k σ a) →
      (Prog.onHead names.length .tick m f (withoutChild k)).PostS
      (fun _ l m' r => ∀ s, r = .ok s → TableTick k σ names.length l s ∧ m' = m) st := by
    intro f hf
    apply postS_onHead _ _ _ _ _ _ _ hl
    · intro h0 s hs; cases hs
      exact ⟨by simp [TableTick, h0], rfl⟩
    · intro r s' hr h0 s hs
      obtain ⟨a, rfl, rfl⟩ := res_map_ok _ _ _ hs
      obtain ⟨rfl, hal⟩ := hr a rfl
      refine ⟨?_, rfl⟩
      simp only [TableTick, h0, if_false]
      exact ⟨s', by simp [hf s' hal]⟩
  have restart : ∀ on, (∀ a, allowedAfter .tick a = true → restarts k a = decide (a = on) ∧
      (a ≠ on → translate k σ a = a)) → withoutChild k = .succeeded →
      (Prog.tickResetOn names.length on m).PostS
      (fun _ l m' r => ∀ s, r = .ok s → TableTick k σ names.length l s ∧ m' = m) st := by
    intro on hon hw
    unfold Prog.tickResetOn
    split
    · rename_i h0
      intro s hs; cases hs
      exact ⟨by simp [TableTick, h0, hw], rfl⟩
    · rename_i h0
      refine ⟨by omega, fun r s' hr => ?_⟩
      cases r with
      | err => intro s hs; cases hs
      | ok a =>
        obtain ⟨rfl, hal⟩ := hr a rfl
        obtain ⟨h1, h2⟩ := hon s' hal
        simp only
        split
        · rename_i he
          subst he
          refine ⟨by simp; omega, fun r' s'' hr' => ?_⟩
          intro s hs
          obtain ⟨b, rfl, rfl⟩ := res_map_ok _ _ _ hs
          obtain ⟨rfl, hb⟩ := hr' b rfl
          have hb' : s'' = .idle := by simpa [allowedAfter] using hb
          subst hb'
          refine ⟨?_, rfl⟩
          simp only [TableTick, h0, if_false]
          exact ⟨s', by simp [h1]⟩
        · rename_i he
          intro s hs; cases hs
          refine ⟨?_, rfl⟩
          simp only [TableTick, h0, if_false]
          exact ⟨s', by simp [h1, he, h2]⟩
  cases k <;> try cases hk
  · exact head _ (fun a ha => by cases a <;> first | exact ⟨rfl, rfl⟩ | cases ha)
  · have hopt : m.runIsSucc = σ := h rfl
    refine head _ (fun a ha => ?_)
    rw [hopt]
    cases a <;> first | exact ⟨rfl, rfl⟩ | cases ha
  · exact head _ (fun a ha => by cases a <;> first | exact ⟨rfl, rfl⟩ | cases ha)
  · exact restart _ (fun a ha => by cases a <;> first | exact ⟨rfl, fun _ => rfl⟩ | cases ha) rfl
  · exact head _ (fun a ha => by cases a <;> first | exact ⟨rfl, rfl⟩ | cases ha)
  · -- repeatAlways
    simp only [tickHook]
    split
    · rename_i h0
      intro s hs; cases hs
      exact ⟨by simp [TableTick, h0, withoutChild], rfl⟩
    · rename_i h0
      refine ⟨by omega, fun r s' hr => ?_⟩
      cases r with
      | err => intro s hs; cases hs
      | ok a =>
        obtain ⟨rfl, hal⟩ := hr a rfl
        simp only
        split
        · rename_i he
          refine ⟨by simp; omega, fun r' s'' hr' => ?_⟩
          cases r' with
          | err => intro s hs; cases hs
          | ok b =>
            obtain ⟨rfl, hb⟩ := hr' b rfl
            have hb' : s'' = .idle := by simpa [allowedAfter] using hb
            subst hb'
            intro s hs; cases hs
            refine ⟨?_, rfl⟩
            simp only [TableTick, h0, if_false]
            exact ⟨s', by simp [restarts, he]⟩
        · rename_i he
          have he : s' = .running := by simpa using he
          subst he
          intro s hs; cases hs
          refine ⟨?_, rfl⟩
          simp only [TableTick, h0, if_false]
          exact ⟨.running, by simp [restarts, translate]⟩
  · exact restart _ (fun a ha => by cases a <;> first | exact ⟨rfl, fun _ => rfl⟩ | cases ha) rfl
  · exact restart _ (fun a ha => by cases a <;> first | exact ⟨rfl, fun _ => rfl⟩ | cases ha) rfl

theorem table_step (k : Kind) (hk : isTable k = true) (σ : Bool) (op : Op) (prev : BTState) (m : Mem)
    (e : Env) (names : List Nat) (st : List BTState) (hop : op ≠ .shutdown)
    (hl : st.length = names.length) (h : op ≠ .setup → OptionRel k σ m) :
    (hookProg k op prev m e names).PostS
      (fun _ l m' r => ∀ s, r = .ok s → OptionRel k (optionStep σ ⟨op, e, .ok s, l⟩) m') st := by
  have hstep : op ≠ .setup → ∀ s l, optionStep σ ⟨op, e, .ok s, l⟩ = σ := by
    intro h; simp [optionStep, h]
  cases op with
  | shutdown => exact absurd rfl hop
  | tick =>
    refine postS_mono _ _ _ _ (fun _ _ _ _ _ hp s hs => ?_)
      (table_tick k hk σ prev m e names st hl (h (by simp)))
    rw [hstep (by simp), (hp s hs).2]
    exact h (by simp)
  | setup =>
    cases k <;> try cases hk
    all_goals
      first
      | exact postS_onHead _ _ _ _ _ _ _ hl (fun _ s _ h => by cases h) (fun _ _ _ _ s _ h => by cases h)
      | simp only [hookProg, setupHook]
        split
        · apply postS_onHead _ _ _ _ _ _ _ hl
          · intro _ s _ _; simp [optionStep]
          · intro _ _ _ _ s _ _; simp [optionStep]
        · intro s hs; cases hs
  | untick =>
    have h := h (by simp)
    simp only [hstep (by simp)]
    cases k <;> try cases hk
    all_goals
      first
      | exact postS_onHead _ _ _ _ _ _ _ hl (fun _ s _ => h) (fun _ _ _ _ s _ => h)
      | simp only [hookProg, untickHook, Prog.untickPaused, List.range_eq_range']
        apply postS_forAll _ _ _ _ _ _ _ (by omega)
        · intro _ _ _ _ _ s hs; cases hs
        · intro _ _ _ _ _ _ s _; exact h
  | reset =>
    have h := h (by simp)
    simp only [hstep (by simp)]
    cases k <;> try cases hk
    all_goals
      apply postS_onHead _ _ _ _ _ _ _ hl
      · intro _ s _; exact h
      · intro _ _ _ _ s _; exact h

/-- **C22.** Take a freshly created IgnoreFailure, IgnoreSuccess, IgnoreRunning, Inverter, UntilSuccess,
RepeatIfFail, RepeatUntilFail or RepeatAlways over any child and any history. A following tick that
answers `Ok(s)` ticks the child exactly once; for the answers in `restarts` it resets the child and
answers RUNNING, otherwise it answers according to `translate`. -/
theorem c22_table (n : Nat) (t : Tree (n + 1)) (hk : isTable (rootKind n t) = true)
    (hf : Fresh (n + 1) t) (history : List Op) (s : BTState)
    (h : ((ops (n + 1)).run .tick (runs (ops (n + 1)) history t).2).res = .ok s) :
    TableTick (rootKind n t) (optionRead (steps (ops n) history t)) (rootChildren n t).length
      ((ops (n + 1)).run .tick (runs (ops (n + 1)) history t).2).log s := by
  have hne : rootKind n t ≠ .leaf := by intro h; rw [h] at hk; cases hk
  have ht := track_runs (ops n) (ops_sound n) (rootKind n t) _ hne optionStep
    (OptionRel (rootKind n t)) (fun σ op e l => by simp [optionStep])
    (fun σ op prev m e names st hop hl _ _ hm => table_step _ hk σ op prev m e names st hop hl hm)
    history false t (tracked_fresh n _ _ t rfl hf)
  exact tracked_tick n (rootKind n t) _ _ _ ht
    (fun _ l s => TableTick (rootKind n t) (optionRead (steps (ops n) history t))
      (rootChildren n t).length l s)
    (fun prev m e names st hm hl hc => hc ▸ postS_mono _ _ _ _ (fun _ _ _ _ _ hp s hs => (hp s hs).1)
        (table_tick _ hk _ prev m e names st hl hm)) s h

/-- Specification of a tick of Watch: a changed value first unticks the child. -/
def WatchTick (changed : Bool) (c : Nat) (l : List Call) (s : BTState) : Prop :=
  if c = 0 then l = [] ∧ s = .succeeded
  else ∃ a, (a = .idle ∨ a = .paused) ∧
    l = (if changed then [⟨.untick, 0, .ok a⟩] else []) ++ [⟨.tick, 0, .ok s⟩]

/-- **C22, Watch.** For every state of a Watch. -/
theorem c22_watch (n : Nat) (t : Tree (n + 1)) (hk : rootKind n t = .watch) (s : BTState)
    (h : ((ops (n + 1)).run .tick t).res = .ok s) :
    WatchTick (nextEnv n t).flag (rootChildren n t).length ((ops (n + 1)).run .tick t).log s := by
  refine (run_ok_post (ops n) (ops_sound n) .tick (by simp) t s (fun _ l _ r => ∀ s, r = .ok s →
    WatchTick (nextEnv n t).flag (rootChildren n t).length l s) ?_ h).1 s rfl
  have hk' : Node.kind (N := Tree n) t = .watch := hk
  rw [hk']
  have hlen : ((Node.children (N := Tree n) t).map (ops n).name).length = (rootChildren n t).length :=
    List.length_map _
  have hlen' : ((Node.children (N := Tree n) t).map (ops n).state).length = (rootChildren n t).length :=
    List.length_map _
  generalize (Node.children (N := Tree n) t).map (ops n).name = names at hlen ⊢
  generalize (Node.children (N := Tree n) t).map (ops n).state = st at hlen' ⊢
  show (tickHook .watch (Node.state (N := Tree n) t) (Node.mem (N := Tree n) t) (nextEnv n t) names).PostS
    _ st
  generalize nextEnv n t = e
  rw [← hlen] at hlen' ⊢
  simp only [tickHook]
  split
  · rename_i h0
    intro s hs; cases hs
    simp [WatchTick, h0]
  · rename_i h0
    split
    · split
      · rename_i hf
        refine ⟨by omega, fun r s' hr => ?_⟩
        cases r with
        | err => intro s hs; cases hs
        | ok a =>
          obtain ⟨rfl, hal⟩ := hr a rfl
          refine ⟨by simp; omega, fun r' s'' hr' s hs => ?_⟩
          subst hs
          simp only [WatchTick, h0, if_false, hf, if_true]
          exact ⟨s', by simpa [allowedAfter] using hal, rfl⟩
      · rename_i hf
        refine ⟨by omega, fun r s' hr s hs => ?_⟩
        subst hs
        simp only [WatchTick, h0, if_false, hf, Bool.false_eq_true]
        exact ⟨.idle, Or.inl rfl, rfl⟩
    · intro s hs; cases hs

/-- **C22, Optional.** Take a freshly created Optional and any history. A following tick that answers
`Ok(s)` ticks the child exactly once and passes its answer on if there is a child and it could
execute at the last setup; otherwise it makes no call and answers SUCCEEDED. -/
theorem c22_optional (n : Nat) (t : Tree (n + 1)) (hk : rootKind n t = .optional)
    (hf : Fresh (n + 1) t) (history : List Op) (s : BTState)
    (h : ((ops (n + 1)).run .tick (runs (ops (n + 1)) history t).2).res = .ok s) :
    if usable (steps (ops n) history t) = true ∧ rootChildren n t ≠ [] then
      ((ops (n + 1)).run .tick (runs (ops (n + 1)) history t).2).log = [⟨.tick, 0, .ok s⟩]
    else
      ((ops (n + 1)).run .tick (runs (ops (n + 1)) history t).2).log = [] ∧ s = .succeeded := by
  refine tracked_tick n .optional _ _ _ (optional_tracked n t hk hf history)
    (fun _ l s => if usable (steps (ops n) history t) = true ∧ rootChildren n t ≠ [] then
      l = [⟨.tick, 0, .ok s⟩] else l = [] ∧ s = .succeeded) ?_ s h
  intro prev m e names st hm hl hc
  simp only [tickHook]
  have hiff : m.execChild = true ↔
      (usable (steps (ops n) history t) = true ∧ rootChildren n t ≠ []) := by
    rw [hm]
    simp
  split
  · rename_i hx
    have h2 := (hiff.1 hx)
    have : (rootChildren n t).length ≠ 0 := by simpa using h2.2
    refine ⟨by omega, fun r s' _ s hs => ?_⟩
    subst hs
    rw [if_pos h2]
  · rename_i hx
    intro s hs; cases hs
    rw [if_neg (fun h => hx (hiff.2 h))]
    exact ⟨rfl, rfl⟩

/-! ### Examples -/

/-- A decorator over a child that succeeds. -/
def sampleTable (k : Kind) : Tree 2 :=
  mk 1 1 k [mkLeaf 0 2 [.ok .idle, .ok .failed, .ok .idle, .ok .succeeded]]

example : isTable (rootKind 1 (sampleTable .untilSuccess)) = true ∧
    Fresh 2 (sampleTable .untilSuccess) ∧
    (runs (ops 2) [.setup, .tick, .tick] (sampleTable .untilSuccess)).1.map (·.res) =
      [.ok .idle, .ok .running, .ok .succeeded] ∧
    (runs (ops 2) [.setup, .tick] (sampleTable .inverter)).1.map (·.res) =
      [.ok .idle, .ok .succeeded] := by decide

example : rootKind 1 (sampleTable .watch) = .watch ∧
    ((ops 2).run .tick (runs (ops 2) [.setup] (sampleTable .watch)).2).res = .ok .failed := by decide

example : rootKind 1 sampleOptional = .optional ∧ Fresh 2 sampleOptional ∧
    ((ops 2).run .tick (runs (ops 2) [.setup, .tick, .shutdown, .setup] sampleOptional).2).res =
      .ok .running := by decide

end Verif.BT
