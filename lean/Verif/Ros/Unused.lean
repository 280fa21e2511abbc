import Verif.Ros.Publisher
import Verif.Ros.WaitService
import Verif.Ros.Service
import Verif.Ros.Action
import Verif.Ros.Topic
import Verif.BT.Lifecycle

/-! C108: trees that have not been set up, or not completely, are shut down (node.py 630-713). `shutdown` is documented not to run the hook of
a node that has not been initialized (node.py 645). -/

set_option autoImplicit false

namespace Verif.Ros.Unused

open Verif.BT (BTState)

/-! ### The model

A tree of nodes whose setup or shutdown may fail. The hook `_do_setup` of an inner node sets up its children one after the other until one fails
(sequence.py 75-81 and all other flow control nodes). Nested trees (`Subtree`) are left out. -/

/-- A node. `needs`: its `_do_shutdown` reads attributes that only `_do_setup` creates (topic.py 472, 555; service.py 385, 432; action.py 147, 381);
`setupOk` and `downOk`: what its own hooks answer; `made`: the attributes exist. -/
inductive T
  | node (needs setupOk downOk : Bool) (state : BTState) (made : Bool) (children : List T)

/-- `self.state` -/
def T.state : T → BTState
  | .node _ _ _ s _ _ => s

mutual

/-- node.py 353-390: `setup`, and whether it succeeds. -/
def setup : T → T × Bool
  | .node f so d s m cs =>
    if s = .uninitialized ∨ s = .shutdown then
      if (setups cs).2 && so then (.node f so d .idle true (setups cs).1, true)
      else (.node f so d .broken m (setups cs).1, false)
    else (.node f so d s m cs, false)

/-- sequence.py 75-81 -/
def setups : List T → List T × Bool
  | [] => ([], true)
  | c :: cs =>
    if (setup c).2 then ((setup c).1 :: (setups cs).1, (setups cs).2)
    else ((setup c).1 :: cs, false)
end

/-- How a call ends. -/
inductive Out | ok | err | raise
  deriving DecidableEq, Repr

mutual

/-- node.py 668-713: `shutdown`. An exception leaves the rest undone. -/
def down : T → T × Out
  | .node f so d s m cs =>
    if s = .shutdown then (.node f so d s m (downs cs).1, (downs cs).2)
    else if f && !m then (.node f so d s m cs, .raise)
    else if d then (.node f so d .shutdown m (downs cs).1, (downs cs).2)
    else (.node f so d .broken m cs, .err)

/-- node.py 688-713: all children; errors are remembered. -/
def downs : List T → List T × Out
  | [] => ([], .ok)
  | c :: cs =>
    match down c with
    | (c', .raise) => (c' :: cs, .raise)
    | (c', .ok) => (c' :: (downs cs).1, (downs cs).2)
    | (c', .err) => (c' :: (downs cs).1, if (downs cs).2 = .raise then .raise else .err)
end

/-- Any number of SHUTDOWNs. -/
def downAgain : Nat → T → T
  | 0, t => t
  | n + 1, t => downAgain n (down t).1

/-! ### Specification -/

/-- Somewhere below nodes that can be shut down there is one that needs a setup it has not had. -/
inductive Exposed : T → Prop
  | here {so d : Bool} {s : BTState} {cs : List T} : s ≠ .shutdown → Exposed (.node true so d s false cs)
  | inner {f so d m : Bool} {s : BTState} {cs : List T} {c : T} : s = .shutdown ∨ (f = false ∨ m = true) ∧ d = true → c ∈ cs → Exposed c →
      Exposed (.node f so d s m cs)

/-- No node needs a setup. -/
inductive Sturdy : T → Prop
  | node {so d m : Bool} {s : BTState} {cs : List T} : (∀ c ∈ cs, Sturdy c) → Sturdy (.node false so d s m cs)

/-- Every node is SHUTDOWN. -/
inductive Gone : T → Prop
  | node {f so d m : Bool} {cs : List T} : (∀ c ∈ cs, Gone c) → Gone (.node f so d .shutdown m cs)

/-- All shutdown hooks succeed if they are called. -/
inductive Willing : T → Prop
  | node {f so m : Bool} {s : BTState} {cs : List T} : (∀ c ∈ cs, Willing c) → Willing (.node f so true s m cs)

/-! ### Lemmas -/

theorem downs_raise {cs : List T} : (downs cs).2 = .raise ↔ ∃ c ∈ cs, (down c).2 = .raise := by
  induction cs with
  | nil => simp [downs]
  | cons c cs ih =>
    rw [downs]
    simp only [List.mem_cons, exists_eq_or_imp]
    rcases h : down c with ⟨c', r⟩
    cases r
    · simp [ih]
    · simp only [reduceCtorEq, false_or, ← ih]
      by_cases hr : (downs cs).2 = .raise
      · simp [hr]
      · simp [hr]
    · simp

mutual

theorem raise_iff : ∀ t : T, (down t).2 = .raise ↔ Exposed t
  | .node f so d s m cs => by
    have ih := raises_iff cs
    rw [down]
    by_cases hs : s = .shutdown
    · rw [if_pos hs]
      dsimp only
      rw [ih]
      constructor
      · rintro ⟨c, hc, e⟩; exact .inner (.inl hs) hc e
      · intro h
        cases h with
        | here h => exact absurd hs h
        | inner _ hc e => exact ⟨_, hc, e⟩
    · rw [if_neg hs]
      cases f
      · cases d
        · simp only [Bool.false_and, Bool.false_eq_true, if_false, reduceCtorEq, false_iff]
          intro h
          cases h with
          | inner h => simp [hs] at h
        · simp only [Bool.false_and, Bool.false_eq_true, if_false, if_true]
          rw [ih]
          constructor
          · rintro ⟨c, hc, e⟩; exact .inner (.inr ⟨.inl rfl, rfl⟩) hc e
          · intro h
            cases h with
            | inner _ hc e => exact ⟨_, hc, e⟩
      · cases m
        · simp only [Bool.not_false, Bool.true_and, if_true, true_iff]
          exact .here hs
        · cases d
          · simp only [Bool.not_true, Bool.and_false, Bool.false_eq_true, if_false, reduceCtorEq, false_iff]
            intro h
            cases h with
            | inner h => simp [hs] at h
          · simp only [Bool.not_true, Bool.and_false, Bool.false_eq_true, if_false, if_true]
            rw [ih]
            constructor
            · rintro ⟨c, hc, e⟩; exact .inner (.inr ⟨.inr rfl, rfl⟩) hc e
            · intro h
              cases h with
              | inner _ hc e => exact ⟨_, hc, e⟩

theorem raises_iff : ∀ cs : List T, (downs cs).2 = .raise ↔ ∃ c ∈ cs, Exposed c
  | [] => by simp [downs]
  | c :: cs => by
    rw [downs_raise]
    simp only [List.mem_cons, exists_eq_or_imp]
    rw [raise_iff c, ← downs_raise, raises_iff cs]

end

mutual

theorem raise_stays : ∀ t : T, (down t).2 = .raise → (down (down t).1).2 = .raise
  | .node f so d s m cs, h => by
    have ih := raises_stay cs
    rw [down] at h ⊢
    by_cases hs : s = .shutdown
    · rw [if_pos hs] at h ⊢
      dsimp only at h ⊢
      rw [down, if_pos hs]
      exact ih h
    · rw [if_neg hs] at h ⊢
      by_cases hf : (f && !m) = true
      · rw [if_pos hf] at h ⊢
        dsimp only
        rw [down, if_neg hs, if_pos hf]
      · rw [if_neg hf] at h ⊢
        cases d
        · cases h
        · simp only [if_true] at h ⊢
          rw [down, if_pos rfl]
          exact ih h

theorem raises_stay : ∀ cs : List T, (downs cs).2 = .raise → (downs (downs cs).1).2 = .raise
  | [], h => by cases h
  | c :: cs, h => by
    have hc := raise_stays c
    have ih := raises_stay cs
    rw [downs] at h ⊢
    rcases e : down c with ⟨c', r⟩
    rw [e] at h hc
    cases r
    · dsimp only at h ⊢
      rw [downs_raise]
      obtain ⟨x, hx, hr⟩ := downs_raise.mp (ih h)
      exact ⟨x, List.mem_cons_of_mem _ hx, hr⟩
    · dsimp only at h ⊢
      rw [downs_raise]
      by_cases hr : (downs cs).2 = .raise
      · obtain ⟨x, hx, hr⟩ := downs_raise.mp (ih hr)
        exact ⟨x, List.mem_cons_of_mem _ hx, hr⟩
      · rw [if_neg hr] at h; cases h
    · dsimp only
      rw [downs_raise]
      exact ⟨c', List.mem_cons_self, hc rfl⟩

end

theorem not_exposed {t : T} (h : Sturdy t) : ¬Exposed t := by
  intro e
  induction e with
  | here => cases h
  | inner _ hc _ ih => cases h with | node h => exact ih (h _ hc)

mutual

theorem down_ok : ∀ t : T, Willing t → ¬Exposed t → (down t).2 = .ok ∧ Gone (down t).1
  | .node f so d s m cs, w, h => by
    cases w with
    | node w =>
    have hr : (down (.node f so true s m cs)).2 ≠ .raise := fun e => h ((raise_iff _).mp e)
    have key : (∀ c ∈ cs, ¬Exposed c) → (downs cs).2 = .ok ∧ ∀ c ∈ (downs cs).1, Gone c := downs_ok cs w
    rw [down] at hr ⊢
    by_cases hs : s = .shutdown
    · rw [if_pos hs] at hr ⊢
      obtain ⟨h1, h2⟩ := key (fun c hc e => h (.inner (.inl hs) hc e))
      exact ⟨h1, by rw [hs]; exact .node h2⟩
    · rw [if_neg hs] at hr ⊢
      by_cases hf : (f && !m) = true
      · rw [if_pos hf] at hr; exact absurd rfl hr
      · rw [if_neg hf]
        simp only [if_true]
        obtain ⟨h1, h2⟩ := key (fun c hc e => h (.inner (.inr ⟨(by cases f <;> cases m <;> simp at hf ⊢), rfl⟩) hc e))
        exact ⟨h1, .node h2⟩

theorem downs_ok : ∀ cs : List T, (∀ c ∈ cs, Willing c) → (∀ c ∈ cs, ¬Exposed c) → (downs cs).2 = .ok ∧ ∀ c ∈ (downs cs).1, Gone c
  | [], _, _ => ⟨rfl, by simp [downs]⟩
  | c :: cs, w, h => by
    obtain ⟨h1, h2⟩ := down_ok c (w c List.mem_cons_self) (h c List.mem_cons_self)
    obtain ⟨h3, h4⟩ := downs_ok cs (fun c hc => w c (List.mem_cons_of_mem _ hc)) (fun c hc => h c (List.mem_cons_of_mem _ hc))
    rw [downs]
    rcases e : down c with ⟨c', r⟩
    rw [e] at h1 h2
    cases h1
    refine ⟨h3, ?_⟩
    intro x hx
    rcases List.mem_cons.mp hx with rfl | hx
    · exact h2
    · exact h4 x hx

end

theorem gone_iff {f so d m : Bool} {s : BTState} {cs : List T} : Gone (.node f so d s m cs) ↔ s = .shutdown ∧ ∀ c ∈ cs, Gone c := by
  constructor
  · intro h
    cases h with
    | node h => exact ⟨rfl, h⟩
  · rintro ⟨rfl, h⟩; exact .node h

mutual

theorem ok_iff : ∀ t : T, (down t).2 = .ok ↔ Gone (down t).1
  | .node f so d s m cs => by
    have ih := oks_iff cs
    rw [down]
    by_cases hs : s = .shutdown
    · rw [if_pos hs]
      simp only [gone_iff, hs, true_and]
      exact ih
    · rw [if_neg hs]
      by_cases hf : (f && !m) = true
      · rw [if_pos hf]
        simp [gone_iff, hs]
      · rw [if_neg hf]
        cases d
        · simp [gone_iff]
        · simp only [if_true, gone_iff, true_and]
          exact ih

theorem oks_iff : ∀ cs : List T, (downs cs).2 = .ok ↔ ∀ c ∈ (downs cs).1, Gone c
  | [] => by simp [downs]
  | c :: cs => by
    have hc := ok_iff c
    have ih := oks_iff cs
    rw [downs]
    rcases e : down c with ⟨c', r⟩
    rw [e] at hc
    cases r
    · simp only [true_iff] at hc
      simp only [List.mem_cons, forall_eq_or_imp, hc, true_and]
      exact ih
    · simp only [reduceCtorEq, false_iff] at hc
      simp only [List.mem_cons, forall_eq_or_imp, hc, false_and, iff_false]
      split <;> simp
    · simp only [reduceCtorEq, false_iff] at hc
      simp [hc]

end

theorem setups_stop {pre post : List T} {bad : T} (hb : (setup bad).2 = false) : (setups (pre ++ bad :: post)).2 = false ∧
    ∃ pre', (setups (pre ++ bad :: post)).1 = pre' ++ post := by
  induction pre with
  | nil =>
    rw [List.nil_append, setups, hb]
    exact ⟨rfl, [(setup bad).1], rfl⟩
  | cons c pre ih =>
    rw [List.cons_append, setups]
    cases hc : (setup c).2 with
    | false => exact ⟨rfl, (setup c).1 :: pre ++ [bad], by simp⟩
    | true =>
      obtain ⟨h1, pre', h2⟩ := ih
      exact ⟨h1, (setup c).1 :: pre', by simp [h2]⟩

/-! ### Theorems -/

/-- SHUTDOWN raises an exception exactly if it comes to a node that needs a setup it has not had. -/
theorem c108_raises_iff (t : T) : (down t).2 = .raise ↔ Exposed t := raise_iff t

/-- If no node needs a setup, SHUTDOWN works whatever has been set up, and every node is SHUTDOWN. -/
theorem c108_shutdown_partial (t : T) (w : Willing t) (h : Sturdy t) : (down t).2 = .ok ∧ Gone (down t).1 := down_ok t w (not_exposed h)

/-- SHUTDOWN answers success exactly if every node is SHUTDOWN afterwards. -/
theorem c108_ok_iff (t : T) : (down t).2 = .ok ↔ Gone (down t).1 := ok_iff t

/-- Once SHUTDOWN has raised an exception it does so forever. -/
theorem c108_forever (t : T) (h : Exposed t) : ∀ n, (down (downAgain n t)).2 = .raise := by
  intro n
  induction n generalizing t with
  | zero => exact (raise_iff t).mpr h
  | succ n ih => exact ih _ ((raise_iff _).mp (raise_stays t ((raise_iff t).mpr h)))

/-- A setup fails, and a later sibling needs a setup: no number of SHUTDOWNs helps, and each raises an exception. -/
theorem c108_failed_setup (so : Bool) (pre post : List T) (bad late : T) (hb : (setup bad).2 = false) (hl : late ∈ post) (he : Exposed late)
    (n : Nat) : (setup (.node false so true .uninitialized false (pre ++ bad :: post))).2 = false ∧
      (down (downAgain n (setup (.node false so true .uninitialized false (pre ++ bad :: post))).1)).2 = .raise := by
  obtain ⟨h1, pre', h2⟩ := setups_stop (pre := pre) (post := post) hb
  rw [setup, if_pos (.inl rfl), h1]
  simp only [Bool.false_and, Bool.false_eq_true, if_false, true_and]
  rw [h2]
  exact c108_forever _ (.inner (.inr ⟨.inl rfl, rfl⟩) (List.mem_append_right _ hl) he) n

/-! ### The classes -/

/-- In every tree, shutting down a root that has not been initialized runs its hook, contrary to the documentation (node.py 645). -/
theorem c108_hook_called (n : Nat) (t : BT.Tree (n + 1)) (h : (BT.ops (n + 1)).state t = .uninitialized) :
    BT.Ev.hook .shutdown (BT.rootId n t) ∈ ((BT.ops (n + 1)).run .shutdown t).trace :=
  BT.c01_accepted_call_runs_hook n .shutdown t ((BT.accepts_iff _ _).mp rfl) (fun e => by cases e) (fun _ => by rw [h]; decide)

/-- A publisher that has never been set up raises. -/
theorem c108_publisher (e : Publisher.Env) (i p : Bool) : (Publisher.cls.step Publisher.cls.new (.call .shutdown e i p)).2.res = none := rfl

/-- So does a publisher whose setup failed. -/
theorem c108_publisher_failed (e e' : Publisher.Env) (i p : Bool) (h : (Publisher.cls.step Publisher.cls.new (.call .setup e i p)).2.res = some .err) :
    (Publisher.cls.step (Publisher.cls.step Publisher.cls.new (.call .setup e i p)).1 (.call .shutdown e' i p)).2.res = none := by
  have : e.hasRos = false := by
    cases he : e.hasRos
    · rfl
    · simp [Class.step, Class.setup, Class.new, BT.accepts, Publisher.cls, Publisher.hook, Publisher.doSetup, he, Class.close, BT.allowedAfter] at h
  simp [Class.step, Class.setup, Class.new, BT.accepts, Publisher.cls, Publisher.hook, Publisher.doSetup, this, Class.close, Class.shutdown,
    Publisher.doReset, HookOut.andThen]

/-- A node that waits for a service raises. -/
theorem c108_wait_for_service (e : WaitService.Env) (i p : Bool) :
    (WaitService.cls.step WaitService.cls.new (.call .shutdown e i p)).2.res = none := rfl

/-- So does one whose setup failed. -/
theorem c108_wait_for_service_failed (e e' : WaitService.Env) (i p : Bool)
    (h : (WaitService.cls.step WaitService.cls.new (.call .setup e i p)).2.res = some .err) :
    (WaitService.cls.step (WaitService.cls.step WaitService.cls.new (.call .setup e i p)).1 (.call .shutdown e' i p)).2.res = none := by
  cases hr : e.hasRos <;> cases hs : e.seconds <;> cases ht : e.typeOk <;>
    simp [Class.step, Class.setup, Class.new, BT.accepts, WaitService.cls, WaitService.hook, WaitService.doSetup, hr, hs, ht, Class.close,
      Class.shutdown, WaitService.doReset, HookOut.andThen, BT.allowedAfter] at h ⊢

/-- An action raises. -/
theorem c108_action (e : Action.Env) (i p : Bool) : (Action.cls.step Action.cls.new (.call .shutdown e i p)).2.res = none := rfl

/-- So does an action whose setup failed. -/
theorem c108_action_failed (e e' : Action.Env) (i p : Bool) (h : (Action.cls.step Action.cls.new (.call .setup e i p)).2.res = some .err) :
    (Action.cls.step (Action.cls.step Action.cls.new (.call .setup e i p)).1 (.call .shutdown e' i p)).2.res = none := by
  cases hr : e.hasRos <;> cases hs : e.seconds <;> cases ht : e.typeOk <;>
    simp [Class.step, Class.setup, Class.new, BT.accepts, Action.cls, Action.hook, Action.doSetup, hr, hs, ht, Class.close, Class.shutdown,
      Action.doReset, Action.doUntick, HookOut.andThen, BT.allowedAfter] at h ⊢

/-- Subscribers and services can be shut down without setup. -/
theorem c108_others (i p : Bool) (e1 : Subscriber.Env) (e2 : MemorySubscriber.Env) (e3 : Service.Env) :
    (Subscriber.cls.step Subscriber.cls.new (.call .shutdown e1 i p)).2.res = some (.ok .shutdown) ∧
    (MemorySubscriber.cls.step MemorySubscriber.cls.new (.call .shutdown e2 i p)).2.res = some (.ok .shutdown) ∧
    (Service.cls.step Service.cls.new (.call .shutdown e3 i p)).2.res = some (.ok .shutdown) := ⟨rfl, rfl, rfl⟩

/-! ### Example -/

example : (Publisher.cls.step Publisher.cls.new (.call .setup { hasRos := false } true true)).2.res = some .err := rfl

example : (Action.cls.step Action.cls.new (.call .setup { hasRos := false } true true)).2.res = some .err ∧
    (Action.cls.step Action.cls.new (.call .setup { seconds := none } true true)).2.res = some .err := ⟨rfl, rfl⟩

example : (WaitService.cls.step WaitService.cls.new (.call .setup { hasRos := false } true true)).2.res = some .err := rfl

/-- A sequence of a node whose setup fails and a publisher. -/
def sample : T := .node false true true .uninitialized false
  [.node false false true .uninitialized false [], .node true true true .uninitialized false []]

example : (setup sample).2 = false ∧ (down (setup sample).1).2 = .raise ∧ (down (downAgain 7 (setup sample).1)).2 = .raise :=
  ⟨(c108_failed_setup true [] _ _ _ rfl List.mem_cons_self (.here (by decide)) 0).1,
   (c108_failed_setup true [] _ _ _ rfl List.mem_cons_self (.here (by decide)) 0).2,
   (c108_failed_setup true [] _ _ _ rfl List.mem_cons_self (.here (by decide)) 7).2⟩

/-- The same with another node instead of the publisher. -/
def sturdySample : T := .node false true true .uninitialized false
  [.node false false true .uninitialized false [], .node false true true .uninitialized false []]

example : Willing (setup sturdySample).1 ∧ Sturdy (setup sturdySample).1 ∧ (setup sturdySample).1.state = .broken := by
  have e : (setup sturdySample).1 = .node false true true .broken false
      [.node false false true .broken false [], .node false true true .uninitialized false []] := rfl
  rw [e]
  refine ⟨.node fun c hc => ?_, .node fun c hc => ?_, rfl⟩ <;>
  · simp only [List.mem_cons, List.not_mem_nil, or_false] at hc
    rcases hc with rfl | rfl <;> exact .node (by simp)

end Verif.Ros.Unused
