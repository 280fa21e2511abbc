import Verif.BT.Quiet
import Verif.BT.Trace

/-!
# C111: no broken node hides in a working tree
-/

set_option autoImplicit false

namespace Verif.BT.Alive

open Verif.BT

variable {N : Type}

/-! ### Hooks do not shut down children -/

/-- The body never calls `shutdown`. -/
def Gentle : Prog → Prop
  | .done _ _ => True
  | .call op _ k => op ≠ .shutdown ∧ ∀ r, Gentle (k r)
  | .peek _ k => ∀ s, Gentle (k s)

theorem gentle_forAll (op : Op) (hop : op ≠ .shutdown) (m : Mem) (is : List Nat) (k : Prog)
    (hk : Gentle k) : Gentle (Prog.forAll op m is k) := by
  induction is with
  | nil => exact hk
  | cons i is ih =>
    refine ⟨hop, fun r => ?_⟩
    cases r with
    | err => trivial
    | ok s => exact ih

theorem gentle_onHead (n : Nat) (op : Op) (hop : op ≠ .shutdown) (m : Mem) (f : BTState → BTState)
    (d : BTState) : Gentle (Prog.onHead n op m f d) := by
  unfold Prog.onHead
  split
  · trivial
  · exact ⟨hop, fun _ => trivial⟩

theorem gentle_resetIfFinished (n : Nat) (st : BTState) (m : Mem) (k : Prog) (hk : Gentle k) :
    Gentle (Prog.resetIfFinished n st m k) := by
  unfold Prog.resetIfFinished
  split
  · exact gentle_forAll _ (by simp) _ _ _ hk
  · exact hk

theorem gentle_seqLoop (b : Bool) (m : Mem) (is : List Nat) : Gentle (Prog.seqLoop b m is) := by
  induction is with
  | nil => trivial
  | cons i is ih =>
    refine ⟨by simp, fun r => ?_⟩
    cases r with
    | err => trivial
    | ok s =>
      simp only
      split
      · exact ih
      · split
        · trivial
        · exact gentle_forAll _ (by simp) _ _ _ trivial

theorem gentle_fbLoop (b : Bool) (m : Mem) (is : List Nat) : Gentle (Prog.fbLoop b m is) := by
  induction is with
  | nil => trivial
  | cons i is ih =>
    refine ⟨by simp, fun r => ?_⟩
    cases r with
    | err => trivial
    | ok s =>
      simp only
      split
      · trivial
      · split
        · exact gentle_forAll _ (by simp) _ _ _ trivial
        · exact ih

theorem gentle_parFinish (m : Mem) (s : BTState) (is : List Nat) :
    Gentle (Prog.parFinish m s is) := by
  induction is with
  | nil => trivial
  | cons i is ih =>
    intro st
    simp only
    split
    · exact ih
    · refine ⟨by simp, fun r => ?_⟩
      cases r with
      | err => trivial
      | ok s => exact ih

theorem gentle_parLoop (m : Mem) (k : Nat → Nat → Prog) (hk : ∀ a b, Gentle (k a b)) :
    ∀ (is : List Nat) (sf : Nat × Nat), Gentle (Prog.parLoop m k is sf) := by
  intro is
  induction is with
  | nil => intro sf; exact hk _ _
  | cons i is ih =>
    intro sf st
    simp only
    split
    · exact ih _
    · refine ⟨by simp, fun r => ?_⟩
      cases r with
      | err => trivial
      | ok s => exact fun st' => ih _

theorem gentle_untickOthers (m : Mem) (nm : Nat) (l : List (Nat × Nat)) (k : Prog)
    (hk : Gentle k) : Gentle (Prog.untickOthers m nm l k) := by
  induction l with
  | nil => exact hk
  | cons p l ih =>
    obtain ⟨a, i⟩ := p
    unfold Prog.untickOthers
    split
    · exact ih
    · refine ⟨by simp, fun r => ?_⟩
      cases r with
      | err => trivial
      | ok s => exact ih

theorem gentle_call (op : Op) (hop : op ≠ .shutdown) (i : Nat) (m : Mem) :
    Gentle (Prog.call op i fun r => .done m r) := ⟨hop, fun _ => trivial⟩

/-- No hook but `_do_shutdown` shuts down a child. -/
theorem hook_gentle (k : Kind) (op : Op) (hop : op ≠ .shutdown) (st : BTState) (m : Mem)
    (e : Env) (names : List Nat) : Gentle (hookProg k op st m e names) := by
  cases op with
  | shutdown => exact absurd rfl hop
  | setup =>
    cases k <;> simp only [hookProg, setupHook, Prog.allThen] <;> (repeat' split) <;>
      first
      | trivial
      | exact gentle_forAll _ (by simp) _ _ _ trivial
      | exact gentle_onHead _ _ (by simp) _ _ _
      | exact gentle_call _ (by simp) _ _
  | untick =>
    cases k <;> simp only [hookProg, untickHook, Prog.allThen, Prog.untickPaused] <;>
      (repeat' split) <;>
      first
      | trivial
      | exact gentle_forAll _ (by simp) _ _ _ trivial
      | exact gentle_onHead _ _ (by simp) _ _ _
      | exact gentle_call _ (by simp) _ _
  | reset =>
    cases k <;> simp only [hookProg, resetHook, Prog.allThen] <;> (repeat' split) <;>
      first
      | trivial
      | exact gentle_forAll _ (by simp) _ _ _ trivial
      | exact gentle_onHead _ _ (by simp) _ _ _
      | exact gentle_call _ (by simp) _ _
  | tick =>
    cases k with
    | leaf => trivial
    | sequence | memSequence =>
      simp only [hookProg, tickHook]
      split
      · trivial
      · exact gentle_resetIfFinished _ _ _ _ (gentle_seqLoop _ _ _)
    | fallback | memFallback =>
      simp only [hookProg, tickHook]
      split
      · trivial
      · exact gentle_resetIfFinished _ _ _ _ (gentle_fbLoop _ _ _)
    | nameSwitch | enumSwitch =>
      simp only [hookProg, tickHook]
      split
      · split
        · trivial
        · split
          · trivial
          · exact gentle_resetIfFinished _ _ _ _
              (gentle_untickOthers _ _ _ _ (gentle_call _ (by simp) _ _))
      · trivial
    | parallel | parallelTol =>
      simp only [hookProg, tickHook]
      refine gentle_resetIfFinished _ _ _ _ (gentle_parLoop _ _ ?_ _ _)
      intro a b
      split
      · exact gentle_parFinish _ _ _
      · split
        · exact gentle_parFinish _ _ _
        · trivial
    | ignoreFailure | ignoreRunning | ignoreSuccess | inverter =>
      exact gentle_onHead _ _ (by simp) _ _ _
    | untilSuccess | repeatUntilFail | repeatIfFail =>
      simp only [hookProg, tickHook, Prog.tickResetOn]
      split
      · trivial
      · refine ⟨by simp, fun r => ?_⟩
        cases r with
        | err => trivial
        | ok s =>
          simp only
          split
          · exact ⟨by simp, fun _ => trivial⟩
          · trivial
    | retry | «repeat» | getter =>
      simp only [hookProg, tickHook]
      split
      · trivial
      · refine ⟨by simp, fun r => ?_⟩
        cases r with
        | err => trivial
        | ok s =>
          simp only
          repeat' split
          all_goals first
            | trivial
            | exact ⟨by simp, fun _ => trivial⟩
    | repeatAlways =>
      simp only [hookProg, tickHook]
      split
      · trivial
      · refine ⟨by simp, fun r => ?_⟩
        cases r with
        | err => trivial
        | ok s =>
          simp only
          split
          · refine ⟨by simp, fun r => ?_⟩
            cases r <;> trivial
          · trivial
    | optional | subtree | throttleSuccess =>
      simp only [hookProg, tickHook]
      repeat' split
      all_goals first
        | trivial
        | exact ⟨by simp, fun _ => trivial⟩
    | watch =>
      simp only [hookProg, tickHook]
      split
      · trivial
      · split
        · split
          · refine ⟨by simp, fun r => ?_⟩
            cases r with
            | err => trivial
            | ok s => exact gentle_call _ (by simp) _ _
          · exact gentle_call _ (by simp) _ _
        · trivial
    | throttle =>
      simp only [hookProg, tickHook]
      split
      · split
        · trivial
        · refine ⟨by simp, fun r => ?_⟩
          simp only
          split
          · trivial
          · refine ⟨by simp, fun r => ?_⟩
            simp only
            split <;> trivial
      · trivial
    | repeatNoAutoReset =>
      simp only [hookProg, tickHook]
      generalize (if e.flag = true then { m with count := 0 } else m) = m'
      split
      · split
        · split
          · trivial
          · refine ⟨by simp, fun r => ?_⟩
            cases r with
            | err => trivial
            | ok s =>
              simp only
              split
              · exact ⟨by simp, fun _ => trivial⟩
              · trivial
        · trivial
      · trivial
    | iterateList =>
      simp only [hookProg, tickHook]
      generalize (if e.flag = true then { m with outChanged := true, counter := 0 } else m) = m'
      simp only [iterateTick]
      repeat' split
      all_goals first
        | trivial
        | skip
      all_goals
        refine ⟨by simp, fun r => ?_⟩
        cases r with
        | err => trivial
        | ok s =>
          simp only
          repeat' split
          all_goals trivial

/-! ### Children stay alive -/

theorem live_allowed (op : Op) (hop : op ≠ .shutdown) (s : BTState) (h : allowedAfter op s = true) :
    live s = true := by
  cases op <;> cases s <;> simp_all [allowedAfter, live, calm]

/-- If the hook answers `Ok`, every child that was alive still is. -/
theorem exec_live (o : Ops N) (hs : Sound o) (p : Prog) : ∀ cs : List N, Gentle p → p.Propagates →
    (exec o p cs).res.isOk = true → (∀ c ∈ cs, live (o.state c) = true) →
    ∀ c ∈ (exec o p cs).children, live (o.state c) = true := by
  induction p with
  | done m r => intro cs _ _ _ h; exact h
  | call op i k ih =>
    intro cs hg hp hok h
    simp only [exec] at hok ⊢
    split at hok
    · exact absurd hok (by rw [exec_fails o _ _ hp.1]; simp)
    · rename_i c hci
      simp only at hok ⊢
      cases hr : (o.run op c).res with
      | err =>
        rw [hr, exec_fails o _ _ hp.1] at hok
        simp at hok
      | ok s =>
        rw [hr] at hok
        refine ih (.ok s) (cs.set i (o.run op c).node) (hg.2 _) (hp.2 s) hok ?_
        intro d hd
        rcases List.mem_or_eq_of_mem_set hd with hd | hd
        · exact h d hd
        · rw [hd]
          obtain ⟨h1, h2⟩ := hs op c s hr
          rw [h1]
          exact live_allowed op hg.1 s h2
  | peek i k ih =>
    intro cs hg hp hok h
    simp only [exec] at hok ⊢
    split at hok <;> exact ih _ _ (hg _) (hp _) hok h

/-- While a node is in use, so are its children. -/
def LiveBelow (o : Ops N) (nd : Node N) : Prop :=
  live nd.state = true → idleOptional nd.kind nd.mem = false → ∀ c ∈ nd.children, live (o.state c) = true

theorem liveBelow_run (o : Ops N) (hs : Sound o) (op : Op) (nd : Node N)
    (hw : childrenOk nd.kind nd.children.length) (hm : CacheOk nd.mem)
    (hk : nd.kind ≠ .throttleSuccess) (h : LiveBelow o nd) : LiveBelow o (nd.run o op).node := by
  apply run_cases o op nd (P := fun out => LiveBelow o out.node)
  · intro _; exact h
  · intro _ _ _ hl; cases hl
  · intro x _ _ _ _ hl; cases hl
  · intro x s hx _ _ hr hal
    by_cases hleaf : nd.kind = .leaf
    · have h0 := hw 0 (by rw [hleaf]; rfl)
      have hl := exec_length o (hookProg nd.kind op nd.state nd.mem (nd.env nd.ctr)
        (nd.children.map o.name)) nd.children
      rw [← hx] at hl
      have hnil : x.children = [] := List.length_eq_zero_iff.1 (by omega)
      intro _ _ c hc
      simp only [Node.wrap, hnil] at hc
      cases hc
    · have := (hook_good o hs op nd hleaf hm (nd.env nd.ctr)).2 s (by rw [← hx]; exact hr)
      simp [hal] at this
  · intro x s hop hx hacc _ hr hal hlive hidle
    simp only [Node.wrap] at hlive hidle ⊢
    have hok : x.res.isOk = true := by rw [hr]; rfl
    by_cases hset : op = .setup
    · subst hset
      have := setup_callsAll o nd.kind nd.state nd.mem (nd.env nd.ctr) nd.children hw
      simp only [CallsAll, ← hx] at this
      have hall := allCalm_called o hs .setup (by simp) (by simp) _ _ (this hok hidle)
      intro c hc
      have := hall (o.state c) (List.mem_map.2 ⟨c, hc, rfl⟩)
      simp [live, this]
    · have hl : live nd.state = true := by
        revert hacc hop hset
        cases op <;> cases nd.state <;> simp [accepts, live, calm]
      have hcfg := exec_post o (fun _ _ => True) _ (fun _ _ _ _ => trivial) _ nd.children
        (hook_cfg nd.kind op hset nd.state nd.mem (nd.env nd.ctr) (nd.children.map o.name))
      rw [← hx] at hcfg
      have hidle' : idleOptional nd.kind nd.mem = false := by
        have he : x.mem.execChild = nd.mem.execChild := by
          exact congrArg Cfg.execChild hcfg
        revert hidle
        cases nd.kind <;> simp [idleOptional, he]
      have := exec_live o hs _ nd.children (hook_gentle nd.kind op hop nd.state nd.mem (nd.env nd.ctr)
        (nd.children.map o.name)) (hook_propagates nd.kind hk op nd.state nd.mem (nd.env nd.ctr)
        (nd.children.map o.name)) (by rw [← hx]; exact hok) (h hl hidle')
      rw [← hx] at this
      exact this
  · intro _ hst hlive
    have hns := (finishShutdown_mem o { nd with ctr := nd.ctr + 1 } [] []).2
    rw [hns] at hlive
    simp only at hlive
    rw [hst] at hlive
    cases hlive
  · intro x _ _ _ _ hlive
    have hns := (finishShutdown_mem o { nd with
      ctr := nd.ctr + 1, mem := x.mem, children := x.children, state := .shutdown } x.log
      (.hook op nd.id :: x.trace)).2
    rw [hns] at hlive
    cases hlive

/-! ### Trees -/

/-- `LiveBelow` for all nodes. -/
def AInv : (n : Nat) → Tree n → Prop
  | 0, t => Empty.elim t
  | n + 1, t => LiveBelow (ops n) t ∧ ∀ c ∈ Node.children (N := Tree n) t, AInv n c

/-- Everything that is kept by all operations. -/
def AAll (n : Nat) (t : Tree n) : Prop := WF n t ∧ NoThrottleSuccess n t ∧ Caches n t ∧ AInv n t

theorem aAll_run (n : Nat) (op : Op) (t : Tree n) (h : AAll n t) : AAll n ((ops n).run op t).node := by
  induction n generalizing op with
  | zero => exact Empty.elim t
  | succ n ih =>
    obtain ⟨hw, hn, hca, ha⟩ := h
    refine ⟨WF_run _ op t hw, NoThrottleSuccess_run _ op t hn, caches_run _ op t hca, ?_, ?_⟩
    · exact liveBelow_run (ops n) (ops_sound n) op t hw.1 hca.1 hn.1 ha.1
    · intro c hc
      have := run_children (ops n) (AAll n) (fun op c hc => ih op c hc) op t
        (fun c hc => ⟨hw.2 c hc, hn.2 c hc, hca.2 c hc, ha.2 c hc⟩) c hc
      exact this.2.2.2

theorem aAll_runs (n : Nat) (l : List Op) : ∀ t : Tree n, AAll n t → AAll n (runs (ops n) l t).2 := by
  induction l with
  | nil => intro t h; exact h
  | cons op l ih => intro t h; exact ih _ (aAll_run n op t h)

theorem aInv_fresh (n : Nat) : ∀ t : Tree n, Fresh n t → AInv n t := by
  induction n with
  | zero => intro t; exact Empty.elim t
  | succ n ih =>
    intro t h
    refine ⟨fun hl => ?_, fun c hc => ih c (h.2 c hc)⟩
    have e : Node.state (N := Tree n) t = .uninitialized := h.1.1
    rw [e] at hl
    cases hl

theorem aInv_used (n : Nat) : ∀ t : Tree n, AInv n t → live ((ops n).state t) = true →
    AllUsed idleOptional (fun s => live s = true) n t := by
  induction n with
  | zero => intro t; exact Empty.elim t
  | succ n ih =>
    intro t h hl
    exact ⟨hl, fun hidle c hc => ih c (h.2 c hc) (h.1 hl hidle c hc)⟩

/-- **C111 (partial).** Take a freshly created tree without ThrottleSuccess and any history of
operations with any outcomes. If the root is then neither UNINITIALIZED nor BROKEN nor SHUTDOWN, no
node in use is: whoever looks at the state of the root knows that all nodes are set up and none is
broken. Missing for the full statement: ThrottleSuccess, see `c111_throttle_success`. -/
theorem c111_no_hidden_broken_partial (n : Nat) (t : Tree n) (hf : Fresh n t) (hw : WF n t)
    (hn : NoThrottleSuccess n t) (history : List Op)
    (h : (ops n).state (runs (ops n) history t).2 ∉ [.uninitialized, .broken, .shutdown]) :
    AllUsed idleOptional (fun s => s ∉ [.uninitialized, .broken, .shutdown]) n
      (runs (ops n) history t).2 := by
  have ha := aAll_runs n history t ⟨hw, hn, caches_fresh n t hf, aInv_fresh n t hf⟩
  refine AllUsed_mono ?_ n _ (aInv_used n _ ha.2.2.2 ?_)
  · intro s; cases s <;> simp [live, calm]
  · revert h
    cases (ops n).state (runs (ops n) history t).2 <;> simp [live, calm]

/-- Node 5 is not in use: it is below an Optional whose child cannot execute. -/
example : Fresh 3 samplePar ∧ WF 3 samplePar ∧ NoThrottleSuccess 3 samplePar ∧
    nodeStates 3 (runs (ops 3) [.setup, .tick] samplePar).2 =
      [(1, .running), (2, .running), (3, .running), (4, .succeeded), (5, .uninitialized),
        (6, .running), (7, .idle)] := by decide

/-- **C111 is violated by ThrottleSuccess** (`throttle.py:134-148`): the root answers FAILED and is
FAILED, its child is BROKEN. -/
theorem c111_throttle_success :
    ∃ t : Tree 2, rootKind 1 t = .throttleSuccess ∧ Fresh 2 t ∧ WF 2 t ∧
      (runs (ops 2) [.setup, .tick] t).1.map (·.res) = [.ok .idle, .ok .failed] ∧
      nodeStates 2 (runs (ops 2) [.setup, .tick] t).2 = [(1, .failed), (2, .broken)] :=
  ⟨sampleThrottle, by decide⟩

/-- The converse does not hold and is not claimed: a BROKEN root may have nodes that work. -/
theorem c111_broken_root :
    ∃ t : Tree 2, Fresh 2 t ∧ WF 2 t ∧ NoThrottleSuccess 2 t ∧
      nodeStates 2 (runs (ops 2) [.setup, .tick] t).2 =
        [(1, .broken), (2, .running), (3, .broken)] :=
  ⟨mk 1 1 .parallel [mkLeaf 0 2 [.ok .idle, .ok .running], mkLeaf 0 3 [.ok .idle, .err]], by decide⟩

end Verif.BT.Alive
