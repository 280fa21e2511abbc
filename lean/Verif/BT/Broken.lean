import Verif.BT.Struct
import Verif.BT.Sample

/-!
# C10: errors leave a BROKEN node
-/

set_option autoImplicit false

namespace Verif.BT

variable {N : Type}

/-- Every way a hook body can end satisfies `P`, if each child answers an operation with `Err` or a
state allowed by `A`. -/
def Prog.Post (A : Op → BTState → Prop) (P : Mem → Res → Prop) : Prog → Prop
  | .done m r => P m r
  | .call op _ k => ∀ r, (∀ s, r = .ok s → A op s) → Prog.Post A P (k r)
  | .peek _ k => ∀ s, Prog.Post A P (k s)

theorem exec_post (o : Ops N) (A : Op → BTState → Prop) (P : Mem → Res → Prop)
    (hA : ∀ op c s, (o.run op c).res = .ok s → A op s) (p : Prog) :
    ∀ cs : List N, p.Post A P → P (exec o p cs).mem (exec o p cs).res := by
  induction p with
  | done m r => intro cs h; exact h
  | call op i k ih =>
    intro cs h
    simp only [exec]
    split
    · exact ih _ cs (h .err (by simp))
    · rename_i c hc
      exact ih _ _ (h _ (fun s hs => hA op c s hs))
  | peek i k ih =>
    intro cs h
    simp only [exec]
    split
    · exact ih _ cs (h _)
    · exact ih _ cs (h _)

section
variable {A : Op → BTState → Prop} {P : Mem → Res → Prop}

theorem post_forAll (op : Op) (m : Mem) (is : List Nat) (k : Prog) (he : P m .err)
    (hk : k.Post A P) : (Prog.forAll op m is k).Post A P := by
  induction is with
  | nil => exact hk
  | cons i is ih =>
    intro r _
    cases r with
    | err => exact he
    | ok s => exact ih

theorem post_allThen (n : Nat) (op : Op) (m : Mem) (s : BTState) (he : P m .err)
    (hk : P m (.ok s)) : (Prog.allThen n op m s).Post A P := post_forAll _ _ _ _ he hk

theorem post_onHead (n : Nat) (op : Op) (m : Mem) (f : BTState → BTState) (d : BTState)
    (he : P m .err) (hd : P m (.ok d)) (hf : ∀ s, A op s → P m (.ok (f s))) :
    (Prog.onHead n op m f d).Post A P := by
  unfold Prog.onHead
  split
  · exact hd
  · intro r hr
    cases r with
    | err => exact he
    | ok s => exact hf s (hr s rfl)

theorem post_resetIfFinished (n : Nat) (st : BTState) (m : Mem) (k : Prog) (he : P m .err)
    (hk : k.Post A P) : (Prog.resetIfFinished n st m k).Post A P := by
  unfold Prog.resetIfFinished
  split
  · exact post_forAll _ _ _ _ he hk
  · exact hk

theorem post_seqLoop (b : Bool) (m : Mem) (is : List Nat) (he : P m .err)
    (hs : P m (.ok .succeeded))
    (hr : ∀ i, P (if b then { m with lastRunning := i } else m) (.ok .running))
    (ho : ∀ s, A .tick s → P m (.ok s)) : (Prog.seqLoop b m is).Post A P := by
  induction is with
  | nil => exact hs
  | cons i is ih =>
    intro r hA
    cases r with
    | err => exact he
    | ok s =>
      simp only
      split
      · exact ih
      · split
        · rename_i h; subst h; exact hr i
        · exact post_forAll _ _ _ _ he (ho s (hA s rfl))

theorem post_fbLoop (b : Bool) (m : Mem) (is : List Nat) (he : P m .err)
    (hf : P m (.ok .failed)) (hs : P m (.ok .succeeded))
    (hr : ∀ i, P (if b then { m with lastRunning := i } else m) (.ok .running)) :
    (Prog.fbLoop b m is).Post A P := by
  induction is with
  | nil => exact hf
  | cons i is ih =>
    intro r hA
    cases r with
    | err => exact he
    | ok s =>
      simp only
      split
      · rename_i h; subst h; exact hr i
      · split
        · rename_i h; subst h; exact post_forAll _ _ _ _ he hs
        · exact ih

theorem post_parFinish (m : Mem) (s : BTState) (is : List Nat) (he : P m .err)
    (hs : P m (.ok s)) : (Prog.parFinish m s is).Post A P := by
  induction is with
  | nil => exact hs
  | cons i is ih =>
    intro st
    simp only
    split
    · exact ih
    · intro r _
      cases r with
      | err => exact he
      | ok _ => exact ih

theorem post_parLoop (m : Mem) (k : Nat → Nat → Prog) (is : List Nat) (he : P m .err)
    (hk : ∀ a b, (k a b).Post A P) : ∀ sf, (Prog.parLoop m k is sf).Post A P := by
  induction is with
  | nil => intro sf; exact hk _ _
  | cons i is ih =>
    intro sf st
    simp only
    split
    · exact ih _
    · intro r _
      cases r with
      | err => exact he
      | ok _ => intro st'; exact ih _

theorem post_untickOthers (m : Mem) (nm : Nat) (l : List (Nat × Nat)) (k : Prog) (he : P m .err)
    (hk : k.Post A P) : (Prog.untickOthers m nm l k).Post A P := by
  induction l with
  | nil => exact hk
  | cons p l ih =>
    obtain ⟨a, i⟩ := p
    unfold Prog.untickOthers
    split
    · exact ih
    · intro r _
      cases r with
      | err => exact he
      | ok _ => exact ih

theorem post_tickResetOn (n : Nat) (on : BTState) (m : Mem) (he : P m .err)
    (hs : P m (.ok .succeeded)) (hr : P m (.ok .running))
    (ho : ∀ s, A .tick s → P m (.ok s)) : (Prog.tickResetOn n on m).Post A P := by
  unfold Prog.tickResetOn
  split
  · exact hs
  · intro r hA
    cases r with
    | err => exact he
    | ok s =>
      simp only
      split
      · intro r' _
        cases r' with
        | err => exact he
        | ok _ => exact hr
      · exact ho s (hA s rfl)

theorem post_call_done (op : Op) (i : Nat) (m : Mem) (he : P m .err)
    (ho : ∀ s, A op s → P m (.ok s)) : (Prog.call op i fun r => .done m r).Post A P := by
  intro r hA
  cases r with
  | err => exact he
  | ok s => exact ho s (hA s rfl)

end

/-- The cached result of a Throttle is `Err` or a state allowed after tick. -/
def CacheOk (m : Mem) : Prop := ∀ s, m.lastRes = .ok s → allowedAfter .tick s = true

/-- What a hook may return. -/
def GoodEnd (op : Op) (m : Mem) (r : Res) : Prop :=
  CacheOk m ∧ ∀ s, r = .ok s → allowedAfter op s = true

theorem goodEnd_err (op : Op) (m : Mem) (h : CacheOk m) : GoodEnd op m .err := ⟨h, by simp⟩

theorem goodEnd_ok (op : Op) (m : Mem) (s : BTState) (h : CacheOk m) (hs : allowedAfter op s = true) :
    GoodEnd op m (.ok s) := ⟨h, fun s' e => by cases e; exact hs⟩

/-- The hooks of all classes with children return only documented states. -/
theorem hook_post (k : Kind) (hk : k ≠ .leaf) (op : Op) (st : BTState) (m : Mem) (e : Env)
    (names : List Nat) (hm : CacheOk m) :
    (hookProg k op st m e names).Post (fun op s => allowedAfter op s = true) (GoodEnd op) := by
  have he : GoodEnd op m .err := goodEnd_err op m hm
  have hok : ∀ s, allowedAfter op s = true → GoodEnd op m (.ok s) := fun s hs => goodEnd_ok op m s hm hs
  cases op with
  | setup =>
    have hid : GoodEnd .setup m (.ok .idle) := hok .idle rfl
    cases k with
    | leaf => exact absurd rfl hk
    | sequence | fallback => exact post_allThen _ _ _ _ he hid
    | memSequence | memFallback | nameSwitch | enumSwitch =>
      exact post_allThen _ _ _ _ (goodEnd_err _ _ hm) (goodEnd_ok _ _ _ hm rfl)
    | parallel | parallelTol =>
      simp only [hookProg, setupHook]
      split
      · split
        · exact goodEnd_err _ _ hm
        · exact post_allThen _ _ _ _ (goodEnd_err _ _ hm) (goodEnd_ok _ _ _ hm rfl)
      · exact he
    | ignoreFailure | ignoreSuccess | untilSuccess | inverter | repeatAlways | repeatUntilFail
    | repeatIfFail | watch =>
      exact post_onHead _ _ _ _ _ he hid (fun s hs => hok s hs)
    | iterateList =>
      exact post_onHead _ _ _ _ _ (goodEnd_err _ _ hm) (goodEnd_ok _ _ _ hm rfl)
        (fun s hs => goodEnd_ok _ _ _ hm hs)
    | getter | ignoreRunning | retry | «repeat» | repeatNoAutoReset =>
      simp only [hookProg, setupHook]
      split
      · exact post_onHead _ _ _ _ _ (goodEnd_err _ _ hm) (goodEnd_ok _ _ _ hm rfl)
          (fun s hs => goodEnd_ok _ _ _ hm hs)
      · exact goodEnd_err _ _ hm
    | throttle | throttleSuccess =>
      simp only [hookProg, setupHook]
      split
      · have hc : CacheOk { m with lastTick := none, lastRes := .ok .failed, limit := e.num } := by
          intro s hs; cases hs; rfl
        first
        | exact post_onHead _ _ _ _ _ (goodEnd_err _ _ hc) (goodEnd_ok _ _ _ hc rfl)
            (fun s hs => goodEnd_ok _ _ _ hc hs)
        | exact post_onHead _ _ _ _ _ (goodEnd_err _ _ hm) (goodEnd_ok _ _ _ hm rfl)
            (fun s hs => goodEnd_ok _ _ _ hm hs)
      · exact he
    | optional =>
      simp only [hookProg, setupHook]
      split
      · exact goodEnd_ok _ _ _ hm rfl
      · split
        · split
          · exact post_onHead _ _ _ _ _ (goodEnd_err _ _ hm) (goodEnd_ok _ _ _ hm rfl)
              (fun s hs => goodEnd_ok _ _ _ hm hs)
          · exact goodEnd_ok _ _ _ hm rfl
        · exact goodEnd_err _ _ hm
    | subtree =>
      simp only [hookProg, setupHook]
      split
      · split
        · exact goodEnd_ok _ _ _ hm rfl
        · split
          · exact post_call_done _ _ _ (goodEnd_err _ _ hm) (fun s hs => goodEnd_ok _ _ _ hm hs)
          · exact goodEnd_err _ _ hm
      · exact he
  | tick =>
    have hsu : GoodEnd .tick m (.ok .succeeded) := hok _ rfl
    have hfa : GoodEnd .tick m (.ok .failed) := hok _ rfl
    have hru : GoodEnd .tick m (.ok .running) := hok _ rfl
    have hmr : ∀ (b : Bool) (i : Nat), GoodEnd .tick (if b then { m with lastRunning := i } else m)
        (.ok .running) := by
      intro b i; cases b
      · exact hru
      · exact goodEnd_ok _ _ _ hm rfl
    cases k with
    | leaf => exact absurd rfl hk
    | sequence =>
      simp only [hookProg, tickHook]
      split
      · exact hsu
      · exact post_resetIfFinished _ _ _ _ he
          (post_seqLoop _ _ _ he hsu (hmr false) (fun s hs => hok s hs))
    | fallback =>
      simp only [hookProg, tickHook]
      split
      · exact hfa
      · exact post_resetIfFinished _ _ _ _ he (post_fbLoop _ _ _ he hfa hsu (hmr false))
    | memSequence =>
      simp only [hookProg, tickHook]
      split
      · exact hsu
      · have hm' : CacheOk (if st = .succeeded ∨ st = .failed then { m with lastRunning := 0 } else m) := by
          split <;> exact hm
        refine post_resetIfFinished _ _ _ _ (goodEnd_err _ _ hm')
          (post_seqLoop _ _ _ (goodEnd_err _ _ hm') (goodEnd_ok _ _ _ hm' rfl) ?_
            (fun s hs => goodEnd_ok _ _ _ hm' hs))
        intro i; exact goodEnd_ok _ _ _ hm' rfl
    | memFallback =>
      simp only [hookProg, tickHook]
      split
      · exact hfa
      · have hm' : CacheOk (if st = .succeeded ∨ st = .failed then { m with lastRunning := 0 } else m) := by
          split <;> exact hm
        refine post_resetIfFinished _ _ _ _ (goodEnd_err _ _ hm')
          (post_fbLoop _ _ _ (goodEnd_err _ _ hm') (goodEnd_ok _ _ _ hm' rfl)
            (goodEnd_ok _ _ _ hm' rfl) ?_)
        intro i; exact goodEnd_ok _ _ _ hm' rfl
    | nameSwitch | enumSwitch =>
      simp only [hookProg, tickHook]
      split
      · split
        · exact hfa
        · split
          · exact hfa
          · exact post_resetIfFinished _ _ _ _ he (post_untickOthers _ _ _ _ he
              (post_call_done _ _ _ he (fun s hs => hok s hs)))
      · exact he
    | parallel | parallelTol =>
      simp only [hookProg, tickHook]
      refine post_resetIfFinished _ _ _ _ he (post_parLoop _ _ _ he ?_ _)
      intro a b
      split
      · exact post_parFinish _ _ _ he hsu
      · split
        · exact post_parFinish _ _ _ he hfa
        · exact hru
    | ignoreFailure | ignoreRunning | ignoreSuccess | inverter =>
      simp only [hookProg, tickHook]
      refine post_onHead _ _ _ _ _ he (hok _ rfl) (fun s hs => hok _ ?_)
      (repeat' split) <;> first | rfl | exact hs
    | untilSuccess | repeatUntilFail | repeatIfFail =>
      exact post_tickResetOn _ _ _ he hsu hru (fun s hs => hok s hs)
    | retry | «repeat» =>
      simp only [hookProg, tickHook]
      split
      · exact hsu
      · intro r hA
        cases r with
        | err => exact he
        | ok s =>
          simp only
          split
          · split
            · intro r' _
              cases r' with
              | err => exact goodEnd_err _ _ hm
              | ok _ => exact goodEnd_ok _ _ _ hm rfl
            · exact goodEnd_ok _ _ _ hm rfl
          · exact hok s (hA s rfl)
    | repeatNoAutoReset =>
      simp only [hookProg, tickHook]
      split
      · have hm' : CacheOk (if e.flag then { m with count := 0 } else m) := by
          split <;> exact hm
        generalize (if e.flag = true then { m with count := 0 } else m) = m' at hm' ⊢
        split
        · split
          · exact goodEnd_ok _ _ _ hm' rfl
          · intro r hA
            cases r with
            | err => exact goodEnd_err _ _ hm'
            | ok s =>
              simp only
              split
              · intro r' _
                cases r' with
                | err => exact goodEnd_err _ _ hm'
                | ok _ => exact goodEnd_ok _ _ _ hm' rfl
              · exact goodEnd_ok _ _ _ hm' (hA s rfl)
        · exact goodEnd_ok _ _ _ hm' rfl
      · exact he
    | repeatAlways =>
      simp only [hookProg, tickHook]
      split
      · exact hsu
      · intro r hA
        cases r with
        | err => exact he
        | ok s =>
          simp only
          split
          · intro r' _
            cases r' with
            | err => exact he
            | ok _ => exact hru
          · exact hru
    | optional =>
      simp only [hookProg, tickHook]
      split
      · exact post_call_done _ _ _ he (fun s hs => hok s hs)
      · exact hsu
    | watch =>
      simp only [hookProg, tickHook]
      split
      · exact hsu
      · split
        · split
          · intro r _
            cases r with
            | err => exact he
            | ok _ => exact post_call_done _ _ _ he (fun s hs => hok s hs)
          · exact post_call_done _ _ _ he (fun s hs => hok s hs)
        · exact he
    | iterateList =>
      simp only [hookProg, tickHook]
      have hm' : CacheOk (if e.flag then { m with outChanged := true, counter := 0 } else m) := by
        split <;> exact hm
      generalize (if e.flag = true then { m with outChanged := true, counter := 0 } else m) = m' at hm' ⊢
      simp only [iterateTick]
      split
      · split
        · exact goodEnd_ok _ _ _ hm' rfl
        · split
          · exact goodEnd_err _ _ hm'
          · split
            · split
              · split
                · exact goodEnd_ok _ _ _ hm' rfl
                · exact goodEnd_ok _ _ _ hm' rfl
              · split
                · exact goodEnd_ok _ _ _ hm' rfl
                · intro r hA
                  cases r with
                  | err => exact goodEnd_err _ _ hm'
                  | ok s =>
                    simp only
                    split
                    · split <;> exact goodEnd_ok _ _ _ hm' rfl
                    · split <;> exact goodEnd_ok _ _ _ hm' rfl
            · exact goodEnd_err _ _ hm'
      · exact he
    | getter =>
      have hown : GoodEnd .tick m e.own.toRes := by
        cases e.own <;> first | exact he | exact hok _ rfl
      simp only [hookProg, tickHook]
      split
      · exact hown
      · intro r hA
        cases r with
        | err => exact he
        | ok s =>
          simp only
          split
          · exact hok s (hA s rfl)
          · exact hown
    | throttle =>
      have hlast : GoodEnd .tick m m.lastRes := ⟨hm, hm⟩
      simp only [hookProg, tickHook]
      split
      · split
        · exact hlast
        · intro r hA
          simp only
          split
          · rename_i h; subst h; exact hru
          · intro r' _
            have hc : CacheOk { m with lastRes := r, lastTick := some e.now } := hA
            simp only
            split
            · exact goodEnd_err _ _ hc
            · exact ⟨hc, hA⟩
      · exact hlast
    | throttleSuccess =>
      simp only [hookProg, tickHook]
      split
      · split
        · exact hfa
        · intro r _; exact hfa
      · exact hfa
    | subtree =>
      simp only [hookProg, tickHook]
      split
      · split
        · exact post_call_done _ _ _ he (fun s hs => hok s hs)
        · exact he
      · exact he
  | untick =>
    cases k with
    | leaf => exact absurd rfl hk
    | sequence | fallback | memFallback | nameSwitch | enumSwitch | parallel | parallelTol
    | retry | «repeat» | repeatNoAutoReset | repeatAlways | repeatUntilFail | repeatIfFail
    | iterateList => exact post_allThen _ _ _ _ he (hok _ rfl)
    | memSequence => exact post_allThen _ _ _ _ (goodEnd_err _ _ hm) (goodEnd_ok _ _ _ hm rfl)
    | ignoreFailure | ignoreRunning | ignoreSuccess | untilSuccess | inverter | watch | getter
    | throttle | throttleSuccess =>
      exact post_onHead _ _ _ _ _ he (hok _ rfl) (fun s hs => hok s hs)
    | optional =>
      simp only [hookProg, untickHook]
      split
      · exact post_call_done _ _ _ he (fun s hs => hok s hs)
      · exact hok _ rfl
    | subtree =>
      simp only [hookProg, untickHook]
      split
      · exact post_call_done _ _ _ he (fun s hs => hok s hs)
      · exact he
  | reset =>
    cases k with
    | leaf => exact absurd rfl hk
    | sequence | fallback | nameSwitch | enumSwitch | parallel | parallelTol =>
      exact post_allThen _ _ _ _ he (hok _ rfl)
    | memSequence | memFallback =>
      exact post_allThen _ _ _ _ (goodEnd_err _ _ hm) (goodEnd_ok _ _ _ hm rfl)
    | ignoreFailure | ignoreRunning | ignoreSuccess | untilSuccess | inverter | repeatAlways
    | repeatUntilFail | repeatIfFail | watch | getter | throttle =>
      exact post_onHead _ _ _ _ _ he (hok _ rfl) (fun s hs => hok s hs)
    | retry | «repeat» | iterateList | throttleSuccess =>
      exact post_onHead _ _ _ _ _ (goodEnd_err _ _ hm) (goodEnd_ok _ _ _ hm rfl)
        (fun s hs => goodEnd_ok _ _ _ hm hs)
    | repeatNoAutoReset =>
      simp only [hookProg, resetHook]
      split
      · exact post_onHead _ _ _ _ _ he (hok _ rfl) (fun s hs => hok s hs)
      · exact hok _ rfl
    | optional | subtree =>
      simp only [hookProg, resetHook]
      split
      · exact post_call_done _ _ _ he (fun s hs => hok s hs)
      · exact hok _ rfl
  | shutdown =>
    cases k with
    | leaf => exact absurd rfl hk
    | subtree =>
      simp only [hookProg, shutdownHook]
      split
      · exact post_call_done _ _ _ he (fun s hs => hok s hs)
      · exact hok _ rfl
    | memSequence | memFallback => exact goodEnd_ok _ _ _ hm rfl
    | _ => exact hok _ rfl

theorem hook_good (o : Ops N) (hs : Sound o) (op : Op) (nd : Node N) (hk : nd.kind ≠ .leaf)
    (hm : CacheOk nd.mem) (e : Env) :
    let x := exec o (hookProg nd.kind op nd.state nd.mem e (nd.children.map o.name)) nd.children
    GoodEnd op x.mem x.res :=
  exec_post o _ _ (fun op c s h => (hs op c s h).2) _ _ (hook_post nd.kind hk op _ _ _ _ hm)

/-- Leaves do not change their attributes (they have none in the model). -/
theorem leaf_hook (op : Op) (st : BTState) (m : Mem) (e : Env) (names : List Nat) :
    hookProg .leaf op st m e names = .done m e.hook := by
  cases op <;> rfl

theorem run_cacheOk (o : Ops N) (hs : Sound o) (op : Op) (nd : Node N) (hm : CacheOk nd.mem) :
    CacheOk (nd.run o op).node.mem := by
  have hx : ∀ x, x = exec o (hookProg nd.kind op nd.state nd.mem (nd.env nd.ctr)
      (nd.children.map o.name)) nd.children → CacheOk x.mem := by
    intro x hx
    by_cases hk : nd.kind = .leaf
    · rw [hk, leaf_hook] at hx; subst hx; exact hm
    · subst hx; exact (hook_good o hs op nd hk hm _).1
  apply run_cases o op nd (P := fun out => CacheOk out.node.mem)
  · intro _; exact hm
  · intro _ _ _; exact hm
  · intro x h _ _ _; exact hx x h
  · intro x s h _ _ _ _; exact hx x h
  · intro x s _ h _ _ _ _; exact hx x h
  · intro _ _; simp only [Node.finishShutdown]; split <;> exact hm
  · intro x _ h _ _; simp only [Node.finishShutdown]; split <;> exact hx x h

/-- Outcome of a failed but accepted operation other than shutdown. -/
theorem run_err_breaks (o : Ops N) (hs : Sound o) (op : Op) (nd : Node N) (hm : CacheOk nd.mem)
    (ha : accepts op nd.state = true) (hop : op ≠ .shutdown) (he : (nd.run o op).res = .err) :
    (nd.run o op).node.state = .broken ∨
    (nd.kind = .leaf ∧ ∃ s, (nd.env nd.ctr).hook = .ok s ∧ allowedAfter op s = false ∧
      (nd.run o op).node.state = s) := by
  revert he
  apply run_cases o op nd (P := fun out => out.res = .err → out.node.state = .broken ∨
    (nd.kind = .leaf ∧ ∃ s, (nd.env nd.ctr).hook = .ok s ∧ allowedAfter op s = false ∧
      out.node.state = s))
  · intro h; simp [ha] at h
  · intro _ _ _ _; exact Or.inl rfl
  · intro x _ _ _ _ _; exact Or.inl rfl
  · intro x s hx _ _ hr hal _
    right
    by_cases hk : nd.kind = .leaf
    · refine ⟨hk, s, ?_, hal, rfl⟩
      rw [hk, leaf_hook] at hx
      subst hx
      exact hr
    · have := (hook_good o hs op nd hk hm (nd.env nd.ctr)).2 s (by rw [← hx]; exact hr)
      simp [hal] at this
  · intro x s _ _ _ _ _ _ h; simp [Node.wrap] at h
  · intro h; exact absurd h hop
  · intro x h; exact absurd h hop

/-- The caches of all Throttles are fine. -/
def Caches (n : Nat) (t : Tree n) : Prop := AllNodes (fun nd => CacheOk nd.mem) n t

theorem caches_run (n : Nat) (op : Op) (t : Tree n) (h : Caches n t) :
    Caches n ((ops n).run op t).node := by
  induction n generalizing op with
  | zero => exact Empty.elim t
  | succ n ih =>
    exact ⟨run_cacheOk (ops n) (ops_sound n) op t h.1,
      run_children (ops n) (Caches n) (fun op c hc => ih op c hc) op t h.2⟩

theorem caches_runs (n : Nat) (l : List Op) : ∀ t : Tree n, Caches n t →
    Caches n (runs (ops n) l t).2 := by
  induction l with
  | nil => intro t h; exact h
  | cons op l ih => intro t h; exact ih _ (caches_run n op t h)

theorem caches_fresh (n : Nat) : ∀ t : Tree n, Fresh n t → Caches n t := by
  induction n with
  | zero => intro t; exact Empty.elim t
  | succ n ih =>
    intro t h
    refine ⟨?_, fun c hc => ih c (h.2 c hc)⟩
    have e : Node.mem (N := Tree n) t = {} := h.1.2
    show CacheOk (Node.mem (N := Tree n) t)
    rw [e]
    intro s hs
    cases hs
    rfl

/-- The class of the root. -/
def rootKind (n : Nat) (t : Tree (n + 1)) : Kind := Node.kind (N := Tree n) t

/-- **C10, error.** In any history of any tree: if a setup, tick, untick or reset of the root is
accepted but fails (missing inputs, an error of the hook, a child or the delivery of outputs), the
root is BROKEN afterwards. The only exception is a leaf class whose hook returns `Ok` of a state
that is not documented for the operation; it is left in that state. -/
theorem c10_failed_call_breaks (n : Nat) (t : Tree (n + 1)) (hf : Fresh (n + 1) t)
    (history : List Op) (op : Op) (hop : op ≠ .shutdown) :
    let t' := (runs (ops (n + 1)) history t).2
    Allowed op ((ops (n + 1)).state t') → ((ops (n + 1)).run op t').res = .err →
    (ops (n + 1)).state ((ops (n + 1)).run op t').node = .broken ∨
    (rootKind n t' = .leaf ∧ ∃ s, (nextEnv n t').hook = .ok s ∧ ¬ Documented op s ∧
      (ops (n + 1)).state ((ops (n + 1)).run op t').node = s) := by
  intro t' ha he
  have hc := caches_runs (n + 1) history t (caches_fresh (n + 1) t hf)
  have := run_err_breaks (ops n) (ops_sound n) op t' hc.1 ((accepts_iff _ _).2 ha) hop he
  rcases this with h | ⟨hk, s, h1, h2, h3⟩
  · exact Or.inl h
  · refine Or.inr ⟨hk, s, h1, ?_, h3⟩
    rw [← allowedAfter_iff]
    simpa using h2

/-- An action that fails in its first tick below a Sequence. -/
example : let t : Tree 2 := mk 1 1 .sequence [mkLeaf 0 2 [.ok .idle, .err]]
    Fresh 2 t ∧ Allowed .tick ((ops 2).state (runs (ops 2) [.setup] t).2) ∧
    ((ops 2).run .tick (runs (ops 2) [.setup] t).2).res = .err := by
  refine ⟨by decide, (accepts_iff _ _).1 (by decide), by decide⟩

/-- **C10, missing inputs.** A tick while an input is missing makes the node BROKEN. -/
theorem c10_missing_input_breaks (n : Nat) (t : Tree (n + 1))
    (ha : Allowed .tick ((ops (n + 1)).state t)) (hi : (nextEnv n t).inputsOk = false) :
    ((ops (n + 1)).run .tick t).res = .err ∧
    (ops (n + 1)).state ((ops (n + 1)).run .tick t).node = .broken ∧
    (∀ ev ∈ ((ops (n + 1)).run .tick t).trace, ev.isHook = false) := by
  have ha' := (accepts_iff _ _).2 ha
  have key : ∀ (N : Type) (o : Ops N) (nd : Node N), accepts .tick nd.state = true →
      (nd.env nd.ctr).inputsOk = false → nd.run o .tick =
        Node.wrap .tick { nd with ctr := nd.ctr + 1, state := .broken } .err [] [] := by
    intro N o nd h1 h2
    simp [Node.run, Node.runTick, h1, h2]
  have e := key _ (ops n) t ha' hi
  have e' : (ops (n + 1)).run .tick t = _ := e
  rw [e']
  refine ⟨rfl, rfl, ?_⟩
  intro ev hev
  simp [Node.wrap] at hev
  rcases hev with rfl | rfl <;> rfl

/-- **C10, undeliverable outputs.** A tick whose outputs cannot be delivered makes the node BROKEN,
or the hook has already failed otherwise; it never answers `Ok`. -/
theorem c10_undelivered_output_fails (n : Nat) (t : Tree (n + 1))
    (hp : (nextEnv n t).pushOk = false) : ((ops (n + 1)).run .tick t).res = .err := by
  have key : ∀ (N : Type) (o : Ops N) (nd : Node N), (nd.env nd.ctr).pushOk = false →
      (nd.run o .tick).res = .err := by
    intro N o nd h
    simp only [Node.run, Node.runTick, h]
    (repeat' split) <;> simp_all [Node.wrap]
  exact key _ (ops n) t hp

/-- **C10, stuck.** Without a shutdown, a BROKEN node stays BROKEN: every setup, tick, untick and
reset is answered with an error and runs no hook. -/
theorem c10_broken_is_stuck (n : Nat) (l : List Op) (hl : Op.shutdown ∉ l) :
    ∀ t : Tree n, (ops n).state t = .broken →
    (ops n).state (runs (ops n) l t).2 = .broken ∧
    ∀ out ∈ (runs (ops n) l t).1, out.res = .err ∧ ∀ ev ∈ out.trace, ev.isHook = false := by
  induction l with
  | nil => intro t h; exact ⟨h, by simp [runs]⟩
  | cons op l ih =>
    intro t h
    have hop : op ≠ .shutdown := fun e => hl (by simp [e])
    have hna : ¬ Allowed op ((ops n).state t) := by
      rw [h]; cases op <;> simp [Allowed] at hop ⊢
    obtain ⟨h1, h2, h3, _⟩ := c01_rejected_call_has_no_effect n op t hna
    have hst : (ops n).state ((ops n).run op t).node = .broken := by
      cases n with
      | zero => exact Empty.elim t
      | succ n =>
        have ha : accepts op ((ops (n + 1)).state t) = false := by
          rw [← accepts_iff] at hna; simpa using hna
        have hr : (ops (n + 1)).run op t = _ := run_rejected (ops n) op t ha
        rw [hr]
        exact h
    obtain ⟨h4, h5⟩ := ih (fun h => hl (by simp [h])) _ hst
    refine ⟨h4, ?_⟩
    intro out ho
    simp only [runs, List.mem_cons] at ho
    rcases ho with rfl | ho
    · exact ⟨h1, h3⟩
    · exact h5 out ho

example : ∃ t : Tree 2, (ops 2).state t = .broken ∧
    ((runs (ops 2) [.setup, .tick, .reset, .tick] t).1.map (·.res)) = [.err, .err, .err, .err] :=
  ⟨(runs (ops 2) [.setup, .tick] (mk 1 1 .sequence [mkLeaf 0 2 [.ok .idle, .err]])).2, by decide⟩

/-- **C10, way out.** A shutdown that succeeds on a BROKEN node makes setup possible again. -/
theorem c10_shutdown_recovers (n : Nat) (t : Tree n)
    (h : ((ops n).run .shutdown t).res.isOk = true) :
    Allowed .setup ((ops n).state ((ops n).run .shutdown t).node) := by
  cases hr : ((ops n).run .shutdown t).res with
  | err => simp [hr] at h
  | ok s =>
    obtain ⟨h1, h2⟩ := c02_result_is_state n .shutdown t s hr
    rw [h1]
    exact Or.inr h2

example : let t : Tree 2 := (runs (ops 2) [.setup, .tick]
      (mk 1 1 .sequence [mkLeaf 0 2 [.ok .idle, .err]])).2
    (ops 2).state t = .broken ∧ ((ops 2).run .shutdown t).res.isOk = true := by decide

end Verif.BT
