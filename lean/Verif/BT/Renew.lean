import Verif.BT.Forget
import Verif.BT.Config
import Verif.BT.Switch

/-!
# C129: a reset makes a tree as good as new
-/

set_option autoImplicit false
set_option linter.unusedSimpArgs false

namespace Verif.BT.Renew

open Verif.BT

variable {N : Type}

/-! ### Specification -/

/-- The static inputs and what else a setup reads. -/
def static (e : Env) : Int × Int × Bool := (e.num, e.num2, e.flag)

/-- Static inputs do not change. -/
def Static (n : Nat) (t : Tree n) : Prop := AllNodes (fun nd => ∀ i, static (nd.env i) = static (nd.env 0)) n t

/-- No Throttle, no RepeatNoAutoReset, and all nodes are in use. -/
def Renewable (n : Nat) (t : Tree n) : Prop :=
  AllNodes (fun nd => nd.kind ≠ .throttle ∧ nd.kind ≠ .repeatNoAutoReset ∧ unusedBelow nd.kind nd.mem = false) n t

instance (n : Nat) (t : Tree n) : Decidable (Renewable n t) := decAllNodes _ (fun _ => inferInstance) n t

/-! ### What a node remembers -/

/-- Nothing is left of the past. -/
def Blank (k : Kind) (m : Mem) : Prop :=
  match k with
  | .memSequence | .memFallback => m.lastRunning = 0
  | .retry | .repeat => m.count = 0
  | .iterateList => m.counter = 0 ∧ m.outChanged = true
  | .throttleSuccess => m.lastTick = none
  | _ => True

/-- The options that the class uses. -/
def opts (k : Kind) (m : Mem) : Cfg := cfg (relevant k m)

/-- The options as a setup reads them. -/
def start (k : Kind) (e : Env) (names : List Nat) : Mem :=
  match k with
  | .nameSwitch | .enumSwitch => { childMap := buildMap names }
  | .parallel => { needed := e.num }
  | .parallelTol => { needed := e.num, tolerate := e.num2 }
  | .ignoreRunning => { runIsSucc := e.flag }
  | .retry | .repeat | .repeatNoAutoReset | .throttle | .throttleSuccess => { limit := e.num }
  | .optional => { execChild := names.length ≠ 0 && e.flag }
  | .subtree => { rootSet := names.length ≠ 0 }
  | _ => {}

theorem start_static (k : Kind) (e e' : Env) (names : List Nat) (h : static e = static e') : start k e names = start k e' names := by
  simp only [static, Prod.mk.injEq] at h
  obtain ⟨h1, h2, h3⟩ := h
  cases k <;> simp only [start, h1, h2, h3]

theorem opts_cfg (k : Kind) (m m' : Mem) (h : cfg m = cfg m') : opts k m = opts k m' := by
  simp only [cfg, Cfg.mk.injEq] at h
  obtain ⟨h1, h2, h3, h4, h5, h6, h7⟩ := h
  cases k <;> simp only [opts, cfg, relevant, h1, h2, h3, h4, h5, h6, h7]

theorem relevant_eq (k : Kind) (m m' : Mem) (h1 : k ≠ .throttle) (h2 : k ≠ .repeatNoAutoReset) (h : Blank k m) (h' : Blank k m') (ho : opts k m = opts k m') :
    relevant k m = relevant k m' := by
  cases k <;> simp_all [Blank, opts, cfg, relevant]

theorem hook_blank (k : Kind) (op : Op) (hop : op = .setup ∨ op = .reset) (st : BTState) (m : Mem) (e : Env) (names : List Nat) :
    (hookProg k op st m e names).Post (fun _ _ => True) (fun m' r => r.isOk = true → Blank k m') := by
  rcases hop with rfl | rfl
  · cases k <;> simp only [hookProg, setupHook] <;> (repeat' split) <;>
      first
      | exact fun _ => trivial
      | (intro h; cases h; done)
      | exact post_allThen _ _ _ _ (by simp [Blank]) (by simp [Blank])
      | exact post_onHead _ _ _ _ _ (by simp [Blank]) (by simp [Blank]) (by simp [Blank])
      | exact post_call_done _ _ _ (by simp [Blank]) (by simp [Blank])
  · cases k <;> simp only [hookProg, resetHook] <;> (repeat' split) <;>
      first
      | exact fun _ => trivial
      | (intro h; cases h; done)
      | exact post_allThen _ _ _ _ (by simp [Blank]) (by simp [Blank])
      | exact post_onHead _ _ _ _ _ (by simp [Blank]) (by simp [Blank]) (by simp [Blank])
      | exact post_call_done _ _ _ (by simp [Blank]) (by simp [Blank])

theorem setup_opts (k : Kind) (st : BTState) (m : Mem) (e : Env) (names : List Nat) :
    (hookProg k .setup st m e names).Post (fun _ _ => True) (fun m' r => r.isOk = true → opts k m' = opts k (start k e names)) := by
  cases k <;> simp only [hookProg, setupHook] <;> (repeat' split) <;>
    first
    | exact fun _ => rfl
    | (intro h; cases h; done)
    | (intro _; simp_all [opts, cfg, relevant, start]; done)
    | exact post_allThen _ _ _ _ (fun h => by cases h) (fun _ => rfl)
    | exact post_onHead _ _ _ _ _ (fun h => by cases h) (fun _ => rfl) (fun _ _ _ => rfl)
    | exact post_onHead _ _ _ _ _ (fun h => by cases h) (fun _ => by simp_all [opts, cfg, relevant, start]) (fun _ _ _ => by simp_all [opts, cfg, relevant, start])
    | exact post_call_done _ _ _ (fun h => by cases h) (fun _ _ _ => by simp_all [opts, cfg, relevant, start])

/-! ### The options stay those of the setup -/

/-- The options of a node that is in use are those of its static inputs. -/
def Kept (k : Kind) (m : Mem) (s : BTState) (e : Env) (names : List Nat) : Prop := resting s = true ∨ opts k m = opts k (start k e names)

/-- All nodes. -/
def KeptAll : (n : Nat) → Tree n → Prop
  | 0, t => Empty.elim t
  | n + 1, t =>
    let nd : Node (Tree n) := t
    Kept nd.kind nd.mem nd.state (nd.env 0) (nd.children.map (ops n).name) ∧ ∀ c ∈ nd.children, KeptAll n c

theorem kept_run (o : Ops N) (hs : Sound o) (hname : ∀ op c, o.name (o.run op c).node = o.name c) (op : Op) (nd : Node N) (hm : CacheOk nd.mem)
    (hst : ∀ i, static (nd.env i) = static (nd.env 0)) (h : Kept nd.kind nd.mem nd.state (nd.env 0) (nd.children.map o.name)) :
    let nd' := (nd.run o op).node
    Kept nd'.kind nd'.mem nd'.state (nd'.env 0) (nd'.children.map o.name) := by
  have hnames : ∀ x, x = exec o (hookProg nd.kind op nd.state nd.mem (nd.env nd.ctr)
      (nd.children.map o.name)) nd.children → x.children.map o.name = nd.children.map o.name := by
    intro x hx; subst hx; exact exec_map o o.name hname _ _
  have main : ∀ x, x = exec o (hookProg nd.kind op nd.state nd.mem (nd.env nd.ctr) (nd.children.map o.name)) nd.children →
      op ≠ .shutdown → accepts op nd.state = true → x.res.isOk = true → opts nd.kind x.mem = opts nd.kind (start nd.kind (nd.env 0) (nd.children.map o.name)) := by
    intro x hx hop hacc hr
    by_cases hp : op = .setup
    · subst hp
      have := exec_post o (fun _ _ => True) _ (fun _ _ _ _ => trivial) _ nd.children (setup_opts nd.kind nd.state nd.mem (nd.env nd.ctr) (nd.children.map o.name))
      rw [← hx] at this
      rw [this hr, start_static nd.kind _ _ _ (hst nd.ctr)]
    · have := exec_post o (fun _ _ => True) _ (fun _ _ _ _ => trivial) _ nd.children (hook_cfg nd.kind op hp nd.state nd.mem (nd.env nd.ctr) (nd.children.map o.name))
      rw [← hx] at this
      rw [opts_cfg _ _ _ this]
      rcases h with h | h
      · exfalso
        revert h hacc
        generalize nd.state = s
        cases op <;> first | exact absurd rfl hp | exact absurd rfl hop | (cases s <;> simp [accepts, resting])
      · exact h
  apply run_cases o op nd (P := fun out => let nd' := out.node
    Kept nd'.kind nd'.mem nd'.state (nd'.env 0) (nd'.children.map o.name))
  · intro _; exact h
  · intro _ _ _; exact .inl rfl
  · intro x _ _ _ _; exact .inl rfl
  · intro x s hx _ _ hr hal
    by_cases hk : nd.kind = .leaf
    · refine .inr ?_
      show opts nd.kind _ = opts nd.kind _
      rw [hk]
      rfl
    · have := (hook_good o hs op nd hk hm (nd.env nd.ctr)).2 s (by rw [← hx]; exact hr)
      simp [hal] at this
  · intro x s hop hx hacc _ hr _
    refine .inr ?_
    simp only [Node.wrap, hnames x hx]
    exact main x hx hop hacc (by rw [hr]; rfl)
  · intro _ hst
    have hns := (finishShutdown_mem o { nd with ctr := nd.ctr + 1 } [] []).2
    refine .inl ?_
    rw [hns]
    show resting nd.state = true
    rw [hst]
    rfl
  · intro x _ _ _ _
    have hns := (finishShutdown_mem o { nd with
      ctr := nd.ctr + 1, mem := x.mem, children := x.children, state := .shutdown } x.log
      (.hook op nd.id :: x.trace)).2
    refine .inl ?_
    rw [hns]
    rfl

theorem static_run (n : Nat) (op : Op) : ∀ t : Tree n, Static n t → Static n ((ops n).run op t).node := by
  induction n generalizing op with
  | zero => exact fun t => Empty.elim t
  | succ n ih =>
    intro t h
    refine ⟨?_, run_children (ops n) (Static n) (fun op c hc => ih op c hc) op t h.2⟩
    have e := (run_static (ops n) op t).2.2.2.1
    have h1 := h.1
    show ∀ i, static ((Node.run (ops n) op t).node.env i) = static ((Node.run (ops n) op t).node.env 0)
    rw [e]
    exact h1

/-- What is kept by all operations. -/
def Sane (n : Nat) (t : Tree n) : Prop := WF n t ∧ Static n t ∧ Caches n t ∧ KeptAll n t

theorem sane_run (n : Nat) (op : Op) : ∀ t : Tree n, Sane n t → Sane n ((ops n).run op t).node := by
  induction n generalizing op with
  | zero => exact fun t => Empty.elim t
  | succ n ih =>
    rintro t ⟨hw, hst, hca, hk⟩
    refine ⟨WF_run _ op t hw, static_run _ op t hst, caches_run _ op t hca, ?_, fun c hc => ?_⟩
    · exact kept_run (ops n) (ops_sound n) (ops_name n) op t hca.1 hst.1 hk.1
    · exact (run_children (ops n) (Sane n) (fun op c hc => ih op c hc) op t (fun c hc => ⟨hw.2 c hc, hst.2 c hc, hca.2 c hc, hk.2 c hc⟩) c hc).2.2.2

theorem sane_runs (n : Nat) (l : List Op) : ∀ t : Tree n, Sane n t → Sane n (runs (ops n) l t).2 := by
  induction l with
  | nil => exact fun t h => h
  | cons op l ih => exact fun t h => ih _ (sane_run n op t h)

theorem sane_fresh (n : Nat) : ∀ t : Tree n, Fresh n t → WF n t → Static n t → Sane n t := by
  intro t hf hw hs
  refine ⟨hw, hs, caches_fresh n t hf, ?_⟩
  clear hw hs
  induction n with
  | zero => exact Empty.elim t
  | succ n ih =>
    have h1 := hf.1
    exact ⟨.inl (by rw [h1.1]; rfl), fun c hc => ih c (hf.2 c hc)⟩

/-! ### After the operation -/

/-- IDLE and without memories, everywhere. -/
def New (n : Nat) (t : Tree n) : Prop := AllNodes (fun nd => nd.state = .idle ∧ Blank nd.kind nd.mem) n t

theorem run_blank (o : Ops N) (op : Op) (hop : op = .setup ∨ op = .reset) (nd : Node N) (h : (nd.run o op).res.isOk = true) : Blank (nd.run o op).node.kind (nd.run o op).node.mem := by
  revert h
  apply run_cases o op nd (P := fun out => out.res.isOk = true → Blank out.node.kind out.node.mem)
  · intro _ h; simp [Node.wrap] at h
  · intro _ _ _ h; simp [Node.wrap] at h
  · intro _ _ _ _ _ h; simp [Node.wrap] at h
  · intro _ _ _ _ _ _ _ h; simp [Node.wrap] at h
  · intro x s _ hx _ _ hr _ _
    have := exec_post o (fun _ _ => True) _ (fun _ _ _ _ => trivial) _ nd.children (hook_blank nd.kind op hop nd.state nd.mem (nd.env nd.ctr) (nd.children.map o.name))
    rw [← hx] at this
    exact this (by rw [hr]; rfl)
  · intro h; rcases hop with rfl | rfl <;> cases h
  · intro _ h; rcases hop with rfl | rfl <;> cases h

theorem deep_new (skip : Kind → Mem → Bool) (op : Op) (hop : op = .setup ∨ op = .reset)
    (hcall : ∀ (N : Type) (o : Ops N) k st m e (cs : List N), childrenOk k cs.length → CallsAll skip o op k st m e cs)
    (hskip : ∀ k m, k ≠ .repeatNoAutoReset → unusedBelow k m = false → skip k m = false) (n : Nat) :
    ∀ t : Tree n, WF n t → ((ops n).run op t).res.isOk = true → Renewable n ((ops n).run op t).node → New n ((ops n).run op t).node := by
  induction n with
  | zero => exact fun t => Empty.elim t
  | succ n ih =>
    intro t hw hok hr
    obtain ⟨h1, h2⟩ := run_reaches skip (ops n) op (WF n) (fun c => Renewable n c → New n c) (by rcases hop with rfl | rfl <;> simp) (hcall _ (ops n)) ih t hw.1 hw.2 hok
    have hr1 := hr.1
    refine ⟨⟨?_, run_blank (ops n) op hop t hok⟩, fun c hc => h2 (hskip _ _ hr1.2.1 hr1.2.2) c hc (hr.2 c hc)⟩
    rcases hop with rfl | rfl <;> exact of_decide_eq_true h1

theorem run_new (n : Nat) (op : Op) (hop : op = .setup ∨ op = .reset) (t : Tree n) (hw : WF n t) (hok : ((ops n).run op t).res.isOk = true)
    (hr : Renewable n ((ops n).run op t).node) : New n ((ops n).run op t).node := by
  have hop' := hop
  rcases hop with rfl | rfl
  · exact deep_new idleOptional .setup hop' (fun _ o k st m e cs hc => setup_callsAll o k st m e cs hc) (fun k m _ h => by simp_all [unusedBelow]) n t hw hok hr
  · refine deep_new notReset .reset hop' (fun _ o k st m e cs hc => reset_callsAll o k st m e cs hc) (fun k m h1 h => ?_) n t hw hok hr
    simp [notReset, h, h1]

theorem alike_new (n : Nat) : ∀ a b : Tree n, SameTree n a b → Sane n a → Sane n b → New n a → New n b → Renewable n a → AlikeT n a b := by
  induction n with
  | zero => exact fun a => Empty.elim a
  | succ n ih =>
    intro a b hsame ha hb na nb hr
    obtain ⟨h1, h2, h3, h4, h5⟩ := hsame
    have hch : ∀ cs cs' : List (Tree n), All2 (SameTree n) cs cs' → (∀ c ∈ cs, Sane n c ∧ New n c ∧ Renewable n c) → (∀ c ∈ cs', Sane n c ∧ New n c) → All2 (AlikeT n) cs cs' := by
      intro cs cs' h
      induction h with
      | nil => intros; exact .nil
      | cons hab _ ih2 =>
        intro g1 g2
        exact .cons (ih _ _ hab (g1 _ List.mem_cons_self).1 (g2 _ List.mem_cons_self).1 (g1 _ List.mem_cons_self).2.1 (g2 _ List.mem_cons_self).2 (g1 _ List.mem_cons_self).2.2)
          (ih2 (fun c hc => g1 c (List.mem_cons_of_mem _ hc)) (fun c hc => g2 c (List.mem_cons_of_mem _ hc)))
    have hall := hch _ _ h5 (fun c hc => ⟨⟨ha.1.2 c hc, ha.2.1.2 c hc, ha.2.2.1.2 c hc, ha.2.2.2.2 c hc⟩, na.2 c hc, hr.2 c hc⟩)
      (fun c hc => ⟨⟨hb.1.2 c hc, hb.2.1.2 c hc, hb.2.2.1.2 c hc, hb.2.2.2.2 c hc⟩, nb.2 c hc⟩)
    have hnames : (Node.children (N := Tree n) a).map (ops n).name = (Node.children (N := Tree n) b).map (ops n).name := all2_map (ops n).name (alikeT_bisim n).name hall
    have na1 := na.1
    have nb1 := nb.1
    have ka := ha.2.2.2.1
    have kb := hb.2.2.2.1
    have hsa := ha.2.1.1
    have hsb := hb.2.1.1
    have hr1 := hr.1
    have key : ∀ a b : Node (Tree n), a.kind = b.kind → (∀ i, a.env (a.ctr + i) = b.env (b.ctr + i)) → a.children.map (ops n).name = b.children.map (ops n).name →
        a.state = .idle ∧ Blank a.kind a.mem → b.state = .idle ∧ Blank b.kind b.mem → Kept a.kind a.mem a.state (a.env 0) (a.children.map (ops n).name) →
        Kept b.kind b.mem b.state (b.env 0) (b.children.map (ops n).name) → (∀ i, static (a.env i) = static (a.env 0)) → (∀ i, static (b.env i) = static (b.env 0)) →
        a.kind ≠ .throttle ∧ a.kind ≠ .repeatNoAutoReset ∧ unusedBelow a.kind a.mem = false → a.state = b.state ∧ relevant a.kind a.mem = relevant a.kind b.mem := by
      intro a b hk henv hn ha hb ka kb sa sb hr
      refine ⟨ha.1.trans hb.1.symm, relevant_eq _ _ _ hr.1 hr.2.1 ha.2 (hk ▸ hb.2) ?_⟩
      rcases ka with ka | ka
      · rw [ha.1] at ka; cases ka
      rcases kb with kb | kb
      · rw [hb.1] at kb; cases kb
      have e0 := henv 0
      rw [ka, hk, kb, hn, start_static b.kind (a.env 0) (b.env 0) _ (by rw [← sa a.ctr, ← sb b.ctr]; exact congrArg static e0)]
    obtain ⟨k1, k2⟩ := key a b h3 h4 hnames na1 nb1 ka kb hsa hsb hr1
    refine ⟨⟨h1, h2, h3, k1, h4, hall, fun hk => ?_, fun _ => k2⟩, ha.2.2.1⟩
    rw [hk] at k2
    exact relevant_root _ _ k2

/-! ### The property -/

/-- **C129.** The same tree is created twice and used in two arbitrary ways. If both uses end with a successful setup or a successful reset of the root, everything done from then on
gives the same answers and makes the same calls, as long as the outside world answers alike. So a tree that has been reset is as good as one that has just been set up. -/
theorem c129_as_new_partial (n : Nat) (a b : Tree n) (fa : Fresh n a) (fb : Fresh n b) (wa : WF n a) (wb : WF n b) (sa : Static n a) (sb : Static n b)
    (past past' : List Op) (p q : Op) (hp : p = .setup ∨ p = .reset) (hq : q = .setup ∨ q = .reset)
    (ha : ((ops n).run p (runs (ops n) past a).2).res.isOk = true) (hb : ((ops n).run q (runs (ops n) past' b).2).res.isOk = true)
    (ra : Renewable n ((ops n).run p (runs (ops n) past a).2).node) (rb : Renewable n ((ops n).run q (runs (ops n) past' b).2).node)
    (hsame : SameTree n ((ops n).run p (runs (ops n) past a).2).node ((ops n).run q (runs (ops n) past' b).2).node) (future : List Op) :
    (runs (ops n) future ((ops n).run p (runs (ops n) past a).2).node).1.map (fun out => (out.res, out.trace)) =
      (runs (ops n) future ((ops n).run q (runs (ops n) past' b).2).node).1.map (fun out => (out.res, out.trace)) := by
  have s1 := sane_runs n past a (sane_fresh n a fa wa sa)
  have s2 := sane_runs n past' b (sane_fresh n b fb wb sb)
  exact runs_alike (ops n) (AlikeT n) (alikeT_bisim n) future _ _
    (alike_new n _ _ hsame (sane_run n p _ s1) (sane_run n q _ s2) (run_new n p hp _ s1.1 ha ra) (run_new n q hq _ s2.1 hb rb) ra)

/-! ### Examples -/

/-- A MemorySequence over a Sequence and a Retry that is RUNNING after its first attempt. The outside world always answers the same. -/
def sample : Tree 3 := mk 2 0 .memSequence [mk 1 1 .sequence [], mk 1 2 .retry [mk 0 3 .fallback []] (fun _ => { num := 3 })]

/-- The answers, with what was called. -/
def answers (n : Nat) (l : List Op) (t : Tree n) : List (Res × List Ev) := (runs (ops n) l t).1.map fun out => (out.res, out.trace)

/-- After a tick and a reset. -/
def used : Tree 3 := ((ops 3).run .reset (runs (ops 3) [.setup, .tick] sample).2).node

/-- After a setup. -/
def unused : Tree 3 := ((ops 3).run .setup (runs (ops 3) [] sample).2).node

/-- All that `c129_as_new_partial` asks for. -/
example : Fresh 3 sample ∧ WF 3 sample ∧ Static 3 sample ∧ ((ops 3).run .reset (runs (ops 3) [.setup, .tick] sample).2).res.isOk = true ∧
    ((ops 3).run .setup (runs (ops 3) [] sample).2).res.isOk = true ∧ Renewable 3 used ∧ Renewable 3 unused ∧ SameTree 3 used unused := by
  refine ⟨by decide, by decide, ?_, by decide, by decide, by decide, by decide, ?_⟩
  · refine ⟨fun _ => rfl, fun c hc => ?_⟩
    rcases List.mem_cons.1 hc with rfl | hc
    · exact ⟨fun _ => rfl, fun c hc => by cases hc⟩
    · rw [List.mem_singleton.1 hc]
      refine ⟨fun _ => rfl, fun c hc => ?_⟩
      rw [List.mem_singleton.1 hc]
      exact ⟨fun _ => rfl, fun c hc => by cases hc⟩
  · exact ⟨rfl, rfl, rfl, fun _ => rfl, .cons ⟨rfl, rfl, rfl, fun _ => rfl, .nil⟩ (.cons ⟨rfl, rfl, rfl, fun _ => rfl, .cons ⟨rfl, rfl, rfl, fun _ => rfl, .nil⟩ .nil⟩ .nil)⟩

/-- Without the reset the past shows: the second attempt is the last but one. -/
example : answers 3 [.tick, .tick, .tick, .tick] used = answers 3 [.tick, .tick, .tick, .tick] unused ∧
    answers 3 [.tick, .tick, .tick, .tick] (runs (ops 3) [.setup, .tick] sample).2 ≠ answers 3 [.tick, .tick, .tick, .tick] unused := by decide

/-- A tree of depth two in which everything answers the same at all times. -/
def pair (k : Kind) (child : Kind) : Tree 2 := mk 1 0 k [mk 0 1 child []]

/-- The full statement is violated: a Throttle remembers the answer of its child over a reset and does not tick it again. -/
theorem c129_throttle : ∃ past : List Op, ((ops 2).run .reset (runs (ops 2) past (pair .throttle .sequence)).2).res.isOk = true ∧
    ((ops 2).run .setup (pair .throttle .sequence)).res.isOk = true ∧
    SameTree 2 (runs (ops 2) (past ++ [.reset]) (pair .throttle .sequence)).2 (runs (ops 2) [.setup] (pair .throttle .sequence)).2 ∧
    answers 2 [.tick] (runs (ops 2) (past ++ [.reset]) (pair .throttle .sequence)).2 ≠ answers 2 [.tick] (runs (ops 2) [.setup] (pair .throttle .sequence)).2 :=
  ⟨[.setup, .tick], by decide, by decide, ⟨rfl, rfl, rfl, fun _ => rfl, .cons ⟨rfl, rfl, rfl, fun _ => rfl, .nil⟩ .nil⟩, by decide⟩

/-- As is it for RepeatNoAutoReset, which goes on counting: it has no more repetitions to do and does not tick its child. -/
theorem c129_no_auto_reset : ∃ past : List Op, ((ops 2).run .reset (runs (ops 2) past (pair .repeatNoAutoReset .sequence)).2).res.isOk = true ∧
    ((ops 2).run .setup (pair .repeatNoAutoReset .sequence)).res.isOk = true ∧
    SameTree 2 (runs (ops 2) (past ++ [.reset]) (pair .repeatNoAutoReset .sequence)).2 (runs (ops 2) [.setup] (pair .repeatNoAutoReset .sequence)).2 ∧
    answers 2 [.tick] (runs (ops 2) (past ++ [.reset]) (pair .repeatNoAutoReset .sequence)).2 ≠
      answers 2 [.tick] (runs (ops 2) [.setup] (pair .repeatNoAutoReset .sequence)).2 :=
  ⟨[.setup, .tick, .tick], by decide, by decide, ⟨rfl, rfl, rfl, fun _ => rfl, .cons ⟨rfl, rfl, rfl, fun _ => rfl, .nil⟩ .nil⟩, by decide⟩

end Verif.BT.Renew
