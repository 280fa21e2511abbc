import Verif.BT.Struct
import Verif.BT.Sample

/-!
# C03–C06: setup, shutdown, reset and untick reach the whole tree
-/

set_option autoImplicit false

namespace Verif.BT

variable {N : Type}

/-- What one hook has to guarantee: an `Ok` result means that every child in use has been called
with `op` and answered `Ok`, and nothing else happened to it. -/
def CallsAll (skip : Kind → Mem → Bool) (o : Ops N) (op : Op) (k : Kind) (st : BTState)
    (m : Mem) (e : Env) (cs : List N) : Prop :=
  let x := exec o (hookProg k op st m e (cs.map o.name)) cs
  x.res.isOk = true → skip k x.mem = false →
    x.children = cs.map (fun c => (o.run op c).node) ∧ ∀ c ∈ cs, (o.run op c).res.isOk = true

theorem Res.map_isOk (r : Res) (f) : (r.map f).isOk = r.isOk := by cases r <;> rfl

theorem callsAll_allThen (o : Ops N) (op : Op) (m : Mem) (s : BTState) (cs : List N) (n : Nat)
    (hn : n = cs.length)
    (h : (exec o (Prog.allThen n op m s) cs).res.isOk = true) :
    (exec o (Prog.allThen n op m s) cs).children = cs.map (fun c => (o.run op c).node) ∧
      ∀ c ∈ cs, (o.run op c).res.isOk = true := by
  rw [exec_allThen o op m s cs n hn] at h ⊢
  have hok := callAll_ok o op 0 cs
  rcases hc : callAll o op 0 cs with ⟨cs', b, l, t⟩
  rw [hc] at h hok
  cases b with
  | false => simp at h
  | true => exact hok rfl

theorem callsAll_onHead (o : Ops N) (op : Op) (m : Mem) (f : BTState → BTState) (d : BTState)
    (cs : List N) (n : Nat) (hn : n = cs.length) (h1 : cs.length ≤ 1)
    (h : (exec o (Prog.onHead n op m f d) cs).res.isOk = true) :
    (exec o (Prog.onHead n op m f d) cs).children = cs.map (fun c => (o.run op c).node) ∧
      ∀ c ∈ cs, (o.run op c).res.isOk = true := by
  subst hn
  match cs, h1 with
  | [], _ => simp [Prog.onHead]
  | [c], _ =>
    have hx := exec_onHead_cons o op m f d c []
    simp only [List.length_nil, List.length_singleton, Nat.zero_add] at hx h ⊢
    rw [hx] at h ⊢
    simpa [Res.map_isOk] using h

theorem callsAll_call0 (o : Ops N) (op : Op) (m : Mem)
    (cs : List N) (h1 : cs.length ≤ 1)
    (h : (exec o (.call op 0 fun r => .done m r) cs).res.isOk = true) :
    (exec o (.call op 0 fun r => .done m r) cs).children = cs.map (fun c => (o.run op c).node) ∧
      ∀ c ∈ cs, (o.run op c).res.isOk = true := by
  match cs, h1 with
  | [], _ => simp [exec] at h
  | [c], _ => simpa [exec] using h

theorem setup_callsAll (o : Ops N) (k : Kind) (st : BTState) (m : Mem) (e : Env) (cs : List N)
    (hc : childrenOk k cs.length) : CallsAll idleOptional o .setup k st m e cs := by
  unfold CallsAll
  intro x hx hs
  have one : maxChildren k = some 1 → cs.length ≤ 1 := fun h => hc 1 h
  have zero : maxChildren k = some 0 → cs = [] := fun h => by
    have := hc 0 h
    exact List.length_eq_zero_iff.1 (by omega)
  cases k with
  | leaf =>
    have := zero rfl
    subst this
    simp [x, hookProg, setupHook]
  | sequence | fallback | memSequence | memFallback | nameSwitch | enumSwitch =>
    exact callsAll_allThen o .setup _ _ cs _ (by simp) hx
  | parallel | parallelTol =>
    simp only [x, hookProg, setupHook] at hx ⊢
    split at hx
    · rename_i h1
      simp only [h1, if_true]
      split at hx
      · simp at hx
      · rename_i h2
        simp only [h2, if_false]
        exact callsAll_allThen o .setup _ _ cs _ (by simp) hx
    · simp at hx
  | ignoreFailure | ignoreSuccess | untilSuccess | inverter | repeatAlways | repeatUntilFail
  | repeatIfFail | watch | iterateList =>
    exact callsAll_onHead o .setup _ _ _ cs _ (by simp) (one rfl) hx
  | getter | ignoreRunning | retry | «repeat» | repeatNoAutoReset | throttle | throttleSuccess =>
    simp only [x, hookProg, setupHook] at hx ⊢
    split at hx
    · rename_i h1
      simp only [h1, if_true]
      exact callsAll_onHead o .setup _ _ _ cs _ (by simp) (one rfl) hx
    · simp at hx
  | optional =>
    simp only [x, hookProg, setupHook] at hx hs ⊢
    split at hx
    · rename_i h0
      have : cs = [] := List.length_eq_zero_iff.1 (by simpa using h0)
      subst this
      simp
    · rename_i h0
      simp only [h0, if_false] at hs ⊢
      split at hx
      · rename_i h1
        simp only [h1, if_true] at hs ⊢
        split at hx
        · rename_i h2
          simp only [h2, if_true] at hs ⊢
          exact callsAll_onHead o .setup _ _ _ cs _ (by simp) (one rfl) hx
        · rename_i h2
          simp [h2, idleOptional] at hs
      · simp at hx
  | subtree =>
    simp only [x, hookProg, setupHook] at hx ⊢
    split at hx
    · rename_i h1
      simp only [h1, if_true]
      split at hx
      · rename_i h0
        have : cs = [] := List.length_eq_zero_iff.1 (by simpa using h0)
        subst this
        simp
      · rename_i h0
        simp only [h0, if_false]
        split at hx
        · rename_i h2
          simp only [h2, if_true]
          exact callsAll_call0 o .setup _ cs (one rfl) hx
        · simp at hx
    · simp at hx

theorem untick_callsAll (o : Ops N) (k : Kind) (st : BTState) (m : Mem) (e : Env) (cs : List N)
    (hc : childrenOk k cs.length) : CallsAll unusedBelow o .untick k st m e cs := by
  unfold CallsAll
  intro x hx hs
  have one : maxChildren k = some 1 → cs.length ≤ 1 := fun h => hc 1 h
  have zero : maxChildren k = some 0 → cs = [] := fun h => by
    have := hc 0 h
    exact List.length_eq_zero_iff.1 (by omega)
  cases k with
  | leaf =>
    have := zero rfl
    subst this
    simp [x, hookProg, untickHook]
  | sequence | fallback | memSequence | memFallback | nameSwitch | enumSwitch | parallel
  | parallelTol =>
    exact callsAll_allThen o .untick _ _ cs _ (by simp) hx
  | ignoreFailure | ignoreRunning | ignoreSuccess | untilSuccess | inverter | watch | getter
  | throttle | throttleSuccess =>
    exact callsAll_onHead o .untick _ _ _ cs _ (by simp) (one rfl) hx
  | retry | «repeat» | repeatNoAutoReset | repeatAlways | repeatUntilFail | repeatIfFail
  | iterateList =>
    exact callsAll_allThen o .untick _ _ cs _ (by simp) hx
  | optional =>
    simp only [x, hookProg, untickHook] at hx hs ⊢
    split at hx
    · rename_i h0
      simp only [h0, if_true] at hs ⊢
      exact callsAll_call0 o .untick _ cs (one rfl) hx
    · rename_i h0
      simp [h0, unusedBelow, idleOptional] at hs
  | subtree =>
    simp only [x, hookProg, untickHook] at hx hs ⊢
    split at hx
    · rename_i h0
      simp only [h0, if_true] at hs ⊢
      exact callsAll_call0 o .untick _ cs (one rfl) hx
    · simp at hx

/-- As `unusedBelow`, and RepeatNoAutoReset is left out. -/
def notReset (k : Kind) (m : Mem) : Bool :=
  unusedBelow k m || (k == .repeatNoAutoReset && decide (m.limit ≤ m.count))

theorem reset_callsAll (o : Ops N) (k : Kind) (st : BTState) (m : Mem) (e : Env) (cs : List N)
    (hc : childrenOk k cs.length) : CallsAll notReset o .reset k st m e cs := by
  unfold CallsAll
  intro x hx hs
  have one : maxChildren k = some 1 → cs.length ≤ 1 := fun h => hc 1 h
  have zero : maxChildren k = some 0 → cs = [] := fun h => by
    have := hc 0 h
    exact List.length_eq_zero_iff.1 (by omega)
  cases k with
  | leaf =>
    have := zero rfl
    subst this
    simp [x, hookProg, resetHook]
  | sequence | fallback | memSequence | memFallback | nameSwitch | enumSwitch | parallel
  | parallelTol =>
    exact callsAll_allThen o .reset _ _ cs _ (by simp) hx
  | ignoreFailure | ignoreRunning | ignoreSuccess | untilSuccess | inverter | watch | getter
  | throttle | throttleSuccess | retry | «repeat» | repeatAlways | repeatUntilFail
  | repeatIfFail | iterateList =>
    exact callsAll_onHead o .reset _ _ _ cs _ (by simp) (one rfl) hx
  | repeatNoAutoReset =>
    simp only [x, hookProg, resetHook] at hx hs ⊢
    split at hx
    · rename_i h0
      simp only [h0, if_true] at hs ⊢
      exact callsAll_onHead o .reset _ _ _ cs _ (by simp) (one rfl) hx
    · rename_i h0
      simp [h0, notReset, unusedBelow, idleOptional, unusedSubtree] at hs
  | optional =>
    simp only [x, hookProg, resetHook] at hx hs ⊢
    split at hx
    · rename_i h0
      simp only [h0, if_true] at hs ⊢
      exact callsAll_call0 o .reset _ cs (one rfl) hx
    · rename_i h0
      simp [h0, notReset, unusedBelow, idleOptional] at hs
  | subtree =>
    simp only [x, hookProg, resetHook] at hx hs ⊢
    split at hx
    · rename_i h0
      simp only [h0, if_true] at hs ⊢
      exact callsAll_call0 o .reset _ cs (one rfl) hx
    · rename_i h0
      simp [h0, notReset, unusedBelow, unusedSubtree] at hs

/-- Induction step for C03, C05, C06. -/
theorem run_reaches (skip : Kind → Mem → Bool) (o : Ops N) (op : Op)
    (W Q : N → Prop) (hop : op ≠ .shutdown)
    (hcall : ∀ k st m e (cs : List N), childrenOk k cs.length → CallsAll skip o op k st m e cs)
    (ih : ∀ c, W c → (o.run op c).res.isOk = true → Q (o.run op c).node)
    (nd : Node N) (hw : childrenOk nd.kind nd.children.length) (hW : ∀ c ∈ nd.children, W c)
    (hok : (nd.run o op).res.isOk = true) :
    allowedAfter op (nd.run o op).node.state = true ∧
    (skip (nd.run o op).node.kind (nd.run o op).node.mem = false →
      ∀ c ∈ (nd.run o op).node.children, Q c) := by
  revert hok
  apply run_cases o op nd (P := fun out => out.res.isOk = true →
    allowedAfter op out.node.state = true ∧
    (skip out.node.kind out.node.mem = false → ∀ c ∈ out.node.children, Q c))
  · intro _ h; simp [Node.wrap] at h
  · intro _ _ _ h; simp [Node.wrap] at h
  · intro _ _ _ _ _ h; simp [Node.wrap] at h
  · intro _ _ _ _ _ _ _ h; simp [Node.wrap] at h
  · intro x s _ hx _ _ hr hal _
    refine ⟨hal, fun hsk => ?_⟩
    have := hcall nd.kind nd.state nd.mem (nd.env nd.ctr) nd.children hw
    simp only [CallsAll, ← hx] at this
    have h2 := this (by simp [hr]) hsk
    intro c hc
    simp only [Node.wrap, h2.1, List.mem_map] at hc
    obtain ⟨c0, hc0, rfl⟩ := hc
    exact ih c0 (hW c0 hc0) (h2.2 c0 hc0)
  · intro h; exact absurd h hop
  · intro _ h; exact absurd h hop

theorem deep_reaches (skip : Kind → Mem → Bool) (op : Op) (hop : op ≠ .shutdown)
    (hcall : ∀ (N : Type) (o : Ops N) k st m e (cs : List N), childrenOk k cs.length →
      CallsAll skip o op k st m e cs)
    (n : Nat) : ∀ t : Tree n, WF n t → ((ops n).run op t).res.isOk = true →
      AllUsed skip (fun s => allowedAfter op s = true) n ((ops n).run op t).node := by
  induction n with
  | zero => intro t; exact Empty.elim t
  | succ n ih =>
    intro t hw hok
    exact run_reaches skip (ops n) op (WF n) (AllUsed skip _ n) hop (hcall _ (ops n)) ih t
      hw.1 hw.2 hok

theorem AllUsed_mono {skip : Kind → Mem → Bool} {P P' : BTState → Prop} (h : ∀ s, P s → P' s)
    (n : Nat) : ∀ t : Tree n, AllUsed skip P n t → AllUsed skip P' n t := by
  induction n with
  | zero => intro t; exact Empty.elim t
  | succ n ih =>
    intro t ht
    exact ⟨h _ ht.1, fun hs c hc => ih c (ht.2 hs c hc)⟩

/-- **C03.** After a successful setup of the root every node of the tree is IDLE, except below an
Optional whose child cannot be executed. -/
theorem c03_setup_reaches_all (n : Nat) (t : Tree n) (hw : WF n t)
    (h : ((ops n).run .setup t).res.isOk = true) :
    AllUsed idleOptional (fun s => s = .idle) n ((ops n).run .setup t).node :=
  AllUsed_mono (by intro s hs; simpa [allowedAfter] using hs) n _
    (deep_reaches idleOptional .setup (by simp)
      (fun _ o k st m e cs hc => setup_callsAll o k st m e cs hc) n t hw h)

example : WF 3 sampleSeq ∧ ((ops 3).run .setup sampleSeq).res.isOk = true := by decide

example : WF 3 samplePar ∧ ((ops 3).run .setup samplePar).res.isOk = true := by decide

/-- The exception is real: below an Optional whose child cannot execute nothing is set up. -/
example : nodeStates 3 ((ops 3).run .setup samplePar).node =
    [(1, .idle), (2, .idle), (3, .idle), (4, .idle), (5, .uninitialized), (6, .idle), (7, .idle)] := by
  decide

/-- **C06.** After a successful untick of the root every node of the tree in use is IDLE or PAUSED,
in particular not RUNNING. -/
theorem c06_untick_leaves_nothing_running (n : Nat) (t : Tree n) (hw : WF n t)
    (h : ((ops n).run .untick t).res.isOk = true) :
    AllUsed unusedBelow (fun s => s ≠ .running ∧ (s = .idle ∨ s = .paused)) n
      ((ops n).run .untick t).node :=
  AllUsed_mono (by intro s hs; cases s <;> simp_all [allowedAfter]) n _
    (deep_reaches unusedBelow .untick (by simp)
      (fun _ o k st m e cs hc => untick_callsAll o k st m e cs hc) n t hw h)

example : let t := (runs (ops 3) [.setup, .tick] samplePar).2
    WF 3 t ∧ ((ops 3).run .untick t).res.isOk = true ∧
    nodeStates 3 t = [(1, .running), (2, .running), (3, .running), (4, .succeeded),
      (5, .uninitialized), (6, .running), (7, .idle)] ∧
    nodeStates 3 ((ops 3).run .untick t).node = [(1, .idle), (2, .idle), (3, .idle), (4, .idle),
      (5, .uninitialized), (6, .paused), (7, .idle)] := by decide

/-- **C05 (partial).** After a successful reset of the root every node of the tree in use is IDLE,
except below a RepeatNoAutoReset that has used up its repetitions. Missing for the full
statement: that exception is a deviation of the code, see `c05_reset_misses_child`. -/
theorem c05_reset_reaches_all_partial (n : Nat) (t : Tree n) (hw : WF n t)
    (h : ((ops n).run .reset t).res.isOk = true) :
    AllUsed notReset (fun s => s = .idle) n ((ops n).run .reset t).node :=
  AllUsed_mono (by intro s hs; simpa [allowedAfter] using hs) n _
    (deep_reaches notReset .reset (by simp)
      (fun _ o k st m e cs hc => reset_callsAll o k st m e cs hc) n t hw h)

example : let t := (runs (ops 3) [.setup, .tick] sampleSeq).2
    WF 3 t ∧ ((ops 3).run .reset t).res.isOk = true := by decide

/-! ## Shutdown -/

theorem shutdownAll_ok (o : Ops N) (cs : List N) (h : (shutdownAll o cs).2.1 = false) :
    (shutdownAll o cs).1 = cs.map (fun c => (o.run .shutdown c).node) ∧
    ∀ c ∈ cs, (o.run .shutdown c).res.isOk = true := by
  induction cs with
  | nil => simp [shutdownAll]
  | cons c cs ih =>
    simp only [shutdownAll, Bool.or_eq_false_iff] at h
    obtain ⟨h1, h2⟩ := ih h.2
    simp only [shutdownAll, List.map_cons, h1, List.mem_cons, forall_eq_or_imp, true_and]
    refine ⟨?_, h2⟩
    cases hr : (o.run .shutdown c).res with
    | ok s => rfl
    | err => simp [hr] at h

theorem finishShutdown_reaches (o : Ops N) (W Q : N → Prop)
    (ih : ∀ c, W c → (o.run .shutdown c).res.isOk = true → Q (o.run .shutdown c).node)
    (nd : Node N) (hW : ∀ c ∈ nd.children, W c) (hv : visibleChildren nd.kind = true) (l t)
    (hok : (nd.finishShutdown o l t).res.isOk = true) :
    ∀ c ∈ (nd.finishShutdown o l t).node.children, Q c := by
  simp only [Node.finishShutdown, hv, if_true, Node.wrap] at hok ⊢
  have hb : (shutdownAll o nd.children).2.1 = false := by
    rcases hsd : shutdownAll o nd.children with ⟨a, b, c⟩
    cases b with
    | false => rfl
    | true => simp [hsd] at hok
  obtain ⟨h1, h2⟩ := shutdownAll_ok o nd.children hb
  intro c hc
  rw [h1] at hc
  obtain ⟨c0, hc0, rfl⟩ := List.mem_map.1 hc
  exact ih c0 (hW c0 hc0) (h2 c0 hc0)

/-- Children of a SHUTDOWN Subtree with a nested tree in use are SHUTDOWN throughout.
(`Q` is "shut down throughout" for the nested tree.) -/
def SubtreeDown (Q : N → Prop) (nd : Node N) : Prop :=
  nd.kind = .subtree → nd.state = .shutdown → nd.mem.rootSet = true → ∀ c ∈ nd.children, Q c

theorem run_shutdown_reaches (o : Ops N) (W Q : N → Prop)
    (hWrun : ∀ op c, W c → W (o.run op c).node)
    (ih : ∀ c, W c → (o.run .shutdown c).res.isOk = true → Q (o.run .shutdown c).node)
    (nd : Node N) (hw : childrenOk nd.kind nd.children.length) (hW : ∀ c ∈ nd.children, W c)
    (hsub : SubtreeDown Q nd)
    (hok : (nd.run o .shutdown).res.isOk = true) :
    (nd.run o .shutdown).node.state = .shutdown ∧
    (unusedSubtree (nd.run o .shutdown).node.kind (nd.run o .shutdown).node.mem = false →
      ∀ c ∈ (nd.run o .shutdown).node.children, Q c) := by
  refine ⟨?_, ?_⟩
  · cases hr : (nd.run o .shutdown).res with
    | err => simp [hr] at hok
    | ok s =>
      obtain ⟨h1, h2⟩ := node_sound o .shutdown nd s hr
      exact h1.trans (by simpa [allowedAfter] using h2)
  revert hok
  apply run_cases o .shutdown nd (P := fun out => out.res.isOk = true →
    (unusedSubtree out.node.kind out.node.mem = false → ∀ c ∈ out.node.children, Q c))
  · intro _ h; simp [Node.wrap] at h
  · intro _ _ _ h; simp [Node.wrap] at h
  · intro _ _ _ _ _ h; simp [Node.wrap] at h
  · intro _ _ _ _ _ _ _ h; simp [Node.wrap] at h
  · intro x s h; exact absurd rfl h
  · intro _ hs hok hu
    by_cases hv : visibleChildren nd.kind = true
    · exact finishShutdown_reaches o W Q ih { nd with ctr := nd.ctr + 1 } hW hv _ _ hok
    · have hk : nd.kind = .subtree := by
        revert hv; cases nd.kind <;> simp [visibleChildren]
      simp only [Node.finishShutdown, hv, Bool.false_eq_true, if_false, Node.wrap] at hu ⊢
      have : nd.mem.rootSet = true := by simpa [hk, unusedSubtree] using hu
      exact hsub hk hs this
  · intro x _ hx _ hr hok hu
    have hWx : ∀ c ∈ x.children, W c := by
      rw [hx]; exact exec_children o W hWrun _ _ hW
    by_cases hv : visibleChildren nd.kind = true
    · exact finishShutdown_reaches o W Q ih { nd with ctr := nd.ctr + 1, mem := x.mem, children := x.children, state := .shutdown } hWx hv _ _ hok
    · have hk : nd.kind = .subtree := by
        revert hv; cases nd.kind <;> simp [visibleChildren]
      simp only [Node.finishShutdown, hv, Bool.false_eq_true, if_false, Node.wrap] at hu ⊢
      subst hx
      simp only [hookProg, shutdownHook, hk] at hr hu ⊢
      split at hr
      · rename_i h0
        simp only [h0, if_true]
        have h1 : nd.children.length ≤ 1 := hw 1 (by rw [hk]; rfl)
        have h2 := callsAll_call0 o .shutdown nd.mem nd.children h1 (by simp [hr])
        intro c hc
        rw [h2.1] at hc
        obtain ⟨c0, hc0, rfl⟩ := List.mem_map.1 hc
        exact ih c0 (hW c0 hc0) (h2.2 c0 hc0)
      · rename_i h0
        simp [h0, unusedSubtree] at hu

/-- What the hooks of a Subtree can do. -/
theorem subtree_hook (o : Ops N) (hs : Sound o) (op : Op) (st : BTState) (m : Mem) (e : Env)
    (cs : List N) (hc : cs.length ≤ 1) (x : ExecOut N)
    (hx : x = exec o (hookProg .subtree op st m e (cs.map o.name)) cs) :
    (∀ s, x.res = .ok s → allowedAfter op s = true) ∧
    (x.mem.rootSet = false → cs = [] ∨ (m.rootSet = false ∧ x.children = cs)) := by
  subst hx
  have hs' : ∀ c s, (o.run op c).res = .ok s → allowedAfter op s = true :=
    fun c s h => (hs op c s h).2
  match cs, hc with
  | [], _ =>
    cases op <;> simp only [hookProg, setupHook, tickHook, untickHook, resetHook, shutdownHook] <;>
      (repeat' split) <;> simp_all [exec, allowedAfter]
  | [c], _ =>
    have := hs' c
    cases op <;> simp only [hookProg, setupHook, tickHook, untickHook, resetHook, shutdownHook] <;>
      (repeat' split) <;> simp_all [exec, allowedAfter]

/-- A Subtree that is SHUTDOWN after use has a nested tree satisfying `Q`; the nested tree of a
Subtree that has never been used satisfies `U`. -/
def SubtreeInv (Q U : N → Prop) (nd : Node N) : Prop :=
  nd.kind = .subtree →
    (nd.mem.rootSet = true → nd.state = .shutdown → ∀ c ∈ nd.children, Q c) ∧
    (nd.mem.rootSet = false → ∀ c ∈ nd.children, U c)

theorem run_subtreeInv (o : Ops N) (hs : Sound o) (W Q U : N → Prop)
    (hWrun : ∀ op c, W c → W (o.run op c).node)
    (ih : ∀ c, W c → (o.run .shutdown c).res.isOk = true → Q (o.run .shutdown c).node)
    (op : Op) (nd : Node N) (hw : childrenOk nd.kind nd.children.length)
    (hW : ∀ c ∈ nd.children, W c) (h : SubtreeInv Q U nd) :
    SubtreeInv Q U (nd.run o op).node := by
  intro hk
  have hk0 : nd.kind = .subtree := by rw [(run_static o op nd).2.2.1] at hk; exact hk
  obtain ⟨hQ, hU⟩ := h hk0
  have hlen : nd.children.length ≤ 1 := hw 1 (by rw [hk0]; rfl)
  have hook := fun x hx => subtree_hook o hs op nd.state nd.mem (nd.env nd.ctr) nd.children hlen x hx
  have key : ∀ x : ExecOut N, (x.mem.rootSet = false →
      nd.children = [] ∨ (nd.mem.rootSet = false ∧ x.children = nd.children)) →
      x.children.length = nd.children.length →
      x.mem.rootSet = false → ∀ c ∈ x.children, U c := by
    intro x h1 hl h2 c hc
    rcases h1 h2 with h3 | ⟨h3, h4⟩
    · rw [h3] at hl
      rw [List.length_eq_zero_iff.1 hl] at hc
      simp at hc
    · exact hU h3 c (h4 ▸ hc)
  have hl : ∀ x, x = exec o (hookProg nd.kind op nd.state nd.mem (nd.env nd.ctr)
          (nd.children.map o.name)) nd.children → x.children.length = nd.children.length := by
    intro x hx; subst hx; exact exec_length o _ _
  have hsh := run_shutdown_reaches o W Q hWrun ih nd hw hW (fun _ h2 h3 => hQ h3 h2)
  revert hsh
  apply run_cases o op nd (P := fun out => ((nd.run o .shutdown).res.isOk = true → _) →
    (out.node.mem.rootSet = true → out.node.state = .shutdown → ∀ c ∈ out.node.children, Q c) ∧
    (out.node.mem.rootSet = false → ∀ c ∈ out.node.children, U c))
  · intro _ _; exact ⟨hQ, hU⟩
  · intro _ _ _ _; exact ⟨fun _ h => by simp [Node.wrap] at h, hU⟩
  · intro x hx _ _ _ _
    refine ⟨fun _ h => by simp [Node.wrap] at h, ?_⟩
    exact key x (hook x (by rw [hx, hk0])).2 (hl x hx)
  · intro x s hx _ _ hr hal _
    have := (hook x (by rw [hx, hk0])).1 s hr
    simp [hal] at this
  · intro x s hop hx _ _ hr hal _
    refine ⟨fun _ h => ?_, key x (hook x (by rw [hx, hk0])).2 (hl x hx)⟩
    exfalso
    have : s = .shutdown := h
    subst this
    cases op <;> simp [allowedAfter] at hal hop
  · intro _ _ _
    simp only [Node.finishShutdown, hk0, visibleChildren, Bool.false_eq_true, if_false, Node.wrap]
    exact ⟨hQ, hU⟩
  · intro x hop hx hst hr hsh
    subst hop
    simp only [Node.finishShutdown, hk0, visibleChildren, Bool.false_eq_true, if_false, Node.wrap]
    refine ⟨fun h1 _ => ?_, key x (hook x (by rw [hx, hk0])).2 (hl x hx)⟩
    have e : nd.run o .shutdown = ⟨{ nd with
          ctr := nd.ctr + 1, mem := x.mem, children := x.children, state := .shutdown }, .ok .shutdown, x.log,
        .call .shutdown nd.id :: ((.hook .shutdown nd.id :: x.trace) ++
          [.ret .shutdown nd.id (.ok .shutdown)])⟩ := by
      simp only [Node.run, Node.runShutdown, hst, if_false, Node.runHook]
      rw [← hx, hr]
      simp [allowedAfter, Node.finishShutdown, hk0, visibleChildren, Node.wrap]
    have h2 := hsh (by rw [e]; rfl)
    rw [e] at h2
    exact h2.2 (by simp [hk0, unusedSubtree, h1])

/-- Nested trees of Subtrees are SHUTDOWN when the Subtree is and have not been touched before the
Subtree is used. -/
def NestedInv : (n : Nat) → Tree n → Prop
  | 0, t => Empty.elim t
  | n + 1, t =>
    SubtreeInv (AllUsed unusedSubtree (· = .shutdown) n) (Untouched n) (t : Node (Tree n)) ∧
    ∀ c ∈ Node.children (N := Tree n) t, NestedInv n c

theorem untouched_of_fresh (n : Nat) : ∀ t : Tree n, Fresh n t → Untouched n t := by
  induction n with
  | zero => intro t; exact Empty.elim t
  | succ n ih => intro t h; exact ⟨h.1.1, fun c hc => ih c (h.2 c hc)⟩

theorem nestedInv_of_fresh (n : Nat) : ∀ t : Tree n, Fresh n t → NestedInv n t := by
  induction n with
  | zero => intro t; exact Empty.elim t
  | succ n ih =>
    intro t h
    refine ⟨fun _ => ⟨fun h2 => ?_, fun _ c hc => untouched_of_fresh n c (h.2 c hc)⟩,
      fun c hc => ih c (h.2 c hc)⟩
    have := h.1.2
    rw [this] at h2
    exact absurd h2 (by decide)

theorem nested_shutdown (n : Nat) :
    (∀ op (t : Tree n), WF n t → NestedInv n t → NestedInv n ((ops n).run op t).node) ∧
    (∀ t : Tree n, WF n t → NestedInv n t → ((ops n).run .shutdown t).res.isOk = true →
      AllUsed unusedSubtree (· = .shutdown) n ((ops n).run .shutdown t).node) := by
  induction n with
  | zero => exact ⟨fun _ t => Empty.elim t, fun t => Empty.elim t⟩
  | succ n ih =>
    have hW : ∀ op (c : Tree n), (WF n c ∧ NestedInv n c) →
        WF n ((ops n).run op c).node ∧ NestedInv n ((ops n).run op c).node :=
      fun op c h => ⟨WF_run n op c h.1, ih.1 op c h.1 h.2⟩
    have hQ : ∀ c : Tree n, (WF n c ∧ NestedInv n c) → ((ops n).run .shutdown c).res.isOk = true →
        AllUsed unusedSubtree (· = .shutdown) n ((ops n).run .shutdown c).node :=
      fun c h => ih.2 c h.1 h.2
    constructor
    · intro op t hw hi
      refine ⟨run_subtreeInv (ops n) (ops_sound n) _ _ _ hW hQ op t hw.1
        (fun c hc => ⟨hw.2 c hc, hi.2 c hc⟩) hi.1, fun c hc => ?_⟩
      exact (run_children (ops n) (fun c => WF n c ∧ NestedInv n c) hW op t
        (fun c hc => ⟨hw.2 c hc, hi.2 c hc⟩) c hc).2
    · intro t hw hi hok
      exact run_shutdown_reaches (ops n) _ _ hW hQ t hw.1
        (fun c hc => ⟨hw.2 c hc, hi.2 c hc⟩) (fun h1 h2 h3 => (hi.1 h1).1 h3 h2) hok

theorem runs_inv (n : Nat) (l : List Op) : ∀ t : Tree n, WF n t → NestedInv n t →
    WF n (runs (ops n) l t).2 ∧ NestedInv n (runs (ops n) l t).2 := by
  induction l with
  | nil => intro t h1 h2; exact ⟨h1, h2⟩
  | cons op l ih =>
    intro t h1 h2
    exact ih _ (WF_run n op t h1) ((nested_shutdown n).1 op t h1 h2)

/-- **C04.** Take any tree, freshly created, and any history of operations on its root. If a
shutdown of the root then answers `Ok`, every node of the tree is SHUTDOWN; the only nodes that
are not are the ones inside a Subtree node that has never been set up. -/
theorem c04_shutdown_reaches_all (n : Nat) (t : Tree n) (hf : Fresh n t) (hw : WF n t)
    (history : List Op)
    (h : ((ops n).run .shutdown (runs (ops n) history t).2).res.isOk = true) :
    AllUsed unusedSubtree (fun s => s = .shutdown) n
      ((ops n).run .shutdown (runs (ops n) history t).2).node := by
  obtain ⟨h1, h2⟩ := runs_inv n history t hw (nestedInv_of_fresh n t hf)
  exact (nested_shutdown n).2 _ h1 h2 h

example : Fresh 3 samplePar ∧ WF 3 samplePar ∧
    ((ops 3).run .shutdown (runs (ops 3) [.setup, .tick, .untick] samplePar).2).res.isOk
      = true := by decide

/-- A RepeatNoAutoReset whose repetitions are used up (`num_repeats = 0`) over a Repeat. -/
def sampleNoAuto : Tree 3 :=
  mk 2 1 .repeatNoAutoReset [mk 1 2 .repeat [mkLeaf 0 3 [.ok .idle, .ok .idle]]]
    (fun _ => { num := 0 })

/-- **C05 is violated by RepeatNoAutoReset.** With its repetitions used up, `reset` of
RepeatNoAutoReset answers `Ok(IDLE)` without resetting the child (`decorators.py:439-444`): here a
child that has been unticked stays PAUSED. -/
theorem c05_reset_misses_child :
    ∃ (t : Tree 3) (history : List Op), Fresh 3 t ∧ WF 3 t ∧
      let t' := (runs (ops 3) history t).2
      ((ops 3).run .reset t').res = .ok .idle ∧
      ∃ p ∈ nodeStates 3 ((ops 3).run .reset t').node, p.2 = .paused :=
  ⟨sampleNoAuto, [.setup, .untick], by decide⟩

/-- `AllUsed`, and everything below skipped nodes satisfies `P`, too. -/
theorem allNodes_of_used (n : Nat) : ∀ t : Tree n, NestedInv n t →
    AllUsed unusedSubtree (fun s => s = .shutdown) n t →
    ∀ p ∈ nodeStates n t, p.2 = .shutdown ∨ p.2 = .uninitialized := by
  have key : ∀ n (t : Tree n), Untouched n t → ∀ p ∈ nodeStates n t, p.2 = .uninitialized := by
    intro n
    induction n with
    | zero => intro t; exact Empty.elim t
    | succ n ih =>
      intro t h p hp
      simp only [nodeStates, List.mem_cons, List.mem_flatMap] at hp
      rcases hp with rfl | ⟨c, hc, hp⟩
      · exact h.1
      · exact ih c (h.2 c hc) p hp
  induction n with
  | zero => intro t; exact Empty.elim t
  | succ n ih =>
    intro t hi h p hp
    simp only [nodeStates, List.mem_cons, List.mem_flatMap] at hp
    rcases hp with rfl | ⟨c, hc, hp⟩
    · exact Or.inl h.1
    · cases hu : unusedSubtree (Node.kind (N := Tree n) t) (Node.mem (N := Tree n) t) with
      | false => exact ih c (hi.2 c hc) (h.2 hu c hc) p hp
      | true =>
        have hk : Node.kind (N := Tree n) t = .subtree := by
          revert hu; cases Node.kind (N := Tree n) t <;> simp [unusedSubtree]
        rw [hk] at hu
        exact Or.inr (key n c ((hi.1 hk).2 (by simpa [unusedSubtree] using hu) c hc) p hp)

/-- **C04, what is left over.** After a successful shutdown of the root no node of the tree is in any
state other than SHUTDOWN or UNINITIALIZED. -/
theorem c04_shutdown_leaves_nothing_active (n : Nat) (t : Tree n) (hf : Fresh n t) (hw : WF n t)
    (history : List Op)
    (h : ((ops n).run .shutdown (runs (ops n) history t).2).res.isOk = true) :
    ∀ p ∈ nodeStates n ((ops n).run .shutdown (runs (ops n) history t).2).node,
      p.2 = .shutdown ∨ p.2 = .uninitialized := by
  obtain ⟨h1, h2⟩ := runs_inv n history t hw (nestedInv_of_fresh n t hf)
  exact allNodes_of_used n _ ((nested_shutdown n).1 .shutdown _ h1 h2)
    (c04_shutdown_reaches_all n t hf hw history h)

example : nodeStates 3 (runs (ops 3) [.setup, .tick, .untick, .shutdown] samplePar).2 =
    [(1, .shutdown), (2, .shutdown), (3, .shutdown), (4, .shutdown), (5, .shutdown),
     (6, .shutdown), (7, .shutdown)] := by decide

/-- The exception is real: a Subtree that is shut down before any setup. -/
example : nodeStates 2 ((ops 2).run .shutdown (mk 1 1 .subtree [mkLeaf 0 2 []])).node =
    [(1, .shutdown), (2, .uninitialized)] := by decide

end Verif.BT
