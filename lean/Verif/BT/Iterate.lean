import Verif.BT.Counts

/-!
# C23, C24: Optional and IterateList
-/

set_option autoImplicit false

namespace Verif.BT

variable {N : Type}

/-! ### C23: Optional -/

/-- Specification: could the child execute at the last setup? -/
def usableStep (σ : Bool) (x : Step) : Bool :=
  if x.res ≠ .err ∧ x.op = .setup then x.env.flag else σ

/-- Did the child of the Optional report at the last successful setup in a record that it can
execute? -/
def usable (xs : List Step) : Bool := xs.foldl usableStep false

/-- The calls of an operation other than shutdown are those of the hook, or there are none. -/
theorem run_log (o : Ops N) (op : Op) (hop : op ≠ .shutdown) (nd : Node N) (P : List Call → Prop)
    (h0 : P []) (h1 : accepts op nd.state = true →
      P (exec o (hookProg nd.kind op nd.state nd.mem (nd.env nd.ctr)
        (nd.children.map o.name)) nd.children).log) : P (nd.run o op).log := by
  apply run_cases o op nd (P := fun out => P out.log)
  · intro _; exact h0
  · intro _ _ _; exact h0
  · intro x hx ha _ _; subst hx; exact h1 ha
  · intro x s hx ha _ _ _; subst hx; exact h1 ha
  · intro x s _ hx ha _ _ _; subst hx; exact h1 ha
  · intro h; exact absurd h hop
  · intro x h; exact absurd h hop

/-- How the attribute relates to the record, for an Optional with `c` children. -/
def UsableRel (c : Nat) (σ : Bool) (m : Mem) : Prop :=
  m.execChild = (σ && decide (c ≠ 0))

theorem usable_step (c : Nat) (σ : Bool) (op : Op) (prev : BTState) (m : Mem) (e : Env)
    (names : List Nat) (st : List BTState) (hop : op ≠ .shutdown) (hl : st.length = names.length)
    (hc : names.length = c) (h : op ≠ .setup → UsableRel c σ m) :
    (hookProg .optional op prev m e names).PostS
      (fun _ l m' r => ∀ s, r = .ok s → UsableRel c (usableStep σ ⟨op, e, .ok s, l⟩) m') st := by
  by_cases hs : op = .setup
  · subst hs
    simp only [hookProg, setupHook]
    split
    · rename_i h0
      intro s _
      have : c = 0 := by omega
      simp [UsableRel, this]
    · rename_i h0
      have hc0 : c ≠ 0 := by omega
      split
      · split
        · rename_i hf
          apply postS_onHead _ _ _ _ _ _ _ hl
          · intro h; exact absurd h h0
          · intro _ _ _ _ s _
            simp [UsableRel, usableStep, hf, hc0]
        · rename_i hf
          intro s _
          simp [UsableRel, usableStep, hf]
      · intro s hs; cases hs
  · have hm := h hs
    have e1 : ∀ s l, usableStep σ ⟨op, e, .ok s, l⟩ = σ := by simp [usableStep, hs]
    simp only [e1]
    cases op with
    | setup => exact absurd rfl hs
    | shutdown => exact absurd rfl hop
    | tick =>
      simp only [hookProg, tickHook]
      split
      · rename_i hx
        have : c ≠ 0 := by
          rw [UsableRel, hx] at hm
          simpa using (Bool.and_eq_true_iff.1 hm.symm).2
        exact ⟨by omega, fun _ _ _ _ _ => hm⟩
      · exact fun _ _ => hm
    | untick =>
      simp only [hookProg, untickHook]
      split
      · rename_i hx
        have : c ≠ 0 := by
          rw [UsableRel, hx] at hm
          simpa using (Bool.and_eq_true_iff.1 hm.symm).2
        exact ⟨by omega, fun _ _ _ _ _ => hm⟩
      · exact fun _ _ => hm
    | reset =>
      simp only [hookProg, resetHook]
      split
      · rename_i hx
        have : c ≠ 0 := by
          rw [UsableRel, hx] at hm
          simpa using (Bool.and_eq_true_iff.1 hm.symm).2
        exact ⟨by omega, fun _ _ _ _ _ => hm⟩
      · exact fun _ _ => hm

theorem unusable_log (o : Ops N) (c : Nat) (nd : Node N) (ht : Tracked .optional c (UsableRel c false) nd)
    (op : Op) (hop : op = .tick ∨ op = .untick ∨ op = .reset) : (nd.run o op).log = [] := by
  refine run_log o op (by rcases hop with rfl | rfl | rfl <;> simp) _ (fun l => l = []) rfl ?_
  intro hacc
  have hm : nd.mem.execChild = false := by
    simpa [UsableRel] using ht.rel (by rcases hop with rfl | rfl | rfl <;> exact hacc)
  rw [ht.kind]
  rcases hop with rfl | rfl | rfl <;>
    simp only [hookProg, tickHook, untickHook, resetHook, hm, Bool.false_eq_true, if_false, exec_done]

theorem optional_tracked (n : Nat) (t : Tree (n + 1)) (hk : rootKind n t = .optional)
    (hf : Fresh (n + 1) t) (history : List Op) :
    Tracked (N := Tree n) .optional (rootChildren n t).length
      (UsableRel (rootChildren n t).length (usable (steps (ops n) history t)))
      (runs (ops (n + 1)) history t).2 :=
  track_runs (ops n) (ops_sound n) .optional _ (by simp) usableStep
    (UsableRel (rootChildren n t).length) (fun σ op e l => by simp [usableStep])
    (fun σ op prev m e names st hop hl hc _ hm => usable_step _ σ op prev m e names st hop hl hc hm)
    history false t (tracked_fresh n .optional _ t hk hf)

/-- **C23.** Take a freshly created Optional over any child and any history of operations with any
outcome after which the last successful setup has found that the child cannot execute. Then a
tick, untick or reset makes no call to the child, and a tick that answers `Ok` answers SUCCEEDED. -/
theorem c23_unusable_child_untouched (n : Nat) (t : Tree (n + 1)) (hk : rootKind n t = .optional)
    (hf : Fresh (n + 1) t) (history : List Op)
    (hu : usable (steps (ops n) history t) = false) (op : Op)
    (hop : op = .tick ∨ op = .untick ∨ op = .reset) :
    ((ops (n + 1)).run op (runs (ops (n + 1)) history t).2).log = [] ∧
    (op = .tick → ∀ s, ((ops (n + 1)).run op (runs (ops (n + 1)) history t).2).res = .ok s →
      s = .succeeded) := by
  have ht := optional_tracked n t hk hf history
  rw [hu] at ht
  refine ⟨?_, ?_⟩
  · exact unusable_log (ops n) _ _ ht op hop
  · rintro rfl s hs
    refine tracked_tick n .optional _ _ _ ht (fun _ _ s => s = .succeeded) ?_ s hs
    intro prev m e names st hm _ _
    have hm : m.execChild = false := by simpa [UsableRel] using hm
    simp only [tickHook, hm, Bool.false_eq_true, if_false]
    intro s hs
    cases hs
    rfl

/-- **C23**, the setup itself: an Optional whose child cannot execute does not call it either. -/
theorem c23_setup_skips_child (n : Nat) (t : Tree (n + 1)) (hk : rootKind n t = .optional)
    (hu : (nextEnv n t).flag = false) : ((ops (n + 1)).run .setup t).log = [] := by
  refine run_log (ops n) .setup (by simp) t (fun l => l = []) rfl ?_
  intro _
  have hk' : Node.kind (N := Tree n) t = .optional := hk
  have hu' : (Node.env (N := Tree n) t (Node.ctr (N := Tree n) t)).flag = false := hu
  rw [hk']
  simp only [hookProg, setupHook, hu', Bool.false_eq_true, if_false]
  split
  · rfl
  · split <;> rfl

/-- An Optional whose child cannot execute at first and can at the second setup. -/
def sampleOptional : Tree 2 :=
  mk 1 1 .optional [mkLeaf 0 2 [.ok .shutdown, .ok .idle, .ok .running]]
    (fun i => { flag := decide (3 ≤ i) })

example : rootKind 1 sampleOptional = .optional ∧ Fresh 2 sampleOptional ∧
    usable (steps (ops 1) [.setup, .tick] sampleOptional) = false ∧
    (runs (ops 2) [.setup, .tick, .shutdown, .setup, .tick] sampleOptional).1.map
      (fun x => (x.res, x.log.length)) =
      [(.ok .idle, 0), (.ok .succeeded, 0), (.ok .shutdown, 0), (.ok .idle, 1), (.ok .running, 1)] := by
  decide

/-! ### C24: IterateList -/

/-- Where an IterateList is: the item it is at, whether the item has been on the output for one
tick already, and the length of the list at the last tick (with a non-empty list) since setup or
reset. -/
structure Cursor where
  idx : Nat
  shown : Bool
  len : Option Nat
  deriving DecidableEq

/-- The cursor a tick works with: a changed input list starts from the first item. -/
def Cursor.begin (σ : Cursor) (e : Env) : Cursor := if e.flag then ⟨0, false, none⟩ else σ

/-- The cursor after an item has been dealt with. -/
def Cursor.next (σ : Cursor) (e : Env) : Cursor :=
  if σ.idx + 1 = e.listLen then ⟨0, false, some e.listLen⟩ else ⟨σ.idx + 1, false, some e.listLen⟩

/-- Specification of the movement of the cursor with `c` children. -/
def cursorStep (c : Nat) (σ : Cursor) (x : Step) : Cursor :=
  if x.res = .err then σ
  else match x.op with
    | .setup | .reset => ⟨0, false, none⟩
    | .tick =>
      let σ := σ.begin x.env
      if x.env.listLen = 0 then σ
      else if c = 0 then { σ.next x.env with shown := σ.shown }
      else if σ.shown = false then { σ with shown := true, len := some x.env.listLen }
      else if x.childSaid .succeeded then σ.next x.env
      else { σ with len := some x.env.listLen }
    | _ => σ

/-- The cursor after a record. -/
def cursor (c : Nat) (xs : List Step) : Cursor := xs.foldl (cursorStep c) ⟨0, false, none⟩

/-- What is answered once the current item is done. -/
def afterItem (idx len : Nat) : BTState := if idx + 1 = len then .succeeded else .running

/-- Specification of a tick of IterateList with `c` children; `item` is the index of the item on
the output afterwards. -/
def IterTick (c : Nat) (σ : Cursor) (e : Env) (l : List Call) (item : Option Nat) (s : BTState) :
    Prop :=
  if e.listLen = 0 then l = [] ∧ s = .succeeded
  else σ.idx < e.listLen ∧ item = some σ.idx ∧
    if c = 0 then l = [] ∧ s = afterItem σ.idx e.listLen
    else if σ.shown = false then l = [] ∧ s = .running
    else ∃ a, l = [⟨.tick, 0, .ok a⟩] ∧
      s = if a = .succeeded then afterItem σ.idx e.listLen else if a = .failed then .failed else .running

/-- How the attributes relate to the record. -/
def CursorRel (c : Nat) (σ : Cursor) (m : Mem) : Prop :=
  m.counter = σ.idx ∧ (c ≠ 0 → m.outChanged = !σ.shown) ∧
  (σ.idx ≠ 0 → ∃ L, σ.len = some L ∧ σ.idx < L)

theorem cursorRel_start (c : Nat) (m : Mem) (h1 : m.counter = 0) (h2 : m.outChanged = true)
    (l : Option Nat) : CursorRel c ⟨0, false, l⟩ m := ⟨h1, fun _ => by simp [h2], by simp⟩

/-- The list may differ from the one at the last tick only if the input is marked as updated. -/
def Steady (σ : Cursor) (e : Env) : Prop := e.flag = true ∨ σ.len = none ∨ σ.len = some e.listLen

theorem iterate_tick (c : Nat) (σ : Cursor) (m : Mem) (e : Env) (names : List Nat) (prev : BTState)
    (st : List BTState) (hl : st.length = names.length) (hc : names.length = c)
    (h : CursorRel c σ m) :
    (tickHook .iterateList prev m e names).PostS
      (fun _ l m' r => (∀ s, r = .ok s → IterTick c (σ.begin e) e l m'.item s ∧
        CursorRel c (cursorStep c σ ⟨.tick, e, .ok s, l⟩) m') ∧
        (r = .err → Steady σ e → e.cfgOk = false ∨ e.outOk = false ∨ ∃ x ∈ l, x.res = .err)) st := by
  simp only [tickHook]
  split
  · have hm : CursorRel c (σ.begin e) (if e.flag then { m with outChanged := true, counter := 0 } else m) ∧
        (Steady σ e → (σ.begin e).len = none ∨ (σ.begin e).len = some e.listLen) := by
      unfold Cursor.begin Steady
      cases e.flag with
      | true => exact ⟨cursorRel_start c _ rfl rfl _, fun _ => Or.inl rfl⟩
      | false => exact ⟨h, by simp⟩
    obtain ⟨hm, hst⟩ := hm
    generalize (if e.flag = true then { m with outChanged := true, counter := 0 } else m) = m' at hm ⊢
    have hstep : ∀ s l, cursorStep c σ ⟨.tick, e, .ok s, l⟩ =
        if e.listLen = 0 then σ.begin e
        else if c = 0 then { (σ.begin e).next e with shown := (σ.begin e).shown }
        else if (σ.begin e).shown = false then { σ.begin e with shown := true, len := some e.listLen }
        else if (Step.mk .tick e (.ok s) l).childSaid .succeeded then (σ.begin e).next e
        else { σ.begin e with len := some e.listLen } := by
      intro s l; simp [cursorStep]
    generalize cursorStep c σ = step at hstep ⊢
    generalize σ.begin e = τ at hm hst hstep ⊢
    obtain ⟨h1, h2, h3⟩ := hm
    unfold iterateTick
    split
    · rename_i h0
      refine ⟨fun s hs => ?_, fun hs => by cases hs⟩
      cases hs
      refine ⟨by simp [IterTick, h0], ?_⟩
      rw [hstep, if_pos h0]
      exact ⟨h1, h2, h3⟩
    · rename_i h0
      split
      · rename_i hout
        refine ⟨fun s hs => (by cases hs), fun _ hsteady => ?_⟩
        exfalso
        rw [h1] at hout
        obtain ⟨L, hL, hlt⟩ := h3 (by omega)
        rcases hst hsteady with h | h
        · rw [hL] at h; cases h
        · rw [hL] at h; cases h; omega
      · rename_i hin
        rw [h1] at hin
        have hin : τ.idx < e.listLen := by omega
        split
        · simp only
          split
          · rename_i hn
            have hc0 : c = 0 := by omega
            subst hc0
            rw [h1]
            split
            · rename_i hlast
              refine ⟨fun s hs => ?_, fun hs => by cases hs⟩
              cases hs
              refine ⟨by simp [IterTick, h0, hin, afterItem, hlast], ?_⟩
              simp only [hstep, h0, if_true, if_false, Cursor.next, hlast]
              exact ⟨rfl, fun h => absurd rfl h, fun h => absurd rfl h⟩
            · rename_i hlast
              refine ⟨fun s hs => ?_, fun hs => by cases hs⟩
              cases hs
              refine ⟨by simp [IterTick, h0, hin, afterItem, hlast], ?_⟩
              simp only [hstep, h0, if_true, if_false, Cursor.next, hlast]
              exact ⟨rfl, fun h => absurd rfl h, fun _ => ⟨_, rfl, by show τ.idx + 1 < _; omega⟩⟩
          · rename_i hn
            have hc0 : c ≠ 0 := by omega
            have h2 := h2 hc0
            rw [h2]
            split
            · rename_i hsh
              have hsh : τ.shown = false := by simpa using hsh
              refine ⟨fun s hs => ?_, fun hs => by cases hs⟩
              cases hs
              refine ⟨by simp [IterTick, h0, hin, hc0, hsh, h1], ?_⟩
              simp only [hstep, h0, hc0, if_false, hsh, if_true]
              exact ⟨h1, fun _ => rfl, fun _ => ⟨_, rfl, hin⟩⟩
            · rename_i hsh
              have hsh : τ.shown = true := by simpa using hsh
              refine ⟨by omega, fun r s' hr => ?_⟩
              cases r with
              | err =>
                exact ⟨fun s hs => (by cases hs),
                  fun _ _ => Or.inr (Or.inr ⟨_, List.mem_singleton.2 rfl, rfl⟩)⟩
              | ok a =>
                obtain ⟨rfl, _⟩ := hr a rfl
                simp only
                have hitem : ∀ s, (s = if s' = .succeeded then afterItem τ.idx e.listLen
                    else if s' = .failed then .failed else .running) →
                    IterTick c τ e [⟨.tick, 0, .ok s'⟩] (some τ.idx) s := by
                  intro s hs
                  simp only [IterTick, h0, hc0, if_false, hsh, Bool.true_eq_false]
                  exact ⟨hin, trivial, s', rfl, hs⟩
                have hother : s' ≠ .succeeded → ∀ s m'', m''.counter = τ.idx → m''.outChanged = false →
                    CursorRel c (step ⟨.tick, e, .ok s, [⟨.tick, 0, .ok s'⟩]⟩) m'' := by
                  intro hne s m'' hm1 hm2
                  have : (Step.mk .tick e (.ok s) [⟨.tick, 0, .ok s'⟩]).childSaid .succeeded = false := by
                    simp [Step.childSaid]; exact fun h => hne h.symm
                  simp only [hstep, h0, hc0, if_false, hsh, Bool.true_eq_false, this, Bool.false_eq_true]
                  exact ⟨hm1, fun _ => by simp [hm2], fun _ => ⟨_, rfl, hin⟩⟩
                have hsucc : ∀ s, (Step.mk .tick e (.ok s) [⟨.tick, 0, .ok .succeeded⟩]).childSaid
                    .succeeded = true := by intro s; simp [Step.childSaid]
                rw [h1]
                split
                · rename_i he
                  subst he
                  split
                  · rename_i hlast
                    refine ⟨fun s hs => ?_, fun hs => by cases hs⟩
                    cases hs
                    refine ⟨hitem _ (by simp [afterItem, hlast]), ?_⟩
                    simp only [hstep, h0, hc0, if_false, hsh, Bool.true_eq_false, hsucc, if_true, Cursor.next, hlast]
                    exact ⟨rfl, fun _ => rfl, fun h => absurd rfl h⟩
                  · rename_i hlast
                    refine ⟨fun s hs => ?_, fun hs => by cases hs⟩
                    cases hs
                    refine ⟨hitem _ (by simp [afterItem, hlast]), ?_⟩
                    simp only [hstep, h0, hc0, if_false, hsh, Bool.true_eq_false, hsucc, if_true, Cursor.next, hlast]
                    exact ⟨rfl, fun _ => rfl, fun _ => ⟨_, rfl, by show τ.idx + 1 < _; omega⟩⟩
                · rename_i hne
                  split
                  · rename_i hf
                    subst hf
                    refine ⟨fun s hs => ?_, fun hs => by cases hs⟩
                    cases hs
                    exact ⟨hitem _ (by simp), hother hne _ _ rfl (by simp [hsh])⟩
                  · rename_i hf
                    refine ⟨fun s hs => ?_, fun hs => by cases hs⟩
                    cases hs
                    exact ⟨hitem _ (by simp [hne, hf]), hother hne _ _ rfl (by simp [hsh])⟩
        · rename_i ho
          exact ⟨fun s hs => (by cases hs), fun _ _ => Or.inr (Or.inl (by simpa using ho))⟩
  · rename_i hcfg
    exact ⟨fun s hs => (by cases hs), fun _ _ => Or.inl (by simpa using hcfg)⟩

theorem iterate_step (c : Nat) (σ : Cursor) (op : Op) (prev : BTState) (m : Mem) (e : Env)
    (names : List Nat) (st : List BTState) (hop : op ≠ .shutdown) (hl : st.length = names.length)
    (hc : names.length = c) (h : op ≠ .setup → CursorRel c σ m) :
    (hookProg .iterateList op prev m e names).PostS
      (fun _ l m' r => ∀ s, r = .ok s → CursorRel c (cursorStep c σ ⟨op, e, .ok s, l⟩) m') st := by
  cases op with
  | shutdown => exact absurd rfl hop
  | tick =>
    exact postS_mono _ _ _ _ (fun _ _ _ _ _ hp s hs => (hp.1 s hs).2)
      (iterate_tick c σ m e names prev st hl hc (h (by simp)))
  | setup =>
    apply postS_onHead _ _ _ _ _ _ _ hl
    · intro _ s _; exact cursorRel_start c _ rfl rfl _
    · intro _ _ _ _ s _; exact cursorRel_start c _ rfl rfl _
  | untick =>
    obtain h := h (by simp)
    simp only [hookProg, untickHook, Prog.untickPaused, List.range_eq_range']
    apply postS_forAll _ _ _ _ _ _ _ (by omega)
    · intro _ _ _ _ _ s hs; cases hs
    · intro _ _ _ _ _ _ s _; exact h
  | reset =>
    apply postS_onHead _ _ _ _ _ _ _ hl
    · intro _ s _; exact cursorRel_start c _ rfl rfl _
    · intro _ _ _ _ s _; exact cursorRel_start c _ rfl rfl _

theorem iterate_tracked (n : Nat) (t : Tree (n + 1)) (hk : rootKind n t = .iterateList)
    (hf : Fresh (n + 1) t) (history : List Op) :
    Tracked (N := Tree n) .iterateList (rootChildren n t).length
      (CursorRel (rootChildren n t).length
        (cursor (rootChildren n t).length (steps (ops n) history t)))
      (runs (ops (n + 1)) history t).2 :=
  track_runs (ops n) (ops_sound n) .iterateList _ (by simp) (cursorStep (rootChildren n t).length)
    (CursorRel (rootChildren n t).length) (fun σ op e l => by simp [cursorStep])
    (fun σ op prev m e names st hop hl hc _ hm => iterate_step _ σ op prev m e names st hop hl hc hm)
    history ⟨0, false, none⟩ t (tracked_fresh n .iterateList _ t hk hf)

/-- Index of the item on the output `list_item`. -/
def shownItem (n : Nat) (t : Tree (n + 1)) : Option Nat := (Node.mem (N := Tree n) t).item

/-- **C24.** Take a freshly created IterateList over any child and any history of operations with any
outcome. A following tick that answers `Ok(s)` behaves as `IterTick` says for the cursor computed from
the record: the item at the cursor, which lies inside the list, is on the output; the child is
ticked once the item has been there for a tick; when it succeeds the cursor moves on by one and the
answer is RUNNING, or SUCCEEDED after the last item; when it fails the answer is FAILED and the cursor
stays. -/
theorem c24_iterate (n : Nat) (t : Tree (n + 1)) (hk : rootKind n t = .iterateList)
    (hf : Fresh (n + 1) t) (history : List Op) (s : BTState)
    (h : ((ops (n + 1)).run .tick (runs (ops (n + 1)) history t).2).res = .ok s) :
    let e := nextEnv n (runs (ops (n + 1)) history t).2
    let c := (rootChildren n t).length
    IterTick c ((cursor c (steps (ops n) history t)).begin e) e
      ((ops (n + 1)).run .tick (runs (ops (n + 1)) history t).2).log
      (shownItem n ((ops (n + 1)).run .tick (runs (ops (n + 1)) history t).2).node) s :=
  tracked_ok (ops n) (ops_sound n) .iterateList _ _ _ (iterate_tracked n t hk hf history) .tick
    (by simp)
    (fun _ l m r => ∀ s, r = .ok s → IterTick (rootChildren n t).length
      ((cursor (rootChildren n t).length (steps (ops n) history t)).begin
        (nextEnv n (runs (ops (n + 1)) history t).2)) (nextEnv n (runs (ops (n + 1)) history t).2)
      l m.item s)
    (fun m names st hm hl hc => postS_mono _ _ _ _ (fun _ _ _ _ _ hp s hs => (hp.1 s hs).1)
      (iterate_tick _ _ m _ names ((ops (n + 1)).state (runs (ops (n + 1)) history t).2) st hl hc hm))
    s h s rfl

theorem iterate_err (o : Ops N) (hs : Sound o) (c : Nat) (σ : Cursor) (nd : Node N)
    (ht : Tracked .iterateList c (CursorRel c σ) nd) (hal : alive nd.state = true)
    (h1 : (nd.env nd.ctr).inputsOk = true) (h2 : (nd.env nd.ctr).cfgOk = true)
    (h3 : (nd.env nd.ctr).outOk = true) (h4 : (nd.env nd.ctr).pushOk = true)
    (hst : Steady σ (nd.env nd.ctr)) (hr : (nd.run o .tick).res = .err) :
    ∃ x ∈ (nd.run o .tick).log, x.res = .err := by
  revert hr
  apply run_cases o .tick nd (P := fun out => out.res = .err → ∃ x ∈ out.log, x.res = .err)
  · intro h; simp [alive] at hal; rw [hal] at h; cases h
  · intro _ _ h; rw [h1] at h; cases h
  · intro x hx _ _ hr _
    have hr : x.res = .err := by
      rcases hr with h | ⟨_, _, _, _, h⟩
      · exact h
      · rw [h4] at h; cases h
    have := exec_postS o hs _ _ nd.children (iterate_tick c σ nd.mem (nd.env nd.ctr)
      (nd.children.map o.name) nd.state (nd.children.map o.state) (by simp)
      (by simpa using ht.count) (ht.rel hal))
    have hx' : x = exec o (tickHook .iterateList nd.state nd.mem (nd.env nd.ctr)
      (nd.children.map o.name)) nd.children := by rw [hx, ht.kind]; rfl
    rw [← hx'] at this
    rcases this.2 hr hst with h | h | h
    · rw [h2] at h; cases h
    · rw [h3] at h; cases h
    · exact h
  · intro x s hx _ _ hr hbad
    have := (hook_good o hs .tick nd (by rw [ht.kind]; simp) ht.cache (nd.env nd.ctr)).2 s
      (by rw [← hx]; exact hr)
    simp [hbad] at this
  · intro x s _ _ _ _ _ _ h; cases h
  · intro h; cases h
  · intro x h; cases h

/-- **C24**, no access outside the list: if the list is the one of the last tick or is marked as
updated, and inputs and outputs work, then a tick of a set-up IterateList fails only because its child
does. -/
theorem c24_never_outside (n : Nat) (t : Tree (n + 1)) (hk : rootKind n t = .iterateList)
    (hf : Fresh (n + 1) t) (history : List Op)
    (hal : alive ((ops (n + 1)).state (runs (ops (n + 1)) history t).2) = true)
    (he : let e := nextEnv n (runs (ops (n + 1)) history t).2
      e.inputsOk = true ∧ e.cfgOk = true ∧ e.outOk = true ∧ e.pushOk = true ∧
      Steady (cursor (rootChildren n t).length (steps (ops n) history t)) e)
    (hr : ((ops (n + 1)).run .tick (runs (ops (n + 1)) history t).2).res = .err) :
    ∃ x ∈ ((ops (n + 1)).run .tick (runs (ops (n + 1)) history t).2).log, x.res = .err :=
  iterate_err (ops n) (ops_sound n) _ _ _ (iterate_tracked n t hk hf history) hal he.1 he.2.1
    he.2.2.1 he.2.2.2.1 he.2.2.2.2 hr

/-- A list of two items over a child that succeeds, runs, succeeds. -/
def sampleIterate (lens : Nat → Nat) : Tree 2 :=
  mk 1 1 .iterateList [mkLeaf 0 2 [.ok .idle, .ok .succeeded, .ok .running, .ok .succeeded]]
    (fun i => { listLen := lens i })

example : rootKind 1 (sampleIterate fun _ => 2) = .iterateList ∧ Fresh 2 (sampleIterate fun _ => 2) ∧
    (runs (ops 2) [.setup, .tick, .tick, .tick, .tick, .tick] (sampleIterate fun _ => 2)).1.map
      (fun x => (x.res, x.log.length, shownItem 1 x.node)) =
      [(.ok .idle, 1, none), (.ok .running, 0, some 0), (.ok .running, 1, some 0),
       (.ok .running, 0, some 1), (.ok .running, 1, some 1), (.ok .succeeded, 1, some 1)] ∧
    cursor 1 (steps (ops 1) [.setup, .tick, .tick, .tick] (sampleIterate fun _ => 2)) =
      ⟨1, true, some 2⟩ := by decide

/-- The hypothesis `Steady` of `c24_never_outside` is needed: if the list is shortened behind the
back of the node (its elements removed in place), the tick fails. -/
theorem c24_shortened_list_fails :
    ∃ t : Tree 2, rootKind 1 t = .iterateList ∧ Fresh 2 t ∧
      (runs (ops 2) [.setup, .tick, .tick, .tick] t).1.map (·.res) =
        [.ok .idle, .ok .running, .ok .running, .err] :=
  ⟨sampleIterate fun i => if i < 3 then 2 else 1, by decide⟩

end Verif.BT
