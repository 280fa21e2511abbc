import Verif.BT.Switch
import Verif.BT.Par
import Verif.BT.Deep

/-!
# C18: a finished tree has nothing running
-/

set_option autoImplicit false

namespace Verif.BT

variable {N : Type}

/-! ### Specification -/

/-- What is asked of one node: its class is neither IgnoreRunning nor ThrottleSuccess (both finish
over a running child by design or by mistake), the name selected by a switch always belongs to one of
its children, the list of an IterateList is never empty and the clock of a Throttle does not run
backwards. -/
def CleanRoot (k : Kind) (env : Nat → Env) (names : List Nat) : Prop :=
  match k with
  | .ignoreRunning | .throttleSuccess => False
  | .nameSwitch | .enumSwitch => ∀ i, ∃ nm ∈ names, (env i).key = some nm
  | .iterateList => ∀ i, (env i).listLen ≠ 0
  | .throttle => ∀ i j, i ≤ j → (env i).now ≤ (env j).now
  | _ => True

/-- `CleanRoot` for every node of the tree. -/
def Clean : (n : Nat) → Tree n → Prop
  | 0, t => Empty.elim t
  | n + 1, t => CleanRoot (Node.kind (N := Tree n) t) (Node.env (N := Tree n) t)
      ((Node.children (N := Tree n) t).map (ops n).name) ∧
    ∀ c ∈ Node.children (N := Tree n) t, Clean n c

/-! ### The invariant -/

/-- IDLE, PAUSED, SUCCEEDED, FAILED, ASSIGNED or UNASSIGNED. -/
def calm : BTState → Bool
  | .idle | .paused | .succeeded | .failed | .assigned | .unassigned => true
  | _ => false

/-- `calm` or RUNNING. -/
def live (s : BTState) : Bool := calm s || s = .running

def AllCalm (st : List BTState) : Prop := ∀ a ∈ st, calm a = true

def CalmBelow (i : Nat) (st : List BTState) : Prop :=
  ∀ (j : Nat) (a : BTState), j < i → st[j]? = some a → calm a = true

theorem allCalm_iff (st : List BTState) :
    AllCalm st ↔ ∀ (j : Nat) (a : BTState), st[j]? = some a → calm a = true := by
  constructor
  · intro h j a hj; exact h a (List.mem_of_getElem? hj)
  · intro h a ha
    obtain ⟨j, hj, rfl⟩ := List.mem_iff_getElem.1 ha
    exact h j _ (List.getElem?_eq_getElem hj)

theorem calmBelow_all (i : Nat) (st : List BTState) (h : AllCalm st) : CalmBelow i st :=
  fun _ a _ ha => h a (List.mem_of_getElem? ha)

/-- What the attributes of a node in use satisfy. -/
def MemOk (k : Kind) (m : Mem) (names : List Nat) : Prop :=
  match k with
  | .repeatNoAutoReset => 0 ≤ m.count
  | .subtree => m.rootSet = true ↔ names ≠ []
  | .optional => m.execChild = true → names ≠ []
  | .nameSwitch | .enumSwitch => m.childMap = buildMap names
  | _ => True

/-- What else is known about the children of a node in use. -/
def Extra (k : Kind) (m : Mem) (names : List Nat) (st : List BTState) (env : Nat → Env) (ctr : Nat) :
    Prop :=
  match k with
  | .memSequence | .memFallback => CalmBelow m.lastRunning st
  | .repeatNoAutoReset => m.limit ≤ m.count → AllCalm st
  | .throttle =>
    (∃ i < ctr, m.lastTick.all (fun t => m.limit < (env i).now - t) = true) ∨ AllCalm st
  | .nameSwitch | .enumSwitch =>
    ∀ (i : Nat) (a : BTState), ¬ LastNamed names i → st[i]? = some a → calm a = true
  | _ => True

/-- The invariant of one node. -/
def Inside (k : Kind) (m : Mem) (s : BTState) (names : List Nat) (st : List BTState)
    (env : Nat → Env) (ctr : Nat) : Prop :=
  (calm s = true → idleOptional k m = false → AllCalm st) ∧
  (live s = true → MemOk k m names ∧ Extra k m names st env ctr)

theorem extra_of_calm (k : Kind) (m : Mem) (names : List Nat) (st : List BTState) (env : Nat → Env)
    (ctr : Nat) (h : AllCalm st) : Extra k m names st env ctr := by
  cases k <;> simp only [Extra]
  · exact calmBelow_all _ _ h
  · exact calmBelow_all _ _ h
  · intro i a _ ha; exact h a (List.mem_of_getElem? ha)
  · intro i a _ ha; exact h a (List.mem_of_getElem? ha)
  · intro _; exact h
  · exact Or.inr h

theorem calm_untick (s : BTState) (h : allowedAfter .untick s = true) : calm s = true := by
  cases s <;> simp_all [allowedAfter, calm]

theorem calm_of_allowed (op : Op) (hop : op ≠ .tick) (hop' : op ≠ .shutdown) (s : BTState)
    (h : allowedAfter op s = true) : calm s = true := by
  cases op <;> cases s <;> simp_all [allowedAfter, calm]

theorem calm_tick (s : BTState) (h : allowedAfter .tick s = true) (hr : s ≠ .running) : calm s = true := by
  cases s <;> simp_all [allowedAfter, calm]

/-! ### The loops -/

theorem calm_forAll_untick (m : Mem) (s0 : BTState) (len i : Nat) (st : List BTState)
    (hl : st.length = i + len) (hb : CalmBelow i st) :
    (Prog.forAll .untick m (List.range' i len) (.done m (.ok s0))).PostS
      (fun st' _ _ r => r ≠ .err → AllCalm st') st := by
  apply postS_forAll
  · exact hl
  · intro _ _ _ _ _ h; exact absurd rfl h
  · intro st' l _ _ h3 h4 _
    rw [allCalm_iff]
    intro j a hj
    by_cases hji : j < i
    · exact hb j a hji (by rw [← h3 j hji]; exact hj)
    · exact calm_untick _ (h4 j a (by omega) hj)

theorem calmBelow_set (i : Nat) (st : List BTState) (s : BTState) (h : CalmBelow i st)
    (hs : calm s = true) : CalmBelow (i + 1) (st.set i s) := by
  intro j a hj ha
  by_cases hji : j = i
  · subst hji
    have hlt := (List.getElem?_eq_some_iff.1 ha).1
    rw [List.getElem?_set_self (by simpa using hlt)] at ha
    cases ha
    exact hs
  · rw [List.getElem?_set_ne (fun e => hji e.symm)] at ha
    exact h j a (by omega) ha

theorem calmBelow_set_ge (i k : Nat) (st : List BTState) (s : BTState) (h : CalmBelow i st)
    (hk : i ≤ k) : CalmBelow i (st.set k s) := by
  intro j a hj ha
  rw [List.getElem?_set_ne (by omega)] at ha
  exact h j a hj ha

/-- Outcome of a pass of a Sequence or Fallback. -/
def PassCalm (b : Bool) : PostCond := fun st' _ m' r => ∀ s, r = .ok s →
  if s = .running then b = true → CalmBelow m'.lastRunning st' else AllCalm st'

theorem calm_seqLoop (b : Bool) (m : Mem) (len : Nat) : ∀ (i : Nat) (st : List BTState),
    st.length = i + len → CalmBelow i st →
    (Prog.seqLoop b m (List.range' i len)).PostS (PassCalm b) st := by
  induction len with
  | zero =>
    intro i st hl hb s hs
    cases hs
    simp only [reduceCtorEq, if_false]
    rw [allCalm_iff]
    intro j a hj
    exact hb j a (by have := (List.getElem?_eq_some_iff.1 hj).1; omega) hj
  | succ len ih =>
    intro i st hl hb
    rw [List.range'_succ]
    refine ⟨by omega, fun r s' hs => ?_⟩
    cases r with
    | err => intro s h; cases h
    | ok s =>
      obtain ⟨rfl, hal⟩ := hs s rfl
      simp only
      split
      · rename_i hsucc
        subst hsucc
        exact postS_mono _ _ _ _ (fun _ _ _ _ _ h => h)
          (ih (i + 1) _ (by simp; omega) (calmBelow_set i st _ hb rfl))
      · split
        · rename_i hrun
          subst hrun
          intro s hs
          cases hs
          simp only [if_true]
          intro hbt
          simp only [hbt, if_true]
          exact calmBelow_set_ge i i st _ hb (Nat.le_refl _)
        · rename_i hrun
          refine postS_mono _ _ _ _ ?_ (postS_and _ _ _ _
            (calm_forAll_untick m s' len (i + 1) (st.set i s') (by simp; omega)
              (calmBelow_set i st _ hb (calm_tick _ hal hrun)))
            (postS_forAll .untick m (.done m (.ok s')) len (i + 1)
              (fun _ _ _ r => ∀ s, r = .ok s → s = s') (st.set i s') (by simp; omega)
              (fun _ _ _ _ _ s h => by cases h) (fun _ _ _ _ _ _ s h => by cases h; rfl)))
          rintro st' l m' r _ ⟨h1, h2⟩ s2 hs2
          have := h2 s2 hs2
          subst this
          simp only [hrun, if_false]
          exact h1 (by rw [hs2]; simp)

theorem calm_fbLoop (b : Bool) (m : Mem) (len : Nat) : ∀ (i : Nat) (st : List BTState),
    st.length = i + len → CalmBelow i st →
    (Prog.fbLoop b m (List.range' i len)).PostS (PassCalm b) st := by
  induction len with
  | zero =>
    intro i st hl hb s hs
    cases hs
    simp only [reduceCtorEq, if_false]
    rw [allCalm_iff]
    intro j a hj
    exact hb j a (by have := (List.getElem?_eq_some_iff.1 hj).1; omega) hj
  | succ len ih =>
    intro i st hl hb
    rw [List.range'_succ]
    refine ⟨by omega, fun r s' hs => ?_⟩
    cases r with
    | err => intro s h; cases h
    | ok s =>
      obtain ⟨rfl, hal⟩ := hs s rfl
      simp only
      split
      · rename_i hrun
        subst hrun
        intro s hs
        cases hs
        simp only [if_true]
        intro hbt
        simp only [hbt, if_true]
        exact calmBelow_set_ge i i st _ hb (Nat.le_refl _)
      · rename_i hrun
        have hb' := calmBelow_set i st _ hb (calm_tick _ hal hrun)
        split
        · refine postS_mono _ _ _ _ ?_ (postS_and _ _ _ _
            (calm_forAll_untick m s' len (i + 1) (st.set i s') (by simp; omega) hb')
            (postS_forAll .untick m (.done m (.ok s')) len (i + 1)
              (fun _ _ _ r => ∀ s, r = .ok s → s = s') (st.set i s') (by simp; omega)
              (fun _ _ _ _ _ s h => by cases h) (fun _ _ _ _ _ _ s h => by cases h; rfl)))
          rintro st' l m' r _ ⟨h1, h2⟩ s2 hs2
          have := h2 s2 hs2
          subst this
          simp only [hrun, if_false]
          exact h1 (by rw [hs2]; simp)
        · exact postS_mono _ _ _ _ (fun _ _ _ _ _ h => h)
            (ih (i + 1) _ (by simp; omega) hb')

/-- Same with the resets and a start in the middle. -/
theorem calm_pass (b : Bool) (loop : Bool → Mem → List Nat → Prog)
    (hloop : ∀ (m : Mem) (len i : Nat) (st : List BTState), st.length = i + len → CalmBelow i st →
      (loop b m (List.range' i len)).PostS (PassCalm b) st)
    (hnil : ∀ m, (loop b m [] : Prog) = .done m (.ok .succeeded) ∨
      (loop b m [] : Prog) = .done m (.ok .failed))
    (m : Mem) (prev : BTState) (n i : Nat) (st : List BTState) (hl : st.length = n)
    (hb : CalmBelow i st) :
    (Prog.resetIfFinished n prev m (loop b m ((List.range n).drop i))).PostS (PassCalm b) st := by
  apply postS_resetIfFinished _ _ _ _ _ _ hl
  · intro _ _ _ s h; cases h
  · intro st' l h1 _ h3 h4
    have hb' : CalmBelow i st' := by
      cases hf : finished prev with
      | false => rw [h3 hf]; exact hb
      | true =>
        intro j a _ ha
        rw [h4 hf a (List.mem_of_getElem? ha)]
        rfl
    rw [drop_range]
    by_cases hi : i ≤ n
    · exact postS_mono _ _ _ _ (fun _ _ _ _ _ h => h) (hloop m (n - i) i st' (by omega) hb')
    · have hz : n - i = 0 := by omega
      rw [hz]
      have hall : AllCalm st' := by
        rw [allCalm_iff]
        intro j a hj
        exact hb' j a (by have := (List.getElem?_eq_some_iff.1 hj).1; omega) hj
      rcases hnil m with h | h
      · simp only [List.range'_zero, h]
        intro s hs
        cases hs
        exact hall
      · simp only [List.range'_zero, h]
        intro s hs
        cases hs
        exact hall

theorem calm_finished (s : BTState) (h : finished s = true) : calm s = true := by
  cases s <;> simp_all [finished, calm]

theorem calm_parTick (m : Mem) (n : Nat) (prev : BTState) (st : List BTState)
    (win lose : Nat → Prop) [DecidablePred win] [DecidablePred lose] (hl : st.length = n) :
    (Prog.resetIfFinished n prev m <| Prog.parLoop m (fun s f =>
      if win s then Prog.parFinish m .succeeded (List.range n)
      else if lose f then Prog.parFinish m .failed (List.range n)
      else .done m (.ok .running)) (List.range n) (0, 0)).PostS
      (fun st' _ _ r => ∀ s, r = .ok s → calm s = true → AllCalm st') st := by
  have hfin : ∀ (res : BTState) (st2 : List BTState), st2.length = n →
      (Prog.parFinish m res (List.range' 0 n)).PostS
        (fun st' _ _ r => ∀ s, r = .ok s → calm s = true → AllCalm st') st2 := by
    intro res st2 h2
    apply postS_parFinish m res n n 0 st2 _ h2 (by omega)
    · intro _ _ _ s h; cases h
    · intro st' l h1 _ _ h4 h5 s _ _
      rw [allCalm_iff]
      intro j a hj
      have hj2 : j < st2.length := by
        have := (List.getElem?_eq_some_iff.1 hj).1
        omega
      by_cases hf : finished st2[j] = true
      · have := h4 j _ (List.getElem?_eq_getElem hj2) hf
        rw [hj] at this
        cases this
        exact calm_finished _ hf
      · have := h5 j _ (by omega) (List.getElem?_eq_getElem hj2) (by simpa using hf)
        rw [hj] at this
        rcases this with h | h <;> cases h <;> rfl
  apply postS_resetIfFinished _ _ _ _ _ _ hl
  · intro _ _ _ s h; cases h
  · intro st1 l0 h1 _ _ _
    rw [List.range_eq_range']
    apply postS_parLoop m _ n n 0 _ _ _ h1 (by omega)
    · intro _ _ _ _ s h; cases h
    · intro st2 l1 g1 _ _ _
      split
      · exact postS_mono _ _ _ _ (fun _ _ _ _ _ h => h) (hfin .succeeded st2 g1)
      · split
        · exact postS_mono _ _ _ _ (fun _ _ _ _ _ h => h) (hfin .failed st2 g1)
        · intro s hs hc
          cases hs
          cases hc

/-! ### Ticks -/

theorem singleton_of (st : List BTState) (h1 : st.length ≤ 1) (h0 : ¬ st.length = 0) :
    ∃ a, st = [a] := by
  match st, h1, h0 with
  | [a], _, _ => exact ⟨a, rfl⟩

theorem allCalm_nil : AllCalm [] := by intro a h; cases h

theorem allCalm_one (a : BTState) : AllCalm [a] ↔ calm a = true := by
  simp [AllCalm]

/-- Outcome of a tick: the invariant holds again. -/
def TickPost (k : Kind) (names : List Nat) (env : Nat → Env) (ctr : Nat) : PostCond :=
  fun st' _ m' r => ∀ s, r = .ok s → Inside k m' s names st' env ctr

/-- For classes about which nothing but the states of the children is to be known. -/
theorem tickPost_plain (k : Kind) (names : List Nat) (env : Nat → Env) (ctr : Nat) (p : Prog)
    (st : List BTState)
    (hM : ∀ m, MemOk k m names) (hE : ∀ m st, Extra k m names st env ctr)
    (h : p.PostS (fun st' _ _ r => ∀ s, r = .ok s → calm s = true → AllCalm st') st) :
    p.PostS (TickPost k names env ctr) st :=
  postS_mono _ _ _ _ (fun _ _ _ _ _ h s hs => ⟨fun hc _ => h s hs hc, fun _ => ⟨hM _, hE _ _⟩⟩) h

/-- A decorator that maps the answer of its child without hiding RUNNING. -/
theorem calm_onHead (n : Nat) (m : Mem) (f : BTState → BTState) (d : BTState) (st : List BTState)
    (hl : st.length = n) (h1 : st.length ≤ 1) (hf : f .running = .running) :
    (Prog.onHead n .tick m f d).PostS
      (fun st' _ _ r => ∀ s, r = .ok s → calm s = true → AllCalm st') st := by
  unfold Prog.onHead
  split
  · rename_i h0
    have : st = [] := List.length_eq_zero_iff.1 (by omega)
    subst this
    intro _ _ _; exact allCalm_nil
  · rename_i h0
    obtain ⟨a, rfl⟩ := singleton_of st h1 (by omega)
    refine ⟨by simp, fun r s' hs => ?_⟩
    intro s hr hc
    cases r with
    | err => cases hr
    | ok s0 =>
      obtain ⟨rfl, hal⟩ := hs s0 rfl
      rw [List.set_cons_zero, allCalm_one]
      apply calm_tick _ hal
      rintro rfl
      simp only [Res.map, hf, Res.ok.injEq] at hr
      rw [← hr] at hc
      cases hc

theorem calm_tickResetOn (n : Nat) (on : BTState) (m : Mem) (st : List BTState)
    (hl : st.length = n) (h1 : st.length ≤ 1) :
    (Prog.tickResetOn n on m).PostS
      (fun st' _ _ r => ∀ s, r = .ok s → calm s = true → AllCalm st') st := by
  unfold Prog.tickResetOn
  split
  · have : st = [] := List.length_eq_zero_iff.1 (by omega)
    subst this
    intro _ _ _; exact allCalm_nil
  · obtain ⟨a, rfl⟩ := singleton_of st h1 (by omega)
    refine ⟨by simp, fun r s' hs => ?_⟩
    cases r with
    | err => intro s h; cases h
    | ok s0 =>
      obtain ⟨rfl, hal⟩ := hs s0 rfl
      simp only
      split
      · refine ⟨by simp, fun r s2 hs2 => ?_⟩
        intro s h hc
        cases r with
        | err => cases h
        | ok s3 =>
          cases h
          cases hc
      · intro s h hc
        cases h
        rw [List.set_cons_zero, allCalm_one]
        exact hc

/-- Pass the tick on to the child. -/
theorem calm_call (m : Mem) (st : List BTState) (h1 : st.length = 1) :
    (Prog.call .tick 0 fun r => .done m r).PostS
      (fun st' _ _ r => ∀ s, r = .ok s → calm s = true → AllCalm st') st := by
  obtain ⟨a, rfl⟩ := singleton_of st (by omega) (by omega)
  refine ⟨by simp, fun r s' hs => ?_⟩
  intro s h hc
  obtain ⟨rfl, _⟩ := hs s h
  rw [List.set_cons_zero, allCalm_one]
  exact hc

/-- As `tickPost_plain`, for hooks that keep the attributes. -/
theorem tickPost_plain' (k : Kind) (names : List Nat) (env : Nat → Env) (ctr : Nat) (p : Prog)
    (m : Mem) (st : List BTState) (hM : ∀ _ : Unit, MemOk k m names)
    (hE : ∀ m st, Extra k m names st env ctr)
    (h : p.PostS (fun st' _ m' r => m' = m ∧ ∀ s, r = .ok s → calm s = true → AllCalm st') st) :
    p.PostS (TickPost k names env ctr) st := by
  refine postS_mono _ _ _ _ ?_ h
  rintro _ _ _ _ _ ⟨rfl, h'⟩ s hs
  exact ⟨fun hc _ => h' s hs hc, fun _ => ⟨hM (), hE _ _⟩⟩

theorem calm_call' (m : Mem) (st : List BTState) (h1 : st.length = 1) :
    (Prog.call .tick 0 fun r => .done m r).PostS
      (fun st' _ m' r => m' = m ∧ ∀ s, r = .ok s → calm s = true → AllCalm st') st := by
  obtain ⟨a, rfl⟩ := singleton_of st (by omega) (by omega)
  refine ⟨by simp, fun r s' hs => ⟨rfl, ?_⟩⟩
  intro s h hc
  obtain ⟨rfl, _⟩ := hs s h
  rw [List.set_cons_zero, allCalm_one]
  exact hc

theorem clean_switch (k : Kind) (m : Mem) (prev : BTState) (names : List Nat) (st : List BTState)
    (env : Nat → Env) (ctr : Nat) (hl : st.length = names.length)
    (hk : k = .nameSwitch ∨ k = .enumSwitch)
    (hclean : ∀ i, ∃ nm ∈ names, (env i).key = some nm)
    (hM : m.childMap = buildMap names)
    (hE : ∀ (i : Nat) (a : BTState), ¬ LastNamed names i → st[i]? = some a → calm a = true) :
    (tickHook k prev m (env ctr) names).PostS (TickPost k names env (ctr + 1)) st := by
  obtain ⟨hnd, hmem⟩ := buildMap_spec names
  obtain ⟨nm, hnm, hkey⟩ := hclean ctr
  obtain ⟨j, hj, hlast⟩ := exists_last names nm hnm
  have hg : dictGet (buildMap names) nm = some j := (dictGet_eq _ hnd nm j).2 ((hmem nm j).2 ⟨hj, hlast⟩)
  have key : (tickHook .nameSwitch prev m (env ctr) names).PostS (fun st' _ m' r => ∀ s, r = .ok s →
      m' = m ∧ (∀ (i : Nat) (a : BTState), ¬ LastNamed names i → st'[i]? = some a → calm a = true) ∧
      (calm s = true → AllCalm st')) st := by
    simp only [tickHook, hkey, hM, hg]
    split
    · apply postS_resetIfFinished _ _ _ _ _ _ hl
      · intro _ _ _ s h; cases h
      · intro st1 l0 hl1 _ hr0 hr1
        have hE1 : ∀ (i : Nat) (a : BTState), ¬ LastNamed names i → st1[i]? = some a →
            calm a = true := by
          intro i a hn ha
          cases hf : finished prev with
          | false => rw [hr0 hf] at ha; exact hE i a hn ha
          | true => rw [hr1 hf a (List.mem_of_getElem? ha)]; rfl
        apply postS_untickOthers
        · rintro ⟨a, b⟩ hp
          rw [hl1]
          exact ((hmem a b).1 hp).2.1
        · intro _ _ _ s h; cases h
        · intro st2 l1 h1 h2 h3 h4 h5
          refine ⟨by rw [h1, hl1]; exact hlast.1, fun r s' hs => ?_⟩
          intro s h
          obtain ⟨rfl, hal⟩ := hs s h
          have hothers : ∀ (i : Nat) (a : BTState), i ≠ j → (st2.set j s')[i]? = some a →
              calm a = true := by
            intro i a hij ha
            rw [List.getElem?_set_ne (fun e => hij e.symm)] at ha
            by_cases hin : i ∈ ((buildMap names).filter (fun p => p.1 ≠ nm)).map (·.2)
            · rcases h4 i a hin ha with rfl | rfl <;> rfl
            · have hi : i < names.length := by
                have := (List.getElem?_eq_some_iff.1 ha).1
                omega
              rw [h5 i hin] at ha
              apply hE1 i a _ ha
              intro hla
              apply hin
              have hni : names[i] ≠ nm := by
                intro e
                have h1 := (hmem nm i).2 ⟨by rw [List.getElem?_eq_getElem hi, e], hla⟩
                have := (dictGet_eq _ hnd nm i).2 h1
                rw [hg] at this
                exact hij (Option.some.inj this).symm
              exact List.mem_map.2 ⟨(names[i], i), List.mem_filter.2
                ⟨(hmem _ i).2 ⟨List.getElem?_eq_getElem hi, hla⟩, by simpa using hni⟩, rfl⟩
          refine ⟨rfl, ?_, ?_⟩
          · intro i a hn ha
            exact hothers i a (by rintro rfl; exact hn hlast) ha
          · intro hcs
            rw [allCalm_iff]
            intro i a ha
            by_cases hij : i = j
            · subst hij
              rw [List.getElem?_set_self (by rw [h1, hl1]; exact hlast.1)] at ha
              cases ha
              exact hcs
            · exact hothers i a hij ha
    · intro s h; cases h
  have : (tickHook k prev m (env ctr) names).PostS (fun st' _ m' r => ∀ s, r = .ok s →
      m' = m ∧ (∀ (i : Nat) (a : BTState), ¬ LastNamed names i → st'[i]? = some a → calm a = true) ∧
      (calm s = true → AllCalm st')) st := by
    rcases hk with rfl | rfl <;> exact key
  refine postS_mono _ _ _ _ ?_ this
  intro st' l m' r _ h s hs
  obtain ⟨rfl, h2, h3⟩ := h s hs
  rcases hk with rfl | rfl
  · exact ⟨fun hcs _ => h3 hcs, fun _ => ⟨hM, h2⟩⟩
  · exact ⟨fun hcs _ => h3 hcs, fun _ => ⟨hM, h2⟩⟩

theorem clean_tick (k : Kind) (m : Mem) (prev : BTState) (names : List Nat) (st : List BTState)
    (env : Nat → Env) (ctr : Nat) (hl : st.length = names.length) (hc : childrenOk k names.length)
    (hclean : CleanRoot k env names) (hin : Inside k m prev names st env ctr) (hlive : live prev = true) :
    (tickHook k prev m (env ctr) names).PostS (TickPost k names env (ctr + 1)) st := by
  have one : maxChildren k = some 1 → st.length ≤ 1 := fun h => hl ▸ hc 1 h
  have zero : maxChildren k = some 0 → st = [] := fun h => by
    have := hc 0 h
    exact List.length_eq_zero_iff.1 (by omega)
  have hnil : names.length = 0 → st = [] := fun h => List.length_eq_zero_iff.1 (by omega)
  obtain ⟨hin1, hin2⟩ := hin
  obtain ⟨hM, hE⟩ := hin2 hlive
  cases k with
  | leaf =>
    rw [zero rfl]
    intro s _
    exact ⟨fun _ _ => allCalm_nil, fun _ => ⟨trivial, trivial⟩⟩
  | sequence =>
    refine tickPost_plain _ _ _ _ _ _ (fun _ => trivial) (fun _ _ => trivial) ?_
    simp only [tickHook]
    split
    · rename_i h0
      rw [hnil h0]
      intro _ _ _; exact allCalm_nil
    · have := calm_pass false Prog.seqLoop (fun m len i st => calm_seqLoop false m len i st)
        (fun m => Or.inl rfl) m prev names.length 0 st hl (by intro j a h; omega)
      rw [List.drop_zero] at this
      refine postS_mono _ _ _ _ ?_ this
      intro st' l m' r _ h s hs hcs
      have := h s hs
      rw [if_neg (by rintro rfl; cases hcs)] at this
      exact this
  | fallback =>
    refine tickPost_plain _ _ _ _ _ _ (fun _ => trivial) (fun _ _ => trivial) ?_
    simp only [tickHook]
    split
    · rename_i h0
      rw [hnil h0]
      intro _ _ _; exact allCalm_nil
    · have := calm_pass false Prog.fbLoop (fun m len i st => calm_fbLoop false m len i st)
        (fun m => Or.inr rfl) m prev names.length 0 st hl (by intro j a h; omega)
      rw [List.drop_zero] at this
      refine postS_mono _ _ _ _ ?_ this
      intro st' l m' r _ h s hs hcs
      have := h s hs
      rw [if_neg (by rintro rfl; cases hcs)] at this
      exact this
  | memSequence =>
    simp only [tickHook]
    split
    · rename_i h0
      rw [hnil h0]
      intro s _
      exact ⟨fun _ _ => allCalm_nil, fun _ => ⟨trivial, extra_of_calm _ _ _ _ _ _ allCalm_nil⟩⟩
    · have hb : CalmBelow (if prev = .succeeded ∨ prev = .failed then
          { m with lastRunning := 0 } else m).lastRunning st := by
        split
        · intro j a h; simp at h
        · exact hE
      have := calm_pass true Prog.seqLoop (fun m len i st => calm_seqLoop true m len i st)
        (fun m => Or.inl rfl) (if prev = .succeeded ∨ prev = .failed then
          { m with lastRunning := 0 } else m) prev names.length _ st hl hb
      refine postS_mono _ _ _ _ ?_ this
      intro st' l m' r _ h s hs
      have := h s hs
      split at this
      · rename_i hr
        subst hr
        exact ⟨fun h => by simp [calm] at h, fun _ => ⟨trivial, this rfl⟩⟩
      · exact ⟨fun _ _ => this, fun _ => ⟨trivial, extra_of_calm _ _ _ _ _ _ this⟩⟩
  | memFallback =>
    simp only [tickHook]
    split
    · rename_i h0
      rw [hnil h0]
      intro s _
      exact ⟨fun _ _ => allCalm_nil, fun _ => ⟨trivial, extra_of_calm _ _ _ _ _ _ allCalm_nil⟩⟩
    · have hb : CalmBelow (if prev = .succeeded ∨ prev = .failed then
          { m with lastRunning := 0 } else m).lastRunning st := by
        split
        · intro j a h; simp at h
        · exact hE
      have := calm_pass true Prog.fbLoop (fun m len i st => calm_fbLoop true m len i st)
        (fun m => Or.inr rfl) (if prev = .succeeded ∨ prev = .failed then
          { m with lastRunning := 0 } else m) prev names.length _ st hl hb
      refine postS_mono _ _ _ _ ?_ this
      intro st' l m' r _ h s hs
      have := h s hs
      split at this
      · rename_i hr
        subst hr
        exact ⟨fun h => by simp [calm] at h, fun _ => ⟨trivial, this rfl⟩⟩
      · exact ⟨fun _ _ => this, fun _ => ⟨trivial, extra_of_calm _ _ _ _ _ _ this⟩⟩
  | parallel =>
    refine tickPost_plain _ _ _ _ _ _ (fun _ => trivial) (fun _ _ => trivial) ?_
    exact calm_parTick m _ prev st (fun s => m.needed ≤ (s : Int))
      (fun f => (names.length : Int) - m.needed < (f : Int)) hl
  | parallelTol =>
    refine tickPost_plain _ _ _ _ _ _ (fun _ => trivial) (fun _ _ => trivial) ?_
    exact calm_parTick m _ prev st (fun s => m.needed ≤ (s : Int))
      (fun f => m.tolerate < (f : Int)) hl
  | ignoreFailure | ignoreSuccess | inverter =>
    refine tickPost_plain _ _ _ _ _ _ (fun _ => trivial) (fun _ _ => trivial) ?_
    exact calm_onHead _ _ _ _ _ hl (one rfl) rfl
  | ignoreRunning | throttleSuccess => exact hclean.elim
  | untilSuccess | repeatUntilFail | repeatIfFail =>
    refine tickPost_plain _ _ _ _ _ _ (fun _ => trivial) (fun _ _ => trivial) ?_
    exact calm_tickResetOn _ _ _ _ hl (one rfl)
  | retry | «repeat» =>
    refine tickPost_plain _ _ _ _ _ _ (fun _ => trivial) (fun _ _ => trivial) ?_
    simp only [tickHook]
    split
    · rename_i h0
      rw [hnil h0]
      intro _ _ _; exact allCalm_nil
    · obtain ⟨a, rfl⟩ := singleton_of st (one rfl) (by omega)
      refine ⟨by simp, fun r s' hs => ?_⟩
      cases r with
      | err => intro s h; cases h
      | ok s0 =>
        obtain ⟨rfl, hal⟩ := hs s0 rfl
        simp only
        split
        · rename_i hs0
          split
          · refine ⟨by simp, fun r s2 hs2 => ?_⟩
            intro s h hcs
            cases r with
            | err => cases h
            | ok s3 => cases h; cases hcs
          · intro s h hcs
            cases h
            rw [List.set_cons_zero, allCalm_one, hs0]
            rfl
        · intro s h hcs
          cases h
          rw [List.set_cons_zero, allCalm_one]
          exact hcs
  | repeatNoAutoReset =>
    have hM' : 0 ≤ m.count := hM
    have hE' : m.limit ≤ m.count → AllCalm st := hE
    simp only [tickHook]
    split
    · have h1 : 0 ≤ (if (env ctr).flag then { m with count := 0 } else m).count := by
        split
        · exact Int.le_refl _
        · exact hM'
      have h2 : (if (env ctr).flag then { m with count := 0 } else m).limit ≤
          (if (env ctr).flag then { m with count := 0 } else m).count → AllCalm st := by
        split
        · intro h
          exact hE' (Int.le_trans h hM')
        · exact hE'
      generalize (if (env ctr).flag = true then { m with count := 0 } else m) = m' at h1 h2 ⊢
      split
      · rename_i hlt
        split
        · rename_i h0
          rw [hnil h0]
          intro s _
          exact ⟨fun _ _ => allCalm_nil, fun _ => ⟨h1, fun _ => allCalm_nil⟩⟩
        · obtain ⟨a, rfl⟩ := singleton_of st (one rfl) (by omega)
          refine ⟨by simp, fun r s' hs => ?_⟩
          cases r with
          | err => intro s h; cases h
          | ok s0 =>
            obtain ⟨rfl, hal⟩ := hs s0 rfl
            simp only
            split
            · refine ⟨by simp, fun r s2 hs2 => ?_⟩
              intro s h
              cases r with
              | err => cases h
              | ok s3 =>
                obtain ⟨rfl, hal2⟩ := hs2 s3 rfl
                have hcal : AllCalm (List.set (List.set [a] 0 s') 0 s2) := by
                  simp only [List.set_cons_zero, allCalm_one]
                  exact calm_of_allowed .reset (by simp) (by simp) _ hal2
                exact ⟨fun _ _ => hcal, fun _ => ⟨by show 0 ≤ m'.count + 1; omega, fun _ => hcal⟩⟩
            · intro s h
              cases h
              refine ⟨fun hcs _ => ?_, fun _ => ⟨h1, fun hle => ?_⟩⟩
              · rw [List.set_cons_zero, allCalm_one]; exact hcs
              · omega
      · rename_i hlt
        intro s h
        exact ⟨fun _ _ => h2 (by omega), fun _ => ⟨h1, fun h => h2 h⟩⟩
    · intro s h; cases h
  | repeatAlways =>
    refine tickPost_plain _ _ _ _ _ _ (fun _ => trivial) (fun _ _ => trivial) ?_
    simp only [tickHook]
    split
    · rename_i h0
      rw [hnil h0]
      intro _ _ _; exact allCalm_nil
    · obtain ⟨a, rfl⟩ := singleton_of st (one rfl) (by omega)
      refine ⟨by simp, fun r s' hs => ?_⟩
      cases r with
      | err => intro s h; cases h
      | ok s0 =>
        obtain ⟨rfl, hal⟩ := hs s0 rfl
        simp only
        split
        · refine ⟨by simp, fun r s2 hs2 => ?_⟩
          cases r with
          | err => intro s h; cases h
          | ok s3 => intro s h hcs; cases h; cases hcs
        · intro s h hcs; cases h; cases hcs
  | optional =>
    have hM' : m.execChild = true → names ≠ [] := hM
    simp only [tickHook]
    split
    · rename_i hx
      refine tickPost_plain' _ _ _ _ _ m _ (fun _ => hM) (fun _ _ => trivial) ?_
      have h0 : names.length ≠ 0 := fun h => hM' hx (List.length_eq_zero_iff.1 h)
      exact calm_call' _ _ (by have := one rfl; omega)
    · rename_i hx
      intro s h
      exact ⟨fun _ hi => by simp [idleOptional, hx] at hi, fun _ => ⟨hM, trivial⟩⟩
  | watch =>
    refine tickPost_plain _ _ _ _ _ _ (fun _ => trivial) (fun _ _ => trivial) ?_
    simp only [tickHook]
    split
    · rename_i h0
      rw [hnil h0]
      intro _ _ _; exact allCalm_nil
    · have hlen : st.length = 1 := by have := one rfl; omega
      split
      · split
        · obtain ⟨a, rfl⟩ := singleton_of st (one rfl) (by omega)
          refine ⟨by simp, fun r s' hs => ?_⟩
          cases r with
          | err => intro s h; cases h
          | ok s0 =>
            exact postS_mono _ _ _ _ (fun _ _ _ _ _ h => h) (calm_call _ _ (by simp))
        · exact calm_call _ _ hlen
      · intro s h; cases h
  | iterateList =>
    refine tickPost_plain _ _ _ _ _ _ (fun _ => trivial) (fun _ _ => trivial) ?_
    simp only [tickHook]
    split
    · generalize (if (env ctr).flag = true then { m with outChanged := true, counter := 0 } else m) = m'
      simp only [iterateTick]
      rw [if_neg (hclean ctr)]
      split
      · intro s h; cases h
      · split
        · split
          · rename_i h0
            rw [hnil h0]
            split
            · intro s h _; exact allCalm_nil
            · intro s h _; exact allCalm_nil
          · split
            · intro s h hcs; cases h; cases hcs
            · obtain ⟨a, rfl⟩ := singleton_of st (one rfl) (by omega)
              refine ⟨by simp, fun r s' hs => ?_⟩
              cases r with
              | err => intro s h; cases h
              | ok s0 =>
                obtain ⟨rfl, hal⟩ := hs s0 rfl
                simp only
                split
                · rename_i he
                  subst he
                  split
                  · intro s h hcs
                    rw [List.set_cons_zero, allCalm_one]; rfl
                  · intro s h hcs
                    rw [List.set_cons_zero, allCalm_one]; rfl
                · split
                  · rename_i he
                    subst he
                    intro s h hcs
                    rw [List.set_cons_zero, allCalm_one]; rfl
                  · intro s h hcs; cases h; cases hcs
        · intro s h; cases h
    · intro s h; cases h
  | getter =>
    refine tickPost_plain _ _ _ _ _ _ (fun _ => trivial) (fun _ _ => trivial) ?_
    simp only [tickHook]
    split
    · rename_i h0
      rw [hnil h0]
      intro _ _ _; exact allCalm_nil
    · obtain ⟨a, rfl⟩ := singleton_of st (one rfl) (by omega)
      refine ⟨by simp, fun r s' hs => ?_⟩
      cases r with
      | err => intro s h; cases h
      | ok s0 =>
        obtain ⟨rfl, hal⟩ := hs s0 rfl
        simp only
        split
        · intro s h hcs
          cases h
          rw [List.set_cons_zero, allCalm_one]
          exact hcs
        · rename_i hne
          intro s h hcs
          rw [List.set_cons_zero, allCalm_one]
          exact calm_tick _ hal (fun h => hne (Or.inr h))
  | throttle =>
    have hE' : (∃ i < ctr, m.lastTick.all (fun t => m.limit < (env i).now - t) = true) ∨
      AllCalm st := hE
    simp only [tickHook]
    split
    · rename_i hdue
      split
      · rename_i h0
        rw [hnil h0]
        intro s _
        exact ⟨fun _ _ => allCalm_nil, fun _ => ⟨trivial, Or.inr allCalm_nil⟩⟩
      · obtain ⟨a, rfl⟩ := singleton_of st (one rfl) (by omega)
        refine ⟨by simp, fun r s' hs => ?_⟩
        simp only
        split
        · rename_i hr
          subst hr
          intro s h
          cases h
          exact ⟨fun h => by simp [calm] at h, fun _ => ⟨trivial, Or.inl ⟨ctr, by omega, hdue⟩⟩⟩
        · refine ⟨by simp, fun r2 s2 hs2 => ?_⟩
          simp only
          split
          · intro s h; cases h
          · rename_i hr2
            have hcal : AllCalm (List.set (List.set [a] 0 s') 0 s2) := by
              cases r2 with
              | err => exact absurd rfl hr2
              | ok s3 =>
                obtain ⟨rfl, hal2⟩ := hs2 s3 rfl
                simp only [List.set_cons_zero, allCalm_one]
                exact calm_of_allowed .reset (by simp) (by simp) _ hal2
            intro s h
            exact ⟨fun _ _ => hcal, fun _ => ⟨trivial, Or.inr hcal⟩⟩
    · rename_i hdue
      have hcal : AllCalm st := by
        rcases hE' with ⟨i, hi, h⟩ | h
        · exfalso
          apply hdue
          have hmono := hclean i ctr (by omega)
          cases hlt : m.lastTick with
          | none => simp
          | some t =>
            rw [hlt] at h
            simp only [Option.all_some, decide_eq_true_eq] at h ⊢
            omega
        · exact h
      intro s h
      exact ⟨fun _ _ => hcal, fun _ => ⟨trivial, Or.inr hcal⟩⟩
  | subtree =>
    have hM' : m.rootSet = true ↔ names ≠ [] := hM
    simp only [tickHook]
    split
    · rename_i hx
      split
      · refine tickPost_plain' _ _ _ _ _ m _ (fun _ => hM) (fun _ _ => trivial) ?_
        have h0 : names.length ≠ 0 := fun h => hM'.1 hx (List.length_eq_zero_iff.1 h)
        exact calm_call' _ _ (by have := one rfl; omega)
      · intro s h; cases h
    · intro s h; cases h
  | nameSwitch | enumSwitch =>
    exact clean_switch _ m prev names st env ctr hl (by simp) hclean hM hE

/-! ### The other operations -/

theorem post_true (p : Prog) {A : Op → BTState → Prop} {Q : Mem → Res → Prop} (h : ∀ m r, Q m r) :
    p.Post A Q := by
  induction p with
  | done m r => exact h m r
  | call op i k ih => exact fun r _ => ih r
  | peek i k ih => exact fun s => ih s

theorem memOk_post (k : Kind) (op : Op) (h : op = .setup ∨ op = .untick ∨ op = .reset) (prev : BTState)
    (m : Mem) (e : Env) (names : List Nat) (hm : op ≠ .setup → MemOk k m names) :
    (hookProg k op prev m e names).Post (fun _ _ => True) (fun m' r => r.isOk = true → MemOk k m' names) := by
  have herr : ∀ m' : Mem, (Res.err.isOk = true → MemOk k m' names) := fun _ h => by simp at h
  rcases h with rfl | rfl | rfl
  · cases k with
    | leaf => exact fun _ => trivial
    | sequence | fallback | memSequence | memFallback =>
      exact post_allThen _ _ _ _ (herr _) (fun _ => trivial)
    | nameSwitch | enumSwitch => exact post_allThen _ _ _ _ (herr _) (fun _ => rfl)
    | parallel | parallelTol =>
      simp only [hookProg, setupHook]
      split
      · split
        · exact herr _
        · exact post_allThen _ _ _ _ (herr _) (fun _ => trivial)
      · exact herr _
    | ignoreFailure | ignoreSuccess | untilSuccess | inverter | repeatAlways | repeatUntilFail
    | repeatIfFail | watch | iterateList =>
      exact post_onHead _ _ _ _ _ (herr _) (fun _ => trivial) (fun _ _ _ => trivial)
    | getter | ignoreRunning | retry | «repeat» | throttle | throttleSuccess =>
      simp only [hookProg, setupHook]
      split
      · exact post_onHead _ _ _ _ _ (herr _) (fun _ => trivial) (fun _ _ _ => trivial)
      · exact herr _
    | repeatNoAutoReset =>
      simp only [hookProg, setupHook]
      split
      · exact post_onHead _ _ _ _ _ (herr _) (fun _ => Int.le_refl 0) (fun _ _ _ => Int.le_refl 0)
      · exact herr _
    | optional =>
      simp only [hookProg, setupHook]
      split
      · exact fun _ h => by simp at h
      · rename_i h0
        have hne : names ≠ [] := fun h => h0 (by simp [h])
        split
        · split
          · exact post_onHead _ _ _ _ _ (herr _) (fun _ _ => hne) (fun _ _ _ _ => hne)
          · exact fun _ h => by simp at h
        · exact herr _
    | subtree =>
      simp only [hookProg, setupHook]
      split
      · split
        · rename_i h0
          intro _
          have : names = [] := List.length_eq_zero_iff.1 h0
          subst this
          simp [MemOk]
        · rename_i h0
          have hne : names ≠ [] := fun h => h0 (by simp [h])
          split
          · exact post_call_done _ _ _ (herr _) (fun _ _ _ => ⟨fun _ => hne, fun _ => rfl⟩)
          · exact herr _
      · exact herr _
  · have hm' := hm (by simp)
    have hpost := hook_cfg k .untick (by simp) prev m e names
    cases k with
    | repeatNoAutoReset =>
      simp only [hookProg, untickHook, Prog.untickPaused]
      exact post_forAll _ _ _ _ (herr _) (fun _ => hm')
    | optional =>
      simp only [hookProg, untickHook]
      split
      · exact post_call_done _ _ _ (herr _) (fun _ _ _ => hm')
      · exact fun _ => hm'
    | subtree =>
      simp only [hookProg, untickHook]
      split
      · exact post_call_done _ _ _ (herr _) (fun _ _ _ => hm')
      · exact herr _
    | nameSwitch | enumSwitch => exact post_allThen _ _ _ _ (herr _) (fun _ => hm')
    | _ => exact post_true _ (fun _ _ _ => trivial)
  · have hm' := hm (by simp)
    cases k with
    | repeatNoAutoReset =>
      simp only [hookProg, resetHook]
      split
      · exact post_onHead _ _ _ _ _ (herr _) (fun _ => hm') (fun _ _ _ => hm')
      · exact fun _ => hm'
    | optional =>
      simp only [hookProg, resetHook]
      split
      · exact post_call_done _ _ _ (herr _) (fun _ _ _ => hm')
      · exact fun _ => hm'
    | subtree =>
      simp only [hookProg, resetHook]
      split
      · exact post_call_done _ _ _ (herr _) (fun _ _ _ => hm')
      · exact fun _ => hm'
    | nameSwitch | enumSwitch => exact post_allThen _ _ _ _ (herr _) (fun _ => hm')
    | _ => exact post_true _ (fun _ _ _ => trivial)

/-- If every child has been called with a non-tick operation and answered `Ok`, all are calm. -/
theorem allCalm_called (o : Ops N) (hs : Sound o) (op : Op) (hop : op ≠ .tick) (hop' : op ≠ .shutdown)
    (cs cs' : List N) (h : cs' = cs.map (fun c => (o.run op c).node) ∧
      ∀ c ∈ cs, (o.run op c).res.isOk = true) : AllCalm (cs'.map o.state) := by
  obtain ⟨rfl, h⟩ := h
  intro a ha
  obtain ⟨c', hc', rfl⟩ := List.mem_map.1 ha
  obtain ⟨c, hc, rfl⟩ := List.mem_map.1 hc'
  cases hr : (o.run op c).res with
  | err => have := h c hc; rw [hr] at this; simp at this
  | ok s =>
    obtain ⟨h1, h2⟩ := hs op c s hr
    rw [h1]
    exact calm_of_allowed op hop hop' s h2

theorem inside_other (o : Ops N) (hs : Sound o) (op : Op)
    (hop : op = .setup ∨ op = .untick ∨ op = .reset) (nd : Node N)
    (hw : childrenOk nd.kind nd.children.length)
    (hin : Inside nd.kind nd.mem nd.state (nd.children.map o.name) (nd.children.map o.state) nd.env nd.ctr)
    (hacc : accepts op nd.state = true) (x : ExecOut N)
    (hx : x = exec o (hookProg nd.kind op nd.state nd.mem (nd.env nd.ctr) (nd.children.map o.name))
      nd.children) (s : BTState) (hr : x.res = .ok s) :
    Inside nd.kind x.mem s (nd.children.map o.name) (x.children.map o.state) nd.env (nd.ctr + 1) := by
  have hlive : op ≠ .setup → live nd.state = true := by
    intro h
    rcases hop with rfl | rfl | rfl
    · exact absurd rfl h
    · revert hacc; cases nd.state <;> simp [accepts, live, calm]
    · revert hacc; cases nd.state <;> simp [accepts, live, calm]
  have hM : MemOk nd.kind x.mem (nd.children.map o.name) := by
    have := exec_post o (fun _ _ => True) _ (fun _ _ _ _ => trivial) _ nd.children
      (memOk_post nd.kind op hop nd.state nd.mem (nd.env nd.ctr) (nd.children.map o.name)
        (fun h => (hin.2 (hlive h)).1))
    rw [← hx] at this
    exact this (by rw [hr]; rfl)
  have hok : x.res.isOk = true := by rw [hr]; rfl
  have main : idleOptional nd.kind x.mem = false → AllCalm (x.children.map o.state) := by
    intro hidle
    rcases hop with rfl | rfl | rfl
    · have := setup_callsAll o nd.kind nd.state nd.mem (nd.env nd.ctr) nd.children hw
      simp only [CallsAll, ← hx] at this
      exact allCalm_called o hs .setup (by simp) (by simp) _ _ (this hok hidle)
    · by_cases hsub : unusedSubtree nd.kind x.mem = true
      · have hk : nd.kind = .subtree := by
          revert hsub; cases nd.kind <;> simp [unusedSubtree]
        rw [hk] at hM hsub
        simp only [MemOk, unusedSubtree] at hM hsub
        have hnil : nd.children = [] := by
          refine Decidable.byContradiction fun h => ?_
          have := hM.2 (by simpa using h)
          simp [this] at hsub
        have hl := exec_length o (hookProg nd.kind .untick nd.state nd.mem (nd.env nd.ctr)
          (nd.children.map o.name)) nd.children
        rw [← hx, hnil] at hl
        rw [List.length_eq_zero_iff.1 hl]
        exact allCalm_nil
      · have := untick_callsAll o nd.kind nd.state nd.mem (nd.env nd.ctr) nd.children hw
        simp only [CallsAll, ← hx] at this
        exact allCalm_called o hs .untick (by simp) (by simp) _ _ (this hok
          (by simp only [unusedBelow, hidle, Bool.false_or]; simpa using hsub))
    · by_cases hsub : unusedSubtree nd.kind x.mem = true
      · have hk : nd.kind = .subtree := by
          revert hsub; cases nd.kind <;> simp [unusedSubtree]
        rw [hk] at hM hsub
        simp only [MemOk, unusedSubtree] at hM hsub
        have hnil : nd.children = [] := by
          refine Decidable.byContradiction fun h => ?_
          have := hM.2 (by simpa using h)
          simp [this] at hsub
        have hl := exec_length o (hookProg nd.kind .reset nd.state nd.mem (nd.env nd.ctr)
          (nd.children.map o.name)) nd.children
        rw [← hx, hnil] at hl
        rw [List.length_eq_zero_iff.1 hl]
        exact allCalm_nil
      · by_cases hrep : nd.kind = .repeatNoAutoReset ∧ ¬ nd.mem.count < nd.mem.limit
        · obtain ⟨hk, hlim⟩ := hrep
          rw [hk] at hx
          simp only [hookProg, resetHook, hlim, if_false, exec_done] at hx
          rw [hx]
          have hE := (hin.2 (hlive (by simp))).2
          rw [hk] at hE
          exact hE (by omega)
        · have := reset_callsAll o nd.kind nd.state nd.mem (nd.env nd.ctr) nd.children hw
          simp only [CallsAll, ← hx] at this
          refine allCalm_called o hs .reset (by simp) (by simp) _ _ (this hok ?_)
          simp only [notReset, unusedBelow, hidle, Bool.false_or, Bool.or_eq_false_iff]
          refine ⟨by simpa using hsub, ?_⟩
          by_cases hk : nd.kind = .repeatNoAutoReset
          · have hlt : nd.mem.count < nd.mem.limit := by
              refine Decidable.byContradiction fun h => hrep ⟨hk, h⟩
            have hmem : x.mem = nd.mem := by
              have hp : (hookProg .repeatNoAutoReset .reset nd.state nd.mem (nd.env nd.ctr)
                  (nd.children.map o.name)).Post (fun _ _ => True) (fun m' _ => m' = nd.mem) := by
                simp only [hookProg, resetHook, hlt, if_true]
                exact post_onHead _ _ _ _ _ rfl rfl (fun _ _ => rfl)
              have := exec_post o (fun _ _ => True) _ (fun _ _ _ _ => trivial) _ nd.children hp
              rw [hk] at hx
              rw [← hx] at this
              exact this
            rw [hmem]
            simp
            intro _
            omega
          · simp [hk]
  refine ⟨fun _ h => main h, fun _ => ⟨hM, ?_⟩⟩
  by_cases hidle : idleOptional nd.kind x.mem = true
  · have hk : nd.kind = .optional := by
      revert hidle; cases nd.kind <;> simp [idleOptional]
    rw [hk]
    trivial
  · exact extra_of_calm _ _ _ _ _ _ (main (by simpa using hidle))

/-! ### Trees -/

theorem extra_mono (k : Kind) (m : Mem) (names : List Nat) (st : List BTState) (env : Nat → Env)
    (ctr : Nat) (h : Extra k m names st env ctr) : Extra k m names st env (ctr + 1) := by
  cases k <;> try exact h
  rcases h with ⟨i, hi, h⟩ | h
  · exact Or.inl ⟨i, by omega, h⟩
  · exact Or.inr h

theorem inside_dead (k : Kind) (m : Mem) (s : BTState) (names : List Nat) (st : List BTState)
    (env : Nat → Env) (ctr : Nat) (h : live s = false) : Inside k m s names st env ctr := by
  refine ⟨fun hc => ?_, fun hl => ?_⟩
  · simp [live, hc] at h
  · rw [h] at hl; cases hl

theorem inside_run (o : Ops N) (hs : Sound o) (hname : ∀ op c, o.name (o.run op c).node = o.name c)
    (op : Op) (nd : Node N)
    (hw : childrenOk nd.kind nd.children.length) (hm : CacheOk nd.mem)
    (hclean : CleanRoot nd.kind nd.env (nd.children.map o.name))
    (hin : Inside nd.kind nd.mem nd.state (nd.children.map o.name) (nd.children.map o.state) nd.env nd.ctr) :
    let nd' := (nd.run o op).node
    Inside nd'.kind nd'.mem nd'.state (nd'.children.map o.name) (nd'.children.map o.state) nd'.env nd'.ctr := by
  have hnames : ∀ x, x = exec o (hookProg nd.kind op nd.state nd.mem (nd.env nd.ctr)
      (nd.children.map o.name)) nd.children → x.children.map o.name = nd.children.map o.name := by
    intro x hx; subst hx; exact exec_map o o.name hname _ _
  apply run_cases o op nd (P := fun out => let nd' := out.node
    Inside nd'.kind nd'.mem nd'.state (nd'.children.map o.name) (nd'.children.map o.state) nd'.env nd'.ctr)
  · intro _
    exact ⟨hin.1, fun h => ⟨(hin.2 h).1, extra_mono _ _ _ _ _ _ (hin.2 h).2⟩⟩
  · intro _ _ _; exact inside_dead _ _ _ _ _ _ _ rfl
  · intro x _ _ _ _; exact inside_dead _ _ _ _ _ _ _ rfl
  · intro x s hx _ _ hr hal
    by_cases hk : nd.kind = .leaf
    · have h0 := hw 0 (by rw [hk]; rfl)
      have hl := exec_length o (hookProg nd.kind op nd.state nd.mem (nd.env nd.ctr)
        (nd.children.map o.name)) nd.children
      rw [← hx] at hl
      have hnil : x.children = [] := List.length_eq_zero_iff.1 (by omega)
      simp only [Node.wrap, hk, hnil]
      exact ⟨fun _ _ => allCalm_nil, fun _ => ⟨trivial, trivial⟩⟩
    · have := (hook_good o hs op nd hk hm (nd.env nd.ctr)).2 s (by rw [← hx]; exact hr)
      simp [hal] at this
  · intro x s hop hx hacc _ hr hal
    simp only [Node.wrap, hnames x hx]
    have hother : (op = .setup ∨ op = .untick ∨ op = .reset) → Inside nd.kind x.mem s
        (nd.children.map o.name) (x.children.map o.state) nd.env (nd.ctr + 1) :=
      fun h => inside_other o hs op h nd hw hin hacc x hx s hr
    cases op with
    | shutdown => exact absurd rfl hop
    | setup => exact hother (by simp)
    | untick => exact hother (by simp)
    | reset => exact hother (by simp)
    | tick =>
      have hlive : live nd.state = true := by
        revert hacc; cases nd.state <;> simp [accepts, live, calm]
      have := exec_postS o hs _ _ nd.children
        (clean_tick nd.kind nd.mem nd.state (nd.children.map o.name) (nd.children.map o.state) nd.env
          nd.ctr (by simp) (by simpa using hw) hclean hin hlive)
      have hx' : x = exec o (tickHook nd.kind nd.state nd.mem (nd.env nd.ctr)
        (nd.children.map o.name)) nd.children := hx
      rw [← hx'] at this
      exact this s hr
  · intro _ hst
    have hns := (finishShutdown_mem o { nd with ctr := nd.ctr + 1 } [] []).2
    apply inside_dead
    rw [hns]
    show live nd.state = false
    rw [hst]
    rfl
  · intro x _ _ _ _
    have hns := (finishShutdown_mem o { nd with
      ctr := nd.ctr + 1, mem := x.mem, children := x.children, state := .shutdown } x.log
      (.hook op nd.id :: x.trace)).2
    apply inside_dead
    rw [hns]
    rfl

/-- The invariant of all nodes of a tree. -/
def QInv : (n : Nat) → Tree n → Prop
  | 0, t => Empty.elim t
  | n + 1, t =>
    let nd : Node (Tree n) := t
    Inside nd.kind nd.mem nd.state (nd.children.map (ops n).name) (nd.children.map (ops n).state)
      nd.env nd.ctr ∧ ∀ c ∈ nd.children, QInv n c

/-- Everything that is kept by all operations. -/
def QAll (n : Nat) (t : Tree n) : Prop := WF n t ∧ Clean n t ∧ Caches n t ∧ QInv n t

theorem clean_run (n : Nat) (op : Op) (t : Tree n) (h : Clean n t) : Clean n ((ops n).run op t).node := by
  induction n generalizing op with
  | zero => exact Empty.elim t
  | succ n ih =>
    obtain ⟨_, _, h3, h4, _, _⟩ := run_static (ops n) op t
    have h5 := run_children_map (ops n) (ops n).name (ops_name n) op t
    refine ⟨?_, run_children (ops n) (Clean n) (fun op c hc => ih op c hc) op t h.2⟩
    have h1 := h.1
    show CleanRoot (Node.run (ops n) op t).node.kind (Node.run (ops n) op t).node.env
      ((Node.run (ops n) op t).node.children.map (ops n).name)
    rw [h3, h4, h5]
    exact h1

theorem qAll_run (n : Nat) (op : Op) (t : Tree n) (h : QAll n t) : QAll n ((ops n).run op t).node := by
  induction n generalizing op with
  | zero => exact Empty.elim t
  | succ n ih =>
    obtain ⟨hw, hcl, hca, hq⟩ := h
    refine ⟨WF_run _ op t hw, clean_run _ op t hcl, caches_run _ op t hca, ?_, ?_⟩
    · exact inside_run (ops n) (ops_sound n) (ops_name n) op t hw.1 hca.1 hcl.1 hq.1
    · intro c hc
      have := run_children (ops n) (QAll n) (fun op c hc => ih op c hc) op t
        (fun c hc => ⟨hw.2 c hc, hcl.2 c hc, hca.2 c hc, hq.2 c hc⟩) c hc
      exact this.2.2.2

theorem qAll_runs (n : Nat) (l : List Op) : ∀ t : Tree n, QAll n t → QAll n (runs (ops n) l t).2 := by
  induction l with
  | nil => intro t h; exact h
  | cons op l ih => intro t h; exact ih _ (qAll_run n op t h)

theorem qInv_fresh (n : Nat) : ∀ t : Tree n, Fresh n t → QInv n t := by
  induction n with
  | zero => intro t; exact Empty.elim t
  | succ n ih =>
    intro t h
    refine ⟨inside_dead _ _ _ _ _ _ _ ?_, fun c hc => ih c (h.2 c hc)⟩
    have e : Node.state (N := Tree n) t = .uninitialized := h.1.1
    show live (Node.state (N := Tree n) t) = false
    rw [e]
    rfl

theorem ops_state_calm (n : Nat) : ∀ t : Tree n, QInv n t → calm ((ops n).state t) = true →
    AllUsed idleOptional (fun s => s ≠ .running) n t := by
  induction n with
  | zero => intro t; exact Empty.elim t
  | succ n ih =>
    intro t h hc
    refine ⟨?_, ?_⟩
    · show (ops (n + 1)).state t ≠ .running
      intro e
      rw [e] at hc
      cases hc
    · intro hidle c hcm
      exact ih c (h.2 c hcm) (h.1.1 hc hidle _ (List.mem_map.2 ⟨c, hcm, rfl⟩))

/-- **C18 (partial).** Take a freshly created tree in which every node is `CleanRoot`, and any history of
operations with any outcomes. If a following tick of the root answers SUCCEEDED or FAILED, no
node of the tree in use is RUNNING. Missing for the full statement: the nodes excluded by
`CleanRoot`; for each of them the statement is refuted below. -/
theorem c18_finished_is_quiet_partial (n : Nat) (t : Tree n) (hf : Fresh n t) (hw : WF n t)
    (hcl : Clean n t) (history : List Op) (s : BTState) (hs : s = .succeeded ∨ s = .failed)
    (h : ((ops n).run .tick (runs (ops n) history t).2).res = .ok s) :
    AllUsed idleOptional (fun s => s ≠ .running) n
      ((ops n).run .tick (runs (ops n) history t).2).node := by
  have hq := qAll_run n .tick _ (qAll_runs n history t ⟨hw, hcl, caches_fresh n t hf, qInv_fresh n t hf⟩)
  apply ops_state_calm n _ hq.2.2.2
  rw [((ops_sound n) .tick _ s h).1]
  rcases hs with rfl | rfl <;> rfl

/-- More generally: whenever the root is IDLE, PAUSED, SUCCEEDED, FAILED, ASSIGNED or UNASSIGNED, no
node in use is RUNNING. -/
theorem c18_calm_root_is_quiet (n : Nat) (t : Tree n) (hf : Fresh n t) (hw : WF n t)
    (hcl : Clean n t) (history : List Op)
    (h : (ops n).state (runs (ops n) history t).2 ∈
      [.idle, .paused, .succeeded, .failed, .assigned, .unassigned]) :
    AllUsed idleOptional (fun s => s ≠ .running) n (runs (ops n) history t).2 := by
  have hq := qAll_runs n history t ⟨hw, hcl, caches_fresh n t hf, qInv_fresh n t hf⟩
  apply ops_state_calm n _ hq.2.2.2
  revert h
  cases (ops n).state (runs (ops n) history t).2 <;> simp [calm]

/-- A sample for which `Clean` is non-trivial: a Parallel over a Throttle and a NameSwitch; it
succeeds while the node below the Throttle is RUNNING, and stops it. -/
def sampleClean : Tree 3 :=
  mk 2 1 .parallel
    [mk 1 2 .throttle [mkLeaf 0 3 [.ok .idle, .ok .running, .ok .idle]] (fun i => { now := i }),
     mk 1 4 .nameSwitch [mkLeaf 0 5 [.ok .idle, .ok .succeeded]] (fun _ => { key := some 5 })]

theorem sampleClean_clean : Clean 3 sampleClean := by
  refine ⟨trivial, ?_⟩
  intro c hc
  rcases List.mem_cons.1 hc with rfl | hc
  · refine ⟨?_, ?_⟩
    · intro i j hij
      show (i : Int) ≤ (j : Int)
      omega
    · intro c hc
      rcases List.mem_singleton.1 hc with rfl
      exact ⟨trivial, fun c hc => by cases hc⟩
  · rcases List.mem_singleton.1 hc with rfl
    refine ⟨?_, ?_⟩
    · intro i
      exact ⟨5, by decide, rfl⟩
    · intro c hc
      rcases List.mem_singleton.1 hc with rfl
      exact ⟨trivial, fun c hc => by cases hc⟩

example : Fresh 3 sampleClean ∧ WF 3 sampleClean ∧
    nodeStates 3 (runs (ops 3) [.setup, .tick] sampleClean).2 =
      [(1, .succeeded), (2, .idle), (3, .idle), (4, .succeeded), (5, .succeeded)] := by decide

/-! ### Refutations for the excluded nodes -/

/-- **IgnoreRunning.** Answers FAILED while its child stays RUNNING (`decorators.py:99-114`). -/
theorem c18_ignore_running :
    ∃ t : Tree 2, rootKind 1 t = .ignoreRunning ∧ Fresh 2 t ∧ WF 2 t ∧
      (runs (ops 2) [.setup, .tick] t).1.map (·.res) = [.ok .idle, .ok .failed] ∧
      nodeStates 2 (runs (ops 2) [.setup, .tick] t).2 = [(1, .failed), (2, .running)] :=
  ⟨mk 1 1 .ignoreRunning [mkLeaf 0 2 [.ok .idle, .ok .running]], by decide⟩

/-- **ThrottleSuccess.** Answers FAILED while its child stays RUNNING (`throttle.py:134-148`). -/
theorem c18_throttle_success :
    ∃ t : Tree 2, rootKind 1 t = .throttleSuccess ∧ Fresh 2 t ∧ WF 2 t ∧
      (runs (ops 2) [.setup, .tick] t).1.map (·.res) = [.ok .idle, .ok .failed] ∧
      nodeStates 2 (runs (ops 2) [.setup, .tick] t).2 = [(1, .failed), (2, .running)] :=
  ⟨mk 1 1 .throttleSuccess [mkLeaf 0 2 [.ok .idle, .ok .running]], by decide⟩

/-- **IterateList.** If the list becomes empty while the child is RUNNING, it answers SUCCEEDED and
leaves the child RUNNING (`list.py:205-215`). -/
theorem c18_iterate_list :
    ∃ t : Tree 2, rootKind 1 t = .iterateList ∧ Fresh 2 t ∧ WF 2 t ∧
      (runs (ops 2) [.setup, .tick, .tick, .tick] t).1.map (·.res) =
        [.ok .idle, .ok .running, .ok .running, .ok .succeeded] ∧
      nodeStates 2 (runs (ops 2) [.setup, .tick, .tick, .tick] t).2 = [(1, .succeeded), (2, .running)] :=
  ⟨mk 1 1 .iterateList [mkLeaf 0 2 [.ok .idle, .ok .running]]
    (fun i => if i < 3 then { listLen := 2 } else { flag := true }), by decide⟩

/-- **Throttle.** If the clock jumps back while the child is RUNNING (simulated time restarted), the
cached result is returned and the child stays RUNNING (`throttle.py:70-86`). -/
theorem c18_throttle_clock :
    ∃ t : Tree 2, rootKind 1 t = .throttle ∧ Fresh 2 t ∧ WF 2 t ∧
      (runs (ops 2) [.setup, .tick, .tick, .tick] t).1.map (·.res) =
        [.ok .idle, .ok .succeeded, .ok .running, .ok .succeeded] ∧
      nodeStates 2 (runs (ops 2) [.setup, .tick, .tick, .tick] t).2 = [(1, .succeeded), (2, .running)] :=
  ⟨mk 1 1 .throttle [mkLeaf 0 2 [.ok .idle, .ok .succeeded, .ok .idle, .ok .running]]
    (fun i => { num := 1, now := if i = 2 then 10 else 5 }), by decide⟩

end Verif.BT
