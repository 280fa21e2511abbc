import Verif.BT.Single

/-!
# C113: a RUNNING tree waits for something
-/

set_option autoImplicit false

namespace Verif.BT.Busy

open Verif.BT

variable {N : Type}

/-! ### Specification -/

/-- The classes that answer RUNNING for a reason of their own: leaves; the Getter nodes, which wait for
new data; the repeating nodes and IterateList, which go on with the next attempt at the next tick. -/
def ownReason (k : Kind) : Bool :=
  match k with
  | .leaf | .getter | .untilSuccess | .retry | .repeat | .repeatNoAutoReset | .repeatAlways
  | .repeatUntilFail | .repeatIfFail | .iterateList => true
  | _ => false

/-- A ParallelFailureTolerance whose two parameters leave a gap: it can miss its needed successes
although it tolerates all failures. -/
def gap (k : Kind) (m : Mem) (len : Nat) : Prop :=
  k = .parallelTol ∧ (len : Int) < m.needed + m.tolerate

instance (k : Kind) (m : Mem) (len : Nat) : Decidable (gap k m len) := by
  unfold gap; infer_instance

/-- RUNNING, ASSIGNED or UNASSIGNED: what a tick may answer besides a result. -/
def waiting (s : BTState) : Bool := s = .running || s = .assigned || s = .unassigned

/-- There is a reason to wait: from the root a path of RUNNING nodes leads to a node that is RUNNING
for a reason of its own, or ASSIGNED or UNASSIGNED. -/
def Waits : (n : Nat) → Tree n → Prop
  | 0, t => Empty.elim t
  | n + 1, t =>
    let nd : Node (Tree n) := t
    nd.state = .assigned ∨ nd.state = .unassigned ∨
    (nd.state = .running ∧ (ownReason nd.kind = true ∨ ∃ c ∈ nd.children, Waits n c))

/-- No node of the tree has a gap. -/
def NoGap (n : Nat) (t : Tree n) : Prop :=
  AllNodes (fun nd => ¬ gap nd.kind nd.mem nd.children.length) n t

instance (n : Nat) (t : Tree n) : Decidable (NoGap n t) := decAllNodes _ (fun _ => inferInstance) n t

/-! ### A logic for hooks that may name missing children -/

/-- As `Prog.PostS`, but a call to a child that does not exist answers `Err` (as in `exec`). -/
def PostE (P : List BTState → Mem → Res → Prop) : Prog → List BTState → Prop
  | .done m r, st => P st m r
  | .call op i k, st => (¬ i < st.length → PostE P (k .err) st) ∧
    (i < st.length → ∀ r s', (∀ s, r = .ok s → s' = s ∧ allowedAfter op s = true) →
      PostE P (k r) (st.set i s'))
  | .peek i k, st => (¬ i < st.length → PostE P (k .uninitialized) st) ∧
    ∀ h : i < st.length, PostE P (k st[i]) st

theorem exec_postE (o : Ops N) (hs : Sound o) (P : List BTState → Mem → Res → Prop) (p : Prog) :
    ∀ cs : List N, PostE P p (cs.map o.state) →
    P ((exec o p cs).children.map o.state) (exec o p cs).mem (exec o p cs).res := by
  induction p with
  | done m r => intro cs h; exact h
  | call op i k ih =>
    intro cs h
    simp only [exec]
    split
    · rename_i hc
      exact ih _ _ (h.1 (by rw [List.length_map]; have := List.getElem?_eq_none_iff.1 hc; omega))
    · rename_i c hc
      have hi := (List.getElem?_eq_some_iff.1 hc).1
      have h' := h.2 (by rw [List.length_map]; exact hi) (o.run op c).res
        (o.state (o.run op c).node) (hs op c)
      exact ih (o.run op c).res (cs.set i (o.run op c).node) (by rw [List.map_set]; exact h')
  | peek i k ih =>
    intro cs h
    simp only [exec]
    split
    · rename_i hc
      exact ih _ _ (h.1 (by rw [List.length_map]; have := List.getElem?_eq_none_iff.1 hc; omega))
    · rename_i c hc
      obtain ⟨hi, hci⟩ := List.getElem?_eq_some_iff.1 hc
      have h' := h.2 (by rw [List.length_map]; exact hi)
      rw [List.getElem_map, hci] at h'
      exact ih _ _ h'

theorem postE_of_postS (P : List BTState → Mem → Res → Prop) (p : Prog) : ∀ st : List BTState,
    p.PostS (fun st' _ m r => P st' m r) st → PostE P p st := by
  induction p with
  | done m r => intro st h; exact h
  | call op i k ih =>
    intro st h
    exact ⟨fun hn => absurd h.1 hn, fun _ r s' hs => ih r _ (h.2 r s' hs)⟩
  | peek i k ih =>
    intro st h
    obtain ⟨hi, h⟩ := h
    exact ⟨fun hn => absurd hi hn, fun _ => ih _ _ h⟩

/-- What is to be shown of a tick: if it answers RUNNING, a child is waiting. -/
def BusyPost : List BTState → Mem → Res → Prop := fun st' _ r =>
  r = .ok .running → ∃ a ∈ st', waiting a = true

/-- A hook that never answers RUNNING. -/
theorem postE_never' (P : List BTState → Mem → Res → Prop)
    (hP : ∀ st m r, r ≠ .ok .running → P st m r) (p : Prog) :
    p.Post (fun _ _ => True) (fun _ r => r ≠ .ok .running) → ∀ st : List BTState, PostE P p st := by
  induction p with
  | done m r => intro h st; exact hP _ _ _ h
  | call op i k ih =>
    intro h st
    exact ⟨fun _ => ih _ (h _ (fun _ _ => trivial)) _, fun _ r s' _ => ih r (h r (fun _ _ => trivial)) _⟩
  | peek i k ih =>
    intro h st
    exact ⟨fun _ => ih _ (h _) _, fun _ => ih _ (h _) _⟩

theorem postE_never (p : Prog) (h : p.Post (fun _ _ => True) (fun _ r => r ≠ .ok .running))
    (st : List BTState) : PostE BusyPost p st :=
  postE_never' _ (fun _ _ _ h hr => absurd hr h) p h st

/-- The loop over all children, for a rest that only needs their number. -/
theorem forAll_len (op : Op) (m : Mem) (is : List Nat) (k : Prog)
    (P : List BTState → Mem → Res → Prop) (n : Nat) (herr : ∀ st m, P st m .err)
    (hk : ∀ st : List BTState, st.length = n → PostE P k st) :
    ∀ st : List BTState, st.length = n → PostE P (Prog.forAll op m is k) st := by
  induction is with
  | nil => exact hk
  | cons i is ih =>
    intro st hl
    refine ⟨fun _ => herr _ _, fun _ r s' _ => ?_⟩
    cases r with
    | err => exact herr _ _
    | ok s => exact ih _ (by simpa using hl)

theorem mem_set_self (st : List BTState) (i : Nat) (s : BTState) (h : i < st.length) : s ∈ st.set i s :=
  List.mem_iff_getElem.2 ⟨i, by simpa using h, by simp⟩

theorem never_forAll (op : Op) (m : Mem) (s : BTState) (hs : s ≠ .running) (is : List Nat) :
    (Prog.forAll op m is (.done m (.ok s))).Post (fun _ _ => True) (fun _ r => r ≠ .ok .running) := by
  induction is with
  | nil => intro h; cases h; exact hs rfl
  | cons i is ih =>
    intro r _
    cases r with
    | err => intro h; cases h
    | ok s => exact ih

theorem busy_forAll (op : Op) (m : Mem) (k : Prog) (hk : ∀ st, PostE BusyPost k st) (is : List Nat) :
    ∀ st, PostE BusyPost (Prog.forAll op m is k) st := by
  induction is with
  | nil => exact hk
  | cons i is ih =>
    intro st
    refine ⟨fun _ h => ?_, fun _ r s' _ => ?_⟩
    · cases h
    · cases r with
      | err => intro h; cases h
      | ok s => exact ih _

theorem busy_resetIfFinished (n : Nat) (prev : BTState) (m : Mem) (k : Prog)
    (hk : ∀ st, PostE BusyPost k st) : ∀ st, PostE BusyPost (Prog.resetIfFinished n prev m k) st := by
  unfold Prog.resetIfFinished
  split
  · exact busy_forAll _ _ _ hk _
  · exact hk

theorem busy_seqLoop (b : Bool) (m : Mem) (is : List Nat) :
    ∀ st, PostE BusyPost (Prog.seqLoop b m is) st := by
  induction is with
  | nil => intro st h; cases h
  | cons i is ih =>
    intro st
    refine ⟨fun _ h => (by cases h), fun hi r s' hs => ?_⟩
    cases r with
    | err => intro h; cases h
    | ok s =>
      obtain ⟨rfl, _⟩ := hs s rfl
      simp only
      split
      · exact ih _
      · split
        · rename_i hrun
          intro _
          exact ⟨s', mem_set_self _ _ _ hi, by rw [hrun]; rfl⟩
        · rename_i hrun
          exact postE_never _ (never_forAll _ _ _ hrun _) _

theorem busy_fbLoop (b : Bool) (m : Mem) (is : List Nat) :
    ∀ st, PostE BusyPost (Prog.fbLoop b m is) st := by
  induction is with
  | nil => intro st h; cases h
  | cons i is ih =>
    intro st
    refine ⟨fun _ h => (by cases h), fun hi r s' hs => ?_⟩
    cases r with
    | err => intro h; cases h
    | ok s =>
      obtain ⟨rfl, _⟩ := hs s rfl
      simp only
      split
      · rename_i hrun
        intro _
        exact ⟨s', mem_set_self _ _ _ hi, by rw [hrun]; rfl⟩
      · rename_i hrun
        split
        · exact postE_never _ (never_forAll _ _ _ hrun _) _
        · exact ih _

theorem busy_untickOthers (m : Mem) (nm : Nat) (k : Prog) (hk : ∀ st, PostE BusyPost k st)
    (d : List (Nat × Nat)) : ∀ st, PostE BusyPost (Prog.untickOthers m nm d k) st := by
  induction d with
  | nil => exact hk
  | cons p d ih =>
    obtain ⟨a, i⟩ := p
    unfold Prog.untickOthers
    split
    · exact ih
    · intro st
      refine ⟨fun _ h => (by cases h), fun _ r s' _ => ?_⟩
      cases r with
      | err => intro h; cases h
      | ok s => exact ih _

/-- Pass the tick on to a child. -/
theorem busy_call (j : Nat) (m : Mem) (st : List BTState) :
    PostE BusyPost (.call .tick j fun r => .done m r) st := by
  refine ⟨fun _ h => (by cases h), fun hi r s' hs hr => ?_⟩
  obtain ⟨rfl, _⟩ := hs .running hr
  exact ⟨_, mem_set_self _ _ _ hi, rfl⟩

theorem busy_onHead (n : Nat) (m : Mem) (f : BTState → BTState) (d : BTState) (hd : d ≠ .running)
    (hf : ∀ s, f s = .running → s = .running) (st : List BTState) :
    PostE BusyPost (Prog.onHead n .tick m f d) st := by
  unfold Prog.onHead
  split
  · intro h; cases h; exact absurd rfl hd
  · refine ⟨fun _ h => (by cases h), fun hi r s' hs hr => ?_⟩
    cases r with
    | err => cases hr
    | ok s =>
      obtain ⟨rfl, _⟩ := hs s rfl
      simp only [Res.map, Res.ok.injEq] at hr
      exact ⟨_, mem_set_self _ _ _ hi, by rw [hf _ hr]; rfl⟩

/-! ### The parallel nodes -/

theorem parLoop_states (m : Mem) (k : Nat → Nat → Prog) (P : List BTState → Mem → Res → Prop)
    (herr : ∀ st m, P st m .err) (n : Nat)
    (hk : ∀ a b st, st.length = n → (∀ x ∈ st, allowedAfter .tick x = true) → PostE P (k a b) st)
    (len : Nat) : ∀ (i : Nat) (sf : Nat × Nat) (st : List BTState), st.length = n → i + len = n →
    (∀ (j : Nat) (x : BTState), j < i → st[j]? = some x → allowedAfter .tick x = true) →
    PostE P (Prog.parLoop m k (List.range' i len) sf) st := by
  induction len with
  | zero =>
    intro i sf st hl hn hb
    refine hk _ _ st hl ?_
    intro x hx
    obtain ⟨j, hj, rfl⟩ := List.mem_iff_getElem.1 hx
    exact hb j _ (by omega) (List.getElem?_eq_getElem hj)
  | succ len ih =>
    intro i sf st hl hn hb
    rw [List.range'_succ]
    refine ⟨fun h => absurd (by omega) h, fun hi => ?_⟩
    simp only
    split
    · rename_i hf
      refine ih (i + 1) _ st hl (by omega) ?_
      intro j x hj hx
      by_cases hji : j = i
      · subst hji
        rw [List.getElem?_eq_getElem hi] at hx
        cases hx
        rcases hf with h | h <;> rw [h] <;> rfl
      · exact hb j x (by omega) hx
    · refine ⟨fun h => absurd hi h, fun _ r s' hs => ?_⟩
      cases r with
      | err => exact herr _ _
      | ok s =>
        obtain ⟨rfl, hal⟩ := hs s rfl
        refine ⟨fun h => absurd (by simpa using hi) h, fun hi2 => ?_⟩
        refine ih (i + 1) _ (st.set i s') (by simpa using hl) (by omega) ?_
        intro j x hj hx
        by_cases hji : j = i
        · subst hji
          rw [List.getElem?_set_self hi] at hx
          cases hx
          exact hal
        · rw [List.getElem?_set_ne (fun e => hji e.symm)] at hx
          exact hb j x (by omega) hx

theorem never_parFinish (m : Mem) (s : BTState) (hs : s ≠ .running) (is : List Nat) :
    (Prog.parFinish m s is).Post (fun _ _ => True) (fun _ r => r ≠ .ok .running) := by
  induction is with
  | nil => intro h; cases h; exact hs rfl
  | cons i is ih =>
    intro st
    simp only
    split
    · exact ih
    · intro r _
      cases r with
      | err => intro h; cases h
      | ok s => exact ih

theorem postE_mono (P Q : List BTState → Mem → Res → Prop) (h : ∀ st m r, P st m r → Q st m r)
    (p : Prog) : ∀ st, PostE P p st → PostE Q p st := by
  induction p with
  | done m r => intro st hp; exact h _ _ _ hp
  | call op i k ih =>
    intro st hp
    exact ⟨fun hn => ih _ _ (hp.1 hn), fun hi r s' hs => ih r _ (hp.2 hi r s' hs)⟩
  | peek i k ih =>
    intro st hp
    exact ⟨fun hn => ih _ _ (hp.1 hn), fun hi => ih _ _ (hp.2 hi)⟩

theorem postE_and (P Q : List BTState → Mem → Res → Prop) (p : Prog) : ∀ st, PostE P p st →
    PostE Q p st → PostE (fun s m r => P s m r ∧ Q s m r) p st := by
  induction p with
  | done m r => intro st h1 h2; exact ⟨h1, h2⟩
  | call op i k ih =>
    intro st h1 h2
    exact ⟨fun hn => ih _ _ (h1.1 hn) (h2.1 hn),
      fun hi r s' hs => ih r _ (h1.2 hi r s' hs) (h2.2 hi r s' hs)⟩
  | peek i k ih =>
    intro st h1 h2
    exact ⟨fun hn => ih _ _ (h1.1 hn) (h2.1 hn), fun hi => ih _ _ (h1.2 hi) (h2.2 hi)⟩

theorem postE_length (P : List BTState → Mem → Res → Prop) (n : Nat) (p : Prog) :
    ∀ st : List BTState, st.length = n → PostE P p st →
    PostE (fun st' m r => st'.length = n ∧ P st' m r) p st := by
  induction p with
  | done m r => intro st hl h; exact ⟨hl, h⟩
  | call op i k ih =>
    intro st hl h
    exact ⟨fun hn => ih _ _ hl (h.1 hn), fun hi r s' hs => ih r _ (by simpa using hl) (h.2 hi r s' hs)⟩
  | peek i k ih =>
    intro st hl h
    exact ⟨fun hn => ih _ _ hl (h.1 hn), fun hi => ih _ _ hl (h.2 hi)⟩

theorem count_all_finished (st : List BTState) (h : ∀ a ∈ st, finished a = true) :
    st.count .succeeded + st.count .failed = st.length := by
  induction st with
  | nil => rfl
  | cons a st ih =>
    have := ih (fun b hb => h b (List.mem_cons_of_mem _ hb))
    have ha := h a List.mem_cons_self
    rw [← finished_iff] at ha
    rcases ha with rfl | rfl
    · simp only [List.count_cons_self, List.length_cons]
      rw [List.count_cons_of_ne (by simp)]
      omega
    · simp only [List.count_cons_self, List.length_cons]
      rw [List.count_cons_of_ne (by simp)]
      omega

theorem busy_parTick (m : Mem) (n : Nat) (prev : BTState) (st : List BTState)
    (win lose : Nat → Prop) [DecidablePred win] [DecidablePred lose] (hl : st.length = n)
    (hcount : ∀ a b, ¬ win a → ¬ lose b → a + b ≠ n) :
    PostE BusyPost (Prog.resetIfFinished n prev m <| Prog.parLoop m (fun s f =>
      if win s then Prog.parFinish m .succeeded (List.range n)
      else if lose f then Prog.parFinish m .failed (List.range n)
      else .done m (.ok .running)) (List.range n) (0, 0)) st := by
  have h1 := postE_of_postS (fun st' _ r => match r with
    | .ok s => ∃ l, ParTick win lose n prev st l s st'
    | .err => True) _ st (postS_mono _ _ _ _ (by
      intro st' l m' r _ h
      cases r with
      | err => trivial
      | ok s => exact ⟨l, h⟩) (postS_parTick m n prev st win lose hl))
  have h2 : PostE (fun st' _ r => r = .ok .running → ∀ x ∈ st', allowedAfter .tick x = true)
      (Prog.resetIfFinished n prev m <| Prog.parLoop m (fun s f =>
      if win s then Prog.parFinish m .succeeded (List.range n)
      else if lose f then Prog.parFinish m .failed (List.range n)
      else .done m (.ok .running)) (List.range n) (0, 0)) st := by
    have hloop : ∀ st : List BTState, st.length = n →
        PostE (fun st' _ r => r = .ok .running → ∀ x ∈ st', allowedAfter .tick x = true)
        (Prog.parLoop m (fun s f =>
        if win s then Prog.parFinish m .succeeded (List.range n)
        else if lose f then Prog.parFinish m .failed (List.range n)
        else .done m (.ok .running)) (List.range n) (0, 0)) st := by
      intro st hl
      rw [List.range_eq_range']
      refine parLoop_states m _ _ (fun _ _ h => by cases h) n ?_ n 0 _ st hl (by omega)
        (fun j x hj => by omega)
      intro a b st' _ hst
      have hnever : ∀ res, res ≠ BTState.running → PostE (fun st' _ r => r = .ok .running →
          ∀ x ∈ st', allowedAfter .tick x = true) (Prog.parFinish m res (List.range' 0 n)) st' := by
        intro res hres
        exact postE_never' _ (fun _ _ _ h hr => absurd hr h) _
          (never_parFinish m res hres (List.range' 0 n)) st'
      split
      · exact hnever _ (by simp)
      · split
        · exact hnever _ (by simp)
        · intro _; exact hst
    unfold Prog.resetIfFinished
    split
    · exact forAll_len _ _ _ _ _ n (fun _ _ h => by cases h) hloop st hl
    · exact hloop st hl
  refine postE_mono _ _ ?_ _ _ (postE_length _ n _ _ hl (postE_and _ _ _ _ h1 h2))
  rintro st' m' r ⟨hlen, hp, hal⟩ hr
  subst hr
  obtain ⟨l, _, _, _, _, _, _, _, _, _, _, hans, _⟩ := hp
  obtain ⟨hw, hlo⟩ := hans.2.2.1 rfl
  refine Decidable.byContradiction fun hno => ?_
  have hfin : ∀ a ∈ st', finished a = true := by
    intro a ha
    have h1 := hal rfl a ha
    have h2 : waiting a = false := by
      cases h : waiting a with
      | false => rfl
      | true => exact absurd ⟨a, ha, h⟩ hno
    revert h1 h2
    cases a <;> simp [allowedAfter, waiting, finished]
  exact hcount _ _ hw hlo (by rw [count_all_finished st' hfin]; exact hlen)

/-! ### Nodes -/

/-- A Throttle never keeps RUNNING as its last result. -/
def GoodCache (k : Kind) (m : Mem) : Prop := k = .throttle → m.lastRes ≠ .ok .running

theorem goodCache_post (k : Kind) (op : Op) (prev : BTState) (m : Mem) (e : Env) (names : List Nat)
    (h : GoodCache k m) :
    (hookProg k op prev m e names).Post (fun _ _ => True) (fun m' _ => GoodCache k m') := by
  by_cases hk : k = .throttle
  · subst hk
    have hm := h rfl
    cases op with
    | setup =>
      simp only [hookProg, setupHook]
      split
      · exact post_onHead _ _ _ _ _ (fun _ => by simp) (fun _ => by simp) (fun _ _ _ => by simp)
      · exact h
    | untick => exact post_onHead _ _ _ _ _ h h (fun _ _ => h)
    | reset => exact post_onHead _ _ _ _ _ h h (fun _ _ => h)
    | shutdown => exact h
    | tick =>
      simp only [hookProg, tickHook]
      split
      · split
        · exact h
        · intro r _
          simp only
          split
          · exact h
          · rename_i hr
            intro r' _
            simp only
            split
            · exact fun _ => hr
            · exact fun _ => hr
      · exact h
  · exact post_true _ (fun _ _ h' => absurd h' hk)

theorem busy_tick (k : Kind) (hk : ownReason k = false) (m : Mem) (prev : BTState) (e : Env)
    (names : List Nat) (st : List BTState) (hl : st.length = names.length)
    (hgap : ¬ gap k m names.length) (hc : GoodCache k m) :
    PostE BusyPost (tickHook k prev m e names) st := by
  cases k with
  | leaf | getter | untilSuccess | retry | «repeat» | repeatNoAutoReset | repeatAlways
  | repeatUntilFail | repeatIfFail | iterateList => cases hk
  | sequence | memSequence =>
    simp only [tickHook]
    split
    · intro h; cases h
    · exact busy_resetIfFinished _ _ _ _ (busy_seqLoop _ _ _) _
  | fallback | memFallback =>
    simp only [tickHook]
    split
    · intro h; cases h
    · exact busy_resetIfFinished _ _ _ _ (busy_fbLoop _ _ _) _
  | nameSwitch | enumSwitch =>
    simp only [tickHook]
    split
    · split
      · intro h; cases h
      · split
        · intro h; cases h
        · exact busy_resetIfFinished _ _ _ _ (busy_untickOthers _ _ _ (busy_call _ _) _) _
    · intro h; cases h
  | parallel =>
    refine busy_parTick m _ prev st (fun s => m.needed ≤ (s : Int))
      (fun f => (names.length : Int) - m.needed < (f : Int)) hl ?_
    intro a b ha hb
    omega
  | parallelTol =>
    refine busy_parTick m _ prev st (fun s => m.needed ≤ (s : Int))
      (fun f => m.tolerate < (f : Int)) hl ?_
    have hg : ¬ ((names.length : Int) < m.needed + m.tolerate) := fun h => hgap ⟨rfl, h⟩
    intro a b ha hb
    omega
  | ignoreFailure =>
    refine busy_onHead _ _ _ _ (by simp) ?_ _
    intro s; split <;> simp
  | ignoreSuccess =>
    refine busy_onHead _ _ _ _ (by simp) ?_ _
    intro s; split <;> simp
  | inverter =>
    refine busy_onHead _ _ _ _ (by simp) ?_ _
    intro s; split
    · simp
    · split <;> simp
  | ignoreRunning =>
    refine busy_onHead _ _ _ _ (by simp) ?_ _
    intro s; split
    · exact fun h => h
    · split <;> simp
  | optional =>
    simp only [tickHook]
    split
    · exact busy_call _ _ _
    · intro h; cases h
  | subtree =>
    simp only [tickHook]
    split
    · split
      · exact busy_call _ _ _
      · intro h; cases h
    · intro h; cases h
  | watch =>
    simp only [tickHook]
    split
    · intro h; cases h
    · split
      · split
        · refine ⟨fun _ h => (by cases h), fun _ r s' _ => ?_⟩
          cases r with
          | err => intro h; cases h
          | ok s => exact busy_call _ _ _
        · exact busy_call _ _ _
      · intro h; cases h
  | throttle =>
    have hc' := hc rfl
    simp only [tickHook]
    split
    · split
      · intro h; exact absurd h hc'
      · refine ⟨fun _ => ?_, fun hi r s' hs => ?_⟩
        · simp only [reduceCtorEq, if_false]
          refine postE_never _ ?_ _
          intro r' _
          simp only
          split <;> simp [Prog.Post]
        · simp only
          split
          · rename_i hr
            intro _
            obtain ⟨rfl, _⟩ := hs .running hr
            exact ⟨_, mem_set_self _ _ _ hi, rfl⟩
          · rename_i hr
            refine postE_never _ ?_ _
            intro r' _
            simp only
            split
            · simp [Prog.Post]
            · exact hr
    · intro h; exact absurd h hc'
  | throttleSuccess =>
    simp only [tickHook]
    refine postE_never _ ?_ _
    split
    · split
      · simp [Prog.Post]
      · intro r _; simp [Prog.Post]
    · simp [Prog.Post]

theorem finishShutdown_kind (o : Ops N) (nd : Node N) (l t) :
    (nd.finishShutdown o l t).node.kind = nd.kind := by
  simp only [Node.finishShutdown]
  split <;> simp [Node.wrap]

/-- The invariant of one node. -/
def NodeOk (o : Ops N) (nd : Node N) : Prop :=
  GoodCache nd.kind nd.mem ∧ (nd.state = .running → ownReason nd.kind = false →
    ¬ gap nd.kind nd.mem nd.children.length → ∃ c ∈ nd.children, waiting (o.state c) = true)

theorem nodeOk_run (o : Ops N) (hs : Sound o) (op : Op) (nd : Node N) (hm : CacheOk nd.mem)
    (h : NodeOk o nd) : NodeOk o (nd.run o op).node := by
  have hcache : ∀ x, x = exec o (hookProg nd.kind op nd.state nd.mem (nd.env nd.ctr)
      (nd.children.map o.name)) nd.children → GoodCache nd.kind x.mem := by
    intro x hx
    have := exec_post o (fun _ _ => True) _ (fun _ _ _ _ => trivial) _ nd.children
      (goodCache_post nd.kind op nd.state nd.mem (nd.env nd.ctr) (nd.children.map o.name) h.1)
    rw [← hx] at this
    exact this
  have hlen : ∀ x, x = exec o (hookProg nd.kind op nd.state nd.mem (nd.env nd.ctr)
      (nd.children.map o.name)) nd.children → x.children.length = nd.children.length := by
    intro x hx
    rw [hx]
    exact exec_length o _ _
  apply run_cases o op nd (P := fun out => NodeOk o out.node)
  · intro _; exact h
  · intro _ _ _; exact ⟨h.1, fun hr => by cases hr⟩
  · intro x hx _ _ _; exact ⟨hcache x hx, fun hr => by cases hr⟩
  · intro x s hx _ _ hr hal
    refine ⟨hcache x hx, fun _ hown => ?_⟩
    by_cases hleaf : nd.kind = .leaf
    · have hown' : ownReason nd.kind = false := hown
      rw [hleaf] at hown'
      cases hown'
    · have := (hook_good o hs op nd hleaf hm (nd.env nd.ctr)).2 s (by rw [← hx]; exact hr)
      simp [hal] at this
  · intro x s hop hx hacc _ hr hal
    refine ⟨hcache x hx, fun hrun hown hgap => ?_⟩
    simp only [Node.wrap] at hrun hown hgap ⊢
    subst hrun
    have htick : op = .tick := by
      revert hal
      cases op <;> simp [allowedAfter]
    subst htick
    have hcfg := exec_post o (fun _ _ => True) _ (fun _ _ _ _ => trivial) _ nd.children
      (hook_cfg nd.kind .tick (by simp) nd.state nd.mem (nd.env nd.ctr) (nd.children.map o.name))
    rw [← hx] at hcfg
    have hgap' : ¬ gap nd.kind nd.mem (nd.children.map o.name).length := by
      intro hg
      apply hgap
      rw [hlen x hx]
      refine ⟨hg.1, ?_⟩
      have e1 : x.mem.needed = nd.mem.needed := congrArg Cfg.needed hcfg
      have e2 : x.mem.tolerate = nd.mem.tolerate := congrArg Cfg.tolerate hcfg
      rw [e1, e2]
      have := hg.2
      rw [List.length_map] at this
      exact this
    have := exec_postE o hs _ _ nd.children (busy_tick nd.kind hown nd.mem nd.state (nd.env nd.ctr)
      (nd.children.map o.name) (nd.children.map o.state) (by simp) hgap' h.1)
    have hx' : x = exec o (tickHook nd.kind nd.state nd.mem (nd.env nd.ctr)
      (nd.children.map o.name)) nd.children := hx
    rw [← hx'] at this
    obtain ⟨a, ha, hw⟩ := this hr
    obtain ⟨c, hc, rfl⟩ := List.mem_map.1 ha
    exact ⟨c, hc, hw⟩
  · intro hop hst
    have hns := finishShutdown_mem o { nd with ctr := nd.ctr + 1 } [] []
    have hk := finishShutdown_kind o { nd with ctr := nd.ctr + 1 } [] []
    refine ⟨?_, fun hr => ?_⟩
    · rw [hns.1, hk]; exact h.1
    · rw [hns.2] at hr
      simp only at hr
      rw [hst] at hr
      cases hr
  · intro x _ hx _ _
    have hns := finishShutdown_mem o { nd with
      ctr := nd.ctr + 1, mem := x.mem, children := x.children, state := .shutdown } x.log
      (.hook op nd.id :: x.trace)
    have hk := finishShutdown_kind o { nd with
      ctr := nd.ctr + 1, mem := x.mem, children := x.children, state := .shutdown } x.log
      (.hook op nd.id :: x.trace)
    refine ⟨?_, fun hr => ?_⟩
    · rw [hns.1, hk]; exact hcache x hx
    · rw [hns.2] at hr
      cases hr

/-! ### Trees -/

/-- `NodeOk` for all nodes. -/
def BInv : (n : Nat) → Tree n → Prop
  | 0, t => Empty.elim t
  | n + 1, t => NodeOk (ops n) t ∧ ∀ c ∈ Node.children (N := Tree n) t, BInv n c

/-- Everything that is kept by all operations. -/
def BAll (n : Nat) (t : Tree n) : Prop := Caches n t ∧ BInv n t

theorem bAll_run (n : Nat) (op : Op) (t : Tree n) (h : BAll n t) : BAll n ((ops n).run op t).node := by
  induction n generalizing op with
  | zero => exact Empty.elim t
  | succ n ih =>
    obtain ⟨hca, hb⟩ := h
    refine ⟨caches_run _ op t hca, nodeOk_run (ops n) (ops_sound n) op t hca.1 hb.1, ?_⟩
    intro c hc
    exact (run_children (ops n) (BAll n) (fun op c hc => ih op c hc) op t
      (fun c hc => ⟨hca.2 c hc, hb.2 c hc⟩) c hc).2

theorem bAll_runs (n : Nat) (l : List Op) : ∀ t : Tree n, BAll n t → BAll n (runs (ops n) l t).2 := by
  induction l with
  | nil => intro t h; exact h
  | cons op l ih => intro t h; exact ih _ (bAll_run n op t h)

theorem bInv_fresh (n : Nat) : ∀ t : Tree n, Fresh n t → BInv n t := by
  induction n with
  | zero => intro t; exact Empty.elim t
  | succ n ih =>
    intro t h
    refine ⟨⟨?_, fun hr => ?_⟩, fun c hc => ih c (h.2 c hc)⟩
    · have e : Node.mem (N := Tree n) t = {} := h.1.2
      intro _
      rw [e]
      simp
    · have e : Node.state (N := Tree n) t = .uninitialized := h.1.1
      rw [e] at hr
      cases hr

theorem waits (n : Nat) : ∀ t : Tree n, BInv n t → NoGap n t → waiting ((ops n).state t) = true →
    Waits n t := by
  induction n with
  | zero => intro t; exact Empty.elim t
  | succ n ih =>
    intro t hb hg hw
    have hw' : waiting (Node.state (N := Tree n) t) = true := hw
    simp only [Waits]
    by_cases h1 : Node.state (N := Tree n) t = .assigned
    · exact Or.inl h1
    · by_cases h2 : Node.state (N := Tree n) t = .unassigned
      · exact Or.inr (Or.inl h2)
      · have h3 : Node.state (N := Tree n) t = .running := by
          revert hw' h1 h2
          cases Node.state (N := Tree n) t <;> simp [waiting]
        refine Or.inr (Or.inr ⟨h3, ?_⟩)
        by_cases ho : ownReason (Node.kind (N := Tree n) t) = true
        · exact Or.inl ho
        · obtain ⟨c, hc, hwc⟩ := hb.1.2 h3 (by simpa using ho) hg.1
          exact Or.inr ⟨c, hc, ih c (hb.2 c hc) (hg.2 c hc) hwc⟩

/-- **C113 (partial).** Take a freshly created tree and any history of operations with any outcomes. If
the root is then RUNNING and no ParallelFailureTolerance has a gap between its parameters, there is a
reason: from the root a path of RUNNING nodes leads to a leaf, a Getter or a repeating node that is
RUNNING itself (or to a node that answered ASSIGNED or UNASSIGNED). Missing for the full statement:
ParallelFailureTolerance with a gap; `c113_gap` shows that it may be RUNNING without any reason. -/
theorem c113_running_waits_partial (n : Nat) (t : Tree n) (hf : Fresh n t) (history : List Op) :
    let t' := (runs (ops n) history t).2
    NoGap n t' → (ops n).state t' = .running → Waits n t' := by
  intro t' hg h
  have hb := bAll_runs n history t ⟨caches_fresh n t hf, bInv_fresh n t hf⟩
  exact waits n _ hb.2 hg (by rw [h]; rfl)

/-- A Throttle over a Sequence over a finished leaf and a Parallel that needs one of two leaves. -/
def sampleBusy : Tree 4 :=
  mk 3 1 .throttle
    [mk 2 2 .sequence
      [mkLeaf 1 3 [.ok .idle, .ok .succeeded],
       mk 1 4 .parallel [mkLeaf 0 5 [.ok .idle, .ok .failed], mkLeaf 0 6 [.ok .idle, .ok .running]]
        (fun _ => { num := 1 })]]

example : Fresh 4 sampleBusy ∧
    let t' := (runs (ops 4) [.setup, .tick] sampleBusy).2
    NoGap 4 t' ∧ (ops 4).state t' = .running ∧
    nodeStates 4 t' = [(1, .running), (2, .running), (3, .succeeded), (4, .running), (5, .failed),
      (6, .running)] := by
  decide

/-- **A ParallelFailureTolerance with a gap** is RUNNING without a reason: two children, two needed
successes, one tolerated failure, one success and one failure (`parallel.py:352-375`). -/
theorem c113_gap :
    ∃ t : Tree 2, rootKind 1 t = .parallelTol ∧ Fresh 2 t ∧ WF 2 t ∧
      let t' := (runs (ops 2) [.setup, .tick] t).2
      nodeStates 2 t' = [(1, .running), (2, .succeeded), (3, .failed)] ∧ ¬ NoGap 2 t' := 
  ⟨sampleParTol .parallelTol, by decide⟩

end Verif.BT.Busy
