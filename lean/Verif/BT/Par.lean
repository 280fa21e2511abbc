import Verif.BT.Config

/-!
# C15, C16: Parallel and ParallelFailureTolerance
-/

set_option autoImplicit false

namespace Verif.BT

variable {N : Type}

/-! ### Specification -/

/-- Specification: `op` is called, in order, on exactly those children among `i, ..., n-1` whose state
in `st` is neither SUCCEEDED nor FAILED, and every answer is `Ok`. -/
def CallsUnfinished (op : Op) (st : List BTState) (i n : Nat) (l : List Call) : Prop :=
  l.map (fun c => (c.op, c.child)) =
    ((List.range' i (n - i)).filter fun j => !finished (st.getD j .idle)).map (fun j => (op, j)) ∧
  ∀ c ∈ l, c.res.isOk = true

/-- Specification of the answer of a parallel node. `win su` says that the number of SUCCEEDED
children suffices, `lose fa` that the number of FAILED children is too large. -/
def ParAnswer (win lose : Nat → Prop) (st : List BTState) (s : BTState) : Prop :=
  (s = .succeeded ↔ win (st.count .succeeded)) ∧
  (s = .failed ↔ ¬ win (st.count .succeeded) ∧ lose (st.count .failed)) ∧
  (s = .running ↔ ¬ win (st.count .succeeded) ∧ ¬ lose (st.count .failed))

/-- Specification of one tick of a parallel node: `prev` is its own state before, `st` and `st'` are
the states of its children before and afterwards. All children are reset if the previous pass
was finished (`st₁`: their states then); then exactly the unfinished ones are ticked, in order; the
answer is determined by the states afterwards; if there is a result, all unfinished children are
unticked and nothing is RUNNING, otherwise nothing else is called. Children that had finished keep
their state. -/
def ParTick (win lose : Nat → Prop) (n : Nat) (prev : BTState) (st : List BTState)
    (l : List Call) (s : BTState) (st' : List BTState) : Prop :=
  ∃ l₀ l₁ l₂ st₁ st₂, l = l₀ ++ (l₁ ++ l₂) ∧ Resets (finished prev) n l₀ ∧
    (if finished prev then ∀ a ∈ st₁, a = .idle else st₁ = st) ∧
    CallsUnfinished .tick st₁ 0 n l₁ ∧
    (∀ (j : Nat) (a : BTState), st₁[j]? = some a → finished a = true → st₂[j]? = some a) ∧
    ParAnswer win lose st' s ∧
    (∀ (j : Nat) (a : BTState), st₂[j]? = some a → finished a = true → st'[j]? = some a) ∧
    if s = .running then l₂ = [] ∧ st' = st₂
    else CallsUnfinished .untick st₂ 0 n l₂ ∧ ∀ a ∈ st', a ≠ .running

/-! ### The loops -/

theorem filter_range'_succ (p : Nat → Bool) (i n : Nat) (h : i < n) :
    (List.range' i (n - i)).filter p =
      if p i then i :: (List.range' (i + 1) (n - (i + 1))).filter p
      else (List.range' (i + 1) (n - (i + 1))).filter p := by
  have : n - i = (n - (i + 1)) + 1 := by omega
  rw [this, List.range'_succ, List.filter_cons]

theorem callsUnfinished_nil (op : Op) (st : List BTState) (n : Nat) :
    CallsUnfinished op st n n [] := by simp [CallsUnfinished]

theorem callsUnfinished_cons (op : Op) (st : List BTState) (i n : Nat) (s : BTState) (l : List Call)
    (h : i < n) (hf : finished (st.getD i .idle) = false)
    (hl : CallsUnfinished op st (i + 1) n l) : CallsUnfinished op st i n (⟨op, i, .ok s⟩ :: l) := by
  obtain ⟨h1, h2⟩ := hl
  refine ⟨?_, ?_⟩
  · rw [filter_range'_succ _ _ _ h]
    simp only [hf, Bool.not_false, if_true, List.map_cons, h1]
  · intro c hc
    rcases List.mem_cons.1 hc with rfl | hc
    · rfl
    · exact h2 c hc

theorem callsUnfinished_skip (op : Op) (st : List BTState) (i n : Nat) (l : List Call)
    (h : i < n) (hf : finished (st.getD i .idle) = true)
    (hl : CallsUnfinished op st (i + 1) n l) : CallsUnfinished op st i n l := by
  obtain ⟨h1, h2⟩ := hl
  refine ⟨?_, h2⟩
  rw [filter_range'_succ _ _ _ h]
  simp only [hf, Bool.not_true, Bool.false_eq_true, if_false, h1]

theorem callsUnfinished_congr (op : Op) (st st' : List BTState) (i n : Nat) (l : List Call)
    (h : ∀ j, i ≤ j → st[j]? = st'[j]?) (hl : CallsUnfinished op st i n l) :
    CallsUnfinished op st' i n l := by
  refine ⟨?_, hl.2⟩
  rw [hl.1]
  congr 1
  apply List.filter_congr
  intro j hj
  simp only [List.mem_range'_1] at hj
  simp only [List.getD_eq_getElem?_getD, h j hj.1]

theorem getElem_of_getElem?_eq {α : Type} {l l' : List α} {i : Nat} (h : i < l.length) (h' : i < l'.length)
    (e : l[i]? = l'[i]?) : l[i] = l'[i] := by
  rw [List.getElem?_eq_getElem h, List.getElem?_eq_getElem h'] at e
  exact Option.some.inj e

theorem finished_iff (s : BTState) : (s = .succeeded ∨ s = .failed) ↔ finished s = true := by
  simp [finished]

theorem countState_eq (a : BTState) (sf : Nat × Nat) (l : List BTState) :
    (Prog.countState a sf).1 + l.count .succeeded = sf.1 + (a :: l).count .succeeded ∧
    (Prog.countState a sf).2 + l.count .failed = sf.2 + (a :: l).count .failed := by
  unfold Prog.countState
  split
  · rename_i h; subst h; simp; omega
  · split
    · rename_i h; subst h; simp; omega
    · rename_i h1 h2
      rw [List.count_cons_of_ne (fun h => h1 h), List.count_cons_of_ne (fun h => h2 h)]
      simp

theorem postS_parLoop (m : Mem) (k : Nat → Nat → Prog) (n : Nat) (len : Nat) :
    ∀ (i : Nat) (sf : Nat × Nat) (st : List BTState) (P : PostCond),
    st.length = n → i + len = n →
    (∀ st' l, st'.length = n → (∃ c ∈ l, c.res = .err) → P st' l m .err) →
    (∀ st' l, st'.length = n → (∀ j, j < i → st'[j]? = st[j]?) →
      CallsUnfinished .tick st i n l →
      (∀ (j : Nat) (a : BTState), st[j]? = some a → finished a = true → st'[j]? = some a) →
      (k (sf.1 + (st'.drop i).count .succeeded) (sf.2 + (st'.drop i).count .failed)).PostS
        (fun st'' l' => P st'' (l ++ l')) st') →
    (Prog.parLoop m k (List.range' i len) sf).PostS P st := by
  induction len with
  | zero =>
    intro i sf st P hl hn he hk
    have hin : i = n := by omega
    have := hk st [] hl (fun _ _ => rfl) (hin ▸ callsUnfinished_nil _ _ _) (fun _ _ h _ => h)
    rw [List.drop_of_length_le (by omega)] at this
    simpa [Prog.parLoop] using this
  | succ len ih =>
    intro i sf st P hl hn he hk
    rw [List.range'_succ]
    have hi : i < st.length := by omega
    refine ⟨hi, ?_⟩
    have hget : st.getD i .idle = st[i] := by simp [List.getD_eq_getElem?_getD, hi]
    simp only
    split
    · rename_i hf
      rw [finished_iff] at hf
      apply ih (i + 1) _ st P hl (by omega) he
      intro st' l h1 h2 h3 h4
      have hi' : i < st'.length := by omega
      have hsame : st'[i] = st[i] := getElem_of_getElem?_eq hi' hi (h2 i (by omega))
      have hc := countState_eq st[i] sf (st'.drop (i + 1))
      rw [hc.1, hc.2, ← hsame, List.getElem_cons_drop]
      exact hk st' l h1 (fun j hj => h2 j (by omega))
        (callsUnfinished_skip _ _ _ _ _ (by omega) (hget ▸ hf) h3) h4
    · rename_i hf
      have hf' : finished st[i] = false := by
        simpa using mt (finished_iff _).2 hf
      refine ⟨hi, fun r s' hs => ?_⟩
      cases r with
      | err => exact he _ _ (by simpa using hl) ⟨_, List.mem_singleton.2 rfl, rfl⟩
      | ok s =>
        obtain ⟨rfl, hal⟩ := hs s rfl
        have hi2 : i < (st.set i s').length := by simpa using hi
        refine ⟨hi2, ?_⟩
        rw [List.getElem_set_self]
        apply ih (i + 1) _ (st.set i s') _ (by simpa using hl) (by omega)
        · intro st' l h1 h2
          obtain ⟨c, hc, h⟩ := h2
          exact he _ _ h1 ⟨c, List.mem_cons_of_mem _ hc, h⟩
        · intro st' l h1 h2 h3 h4
          have hi' : i < st'.length := by omega
          have hsame : st'[i] = s' := by
            have := getElem_of_getElem?_eq hi' hi2 (h2 i (by omega))
            rw [this, List.getElem_set_self]
          have hc := countState_eq s' sf (st'.drop (i + 1))
          rw [hc.1, hc.2, ← hsame, List.getElem_cons_drop, hsame]
          have := hk st' (⟨.tick, i, .ok s'⟩ :: l) h1
            (fun j hj => by rw [h2 j (by omega), List.getElem?_set_ne (by omega)])
            (callsUnfinished_cons _ _ _ _ _ _ (by omega) (hget ▸ hf')
              (callsUnfinished_congr _ _ _ _ _ _ (fun j hj => List.getElem?_set_ne (by omega)) h3))
            (by
              intro j a hj hfa
              by_cases hij : j = i
              · subst hij
                rw [List.getElem?_eq_getElem hi] at hj
                cases hj
                rw [hf'] at hfa
                cases hfa
              · exact h4 j a (by rw [List.getElem?_set_ne (by omega)]; exact hj) hfa)
          simpa using this

/-- States after the unticks that end a pass. -/
theorem postS_parFinish (m : Mem) (res : BTState) (n : Nat) (len : Nat) :
    ∀ (i : Nat) (st : List BTState) (P : PostCond),
    st.length = n → i + len = n →
    (∀ st' l, (∃ c ∈ l, c.res = .err) → P st' l m .err) →
    (∀ st' l, st'.length = n → (∀ j, j < i → st'[j]? = st[j]?) →
      CallsUnfinished .untick st i n l →
      (∀ (j : Nat) (a : BTState), st[j]? = some a → finished a = true → st'[j]? = some a) →
      (∀ (j : Nat) (a : BTState), i ≤ j → st[j]? = some a → finished a = false →
        st'[j]? = some .idle ∨ st'[j]? = some .paused) →
      P st' l m (.ok res)) →
    (Prog.parFinish m res (List.range' i len)).PostS P st := by
  induction len with
  | zero =>
    intro i st P hl hn he hk
    have hin : i = n := by omega
    refine hk st [] hl (fun _ _ => rfl) (hin ▸ callsUnfinished_nil _ _ _) (fun _ _ h _ => h) ?_
    intro j a hj h _
    rw [List.getElem?_eq_none (by omega)] at h
    cases h
  | succ len ih =>
    intro i st P hl hn he hk
    rw [List.range'_succ]
    have hi : i < st.length := by omega
    refine ⟨hi, ?_⟩
    have hget : st.getD i .idle = st[i] := by simp [List.getD_eq_getElem?_getD, hi]
    simp only
    split
    · rename_i hf
      rw [finished_iff] at hf
      apply ih (i + 1) st P hl (by omega) he
      intro st' l h1 h2 h3 h4 h5
      refine hk st' l h1 (fun j hj => h2 j (by omega))
        (callsUnfinished_skip _ _ _ _ _ (by omega) (hget ▸ hf) h3) h4 ?_
      intro j a hj h hfa
      by_cases hij : j = i
      · subst hij
        rw [List.getElem?_eq_getElem hi] at h
        cases h
        rw [hf] at hfa
        cases hfa
      · exact h5 j a (by omega) h hfa
    · rename_i hf
      have hf' : finished st[i] = false := by
        simpa using mt (finished_iff _).2 hf
      refine ⟨hi, fun r s' hs => ?_⟩
      cases r with
      | err => exact he _ _ ⟨_, List.mem_singleton.2 rfl, rfl⟩
      | ok s =>
        obtain ⟨rfl, hal⟩ := hs s rfl
        apply ih (i + 1) (st.set i s') _ (by simpa using hl) (by omega)
        · intro st' l h2
          obtain ⟨c, hc, h⟩ := h2
          exact he _ _ ⟨c, List.mem_cons_of_mem _ hc, h⟩
        · intro st' l h1 h2 h3 h4 h5
          have hi' : i < st'.length := by omega
          have hsame : st'[i]? = some s' := by
            rw [h2 i (by omega), List.getElem?_set_self hi]
          refine hk st' (⟨.untick, i, .ok s'⟩ :: l) h1
            (fun j hj => by rw [h2 j (by omega), List.getElem?_set_ne (by omega)])
            (callsUnfinished_cons _ _ _ _ _ _ (by omega) (hget ▸ hf')
              (callsUnfinished_congr _ _ _ _ _ _ (fun j hj => List.getElem?_set_ne (by omega)) h3))
            ?_ ?_
          · intro j a hj hfa
            by_cases hij : j = i
            · subst hij
              rw [List.getElem?_eq_getElem hi] at hj
              cases hj
              rw [hf'] at hfa
              cases hfa
            · exact h4 j a (by rw [List.getElem?_set_ne (by omega)]; exact hj) hfa
          · intro j a hj h hfa
            by_cases hij : j = i
            · subst hij
              rw [hsame]
              have : s' = .idle ∨ s' = .paused := by simpa [allowedAfter] using hal
              rcases this with rfl | rfl
              · exact Or.inl rfl
              · exact Or.inr rfl
            · exact h5 j a (by omega) (by rw [List.getElem?_set_ne (by omega)]; exact h) hfa

/-- Unticking unfinished children does not change the number of finished ones. -/
theorem count_finish (b : BTState) (hb : finished b = true) (st : List BTState) :
    ∀ st' : List BTState, st'.length = st.length →
    (∀ (j : Nat) (a : BTState), st[j]? = some a → finished a = true → st'[j]? = some a) →
    (∀ (j : Nat) (a : BTState), st[j]? = some a → finished a = false →
      st'[j]? = some .idle ∨ st'[j]? = some .paused) →
    st'.count b = st.count b := by
  induction st with
  | nil => intro st' h _ _; simp [List.length_eq_zero_iff.1 h]
  | cons a st ih =>
    intro st' hl h1 h2
    cases st' with
    | nil => simp at hl
    | cons a' st' =>
      have hih := ih st' (by simpa using hl) (fun j a h => h1 (j + 1) a (by simpa using h))
        (fun j a h => h2 (j + 1) a (by simpa using h))
      by_cases hf : finished a = true
      · have := h1 0 a rfl hf
        simp only [List.getElem?_cons_zero, Option.some.injEq] at this
        subst this
        simp [List.count_cons, hih]
      · have hf' : finished a = false := by simpa using hf
        have := h2 0 a rfl hf'
        simp only [List.getElem?_cons_zero, Option.some.injEq] at this
        have hne : ∀ c, finished c = false → c ≠ b := by
          intro c hc h; rw [h, hb] at hc; cases hc
        rw [List.count_cons_of_ne (hne a hf'), List.count_cons_of_ne, hih]
        rcases this with rfl | rfl <;> exact hne _ rfl

/-- The tick hook shared by both parallel classes. -/
theorem postS_parTick (m : Mem) (n : Nat) (prev : BTState) (st : List BTState)
    (win lose : Nat → Prop) [DecidablePred win] [DecidablePred lose]
    (hl : st.length = n) :
    (Prog.resetIfFinished n prev m <| Prog.parLoop m (fun s f =>
      if win s then Prog.parFinish m .succeeded (List.range n)
      else if lose f then Prog.parFinish m .failed (List.range n)
      else .done m (.ok .running)) (List.range n) (0, 0)).PostS
      (fun st' l _ r => match r with
        | .ok s => ParTick win lose n prev st l s st'
        | .err => ∃ c ∈ l, c.res = .err) st := by
  apply postS_resetIfFinished _ _ _ _ _ _ hl
  · intro st' l h; exact h
  · intro st₁ l₀ h1 h2 h3 h4
    rw [List.range_eq_range']
    apply postS_parLoop m _ n n 0 _ _ _ h1 (by omega)
    · intro st' l _ h
      obtain ⟨c, hc, h⟩ := h
      exact ⟨c, List.mem_append_right _ hc, h⟩
    · intro st₂ l₁ g1 _ g3 g4
      simp only [List.drop_zero, Nat.zero_add]
      have hst1 : if finished prev then ∀ a ∈ st₁, a = .idle else st₁ = st := by
        split
        · rename_i h; exact h4 h
        · rename_i h; exact h3 (by simpa using h)
      have hfinish : ∀ res, res ≠ .running →
          (∀ st' : List BTState, st'.count .succeeded = st₂.count .succeeded →
            st'.count .failed = st₂.count .failed → ParAnswer win lose st' res) →
          (Prog.parFinish m res (List.range' 0 n)).PostS
            (fun st' l _ r => match r with
              | .ok s => ParTick win lose n prev st (l₀ ++ (l₁ ++ l)) s st'
              | .err => ∃ c ∈ l₀ ++ (l₁ ++ l), c.res = .err) st₂ := by
        intro res hres hans
        apply postS_parFinish m res n n 0 st₂ _ g1 (by omega)
        · intro st' l h
          obtain ⟨c, hc, h⟩ := h
          exact ⟨c, List.mem_append_right _ (List.mem_append_right _ hc), h⟩
        · intro st' l f1 _ f3 f4 f5
          refine ⟨l₀, l₁, l, st₁, st₂, rfl, h2, hst1, g3, g4, ?_, f4, ?_⟩
          · exact hans st' (count_finish _ rfl st₂ st' (by omega) f4 (fun j a => f5 j a (by omega)))
              (count_finish _ rfl st₂ st' (by omega) f4 (fun j a => f5 j a (by omega)))
          · simp only [hres, if_false]
            refine ⟨f3, ?_⟩
            intro a ha hrun
            obtain ⟨j, hj, rfl⟩ := List.mem_iff_getElem.1 ha
            have hj2 : j < st₂.length := by omega
            have e := List.getElem?_eq_getElem hj
            by_cases hf : finished st₂[j] = true
            · have := f4 j _ (List.getElem?_eq_getElem hj2) hf
              rw [e, Option.some.injEq] at this
              rw [← this, hrun] at hf
              cases hf
            · have := f5 j _ (by omega) (List.getElem?_eq_getElem hj2) (by simpa using hf)
              rw [e] at this
              simp [hrun] at this
      split
      · rename_i hw
        apply hfinish .succeeded (by simp)
        intro st' e1 e2
        refine ⟨by simp [e1, hw], by simp [e1, hw], by simp [e1, hw]⟩
      · rename_i hw
        split
        · rename_i hlo
          apply hfinish .failed (by simp)
          intro st' e1 e2
          refine ⟨by simp [e1, hw], by simp [e1, e2, hw, hlo], by simp [e1, e2, hw, hlo]⟩
        · rename_i hlo
          refine ⟨l₀, l₁, [], st₁, st₂, rfl, h2, hst1, g3, g4, ?_, fun _ _ h _ => h, ?_⟩
          · exact ⟨by simp [hw], by simp [hw, hlo], by simp [hw, hlo]⟩
          · simp

/-! ### C15, C16 -/

/-- What setup of the parallel nodes stores. -/
theorem par_setup (o : Ops N) (nd : Node N) (hk : nd.kind = .parallel ∨ nd.kind = .parallelTol)
    (h : (nd.run o .setup).res.isOk = true) :
    (nd.run o .setup).node.mem.needed = (nd.env nd.ctr).num ∧
    (nd.env nd.ctr).num ≤ (nd.children.length : Int) ∧
    (nd.kind = .parallelTol → (nd.run o .setup).node.mem.tolerate = (nd.env nd.ctr).num2) := by
  obtain ⟨s, hs⟩ : ∃ s, (nd.run o .setup).res = .ok s := by
    cases hr : (nd.run o .setup).res with
    | err => rw [hr] at h; simp at h
    | ok s => exact ⟨s, rfl⟩
  obtain ⟨x, hx, hr, hn, _, _⟩ := run_ok o .setup (by simp) nd s hs
  rw [hn]
  have := exec_post o (fun _ _ => True) (fun m r => r.isOk = true →
    m.needed = (nd.env nd.ctr).num ∧ (nd.env nd.ctr).num ≤ (nd.children.length : Int) ∧
    (nd.kind = .parallelTol → m.tolerate = (nd.env nd.ctr).num2)) (fun _ _ _ _ => trivial)
    (hookProg nd.kind .setup nd.state nd.mem (nd.env nd.ctr) (nd.children.map o.name)) nd.children
    (by
      rcases hk with hk | hk <;>
      · rw [hk]
        simp only [hookProg, setupHook, List.length_map]
        split
        · split
          · intro h; simp at h
          · rename_i hle
            refine post_allThen _ _ _ _ (by simp) ?_
            intro _
            refine ⟨rfl, by omega, ?_⟩
            first
            | (intro _; rfl)
            | (intro h; cases h)
        · intro h; simp at h)
  rw [← hx] at this
  exact this (by rw [hr]; rfl)

/-- **C15.** A Parallel with option `needed_successes = k` (read at setup) is set up and then
operated on in any way (other than being set up again). A tick that then answers `Ok(s)` is a
`ParTick`: SUCCEEDED iff at least `k` children are SUCCEEDED, otherwise FAILED iff more than `n - k`
children are FAILED, otherwise RUNNING; and so on. -/
theorem c15_parallel (n : Nat) (t : Tree (n + 1)) (hk : rootKind n t = .parallel)
    (hset : ((ops (n + 1)).run .setup t).res.isOk = true) (rest : List Op) (hrest : Op.setup ∉ rest)
    (s : BTState) :
    let k := (nextEnv n t).num
    let len := (rootChildren n t).length
    let t' := (runs (ops (n + 1)) rest ((ops (n + 1)).run .setup t).node).2
    ((ops (n + 1)).run .tick t').res = .ok s →
    ParTick (fun su => k ≤ (su : Int)) (fun fa => (len : Int) - k < (fa : Int)) len
      ((ops (n + 1)).state t') ((rootChildren n t').map (ops n).state)
      ((ops (n + 1)).run .tick t').log s
      ((rootChildren n ((ops (n + 1)).run .tick t').node).map (ops n).state) := by
  intro k len t' h
  obtain ⟨e1, e2, _⟩ := par_setup (ops n) t (Or.inl hk) hset
  obtain ⟨_, _, hkind, _, _, hlen⟩ := run_static (ops n) .setup t
  obtain ⟨c1, c2, c3⟩ := runs_cfg (ops n) rest hrest ((ops (n + 1)).run .setup t).node
  have hk' : Node.kind (N := Tree n) t' = .parallel := c2.trans (hkind.trans hk)
  have hlen' : (Node.children (N := Tree n) t').length = len := c3.trans hlen
  have hneed : (Node.mem (N := Tree n) t').needed = k := by
    have := congrArg Cfg.needed c1
    exact this.trans e1
  refine (run_ok_post (ops n) (ops_sound n) .tick (by simp) t' s
    (fun st' l _ r => match r with
        | .ok s => ParTick (fun su => k ≤ (su : Int)) (fun fa => (len : Int) - k < (fa : Int)) len
            ((ops (n + 1)).state t') ((rootChildren n t').map (ops n).state) l s st'
        | .err => ∃ c ∈ l, c.res = .err) ?_ h).1
  rw [hk']
  simp only [hookProg, tickHook, List.length_map, hneed, hlen']
  exact postS_parTick _ len _ _ (fun su => k ≤ (su : Int)) (fun fa => (len : Int) - k < (fa : Int))
    ((List.length_map _).trans hlen')

/-- **C16.** The same for ParallelFailureTolerance with options `needed_successes = k` and
`tolerate_failures = f`: FAILED iff more than `f` children are FAILED. -/
theorem c16_parallel_tolerance_partial (n : Nat) (t : Tree (n + 1)) (hk : rootKind n t = .parallelTol)
    (hset : ((ops (n + 1)).run .setup t).res.isOk = true) (rest : List Op) (hrest : Op.setup ∉ rest)
    (s : BTState) :
    let k := (nextEnv n t).num
    let f := (nextEnv n t).num2
    let len := (rootChildren n t).length
    let t' := (runs (ops (n + 1)) rest ((ops (n + 1)).run .setup t).node).2
    ((ops (n + 1)).run .tick t').res = .ok s →
    ParTick (fun su => k ≤ (su : Int)) (fun fa => f < (fa : Int)) len
      ((ops (n + 1)).state t') ((rootChildren n t').map (ops n).state)
      ((ops (n + 1)).run .tick t').log s
      ((rootChildren n ((ops (n + 1)).run .tick t').node).map (ops n).state) := by
  intro k f len t' h
  obtain ⟨e1, e2, e3⟩ := par_setup (ops n) t (Or.inr hk) hset
  obtain ⟨_, _, hkind, _, _, hlen⟩ := run_static (ops n) .setup t
  obtain ⟨c1, c2, c3⟩ := runs_cfg (ops n) rest hrest ((ops (n + 1)).run .setup t).node
  have hk' : Node.kind (N := Tree n) t' = .parallelTol := c2.trans (hkind.trans hk)
  have hlen' : (Node.children (N := Tree n) t').length = len := c3.trans hlen
  have hneed : (Node.mem (N := Tree n) t').needed = k := (congrArg Cfg.needed c1).trans e1
  have htol : (Node.mem (N := Tree n) t').tolerate = f :=
    (congrArg Cfg.tolerate c1).trans (e3 hk)
  refine (run_ok_post (ops n) (ops_sound n) .tick (by simp) t' s
    (fun st' l _ r => match r with
        | .ok s => ParTick (fun su => k ≤ (su : Int)) (fun fa => f < (fa : Int)) len
            ((ops (n + 1)).state t') ((rootChildren n t').map (ops n).state) l s st'
        | .err => ∃ c ∈ l, c.res = .err) ?_ h).1
  rw [hk']
  simp only [hookProg, tickHook, List.length_map, hneed, htol, hlen']
  exact postS_parTick _ len _ _ (fun su => k ≤ (su : Int)) (fun fa => f < (fa : Int))
    ((List.length_map _).trans hlen')

theorem count_finished (st : List BTState) (h : ∀ a ∈ st, finished a = true) :
    st.count .succeeded + st.count .failed = st.length := by
  induction st with
  | nil => rfl
  | cons a st ih =>
    have ha := h a (by simp)
    have := ih (fun a h' => h a (by simp [h']))
    simp only [List.count_cons, List.length_cons]
    cases a <;> simp [finished] at ha <;> simp <;> omega

/-- **C15, termination.** A Parallel never answers RUNNING if all its children have finished. -/
theorem c15_parallel_terminates (n : Nat) (t : Tree (n + 1)) (hk : rootKind n t = .parallel)
    (hset : ((ops (n + 1)).run .setup t).res.isOk = true) (rest : List Op)
    (hrest : Op.setup ∉ rest) (s : BTState) :
    let t' := (runs (ops (n + 1)) rest ((ops (n + 1)).run .setup t).node).2
    ((ops (n + 1)).run .tick t').res = .ok s →
    (∀ c ∈ rootChildren n ((ops (n + 1)).run .tick t').node,
      (ops n).state c = .succeeded ∨ (ops n).state c = .failed) →
    s ≠ .running := by
  intro t' h hall
  obtain ⟨l₀, l₁, l₂, st₁, st₂, _, _, _, _, _, ha, _⟩ := c15_parallel n t hk hset rest hrest s h
  intro hs
  obtain ⟨hw, hlo⟩ := ha.2.2.1 hs
  have hc := count_finished ((rootChildren n ((ops (n + 1)).run .tick t').node).map (ops n).state) (by
    intro a ha
    obtain ⟨c, hc, rfl⟩ := List.mem_map.1 ha
    exact (finished_iff _).1 (hall c hc))
  obtain ⟨_, _, hkind, _, _, hlen⟩ := run_static (ops n) .setup t
  obtain ⟨_, _, _, _, _, hlen2⟩ := run_static (ops n) .tick t'
  obtain ⟨_, _, c3⟩ := runs_cfg (ops n) rest hrest ((ops (n + 1)).run .setup t).node
  have e : (rootChildren n ((ops (n + 1)).run .tick t').node).length = (rootChildren n t).length :=
    hlen2.trans (c3.trans hlen)
  rw [List.length_map, e] at hc
  have e2 : (nextEnv n t).num ≤ ((rootChildren n t).length : Int) :=
    (par_setup (ops n) t (Or.inl hk) hset).2.1
  have hw' : ¬ (nextEnv n t).num ≤ ((List.count .succeeded
    ((rootChildren n ((ops (n + 1)).run .tick t').node).map (ops n).state) : Nat) : Int) := hw
  have hlo' : ¬ ((rootChildren n t).length : Int) - (nextEnv n t).num < ((List.count .failed
    ((rootChildren n ((ops (n + 1)).run .tick t').node).map (ops n).state) : Nat) : Int) := hlo
  generalize List.count BTState.succeeded _ = a at *
  generalize List.count BTState.failed _ = b at *
  omega

/-- A parallel node with two leaves that finish with the first tick. -/
def sampleParTol (k : Kind) : Tree 2 :=
  mk 1 1 k [mkLeaf 0 2 [.ok .idle, .ok .succeeded], mkLeaf 0 3 [.ok .idle, .ok .failed]]
    (fun _ => { num := 2, num2 := 1 })

example : rootKind 2 samplePar = .parallel ∧ ((ops 3).run .setup samplePar).res.isOk = true ∧
    ((ops 3).run .tick ((ops 3).run .setup samplePar).node).res = .ok .running := by decide

example : rootKind 1 (sampleParTol .parallel) = .parallel ∧
    ((ops 2).run .setup (sampleParTol .parallel)).res.isOk = true ∧
    ((ops 2).run .tick ((ops 2).run .setup (sampleParTol .parallel)).node).res = .ok .failed := by
  decide

/-- **C16 is violated in its last clause.** With `needed_successes = 2`, `tolerate_failures = 1` and
one SUCCEEDED and one FAILED child, ParallelFailureTolerance answers RUNNING although no child will
ever be ticked again: it is RUNNING on every further tick. -/
theorem c16_never_finishes :
    ∃ t : Tree 2, rootKind 1 t = .parallelTol ∧ Fresh 2 t ∧ WF 2 t ∧
      let t' := (runs (ops 2) [.setup, .tick] t).2
      nodeStates 2 t' = [(1, .running), (2, .succeeded), (3, .failed)] ∧
      ∀ k : Nat, ∀ out ∈ (runs (ops 2) (List.replicate k .tick) t').1,
        out.res = .ok .running ∧ out.log = [] := by
  refine ⟨sampleParTol .parallelTol, by decide, by decide, by decide, by decide, ?_⟩
  have key : ∀ (k : Nat) (nd : Node (Tree 1)), nd.kind = .parallelTol → nd.state = .running →
      nd.mem.needed = 2 → nd.mem.tolerate = 1 → (∀ i, nd.env i = { num := 2, num2 := 1 }) →
      (∃ a b, nd.children = [a, b] ∧ (ops 1).state a = .succeeded ∧ (ops 1).state b = .failed) →
      ∀ out ∈ (runs (ops 2) (List.replicate k .tick) nd).1, out.res = .ok .running ∧ out.log = [] := by
    intro k
    induction k with
    | zero => intro nd _ _ _ _ _ _ out ho; simp [runs] at ho
    | succ k ih =>
      intro nd hk hst hn ht henv ⟨a, b, hc, ha, hb⟩ out ho
      have hrun : nd.run (ops 1) .tick = Node.wrap .tick { nd with
          ctr := nd.ctr + 1, state := .running } (.ok .running) [] [.hook .tick nd.id] := by
        simp [Node.run, Node.runTick, hst, accepts, henv, Node.runHook, hk, hookProg, tickHook, hc,
          Prog.resetIfFinished, Prog.parLoop, List.range, List.range.loop, exec, ha, hb, hn, ht,
          Prog.countState, allowedAfter]
      have e : (ops 2).run .tick nd = nd.run (ops 1) .tick := rfl
      simp only [List.replicate_succ, runs, List.mem_cons] at ho
      rcases ho with rfl | ho
      · rw [e, hrun]; exact ⟨rfl, rfl⟩
      · rw [e, hrun] at ho
        exact ih { nd with ctr := nd.ctr + 1, state := .running } hk rfl hn ht henv ⟨a, b, hc, ha, hb⟩
          out ho
  intro k
  exact key k _ (by decide) (by decide) (by decide) (by decide) (fun _ => rfl)
    ⟨_, _, rfl, by decide, by decide⟩

end Verif.BT
