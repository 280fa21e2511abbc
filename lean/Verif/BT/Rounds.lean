import Verif.BT.Par

/-!
# C138: how long a Parallel takes

C15 and C16 describe single ticks of the parallel nodes. Here these ticks are put together to whole
rounds: if every child is known by the number of ticks it needs and by its result, the number of
ticks that the parallel node needs, its result, and the ticks that each child gets are determined.
-/

set_option autoImplicit false

namespace Verif.BT.Rounds

/-! ### Specification -/

/-- Specification: what child `j` answers to its ticks, in order, as recorded in `l`. -/
def answers (j : Nat) (l : List Call) : List Res :=
  (l.filter fun c => decide (c.op = .tick) && decide (c.child = j)).map Call.res

/-- Specification: the answers of a node that is RUNNING for `d` ticks and then results in `w`. -/
def course (d : Nat) (w : BTState) : List Res := List.replicate d (.ok .running) ++ [.ok w]

/-- Specification: the number of children among the first `len` that have the result `b` within the
ticks `0, ..., i`, where child `j` has the result `w j` with tick `D j`. -/
def reached (len : Nat) (D : Nat → Nat) (w : Nat → BTState) (b : BTState) (i : Nat) : Nat :=
  ((List.range len).filter fun j => decide (D j ≤ i) && decide (w j = b)).length

/-- Specification: the answer to tick `i` of a round in which `k` successes are needed and more than
`lim` failures are too many. -/
def verdict (len : Nat) (k lim : Int) (D : Nat → Nat) (w : Nat → BTState) (i : Nat) : BTState :=
  if k ≤ (reached len D w .succeeded i : Int) then .succeeded
  else if lim < (reached len D w .failed i : Int) then .failed
  else .running

/-! ### The ticks of a pass -/

theorem answers_append (j : Nat) (l l' : List Call) :
    answers j (l ++ l') = answers j l ++ answers j l' := by simp [answers]

theorem answers_none (j : Nat) (l : List Call) (h : ∀ c ∈ l, c.op ≠ .tick) : answers j l = [] := by
  simp only [answers, List.map_eq_nil_iff, List.filter_eq_nil_iff]
  intro c hc
  simp [h c hc]

theorem answers_cons_ne (j : Nat) (c : Call) (l : List Call) (h : c.child ≠ j) :
    answers j (c :: l) = answers j l := by
  simp [answers, h]

theorem answers_cons_tick (j : Nat) (r : Res) (l : List Call) :
    answers j (⟨.tick, j, r⟩ :: l) = r :: answers j l := by
  simp [answers]

/-- What a pass does with child `j`, which was in state `a` before. -/
def Passed (skip : Bool) (a : BTState) (r : List Res) (b : Option BTState) : Prop :=
  if skip || finished a then r = [] ∧ b = some a else ∃ s, r = [.ok s] ∧ b = some s

theorem postS_parLoop (m : Mem) (k : Nat → Nat → Prog) (n : Nat) (len : Nat) :
    ∀ (i : Nat) (sf : Nat × Nat) (st : List BTState) (P : PostCond),
    st.length = n → i + len = n →
    (∀ st' l, P st' l m .err) →
    (∀ st' l, st'.length = n →
      (∀ (j : Nat) (a : BTState), st[j]? = some a →
        Passed (decide (j < i)) a (answers j l) st'[j]?) →
      (k (sf.1 + (st'.drop i).count .succeeded) (sf.2 + (st'.drop i).count .failed)).PostS
        (fun st'' l' => P st'' (l ++ l')) st') →
    (Prog.parLoop m k (List.range' i len) sf).PostS P st := by
  induction len with
  | zero =>
    intro i sf st P hl hn he hk
    have hin : i = n := by omega
    have := hk st [] hl (by
      intro j a hj
      have hjn : j < st.length := by
        rcases Nat.lt_or_ge j st.length with h | h
        · exact h
        · rw [List.getElem?_eq_none h] at hj
          cases hj
      simp [Passed, show j < i by omega, answers, hj])
    rw [List.drop_of_length_le (by omega)] at this
    simpa [Prog.parLoop] using this
  | succ len ih =>
    intro i sf st P hl hn he hk
    rw [List.range'_succ]
    have hi : i < st.length := by omega
    refine ⟨hi, ?_⟩
    simp only
    split
    · rename_i hf
      rw [finished_iff] at hf
      apply ih (i + 1) _ st P hl (by omega) he
      intro st' l h1 h2
      have hi' : i < st'.length := by omega
      have hsame : st'[i] = st[i] := by
        have := h2 i _ (List.getElem?_eq_getElem hi)
        simp only [Passed, Nat.lt_succ_self, decide_true, Bool.true_or, if_true] at this
        exact getElem_of_getElem?_eq hi' hi (this.2.trans (List.getElem?_eq_getElem hi).symm)
      have hc := countState_eq st[i] sf (st'.drop (i + 1))
      rw [hc.1, hc.2, ← hsame, List.getElem_cons_drop]
      refine hk st' l h1 ?_
      intro j a hj
      have := h2 j a hj
      by_cases hij : j = i
      · subst hij
        rw [List.getElem?_eq_getElem hi, Option.some.injEq] at hj
        subst hj
        simpa [Passed, hf] using this
      · have e : decide (j < i + 1) = decide (j < i) := by simp; omega
        rwa [e] at this
    · rename_i hf
      have hf' : finished st[i] = false := by
        simpa using mt (finished_iff _).2 hf
      refine ⟨hi, fun r s' hs => ?_⟩
      cases r with
      | err => exact he _ _
      | ok s =>
        obtain ⟨rfl, hal⟩ := hs s rfl
        have hi2 : i < (st.set i s').length := by simpa using hi
        refine ⟨hi2, ?_⟩
        rw [List.getElem_set_self]
        apply ih (i + 1) _ (st.set i s') _ (by simpa using hl) (by omega)
        · intro st' l
          exact he _ _
        · intro st' l h1 h2
          have hi' : i < st'.length := by omega
          have hat := h2 i s' (List.getElem?_set_self hi)
          simp only [Passed, Nat.lt_succ_self, decide_true, Bool.true_or, if_true] at hat
          have hsame : st'[i] = s' := by
            have := hat.2
            rw [List.getElem?_eq_getElem hi', Option.some.injEq] at this
            exact this
          have hc := countState_eq s' sf (st'.drop (i + 1))
          rw [hc.1, hc.2, ← hsame, List.getElem_cons_drop, hsame]
          have := hk st' (⟨.tick, i, .ok s'⟩ :: l) h1 (by
            intro j a hj
            by_cases hij : j = i
            · subst hij
              rw [List.getElem?_eq_getElem hi, Option.some.injEq] at hj
              subst hj
              rw [answers_cons_tick, hat.1]
              simp only [Passed, Nat.lt_irrefl, decide_false, Bool.false_or, hf', Bool.false_eq_true,
                if_false]
              exact ⟨s', rfl, hat.2⟩
            · have h3 := h2 j a (by rw [List.getElem?_set_ne (fun h => hij h.symm)]; exact hj)
              have e : decide (j < i + 1) = decide (j < i) := by simp; omega
              rw [e] at h3
              rwa [answers_cons_ne _ _ _ (fun h => hij h.symm)])
          simpa using this

/-- One tick of a parallel node, child by child: `st₁` are the states of the children when the pass
begins, `st₂` when all were ticked. -/
def Pass (win lose : Nat → Prop) (n : Nat) (prev : BTState) (st : List BTState)
    (l : List Call) (s : BTState) (st' : List BTState) : Prop :=
  ∃ st₁ st₂, st₁.length = n ∧ st₂.length = n ∧
    (if finished prev then ∀ a ∈ st₁, a = .idle else st₁ = st) ∧
    (∀ (j : Nat) (a : BTState), st₁[j]? = some a → Passed false a (answers j l) st₂[j]?) ∧
    ParAnswer win lose st₂ s ∧ (s = .running → st' = st₂)

theorem resets_no_tick (b : Bool) (n : Nat) (l : List Call) (h : Resets b n l) :
    ∀ c ∈ l, c.op ≠ .tick := by
  unfold Resets at h
  split at h
  · intro c hc
    have h1 := h.1
    have : (c.op, c.child) ∈ l.map (fun c => (c.op, c.child)) := List.mem_map.2 ⟨c, hc, rfl⟩
    rw [h1] at this
    obtain ⟨j, _, e⟩ := List.mem_map.1 this
    have e1 : Op.reset = c.op := congrArg Prod.fst e
    rw [← e1]
    simp
  · subst h
    intro c hc
    cases hc

theorem unticks_no_tick (st : List BTState) (i n : Nat) (l : List Call)
    (h : CallsUnfinished .untick st i n l) : ∀ c ∈ l, c.op ≠ .tick := by
  intro c hc
  have h1 := h.1
  have : (c.op, c.child) ∈ l.map (fun c => (c.op, c.child)) := List.mem_map.2 ⟨c, hc, rfl⟩
  rw [h1] at this
  obtain ⟨j, _, e⟩ := List.mem_map.1 this
  have e1 : Op.untick = c.op := congrArg Prod.fst e
  rw [← e1]
  simp

theorem postS_parTick (m : Mem) (n : Nat) (prev : BTState) (st : List BTState)
    (win lose : Nat → Prop) [DecidablePred win] [DecidablePred lose]
    (hl : st.length = n) :
    (Prog.resetIfFinished n prev m <| Prog.parLoop m (fun s f =>
      if win s then Prog.parFinish m .succeeded (List.range n)
      else if lose f then Prog.parFinish m .failed (List.range n)
      else .done m (.ok .running)) (List.range n) (0, 0)).PostS
      (fun st' l _ r => match r with
        | .ok s => Pass win lose n prev st l s st'
        | .err => True) st := by
  apply postS_resetIfFinished _ _ _ _ _ _ hl
  · intro _ _ _; trivial
  · intro st₁ l₀ h1 h2 h3 h4
    rw [List.range_eq_range']
    apply postS_parLoop m _ n n 0 _ _ _ h1 (by omega)
    · intro _ _; trivial
    · intro st₂ l₁ g1 g2
      simp only [List.drop_zero, Nat.zero_add]
      have hst1 : if finished prev then ∀ a ∈ st₁, a = .idle else st₁ = st := by
        split
        · rename_i h; exact h4 h
        · rename_i h; exact h3 (by simpa using h)
      have hpass : ∀ l₂ : List Call, (∀ c ∈ l₂, c.op ≠ .tick) →
          ∀ (j : Nat) (a : BTState), st₁[j]? = some a →
            Passed false a (answers j (l₀ ++ (l₁ ++ l₂))) st₂[j]? := by
        intro l₂ h j a hj
        rw [answers_append, answers_append, answers_none j l₀ (resets_no_tick _ _ _ h2),
          answers_none j l₂ h, List.nil_append, List.append_nil]
        simpa using g2 j a hj
      have hfinish : ∀ res, ParAnswer win lose st₂ res → res ≠ .running →
          (Prog.parFinish m res (List.range' 0 n)).PostS
            (fun st' l _ r => match r with
              | .ok s => Pass win lose n prev st (l₀ ++ (l₁ ++ l)) s st'
              | .err => True) st₂ := by
        intro res hans hres
        apply postS_parFinish m res n n 0 st₂ _ g1 (by omega)
        · intro _ _ _; trivial
        · intro st' l _ _ f3 _ _
          exact ⟨st₁, st₂, h1, g1, hst1, hpass l (unticks_no_tick _ _ _ _ f3), hans,
            fun h => absurd h hres⟩
      split
      · rename_i hw
        exact hfinish .succeeded ⟨by simp [hw], by simp [hw], by simp [hw]⟩ (by simp)
      · rename_i hw
        split
        · rename_i hlo
          exact hfinish .failed ⟨by simp [hw], by simp [hw, hlo], by simp [hw, hlo]⟩ (by simp)
        · rename_i hlo
          exact ⟨st₁, st₂, h1, g1, hst1, hpass [] (by simp),
            ⟨by simp [hw], by simp [hw, hlo], by simp [hw, hlo]⟩, fun _ => rfl⟩

/-! ### Rounds -/

/-- A parallel node with `len` children that was set up with these bounds. -/
def Ready (n len : Nat) (k lim : Int) (t : Tree (n + 1)) : Prop :=
  (rootChildren n t).length = len ∧ (Node.mem (N := Tree n) t).needed = k ∧
  ((rootKind n t = .parallel ∧ lim = (len : Int) - k) ∨
   (rootKind n t = .parallelTol ∧ (Node.mem (N := Tree n) t).tolerate = lim))

theorem ready_pass (n len : Nat) (k lim : Int) (t : Tree (n + 1)) (hr : Ready n len k lim t)
    (s : BTState) (h : ((ops (n + 1)).run .tick t).res = .ok s) :
    Pass (fun su => k ≤ (su : Int)) (fun fa => lim < (fa : Int)) len
      ((ops (n + 1)).state t) ((rootChildren n t).map (ops n).state)
      ((ops (n + 1)).run .tick t).log s
      ((rootChildren n ((ops (n + 1)).run .tick t).node).map (ops n).state) ∧
    (ops (n + 1)).state ((ops (n + 1)).run .tick t).node = s := by
  obtain ⟨hlen, hneed, hkind⟩ := hr
  have key := run_ok_post (ops n) (ops_sound n) .tick (by simp) t s
    (fun st' l _ r => match r with
        | .ok s => Pass (fun su => k ≤ (su : Int)) (fun fa => lim < (fa : Int)) len
            ((ops (n + 1)).state t) ((rootChildren n t).map (ops n).state) l s st'
        | .err => True) ?_ h
  · exact ⟨key.1, key.2.1⟩
  · have hlen' : (Node.children (N := Tree n) t).length = len := hlen
    have base := postS_parTick (Node.mem (N := Tree n) t) len (Node.state (N := Tree n) t)
      ((Node.children (N := Tree n) t).map (ops n).state)
      (fun su => k ≤ (su : Int)) (fun fa => lim < (fa : Int)) ((List.length_map _).trans hlen')
    rcases hkind with ⟨hk, hlim⟩ | ⟨hk, htol⟩
    · have hk' : Node.kind (N := Tree n) t = .parallel := hk
      rw [hk']
      simp only [hookProg, tickHook, List.length_map, hneed, hlen', ← hlim]
      exact base
    · have hk' : Node.kind (N := Tree n) t = .parallelTol := hk
      rw [hk']
      simp only [hookProg, tickHook, List.length_map, hneed, hlen', htol]
      exact base

theorem ready_tick (n len : Nat) (k lim : Int) (t : Tree (n + 1)) (hr : Ready n len k lim t) :
    Ready n len k lim ((ops (n + 1)).run .tick t).node := by
  obtain ⟨hlen, hneed, hkind⟩ := hr
  obtain ⟨_, _, hk, _, _, hl⟩ := run_static (ops n) .tick t
  have hc := run_cfg (ops n) .tick (by simp) t
  refine ⟨hl.trans hlen, (congrArg Cfg.needed hc).trans hneed, ?_⟩
  rcases hkind with ⟨h, e⟩ | ⟨h, e⟩
  · exact Or.inl ⟨hk.trans h, e⟩
  · exact Or.inr ⟨hk.trans h, (congrArg Cfg.tolerate hc).trans e⟩

/-- The states of the children when tick `d` of a round begins. -/
def At (len : Nat) (D : Nat → Nat) (w : Nat → BTState) (d : Nat) (st : List BTState) : Prop :=
  ∀ j, j < len → ∃ a, st[j]? = some a ∧ (if D j < d then a = w j else finished a = false)

theorem count_at (len : Nat) (D : Nat → Nat) (w : Nat → BTState) (d : Nat) (st : List BTState)
    (hl : st.length = len) (h : At len D w (d + 1) st) (b : BTState) (hb : finished b = true) :
    st.count b = reached len D w b d := by
  have e : st = (List.range len).map (fun j => st.getD j .idle) := by
    apply List.ext_getElem
    · simp [hl]
    · intro i h1 h2
      simp [List.getD_eq_getElem?_getD, h1]
  rw [e, List.count_eq_countP, List.countP_map, reached, ← List.countP_eq_length_filter]
  apply List.countP_congr
  intro j hj
  obtain ⟨a, ha, hif⟩ := h j (List.mem_range.1 hj)
  simp only [Function.comp, List.getD_eq_getElem?_getD, ha, Option.getD_some, beq_iff_eq,
    Bool.and_eq_true, decide_eq_true_eq]
  split at hif
  · rename_i hd
    subst hif
    constructor
    · intro hw; exact ⟨by omega, hw⟩
    · exact fun hw => hw.2
  · rename_i hd
    constructor
    · intro hw
      rw [hw, hb] at hif
      cases hif
    · intro hw
      exact absurd hw.1 (by omega)

theorem course_drop (D : Nat) (w : BTState) (d : Nat) :
    (course D w).drop d =
      if D < d then [] else (if D = d then .ok w else .ok .running) :: (course D w).drop (d + 1) := by
  unfold course
  split
  · rename_i h
    exact List.drop_of_length_le (by simp; omega)
  · rename_i h
    have hd : d < (List.replicate D (Res.ok .running) ++ [Res.ok w]).length := by simp; omega
    rw [List.drop_eq_getElem_cons hd]
    congr 1
    split
    · rename_i e
      subst e
      simp
    · rename_i e
      rw [List.getElem_append_left (by simp; omega)]
      simp

/-- One tick of a round. -/
theorem round_step (n len : Nat) (k lim : Int) (D : Nat → Nat) (w : Nat → BTState)
    (hw : ∀ j, j < len → finished (w j) = true) (d : Nat) (t : Tree (n + 1))
    (hr : Ready n len k lim t)
    (hat : (d = 0 ∧ finished ((ops (n + 1)).state t) = true) ∨
      (finished ((ops (n + 1)).state t) = false ∧
        At len D w d ((rootChildren n t).map (ops n).state)))
    (s : BTState) (h : ((ops (n + 1)).run .tick t).res = .ok s)
    (hpre : ∀ j, j < len →
      answers j ((ops (n + 1)).run .tick t).log <+: (course (D j) (w j)).drop d) :
    s = verdict len k lim D w d ∧
    (∀ j, j < len → answers j ((ops (n + 1)).run .tick t).log =
      ((course (D j) (w j)).drop d).take 1) ∧
    (s = .running → finished ((ops (n + 1)).state ((ops (n + 1)).run .tick t).node) = false ∧
      At len D w (d + 1)
        ((rootChildren n ((ops (n + 1)).run .tick t).node).map (ops n).state)) := by
  obtain ⟨⟨st₁, st₂, l1, l2, hst1, hpass, hans, hrun⟩, hstate⟩ := ready_pass n len k lim t hr s h
  have h1 : At len D w d st₁ := by
    rcases hat with ⟨rfl, hf⟩ | ⟨hf, hat⟩
    · rw [hf, if_pos rfl] at hst1
      intro j hj
      refine ⟨st₁[j]'(by omega), List.getElem?_eq_getElem _, ?_⟩
      rw [if_neg (by omega), hst1 _ (List.getElem_mem _)]
      rfl
    · rw [hf] at hst1
      simp only [Bool.false_eq_true, if_false] at hst1
      rw [hst1]
      exact hat
  have h2 : ∀ j, j < len → answers j ((ops (n + 1)).run .tick t).log =
      ((course (D j) (w j)).drop d).take 1 ∧
      ∃ a, st₂[j]? = some a ∧ (if D j < d + 1 then a = w j else finished a = false) := by
    intro j hj
    obtain ⟨a, ha, hif⟩ := h1 j hj
    have hp := hpass j a ha
    have hpr := hpre j hj
    rw [course_drop] at hpr ⊢
    split at hif
    · rename_i hd
      subst hif
      rw [if_pos hd]
      simp only [Passed, hw j hj, Bool.or_true, if_true] at hp
      exact ⟨by rw [hp.1]; rfl, w j, hp.2, by rw [if_pos (by omega)]⟩
    · rename_i hd
      rw [if_neg hd] at hpr ⊢
      simp only [Passed, hif, Bool.or_false, Bool.false_eq_true, if_false] at hp
      obtain ⟨b, hb, hs⟩ := hp
      rw [hb, List.cons_prefix_cons] at hpr
      rw [hb, ← hpr.1]
      refine ⟨rfl, b, hs, ?_⟩
      have e := hpr.1
      split at e
      · rename_i hD
        rw [if_pos (by omega)]
        exact Res.ok.inj e
      · rename_i hD
        rw [if_neg (by omega), Res.ok.inj e]
        rfl
  have h3 : At len D w (d + 1) st₂ := fun j hj => (h2 j hj).2
  refine ⟨?_, fun j hj => (h2 j hj).1, ?_⟩
  · obtain ⟨a1, a2, a3⟩ := hans
    rw [count_at len D w d st₂ l2 h3 _ rfl] at a1 a2 a3
    rw [count_at len D w d st₂ l2 h3 _ rfl] at a2 a3
    unfold verdict
    split
    · rename_i hwin; exact a1.2 hwin
    · rename_i hwin
      split
      · rename_i hlo; exact a2.2 ⟨hwin, hlo⟩
      · rename_i hlo; exact a3.2 ⟨hwin, hlo⟩
  · intro hs
    refine ⟨by rw [hstate, hs]; rfl, ?_⟩
    rw [hrun hs]
    exact h3

theorem round_from (n len : Nat) (k lim : Int) (D : Nat → Nat) (w : Nat → BTState)
    (hw : ∀ j, j < len → finished (w j) = true) (m : Nat) :
    ∀ (d : Nat) (t : Tree (n + 1)), Ready n len k lim t →
    ((d = 0 ∧ finished ((ops (n + 1)).state t) = true) ∨
      (finished ((ops (n + 1)).state t) = false ∧
        At len D w d ((rootChildren n t).map (ops n).state))) →
    (∀ i, i < m → verdict len k lim D w (d + i) = .running) →
    let outs := (runs (ops (n + 1)) (List.replicate (m + 1) .tick) t).1
    (∀ out ∈ outs, out.res.isOk = true) →
    (∀ j, j < len → answers j (outs.flatMap Out.log) <+: (course (D j) (w j)).drop d) →
    outs.map Out.res = (List.range' d (m + 1)).map (fun i => .ok (verdict len k lim D w i)) ∧
    ∀ j, j < len → answers j (outs.flatMap Out.log) =
      ((course (D j) (w j)).drop d).take (m + 1) := by
  induction m with
  | zero =>
    intro d t hr hat _ outs hok hpre
    have houts : outs = [(ops (n + 1)).run .tick t] := rfl
    rw [houts] at hok hpre ⊢
    simp only [List.flatMap_cons, List.flatMap_nil, List.append_nil] at hpre ⊢
    cases hres : ((ops (n + 1)).run .tick t).res with
    | err =>
      have := hok _ List.mem_cons_self
      rw [hres] at this
      cases this
    | ok s =>
      obtain ⟨g1, g2, _⟩ := round_step n len k lim D w hw d t hr hat s hres hpre
      refine ⟨?_, g2⟩
      simp [hres, g1, List.range'_succ]
  | succ m ih =>
    intro d t hr hat hv outs hok hpre
    have houts : outs = (ops (n + 1)).run .tick t ::
        (runs (ops (n + 1)) (List.replicate (m + 1) .tick) ((ops (n + 1)).run .tick t).node).1 := rfl
    rw [houts] at hok hpre ⊢
    simp only [List.flatMap_cons, answers_append] at hpre ⊢
    cases hres : ((ops (n + 1)).run .tick t).res with
    | err =>
      have := hok _ List.mem_cons_self
      rw [hres] at this
      cases this
    | ok s =>
      obtain ⟨g1, g2, g3⟩ := round_step n len k lim D w hw d t hr hat s hres
        (fun j hj => (List.prefix_append _ _).trans (hpre j hj))
      have hs : s = .running := by rw [g1]; exact hv 0 (by omega)
      have hrest : ∀ j, j < len → answers j (((runs (ops (n + 1)) (List.replicate (m + 1) .tick)
          ((ops (n + 1)).run .tick t).node).1).flatMap Out.log) <+:
          (course (D j) (w j)).drop (d + 1) := by
        intro j hj
        have hp := hpre j hj
        rw [g2 j hj] at hp
        rw [← List.drop_drop]
        generalize (course (D j) (w j)).drop d = X at hp ⊢
        cases X with
        | nil => simpa using hp
        | cons x X =>
          have hp' := List.cons_prefix_cons.1 hp
          exact hp'.2
      obtain ⟨f1, f2⟩ := ih (d + 1) _ (ready_tick n len k lim t hr) (Or.inr (g3 hs))
        (fun i hi => by
          have := hv (i + 1) (by omega)
          rwa [show d + (i + 1) = d + 1 + i by omega] at this)
        (fun out ho => hok out (List.mem_cons_of_mem _ ho)) hrest
      refine ⟨?_, ?_⟩
      · rw [List.map_cons, f1, hres, g1, List.range'_succ (s := d), List.map_cons]
      · intro j hj
        rw [g2 j hj, f2 j hj, ← List.drop_drop]
        generalize (course (D j) (w j)).drop d = X
        cases X <;> simp

/-! ### C138 -/

/-- The bound on the failures: `n - k` for a Parallel, the option `tolerate_failures` for a
ParallelFailureTolerance. -/
def limit (n : Nat) (t : Tree (n + 1)) : Int :=
  if rootKind n t = .parallel then ((rootChildren n t).length : Int) - (nextEnv n t).num
  else (nextEnv n t).num2

theorem ready_setup (n : Nat) (t : Tree (n + 1))
    (hk : rootKind n t = .parallel ∨ rootKind n t = .parallelTol)
    (hset : ((ops (n + 1)).run .setup t).res.isOk = true) (rest : List Op)
    (hrest : Op.setup ∉ rest) :
    Ready n (rootChildren n t).length (nextEnv n t).num (limit n t)
      (runs (ops (n + 1)) rest ((ops (n + 1)).run .setup t).node).2 := by
  obtain ⟨e1, _, e3⟩ := par_setup (ops n) t hk hset
  obtain ⟨_, _, hkind, _, _, hlen⟩ := run_static (ops n) .setup t
  obtain ⟨c1, c2, c3⟩ := runs_cfg (ops n) rest hrest ((ops (n + 1)).run .setup t).node
  refine ⟨c3.trans hlen, (congrArg Cfg.needed c1).trans e1, ?_⟩
  rcases hk with h | h
  · exact Or.inl ⟨c2.trans (hkind.trans h), by simp [limit, h]⟩
  · refine Or.inr ⟨c2.trans (hkind.trans h), ?_⟩
    rw [show limit n t = (nextEnv n t).num2 by simp [limit, h]]
    exact (congrArg Cfg.tolerate c1).trans (e3 h)

/-- **C138, a whole round.** A Parallel or ParallelFailureTolerance is set up and then operated on in
any way (other than being set up again) such that a new round begins: it is finished, or none of its
children is. It is then ticked `m + 1` times, and all ticks answer `Ok`. If child `j` needs `D j`
further ticks for its result `w j` - it answers RUNNING `D j` times and then `w j`, as far as it is
ticked - and if the rule leaves the round open before tick `m`, the answers are exactly those of the
rule: SUCCEEDED as soon as enough children have succeeded, otherwise FAILED as soon as too many have
failed, otherwise RUNNING. Child `j` is ticked once per tick until it has its result, and never
afterwards. -/
theorem c138_round (n : Nat) (t : Tree (n + 1))
    (hk : rootKind n t = .parallel ∨ rootKind n t = .parallelTol)
    (hset : ((ops (n + 1)).run .setup t).res.isOk = true) (rest : List Op)
    (hrest : Op.setup ∉ rest) (D : Nat → Nat) (w : Nat → BTState)
    (hw : ∀ j, j < (rootChildren n t).length → w j = .succeeded ∨ w j = .failed) (m : Nat) :
    let len := (rootChildren n t).length
    let rule := verdict len (nextEnv n t).num (limit n t) D w
    let t' := (runs (ops (n + 1)) rest ((ops (n + 1)).run .setup t).node).2
    let outs := (runs (ops (n + 1)) (List.replicate (m + 1) .tick) t').1
    (((ops (n + 1)).state t' = .succeeded ∨ (ops (n + 1)).state t' = .failed) ∨
      ∀ c ∈ rootChildren n t', (ops n).state c ≠ .succeeded ∧ (ops n).state c ≠ .failed) →
    (∀ i, i < m → rule i = .running) →
    (∀ out ∈ outs, out.res.isOk = true) →
    (∀ j, j < len → answers j (outs.flatMap Out.log) <+: course (D j) (w j)) →
    outs.map Out.res = (List.range (m + 1)).map (fun i => .ok (rule i)) ∧
    ∀ j, j < len → answers j (outs.flatMap Out.log) = (course (D j) (w j)).take (m + 1) := by
  intro len rule t' outs hnew hopen hok hpre
  have hr := ready_setup n t hk hset rest hrest
  have hat : ((0 = 0 ∧ finished ((ops (n + 1)).state t') = true) ∨
      (finished ((ops (n + 1)).state t') = false ∧
        At len D w 0 ((rootChildren n t').map (ops n).state))) := by
    by_cases hf : finished ((ops (n + 1)).state t') = true
    · exact Or.inl ⟨rfl, hf⟩
    · refine Or.inr ⟨by simpa using hf, ?_⟩
      rcases hnew with h | h
      · exact absurd ((finished_iff _).1 h) hf
      · intro j hj
        have hlen : (rootChildren n t').length = len := hr.1
        have hj' : j < (rootChildren n t').length := by omega
        refine ⟨(ops n).state (rootChildren n t')[j], by simp [hj'], ?_⟩
        rw [if_neg (by omega)]
        have := h _ (List.getElem_mem hj')
        simp [finished, this.1, this.2]
  have := round_from n len (nextEnv n t).num (limit n t) D w
    (fun j hj => (finished_iff _).1 (hw j hj)) m 0 t' hr hat
    (fun i hi => by rw [Nat.zero_add]; exact hopen i hi) hok
    (fun j hj => by simpa using hpre j hj)
  rw [List.range_eq_range']
  exact ⟨this.1, fun j hj => by simpa using this.2 j hj⟩

theorem reached_all (len : Nat) (D : Nat → Nat) (w : Nat → BTState)
    (hw : ∀ j, j < len → w j = .succeeded ∨ w j = .failed) (i : Nat) (hi : ∀ j, j < len → D j ≤ i) :
    reached len D w .succeeded i + reached len D w .failed i = len := by
  unfold reached
  rw [← List.countP_eq_length_filter, ← List.countP_eq_length_filter]
  have h := List.length_eq_countP_add_countP (fun j => decide (D j ≤ i) && decide (w j = .succeeded))
    (l := List.range len)
  rw [List.length_range] at h
  refine Eq.trans ?_ h.symm
  congr 1
  apply List.countP_congr
  intro j hj
  have hj' := List.mem_range.1 hj
  have := hi j hj'
  rcases hw j hj' with e | e <;> simp [e, this]

theorem reached_same (len : Nat) (D : Nat → Nat) (w : Nat → BTState) (b : BTState) (i : Nat)
    (h : ∀ j, j < len → D j ≠ i + 1) : reached len D w b (i + 1) = reached len D w b i := by
  unfold reached
  congr 1
  apply List.filter_congr
  intro j hj
  have := h j (List.mem_range.1 hj)
  have e : decide (D j ≤ i + 1) = decide (D j ≤ i) := by
    by_cases h1 : D j ≤ i
    · simp [h1, Nat.le_succ_of_le h1]
    · have h2 : ¬ D j ≤ i + 1 := by omega
      simp [h1, h2]
  rw [e]

theorem reached_zero (len : Nat) (D : Nat → Nat) (w : Nat → BTState) (b : BTState)
    (h : ∀ j, j < len → D j ≠ 0) : reached len D w b 0 = 0 := by
  unfold reached
  rw [List.length_eq_zero_iff, List.filter_eq_nil_iff]
  intro j hj
  have := h j (List.mem_range.1 hj)
  simp [this]

theorem exists_bound (len : Nat) (D : Nat → Nat) : ∃ i, ∀ j, j < len → D j ≤ i := by
  induction len with
  | zero => exact ⟨0, fun j hj => by omega⟩
  | succ len ih =>
    obtain ⟨i, hi⟩ := ih
    refine ⟨i + D len, fun j hj => ?_⟩
    by_cases e : j = len
    · subst e; omega
    · have := hi j (by omega); omega

theorem least (p : Nat → Prop) (i : Nat) (h : p i) : ∃ T, p T ∧ ∀ i, i < T → ¬ p i := by
  induction i using Nat.strongRecOn with
  | _ i ih =>
    by_cases hex : ∃ j, j < i ∧ p j
    · obtain ⟨j, hj, hp⟩ := hex
      exact ih j hj hp
    · exact ⟨i, h, fun j hj hp => hex ⟨j, hj, hp⟩⟩

/-- **C138, the duration.** For a Parallel that was set up and needs at least one success, the rule
of `c138_round` always comes to a result: there is a first tick `T` whose answer is not RUNNING, it is
SUCCEEDED or FAILED, and `T` is the duration of one of the children: the round ends with a tick in
which a child finishes. -/
theorem c138_duration (n : Nat) (t : Tree (n + 1)) (hk : rootKind n t = .parallel)
    (hset : ((ops (n + 1)).run .setup t).res.isOk = true) (hpos : 0 < (nextEnv n t).num)
    (D : Nat → Nat) (w : Nat → BTState)
    (hw : ∀ j, j < (rootChildren n t).length → w j = .succeeded ∨ w j = .failed) :
    let len := (rootChildren n t).length
    let rule := verdict len (nextEnv n t).num (limit n t) D w
    ∃ T, (∀ i, i < T → rule i = .running) ∧ (rule T = .succeeded ∨ rule T = .failed) ∧
      ∃ j, j < len ∧ D j = T := by
  intro len rule
  have hle : (nextEnv n t).num ≤ (len : Int) := (par_setup (ops n) t (Or.inl hk) hset).2.1
  have hlim : limit n t = (len : Int) - (nextEnv n t).num := by simp [limit, hk, len]
  obtain ⟨i, hi⟩ := exists_bound len D
  have hend : rule i ≠ .running := by
    have := reached_all len D w hw i hi
    intro h
    simp only [rule, verdict] at h
    split at h
    · cases h
    · split at h
      · cases h
      · rename_i h1 h2
        rw [hlim] at h2
        omega
  obtain ⟨T, hT, hmin⟩ := least (fun i => rule i ≠ .running) i hend
  have hmin' : ∀ i, i < T → rule i = .running := fun i hi =>
    Classical.byContradiction fun h => hmin i hi h
  refine ⟨T, hmin', ?_, ?_⟩
  · simp only [rule, verdict] at hT ⊢
    split
    · exact Or.inl rfl
    · rename_i h1
      split
      · exact Or.inr rfl
      · rename_i h2
        simp [h1, h2] at hT
  · apply Classical.byContradiction
    intro hno
    have hne : ∀ j, j < len → D j ≠ T := fun j hj e => hno ⟨j, hj, e⟩
    apply hT
    cases T with
    | zero =>
      simp only [rule, verdict, reached_zero len D w _ hne]
      rw [if_neg (by omega), if_neg (by rw [hlim]; omega)]
    | succ T =>
      have := hmin' T (by omega)
      simp only [rule, verdict, reached_same len D w _ T hne] at this ⊢
      exact this

/-! ### Examples -/

/-- Three leaves that need 2, 0 and 1 further ticks; two successes are needed. -/
def sampleRound (k : Kind) : Tree 2 :=
  mk 1 1 k
    [mkLeaf 0 2 [.ok .idle, .ok .running, .ok .running, .ok .succeeded],
     mkLeaf 0 3 [.ok .idle, .ok .failed],
     mkLeaf 0 4 [.ok .idle, .ok .running, .ok .succeeded]]
    (fun _ => { num := 2, num2 := 1 })

/-- The hypotheses of `c138_round` are met by both kinds, and the round takes three ticks. -/
example : ∀ k ∈ [Kind.parallel, Kind.parallelTol],
    let t := sampleRound k
    let D := fun j => [2, 0, 1].getD j 0
    let w := fun j => [BTState.succeeded, .failed, .succeeded].getD j .failed
    let t' := ((ops 2).run .setup t).node
    let outs := (runs (ops 2) (List.replicate 3 .tick) t').1
    ((ops 2).run .setup t).res.isOk = true ∧ 0 < (nextEnv 1 t).num ∧
    (∀ c ∈ rootChildren 1 t', (ops 1).state c = .idle) ∧
    (List.range 3).map (verdict 3 (nextEnv 1 t).num (limit 1 t) D w) =
      [.running, .running, .succeeded] ∧
    outs.map Out.res = [.ok .running, .ok .running, .ok .succeeded] ∧
    (List.range 3).map (fun j => answers j (outs.flatMap Out.log)) =
      (List.range 3).map (fun j => course (D j) (w j)) := by
  decide +kernel

/-- If the first leaf needs 5 ticks and two fail, the round is over before it has finished. -/
example :
    let D := fun j => [5, 0, 1].getD j 0
    let w := fun j => [BTState.succeeded, .failed, .failed].getD j .failed
    (List.range 2).map (verdict 3 2 1 D w) = [.running, .failed] ∧
    (course (D 0) (w 0)).take 2 = [.ok .running, .ok .running] := by
  decide +kernel

end Verif.BT.Rounds
