import Verif.BT.Alive

/-!
# C112: one thing at a time
-/

set_option autoImplicit false

namespace Verif.BT.Single

open Verif.BT Verif.BT.Alive

variable {N : Type}

/-! ### Specification -/

/-- The state of the node that is reached from the root by following the child numbers `p`; `none`
if there is no such node or if it is not in use (below an Optional whose child cannot execute). -/
def stateAt : (n : Nat) → Tree n → List Nat → Option BTState
  | 0, t, _ => Empty.elim t
  | n + 1, t, [] => some (Node.state (N := Tree n) t)
  | n + 1, t, i :: p =>
    if idleOptional (Node.kind (N := Tree n) t) (Node.mem (N := Tree n) t) then none
    else match (Node.children (N := Tree n) t)[i]? with
      | none => none
      | some c => stateAt n c p

/-- The classes that are documented to keep several children running: both parallel nodes, and
Sequence and Fallback, which do not untick later children while an earlier one is RUNNING
(`sequence.py:54-60`). -/
def fans (k : Kind) : Bool :=
  match k with
  | .sequence | .fallback | .parallel | .parallelTol => true
  | _ => false

/-- No node of the tree belongs to one of these classes. -/
def Narrow (n : Nat) (t : Tree n) : Prop := AllNodes (fun nd => fans nd.kind = false) n t

instance (n : Nat) (t : Tree n) : Decidable (Narrow n t) := decAllNodes _ (fun _ => inferInstance) n t

/-! ### The invariant of one node -/

/-- All children but the one with number `j` are calm. -/
def Others (j : Nat) (st : List BTState) : Prop :=
  ∀ (i : Nat) (a : BTState), i ≠ j → st[i]? = some a → calm a = true

/-- While a node is in use, at most one child is not calm; for the memory nodes this is the
remembered one. -/
def Lone (k : Kind) (m : Mem) (s : BTState) (st : List BTState) : Prop :=
  live s = true → ∃ j, ((k = .memSequence ∨ k = .memFallback) → j = m.lastRunning) ∧ Others j st

theorem others_all (j : Nat) (st : List BTState) (h : AllCalm st) : Others j st :=
  fun _ a _ ha => h a (List.mem_of_getElem? ha)

theorem others_short (st : List BTState) (h : st.length ≤ 1) : Others 0 st := by
  intro i a hi ha
  have := (List.getElem?_eq_some_iff.1 ha).1
  omega

theorem others_set (j : Nat) (st : List BTState) (s : BTState) (h : Others j st) :
    Others j (st.set j s) := by
  intro i a hi ha
  rw [List.getElem?_set_ne (fun e => hi e.symm)] at ha
  exact h i a hi ha

theorem others_next (j : Nat) (st : List BTState) (s : BTState) (h : Others j st)
    (hs : calm s = true) : AllCalm (st.set j s) := by
  rw [allCalm_iff]
  intro i a ha
  by_cases hi : i = j
  · subst hi
    have hlt := (List.getElem?_eq_some_iff.1 ha).1
    rw [List.getElem?_set_self (by simpa using hlt)] at ha
    cases ha
    exact hs
  · rw [List.getElem?_set_ne (fun e => hi e.symm)] at ha
    exact h i a hi ha

/-- What is to be shown of a tick that answers RUNNING. -/
def RunPost (k : Kind) : PostCond := fun st' _ m' r => r = .ok .running →
  ∃ j, ((k = .memSequence ∨ k = .memFallback) → j = m'.lastRunning) ∧ Others j st'

/-- The same for the loops of the memory nodes. -/
def LoopPost : PostCond := fun st' _ m' r => r = .ok .running → Others m'.lastRunning st'

theorem untick_notRunning (m : Mem) (s : BTState) (hs : s ≠ .running) (len i : Nat)
    (st : List BTState) (hl : st.length = i + len) :
    (Prog.forAll .untick m (List.range' i len) (.done m (.ok s))).PostS LoopPost st := by
  apply postS_forAll
  · exact hl
  · intro _ _ _ _ _ h; cases h
  · intro _ _ _ _ _ _ h; cases h; exact absurd rfl hs

theorem lone_seqLoop (m : Mem) (len : Nat) : ∀ (i : Nat) (st : List BTState),
    st.length = i + len → Others i st →
    (Prog.seqLoop true m (List.range' i len)).PostS LoopPost st := by
  induction len with
  | zero => intro i st _ _ h; cases h
  | succ len ih =>
    intro i st hl hb
    rw [List.range'_succ]
    refine ⟨by omega, fun r s' hs => ?_⟩
    cases r with
    | err => intro h; cases h
    | ok s =>
      obtain ⟨rfl, hal⟩ := hs s rfl
      simp only
      split
      · rename_i hsucc
        subst hsucc
        exact postS_mono _ _ _ _ (fun _ _ _ _ _ h => h)
          (ih (i + 1) _ (by simp; omega) (others_all _ _ (others_next i st _ hb rfl)))
      · split
        · intro _
          exact others_set i st _ hb
        · rename_i hrun
          exact postS_mono _ _ _ _ (fun _ _ _ _ _ h => h)
            (untick_notRunning m s' hrun len (i + 1) (st.set i s') (by simp; omega))

theorem lone_fbLoop (m : Mem) (len : Nat) : ∀ (i : Nat) (st : List BTState),
    st.length = i + len → Others i st →
    (Prog.fbLoop true m (List.range' i len)).PostS LoopPost st := by
  induction len with
  | zero => intro i st _ _ h; cases h
  | succ len ih =>
    intro i st hl hb
    rw [List.range'_succ]
    refine ⟨by omega, fun r s' hs => ?_⟩
    cases r with
    | err => intro h; cases h
    | ok s =>
      obtain ⟨rfl, hal⟩ := hs s rfl
      simp only
      split
      · intro _
        exact others_set i st _ hb
      · rename_i hrun
        split
        · exact postS_mono _ _ _ _ (fun _ _ _ _ _ h => h)
            (untick_notRunning m s' hrun len (i + 1) (st.set i s') (by simp; omega))
        · exact postS_mono _ _ _ _ (fun _ _ _ _ _ h => h)
            (ih (i + 1) _ (by simp; omega)
              (others_all _ _ (others_next i st _ hb (calm_tick _ hal hrun))))

/-- The same with the resets. -/
theorem lone_pass (loop : Bool → Mem → List Nat → Prog)
    (hloop : ∀ (m : Mem) (len i : Nat) (st : List BTState), st.length = i + len → Others i st →
      (loop true m (List.range' i len)).PostS LoopPost st)
    (hnil : ∀ m, (loop true m [] : Prog) = .done m (.ok .succeeded) ∨
      (loop true m [] : Prog) = .done m (.ok .failed))
    (m : Mem) (prev : BTState) (n i : Nat) (st : List BTState) (hl : st.length = n)
    (hb : finished prev = false → Others i st) :
    (Prog.resetIfFinished n prev m (loop true m ((List.range n).drop i))).PostS LoopPost st := by
  apply postS_resetIfFinished _ _ _ _ _ _ hl
  · intro _ _ _ h; cases h
  · intro st' l h1 _ h3 h4
    have hb' : Others i st' := by
      cases hf : finished prev with
      | false => rw [h3 hf]; exact hb hf
      | true => exact others_all _ _ (fun a ha => by rw [h4 hf a ha]; rfl)
    rw [drop_range]
    by_cases hi : i ≤ n
    · exact postS_mono _ _ _ _ (fun _ _ _ _ _ h => h) (hloop m (n - i) i st' (by omega) hb')
    · have hz : n - i = 0 := by omega
      rw [hz]
      rcases hnil m with h | h
      · simp only [List.range'_zero, h]
        intro hs; cases hs
      · simp only [List.range'_zero, h]
        intro hs; cases hs

theorem lone_switch (m : Mem) (prev : BTState) (names : List Nat) (st : List BTState)
    (env : Nat → Env) (ctr : Nat) (hl : st.length = names.length)
    (hclean : ∀ i, ∃ nm ∈ names, (env i).key = some nm)
    (hM : m.childMap = buildMap names)
    (hE : ∀ (i : Nat) (a : BTState), ¬ LastNamed names i → st[i]? = some a → calm a = true) :
    (tickHook .nameSwitch prev m (env ctr) names).PostS
      (fun st' _ _ r => r = .ok .running → ∃ j, Others j st') st := by
  obtain ⟨hnd, hmem⟩ := buildMap_spec names
  obtain ⟨nm, hnm, hkey⟩ := hclean ctr
  obtain ⟨j, hj, hlast⟩ := exists_last names nm hnm
  have hg : dictGet (buildMap names) nm = some j :=
    (dictGet_eq _ hnd nm j).2 ((hmem nm j).2 ⟨hj, hlast⟩)
  simp only [tickHook, hkey, hM, hg]
  split
  · apply postS_resetIfFinished _ _ _ _ _ _ hl
    · intro _ _ _ h; cases h
    · intro st1 l0 hl1 _ hr0 hr1
      have hE1 : ∀ (i : Nat) (a : BTState), ¬ LastNamed names i → st1[i]? = some a →
          calm a = true := by
        intro i a hn ha
        cases hf : finished prev with
        | false => rw [hr0 hf] at ha; exact hE i a hn ha
        | true => rw [hr1 hf a (List.mem_of_getElem? ha)]; rfl
      apply postS_untickOthers
      · rintro ⟨a, b⟩ hp
        rw [hl1]
        exact ((hmem a b).1 hp).2.1
      · intro _ _ _ h; cases h
      · intro st2 l1 h1 h2 h3 h4 h5
        refine ⟨by rw [h1, hl1]; exact hlast.1, fun r s' hs _ => ⟨j, ?_⟩⟩
        intro i a hij ha
        rw [List.getElem?_set_ne (fun e => hij e.symm)] at ha
        by_cases hin : i ∈ ((buildMap names).filter (fun p => p.1 ≠ nm)).map (·.2)
        · rcases h4 i a hin ha with rfl | rfl <;> rfl
        · have hi : i < names.length := by
            have := (List.getElem?_eq_some_iff.1 ha).1
            omega
          rw [h5 i hin] at ha
          apply hE1 i a _ ha
          intro hla
          apply hin
          have hni : names[i] ≠ nm := by
            intro e
            have h1 := (hmem nm i).2 ⟨by rw [List.getElem?_eq_getElem hi, e], hla⟩
            have := (dictGet_eq _ hnd nm i).2 h1
            rw [hg] at this
            exact hij (Option.some.inj this).symm
          exact List.mem_map.2 ⟨(names[i], i), List.mem_filter.2
            ⟨(hmem _ i).2 ⟨List.getElem?_eq_getElem hi, hla⟩, by simpa using hni⟩, rfl⟩
  · intro h; cases h

theorem short_of (k : Kind) (hf : fans k = false)
    (hk : k ≠ .memSequence ∧ k ≠ .memFallback ∧ k ≠ .nameSwitch ∧ k ≠ .enumSwitch) (len : Nat)
    (hw : childrenOk k len) : len ≤ 1 := by
  have : maxChildren k = some 0 ∨ maxChildren k = some 1 := by
    revert hf hk
    cases k <;> simp [fans, maxChildren]
  rcases this with h | h
  · have := hw 0 h; omega
  · exact hw 1 h

theorem postS_length (p : Prog) (P : PostCond) : ∀ st : List BTState, p.PostS P st →
    p.PostS (fun st' l m r => st'.length = st.length ∧ P st' l m r) st := by
  intro st h
  exact postS_mono _ _ _ _ (fun _ _ _ _ hl h => ⟨hl, h⟩) h

theorem tick_memPass (k : Kind) (loop : Bool → Mem → List Nat → Prog)
    (hloop : ∀ (m : Mem) (len i : Nat) (st : List BTState), st.length = i + len → Others i st →
      (loop true m (List.range' i len)).PostS LoopPost st)
    (hnil : ∀ m, (loop true m [] : Prog) = .done m (.ok .succeeded) ∨
      (loop true m [] : Prog) = .done m (.ok .failed))
    (hk : k = .memSequence ∨ k = .memFallback) (m : Mem) (prev : BTState) (n : Nat)
    (st : List BTState) (hl : st.length = n) (hL : Lone k m prev st) (hlive : live prev = true) :
    (Prog.resetIfFinished n prev (if prev = .succeeded ∨ prev = .failed then
        { m with lastRunning := 0 } else m) (loop true (if prev = .succeeded ∨ prev = .failed then
        { m with lastRunning := 0 } else m) ((List.range n).drop (if prev = .succeeded ∨ prev = .failed
        then { m with lastRunning := 0 } else m).lastRunning))).PostS (RunPost k) st := by
  refine postS_mono _ _ _ _ ?_ (lone_pass loop hloop hnil _ prev n _ st hl ?_)
  · intro st' l m' r _ h hr
    exact ⟨_, fun _ => rfl, h hr⟩
  · intro hf
    have hn : ¬ (prev = .succeeded ∨ prev = .failed) := by
      rw [finished_iff, hf]; simp
    rw [if_neg hn]
    obtain ⟨j, h1, h2⟩ := hL hlive
    rw [← h1 hk]
    exact h2

theorem lone_tick (k : Kind) (m : Mem) (prev : BTState) (names : List Nat) (st : List BTState)
    (env : Nat → Env) (ctr : Nat) (hl : st.length = names.length)
    (hk : k = .memSequence ∨ k = .memFallback ∨ k = .nameSwitch ∨ k = .enumSwitch)
    (hclean : CleanRoot k env names) (hin : Inside k m prev names st env ctr)
    (hL : Lone k m prev st) (hlive : live prev = true) :
    (tickHook k prev m (env ctr) names).PostS (RunPost k) st := by
  obtain ⟨hM, hE⟩ := hin.2 hlive
  rcases hk with rfl | rfl | rfl | rfl
  · simp only [tickHook]
    split
    · intro h; cases h
    · exact tick_memPass _ Prog.seqLoop (fun m len i st => lone_seqLoop m len i st)
        (fun _ => Or.inl rfl) (Or.inl rfl) m prev _ st hl hL hlive
  · simp only [tickHook]
    split
    · intro h; cases h
    · exact tick_memPass _ Prog.fbLoop (fun m len i st => lone_fbLoop m len i st)
        (fun _ => Or.inr rfl) (Or.inr rfl) m prev _ st hl hL hlive
  · refine postS_mono _ _ _ _ ?_ (lone_switch m prev names st env ctr hl hclean hM hE)
    intro st' l m' r _ h hr
    obtain ⟨j, hj⟩ := h hr
    exact ⟨j, fun h => by simp at h, hj⟩
  · have : (tickHook .enumSwitch prev m (env ctr) names).PostS
        (fun st' _ _ r => r = .ok .running → ∃ j, Others j st') st :=
      lone_switch m prev names st env ctr hl hclean hM hE
    refine postS_mono _ _ _ _ ?_ this
    intro st' l m' r _ h hr
    obtain ⟨j, hj⟩ := h hr
    exact ⟨j, fun h => by simp at h, hj⟩

theorem lone_dead (k : Kind) (m : Mem) (s : BTState) (st : List BTState) (h : live s = false) :
    Lone k m s st := fun hl => by rw [h] at hl; cases hl

theorem lone_calm (k : Kind) (m : Mem) (s : BTState) (st : List BTState) (h : AllCalm st) :
    Lone k m s st := fun _ => ⟨m.lastRunning, fun _ => rfl, others_all _ _ h⟩

/-- One operation keeps the invariant. -/
theorem lone_run (o : Ops N) (hs : Sound o) (hname : ∀ op c, o.name (o.run op c).node = o.name c)
    (op : Op) (nd : Node N) (hw : childrenOk nd.kind nd.children.length) (hm : CacheOk nd.mem)
    (hclean : CleanRoot nd.kind nd.env (nd.children.map o.name)) (hfan : fans nd.kind = false)
    (hin : Inside nd.kind nd.mem nd.state (nd.children.map o.name) (nd.children.map o.state) nd.env nd.ctr)
    (hL : Lone nd.kind nd.mem nd.state (nd.children.map o.state)) :
    let nd' := (nd.run o op).node
    Lone nd'.kind nd'.mem nd'.state (nd'.children.map o.state) := by
  intro nd'
  obtain ⟨_, _, hk', _, _, hlen⟩ := run_static o op nd
  by_cases hk : nd.kind = .memSequence ∨ nd.kind = .memFallback ∨ nd.kind = .nameSwitch ∨
      nd.kind = .enumSwitch
  · have hin' := inside_run o hs hname op nd hw hm hclean hin
    have hidle : idleOptional nd'.kind nd'.mem = false := by
      show idleOptional (nd.run o op).node.kind (nd.run o op).node.mem = false
      rw [hk']
      rcases hk with h | h | h | h <;> rw [h] <;> rfl
    have hcalm : calm nd'.state = true → Lone nd'.kind nd'.mem nd'.state (nd'.children.map o.state) :=
      fun h => lone_calm _ _ _ _ (hin'.1 h hidle)
    clear hin' hidle
    revert hcalm
    have hnl : nd.kind ≠ .leaf := by rcases hk with h | h | h | h <;> rw [h] <;> simp
    apply run_cases o op nd (P := fun out =>
      (calm out.node.state = true →
        Lone out.node.kind out.node.mem out.node.state (out.node.children.map o.state)) →
      Lone out.node.kind out.node.mem out.node.state (out.node.children.map o.state))
    · intro _ _; exact hL
    · intro _ _ _ _; exact lone_dead _ _ _ _ rfl
    · intro x _ _ _ _ _; exact lone_dead _ _ _ _ rfl
    · intro x s hx _ _ hr hal
      have := (hook_good o hs op nd hnl hm (nd.env nd.ctr)).2 s (by rw [← hx]; exact hr)
      simp [hal] at this
    · intro x s hop hx hacc _ hr hal hc
      simp only [Node.wrap] at hc ⊢
      by_cases hcs : calm s = true
      · exact hc hcs
      · cases op with
        | shutdown => exact absurd rfl hop
        | setup | untick | reset => exact absurd (calm_of_allowed _ (by simp) (by simp) s hal) hcs
        | tick =>
          have hrun : s = .running := by
            refine Decidable.byContradiction fun h => hcs (calm_tick s hal h)
          subst hrun
          have hlive : live nd.state = true := by
            revert hacc; cases nd.state <;> simp [accepts, live, calm]
          have := exec_postS o hs _ _ nd.children
            (lone_tick nd.kind nd.mem nd.state (nd.children.map o.name) (nd.children.map o.state)
              nd.env nd.ctr (by simp) hk hclean hin hL hlive)
          have hx' : x = exec o (tickHook nd.kind nd.state nd.mem (nd.env nd.ctr)
            (nd.children.map o.name)) nd.children := hx
          rw [← hx'] at this
          exact fun _ => this hr
    · intro _ hst _
      have hns := (finishShutdown_mem o { nd with ctr := nd.ctr + 1 } [] []).2
      apply lone_dead
      rw [hns]
      show live nd.state = false
      rw [hst]
      rfl
    · intro x _ _ _ _ _
      have hns := (finishShutdown_mem o { nd with
        ctr := nd.ctr + 1, mem := x.mem, children := x.children, state := .shutdown } x.log
        (.hook op nd.id :: x.trace)).2
      apply lone_dead
      rw [hns]
      rfl
  · have hk2 : nd.kind ≠ .memSequence ∧ nd.kind ≠ .memFallback ∧ nd.kind ≠ .nameSwitch ∧
        nd.kind ≠ .enumSwitch :=
      ⟨fun h => hk (Or.inl h), fun h => hk (Or.inr (Or.inl h)), fun h => hk (Or.inr (Or.inr (Or.inl h))),
        fun h => hk (Or.inr (Or.inr (Or.inr h)))⟩
    have hsh := short_of nd.kind hfan hk2 _ hw
    intro _
    refine ⟨0, fun h => ?_, others_short _ ?_⟩
    · have h' : nd.kind = .memSequence ∨ nd.kind = .memFallback := by
        rw [← hk']; exact h
      rcases h' with h' | h'
      · exact absurd h' hk2.1
      · exact absurd h' hk2.2.1
    · rw [List.length_map]
      show (nd.run o op).node.children.length ≤ 1
      omega

/-! ### Trees -/

/-- The invariant of all nodes. -/
def LInv : (n : Nat) → Tree n → Prop
  | 0, t => Empty.elim t
  | n + 1, t =>
    let nd : Node (Tree n) := t
    Lone nd.kind nd.mem nd.state (nd.children.map (ops n).state) ∧ ∀ c ∈ nd.children, LInv n c

/-- Everything that is kept by all operations. -/
def LAll (n : Nat) (t : Tree n) : Prop := QAll n t ∧ Narrow n t ∧ LInv n t

theorem narrow_run (n : Nat) (op : Op) (t : Tree n) (h : Narrow n t) :
    Narrow n ((ops n).run op t).node := by
  induction n generalizing op with
  | zero => exact Empty.elim t
  | succ n ih =>
    obtain ⟨_, _, h3, _, _, _⟩ := run_static (ops n) op t
    refine ⟨?_, run_children (ops n) (Narrow n) (fun op c hc => ih op c hc) op t h.2⟩
    have h1 := h.1
    show fans (Node.run (ops n) op t).node.kind = false
    rw [h3]
    exact h1

theorem lAll_run (n : Nat) (op : Op) (t : Tree n) (h : LAll n t) : LAll n ((ops n).run op t).node := by
  induction n generalizing op with
  | zero => exact Empty.elim t
  | succ n ih =>
    obtain ⟨hq, hna, hl⟩ := h
    obtain ⟨hw, hcl, hca, hqi⟩ := hq
    refine ⟨qAll_run _ op t ⟨hw, hcl, hca, hqi⟩, narrow_run _ op t hna, ?_, ?_⟩
    · exact lone_run (ops n) (ops_sound n) (ops_name n) op t hw.1 hca.1 hcl.1 hna.1 hqi.1 hl.1
    · intro c hc
      have := run_children (ops n) (LAll n) (fun op c hc => ih op c hc) op t
        (fun c hc => ⟨⟨hw.2 c hc, hcl.2 c hc, hca.2 c hc, hqi.2 c hc⟩, hna.2 c hc, hl.2 c hc⟩) c hc
      exact this.2.2

theorem lAll_runs (n : Nat) (l : List Op) : ∀ t : Tree n, LAll n t → LAll n (runs (ops n) l t).2 := by
  induction l with
  | nil => intro t h; exact h
  | cons op l ih => intro t h; exact ih _ (lAll_run n op t h)

theorem lInv_fresh (n : Nat) : ∀ t : Tree n, Fresh n t → LInv n t := by
  induction n with
  | zero => intro t; exact Empty.elim t
  | succ n ih =>
    intro t h
    refine ⟨lone_dead _ _ _ _ ?_, fun c hc => ih c (h.2 c hc)⟩
    have e : Node.state (N := Tree n) t = .uninitialized := h.1.1
    show live (Node.state (N := Tree n) t) = false
    rw [e]
    rfl

/-- Below a calm node nothing is RUNNING. -/
theorem stateAt_calm (n : Nat) : ∀ (t : Tree n) (p : List Nat), QInv n t →
    calm ((ops n).state t) = true → stateAt n t p ≠ some .running := by
  induction n with
  | zero => intro t; exact Empty.elim t
  | succ n ih =>
    intro t p hq hc
    cases p with
    | nil =>
      intro h
      have h' : (ops (n + 1)).state t = .running := Option.some.inj h
      rw [h'] at hc
      cases hc
    | cons i p =>
      simp only [stateAt]
      split
      · simp
      · rename_i hidle
        split
        · simp
        · rename_i c hget
          have hmem : c ∈ Node.children (N := Tree n) t := List.mem_of_getElem? hget
          exact ih c p (hq.2 c hmem)
            (hq.1.1 hc (by simpa using hidle) _ (List.mem_map.2 ⟨c, hmem, rfl⟩))

/-- Two RUNNING nodes in use lie on one path. -/
theorem chain (n : Nat) : ∀ (t : Tree n) (p q : List Nat), QInv n t → LInv n t → AInv n t →
    live ((ops n).state t) = true → stateAt n t p = some .running → stateAt n t q = some .running →
    p <+: q ∨ q <+: p := by
  induction n with
  | zero => intro t; exact Empty.elim t
  | succ n ih =>
    intro t p q hq hl ha hlive hp hqr
    cases p with
    | nil => exact Or.inl List.nil_prefix
    | cons i p =>
      cases q with
      | nil => exact Or.inr List.nil_prefix
      | cons i' q =>
        simp only [stateAt] at hp hqr
        have hidle : idleOptional (Node.kind (N := Tree n) t) (Node.mem (N := Tree n) t) = false := by
          cases h : idleOptional (Node.kind (N := Tree n) t) (Node.mem (N := Tree n) t) with
          | false => rfl
          | true => simp [h] at hp
        simp only [hidle, Bool.false_eq_true, if_false] at hp hqr
        cases hc : (Node.children (N := Tree n) t)[i]? with
        | none => simp [hc] at hp
        | some c =>
          cases hc' : (Node.children (N := Tree n) t)[i']? with
          | none => simp [hc'] at hqr
          | some c' =>
            simp only [hc, hc'] at hp hqr
            have hmem : c ∈ Node.children (N := Tree n) t := List.mem_of_getElem? hc
            obtain ⟨j, _, hj⟩ := hl.1 hlive
            have key : ∀ (a : Nat) (d : Tree n) (r : List Nat),
                (Node.children (N := Tree n) t)[a]? = some d → stateAt n d r = some .running → a = j := by
              intro a d r hd hr
              refine Decidable.byContradiction fun hne => ?_
              have hcd : calm ((ops n).state d) = true :=
                hj a _ hne (by rw [List.getElem?_map, hd]; rfl)
              exact stateAt_calm n d r (hq.2 d (List.mem_of_getElem? hd)) hcd hr
            have e1 := key i c p hc hp
            have e2 := key i' c' q hc' hqr
            have e : i = i' := e1.trans e2.symm
            rw [← e] at hc'
            rw [← e]
            have ec : c = c' := Option.some.inj (hc.symm.trans hc')
            rw [← ec] at hqr
            rcases ih c p q (hq.2 c hmem) (hl.2 c hmem) (ha.2 c hmem) (ha.1 hlive hidle c hmem) hp hqr
              with h | h
            · exact Or.inl (by rw [List.cons_prefix_cons]; exact ⟨rfl, h⟩)
            · exact Or.inr (by rw [List.cons_prefix_cons]; exact ⟨rfl, h⟩)

theorem noThrottle_clean (n : Nat) : ∀ t : Tree n, Clean n t → NoThrottleSuccess n t := by
  induction n with
  | zero => intro t; exact Empty.elim t
  | succ n ih =>
    intro t h
    refine ⟨?_, fun c hc => ih c (h.2 c hc)⟩
    intro e
    have := h.1
    have e' : Node.kind (N := Tree n) t = .throttleSuccess := e
    rw [e'] at this
    exact this

/-- **C112 (partial).** Take a freshly created tree in which every node is `CleanRoot` and that
contains no Sequence, Fallback, Parallel or ParallelFailureTolerance, and any history of operations
with any outcomes. While the root is neither UNINITIALIZED nor BROKEN nor SHUTDOWN, of any two RUNNING
nodes in use one is above the other: at most one branch of the tree is running. Missing for the full
statement: the nodes excluded by `CleanRoot`, see `c112_switch`. -/
theorem c112_one_branch_partial (n : Nat) (t : Tree n) (hf : Fresh n t) (hw : WF n t)
    (hcl : Clean n t) (hna : Narrow n t) (history : List Op) :
    let t' := (runs (ops n) history t).2
    (ops n).state t' ∉ [.uninitialized, .broken, .shutdown] →
    ∀ p q : List Nat, stateAt n t' p = some .running → stateAt n t' q = some .running →
      p <+: q ∨ q <+: p := by
  intro t' h p q hp hq
  have hl := lAll_runs n history t
    ⟨⟨hw, hcl, caches_fresh n t hf, qInv_fresh n t hf⟩, hna, lInv_fresh n t hf⟩
  have ha := aAll_runs n history t
    ⟨hw, noThrottle_clean n t hcl, caches_fresh n t hf, aInv_fresh n t hf⟩
  refine chain n t' p q hl.1.2.2.2 hl.2.2 ha.2.2.2 ?_ hp hq
  revert h
  cases (ops n).state t' <;> simp [live, calm]

/-- Whatever is RUNNING runs on behalf of its ancestors: in a tree in which every node is
`CleanRoot`, all nodes above a RUNNING node in use are RUNNING while the root is in use. -/
theorem runs_from_root (n : Nat) : ∀ (t : Tree n) (p : List Nat), QInv n t → AInv n t →
    live ((ops n).state t) = true → stateAt n t p = some .running →
    ∀ q, q <+: p → stateAt n t q = some .running := by
  induction n with
  | zero => intro t; exact Empty.elim t
  | succ n ih =>
    intro t p hq ha hlive hp r hr
    have hroot : (ops (n + 1)).state t = .running := by
      have : ¬ calm ((ops (n + 1)).state t) = true := fun h => stateAt_calm (n + 1) t p hq h hp
      revert hlive this
      cases (ops (n + 1)).state t <;> simp [live, calm]
    cases r with
    | nil => exact congrArg some hroot
    | cons i r =>
      cases p with
      | nil => simp at hr
      | cons i' p =>
        rw [List.cons_prefix_cons] at hr
        obtain ⟨rfl, hr⟩ := hr
        simp only [stateAt] at hp ⊢
        have hidle : idleOptional (Node.kind (N := Tree n) t) (Node.mem (N := Tree n) t) = false := by
          cases h : idleOptional (Node.kind (N := Tree n) t) (Node.mem (N := Tree n) t) with
          | false => rfl
          | true => simp [h] at hp
        simp only [hidle, Bool.false_eq_true, if_false] at hp ⊢
        cases hc : (Node.children (N := Tree n) t)[i]? with
        | none => simp [hc] at hp
        | some c =>
          simp only [hc] at hp ⊢
          have hmem : c ∈ Node.children (N := Tree n) t := List.mem_of_getElem? hc
          exact ih c p (hq.2 c hmem) (ha.2 c hmem) (ha.1 hlive hidle c hmem) hp r hr

/-- **C112, ancestors (partial).** Also in trees with Sequences, Fallbacks and parallel nodes: while the
root is neither UNINITIALIZED nor BROKEN nor SHUTDOWN, every node above a RUNNING node in use is
RUNNING. Missing for the full statement: the nodes excluded by `CleanRoot`; the theorems
`c18_ignore_running` and following show that there a RUNNING node may be below a finished one. -/
theorem c112_ancestors_run_partial (n : Nat) (t : Tree n) (hf : Fresh n t) (hw : WF n t)
    (hcl : Clean n t) (history : List Op) :
    let t' := (runs (ops n) history t).2
    (ops n).state t' ∉ [.uninitialized, .broken, .shutdown] →
    ∀ p : List Nat, stateAt n t' p = some .running →
      ∀ q, q <+: p → stateAt n t' q = some .running := by
  intro t' h p hp q hqp
  have hq := qAll_runs n history t ⟨hw, hcl, caches_fresh n t hf, qInv_fresh n t hf⟩
  have ha := aAll_runs n history t
    ⟨hw, noThrottle_clean n t hcl, caches_fresh n t hf, aInv_fresh n t hf⟩
  refine runs_from_root n t' p hq.2.2.2 ha.2.2.2 ?_ hp q hqp
  revert h
  cases (ops n).state t' <;> simp [live, calm]

/-- A MemorySequence over a leaf and a NameSwitch whose selection changes from its first to its second
child. -/
def sampleNarrow : Tree 3 :=
  mk 2 1 .memSequence
    [mkLeaf 1 2 [.ok .idle, .ok .running, .ok .succeeded],
     mk 1 3 .nameSwitch
      [mkLeaf 0 4 [.ok .idle, .ok .running, .ok .idle], mkLeaf 0 5 [.ok .idle, .ok .idle, .ok .running]]
      (fun i => { key := some (if i < 2 then 4 else 5) })]

theorem sampleNarrow_clean : Clean 3 sampleNarrow := by
  refine ⟨trivial, ?_⟩
  intro c hc
  rcases List.mem_cons.1 hc with rfl | hc
  · exact ⟨trivial, fun c hc => by cases hc⟩
  · rcases List.mem_singleton.1 hc with rfl
    refine ⟨?_, ?_⟩
    · intro i
      by_cases h : i < 2
      · exact ⟨4, by decide, by simp [mk, h]⟩
      · exact ⟨5, by decide, by simp [mk, h]⟩
    · intro c hc
      rcases List.mem_cons.1 hc with rfl | hc
      · exact ⟨trivial, fun c hc => by cases hc⟩
      · rcases List.mem_singleton.1 hc with rfl
        exact ⟨trivial, fun c hc => by cases hc⟩

example : Fresh 3 sampleNarrow ∧ WF 3 sampleNarrow ∧ Narrow 3 sampleNarrow ∧
    nodeStates 3 (runs (ops 3) [.setup, .tick, .tick] sampleNarrow).2 =
      [(1, .running), (2, .succeeded), (3, .running), (4, .running), (5, .idle)] ∧
    nodeStates 3 (runs (ops 3) [.setup, .tick, .tick, .tick] sampleNarrow).2 =
      [(1, .running), (2, .succeeded), (3, .running), (4, .idle), (5, .running)] ∧
    stateAt 3 (runs (ops 3) [.setup, .tick, .tick, .tick] sampleNarrow).2 [1, 1] = some .running := by
  decide

/-- **Sequence and Fallback** keep later children running while an earlier one is RUNNING again, as
documented (`sequence.py:54-60`): two branches are RUNNING. -/
theorem c112_sequence :
    ∀ k ∈ [Kind.sequence, Kind.fallback], ∃ t : Tree 2, rootKind 1 t = k ∧ Fresh 2 t ∧ WF 2 t ∧
      nodeStates 2 (runs (ops 2) [.setup, .tick, .tick] t).2 =
        [(1, .running), (2, .running), (3, .running)] := by
  intro k hk
  rcases List.mem_cons.1 hk with rfl | hk
  · exact ⟨mk 1 1 .sequence [mkLeaf 0 2 [.ok .idle, .ok .succeeded, .ok .running],
      mkLeaf 0 3 [.ok .idle, .ok .running]], by decide⟩
  · rcases List.mem_singleton.1 hk with rfl
    exact ⟨mk 1 1 .fallback [mkLeaf 0 2 [.ok .idle, .ok .failed, .ok .running],
      mkLeaf 0 3 [.ok .idle, .ok .running]], by decide⟩

/-- The memory nodes do not. -/
theorem c112_memSequence :
    ∃ t : Tree 2, rootKind 1 t = .memSequence ∧ Fresh 2 t ∧ WF 2 t ∧
      nodeStates 2 (runs (ops 2) [.setup, .tick, .tick] t).2 =
        [(1, .running), (2, .succeeded), (3, .running)] :=
  ⟨mk 1 1 .memSequence [mkLeaf 0 2 [.ok .idle, .ok .succeeded, .ok .running],
    mkLeaf 0 3 [.ok .idle, .ok .running, .ok .running]], by decide⟩

/-- **Switch nodes** whose selected name belongs to no child leave the child selected before RUNNING
(`fallback.py:64-66`); a MemoryFallback then runs its next child beside it. -/
theorem c112_switch :
    ∃ t : Tree 3, rootKind 2 t = .memFallback ∧ Fresh 3 t ∧ WF 3 t ∧ Narrow 3 t ∧
      nodeStates 3 (runs (ops 3) [.setup, .tick, .tick] t).2 =
        [(1, .running), (2, .failed), (3, .running), (4, .running)] :=
  ⟨mk 2 1 .memFallback
    [mk 1 2 .nameSwitch [mkLeaf 0 3 [.ok .idle, .ok .running]]
      (fun i => { key := some (if i < 2 then 3 else 9) }),
     mkLeaf 1 4 [.ok .idle, .ok .running]], by decide⟩

end Verif.BT.Single
