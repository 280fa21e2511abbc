import Verif.BT.Logic
import Verif.BT.Broken

/-!
# C11–C14: Sequence, Fallback and their variants with memory
-/

set_option autoImplicit false

namespace Verif.BT

variable {N : Type}

/-! ### Specification -/

/-- Specification of one pass of a sequence over the children `i, ..., n-1` with answer `s`:
either all of them are ticked in order and succeed and the answer is SUCCEEDED; or the children
before some `j` are ticked in order and succeed, then `j` is ticked and gives the answer, and the later
children are left alone if `j` is RUNNING, and otherwise unticked in order. -/
def SeqPass (i n : Nat) (l : List Call) (s : BTState) : Prop :=
  (s = .succeeded ∧ Calls .tick i n l ∧ ∀ c ∈ l, c.res = .ok .succeeded) ∨
  ∃ j pre post, i ≤ j ∧ j < n ∧ l = pre ++ ⟨.tick, j, .ok s⟩ :: post ∧
    Calls .tick i j pre ∧ (∀ c ∈ pre, c.res = .ok .succeeded) ∧ s ≠ .succeeded ∧
    (if s = .running then post = [] else Calls .untick (j + 1) n post)

/-- Specification of one pass of a fallback over the children `i, ..., n-1` with answer `s`. -/
def FbPass (i n : Nat) (l : List Call) (s : BTState) : Prop :=
  (s = .failed ∧ Calls .tick i n l ∧ ∀ c ∈ l, c.res ≠ .ok .succeeded ∧ c.res ≠ .ok .running) ∨
  ∃ j pre post, i ≤ j ∧ j < n ∧ l = pre ++ ⟨.tick, j, .ok s⟩ :: post ∧
    Calls .tick i j pre ∧ (∀ c ∈ pre, c.res ≠ .ok .succeeded ∧ c.res ≠ .ok .running) ∧
    (s = .running ∧ post = [] ∨ s = .succeeded ∧ Calls .untick (j + 1) n post)

/-- The child on which a pass stopped RUNNING. -/
def stoppedAt (l : List Call) : Nat := (l.getLast?.map (·.child)).getD 0

/-! ### The loops -/

theorem seqPass_cons (i n : Nat) (l : List Call) (s : BTState) (h : i < n)
    (hp : SeqPass (i + 1) n l s) : SeqPass i n (⟨.tick, i, .ok .succeeded⟩ :: l) s := by
  rcases hp with ⟨h1, h2, h3⟩ | ⟨j, pre, post, h1, h2, h3, h4, h5, h6⟩
  · refine Or.inl ⟨h1, calls_cons _ _ _ _ _ h h2, ?_⟩
    intro c hc
    rcases List.mem_cons.1 hc with rfl | hc
    · rfl
    · exact h3 c hc
  · refine Or.inr ⟨j, ⟨.tick, i, .ok .succeeded⟩ :: pre, post, by omega, h2, by simp [h3],
      calls_cons _ _ _ _ _ (by omega) h4, ?_, h6⟩
    intro c hc
    rcases List.mem_cons.1 hc with rfl | hc
    · rfl
    · exact h5 c hc

theorem fbPass_cons (i n : Nat) (l : List Call) (s s' : BTState) (h : i < n)
    (hs : s' ≠ .succeeded ∧ s' ≠ .running)
    (hp : FbPass (i + 1) n l s) : FbPass i n (⟨.tick, i, .ok s'⟩ :: l) s := by
  rcases hp with ⟨h1, h2, h3⟩ | ⟨j, pre, post, h1, h2, h3, h4, h5, h6⟩
  · refine Or.inl ⟨h1, calls_cons _ _ _ _ _ h h2, ?_⟩
    intro c hc
    rcases List.mem_cons.1 hc with rfl | hc
    · simpa using hs
    · exact h3 c hc
  · refine Or.inr ⟨j, ⟨.tick, i, .ok s'⟩ :: pre, post, by omega, h2, by simp [h3],
      calls_cons _ _ _ _ _ (by omega) h4, ?_, h6⟩
    intro c hc
    rcases List.mem_cons.1 hc with rfl | hc
    · simpa using hs
    · exact h5 c hc

theorem getLast?_cons_append {α : Type} (a : α) (l : List α) (h : l ≠ []) :
    (a :: l).getLast? = l.getLast? := by
  cases l with
  | nil => exact absurd rfl h
  | cons b l => simp [List.getLast?_cons_cons]

theorem seqPass_running_ne_nil (i n : Nat) (l : List Call) (h : SeqPass i n l .running) : l ≠ [] := by
  rcases h with ⟨h1, _⟩ | ⟨j, pre, post, _, _, h3, _⟩
  · cases h1
  · simp [h3]

theorem fbPass_running_ne_nil (i n : Nat) (l : List Call) (h : FbPass i n l .running) : l ≠ [] := by
  rcases h with ⟨h1, _⟩ | ⟨j, pre, post, _, _, h3, _⟩
  · cases h1
  · simp [h3]

/-- What a memory node remembers after a pass with answer `s` and calls `l`. -/
def remembers (b : Bool) (m : Mem) (l : List Call) (s : BTState) (m' : Mem) : Prop :=
  m'.lastRunning = if b = true ∧ s = .running then stoppedAt l else m.lastRunning

theorem postS_seqLoop (b : Bool) (m : Mem) (n : Nat) (len : Nat) : ∀ (i : Nat)
    (st : List BTState), st.length = n → i + len = n →
    (Prog.seqLoop b m (List.range' i len)).PostS (fun _ l m' r =>
      match r with
      | .ok s => SeqPass i n l s ∧ remembers b m l s m'
      | .err => ∃ c ∈ l, c.res = .err) st := by
  induction len with
  | zero =>
    intro i st hl hn
    have : i = n := by omega
    subst this
    exact ⟨Or.inl ⟨rfl, calls_nil _ _, by simp⟩, by simp [remembers]⟩
  | succ len ih =>
    intro i st hl hn
    rw [List.range'_succ]
    refine ⟨by omega, fun r s' hs => ?_⟩
    cases r with
    | err => exact ⟨_, List.mem_singleton.2 rfl, rfl⟩
    | ok s =>
      obtain ⟨rfl, hal⟩ := hs s rfl
      simp only
      split
      · rename_i hsucc
        subst hsucc
        apply postS_mono _ _ _ _ _ (ih (i + 1) (st.set i .succeeded) (by simpa using hl) (by omega))
        intro st' l m' r _ hP
        cases r with
        | err =>
          obtain ⟨c, hc, h⟩ := hP
          exact ⟨c, List.mem_cons_of_mem _ hc, h⟩
        | ok s =>
          refine ⟨seqPass_cons _ _ _ _ (by omega) hP.1, ?_⟩
          have h2 := hP.2
          simp only [remembers] at h2 ⊢
          rw [h2]
          split
          · rename_i hb
            have := seqPass_running_ne_nil _ _ _ (hb.2 ▸ hP.1)
            simp [stoppedAt, getLast?_cons_append _ _ this]
          · rfl
      · rename_i hsucc
        split
        · rename_i hrun
          subst hrun
          refine ⟨Or.inr ⟨i, [], [], Nat.le_refl _, by omega, rfl, calls_nil _ _, by simp, by simp,
            by simp⟩, ?_⟩
          cases b <;> simp [remembers, stoppedAt]
        · rename_i hrun
          apply postS_forAll
          · simp; omega
          · intro st' l _ _ h
            obtain ⟨c, hc, h⟩ := h
            exact ⟨c, List.mem_cons_of_mem _ hc, h⟩
          · intro st' l _ h2 _ _
            refine ⟨Or.inr ⟨i, [], l, Nat.le_refl _, by omega, by simp, calls_nil _ _, by simp,
              hsucc, ?_⟩, ?_⟩
            · simp only [hrun, if_false]
              rw [show i + 1 + len = n by omega] at h2
              exact h2
            · simp [remembers, hrun]

theorem postS_fbLoop (b : Bool) (m : Mem) (n : Nat) (len : Nat) : ∀ (i : Nat)
    (st : List BTState), st.length = n → i + len = n →
    (Prog.fbLoop b m (List.range' i len)).PostS (fun _ l m' r =>
      match r with
      | .ok s => FbPass i n l s ∧ remembers b m l s m'
      | .err => ∃ c ∈ l, c.res = .err) st := by
  induction len with
  | zero =>
    intro i st hl hn
    have : i = n := by omega
    subst this
    exact ⟨Or.inl ⟨rfl, calls_nil _ _, by simp⟩, by simp [remembers]⟩
  | succ len ih =>
    intro i st hl hn
    rw [List.range'_succ]
    refine ⟨by omega, fun r s' hs => ?_⟩
    cases r with
    | err => exact ⟨_, List.mem_singleton.2 rfl, rfl⟩
    | ok s =>
      obtain ⟨rfl, hal⟩ := hs s rfl
      simp only
      split
      · rename_i hrun
        subst hrun
        refine ⟨Or.inr ⟨i, [], [], Nat.le_refl _, by omega, rfl, calls_nil _ _, by simp, by simp⟩, ?_⟩
        cases b <;> simp [remembers, stoppedAt]
      · rename_i hrun
        split
        · rename_i hsucc
          subst hsucc
          apply postS_forAll
          · simp; omega
          · intro st' l _ _ h
            obtain ⟨c, hc, h⟩ := h
            exact ⟨c, List.mem_cons_of_mem _ hc, h⟩
          · intro st' l _ h2 _ _
            refine ⟨Or.inr ⟨i, [], l, Nat.le_refl _, by omega, by simp, calls_nil _ _, by simp,
              Or.inr ⟨rfl, ?_⟩⟩, ?_⟩
            · rw [show i + 1 + len = n by omega] at h2
              simpa using h2
            · simp [remembers]
        · rename_i hsucc
          apply postS_mono _ _ _ _ _ (ih (i + 1) (st.set i s') (by simpa using hl) (by omega))
          intro st' l m' r _ hP
          cases r with
          | err =>
            obtain ⟨c, hc, h⟩ := hP
            exact ⟨c, List.mem_cons_of_mem _ hc, h⟩
          | ok s =>
            refine ⟨fbPass_cons _ _ _ _ _ (by omega) ⟨hsucc, hrun⟩ hP.1, ?_⟩
            have h2 := hP.2
            simp only [remembers] at h2 ⊢
            rw [h2]
            split
            · rename_i hb
              have := fbPass_running_ne_nil _ _ _ (hb.2 ▸ hP.1)
              simp [stoppedAt, getLast?_cons_append _ _ this]
            · rfl

theorem drop_range (n k : Nat) : (List.range n).drop k = List.range' k (n - k) := by
  rw [List.range_eq_range', List.drop_range']
  simp

/-- One tick: resets if the previous pass was finished, then the pass. -/
def Tick (pass : Nat → Nat → List Call → BTState → Prop) (i n : Nat) (prev : BTState)
    (l : List Call) (s : BTState) : Prop :=
  ∃ l₀ l₁, l = l₀ ++ l₁ ∧ Resets (finished prev) n l₀ ∧ pass i n l₁ s

theorem stoppedAt_append (l₀ l₁ : List Call) (h : l₁ ≠ []) : stoppedAt (l₀ ++ l₁) = stoppedAt l₁ := by
  cases hl : l₁.getLast? with
  | none => exact absurd (List.getLast?_eq_none_iff.1 hl) h
  | some a => simp [stoppedAt, hl]

theorem remembers_append (b : Bool) (m : Mem) (l₀ l₁ : List Call) (s : BTState) (m' : Mem)
    (hne : s = .running → l₁ ≠ []) (h : remembers b m l₁ s m') : remembers b m (l₀ ++ l₁) s m' := by
  simp only [remembers] at h ⊢
  rw [h]
  split
  · rename_i hb
    rw [stoppedAt_append _ _ (hne hb.2)]
  · rfl

/-- The tick hook of the four classes. `b`: with memory; `i`: child to start with. -/
theorem postS_seqTick (b : Bool) (m : Mem) (st0 : BTState) (st : List BTState) (i n : Nat)
    (hl : st.length = n) (hi : i ≤ n) :
    (Prog.resetIfFinished n st0 m (Prog.seqLoop b m ((List.range n).drop i))).PostS
      (fun _ l m' r => match r with
        | .ok s => Tick SeqPass i n st0 l s ∧ remembers b m l s m'
        | .err => ∃ c ∈ l, c.res = .err) st := by
  apply postS_resetIfFinished _ _ _ _ _ _ hl
  · intro st' l h; exact h
  · intro st' l h1 h2 _ _
    rw [drop_range]
    apply postS_mono _ _ _ _ _ (postS_seqLoop b m n (n - i) i st' h1 (by omega))
    intro st'' l' m' r _ hP
    cases r with
    | err =>
      obtain ⟨c, hc, h⟩ := hP
      exact ⟨c, List.mem_append_right _ hc, h⟩
    | ok s =>
      exact ⟨⟨l, l', rfl, h2, hP.1⟩, remembers_append _ _ _ _ _ _
        (fun h => seqPass_running_ne_nil _ _ _ (h ▸ hP.1)) hP.2⟩

theorem postS_fbTick (b : Bool) (m : Mem) (st0 : BTState) (st : List BTState) (i n : Nat)
    (hl : st.length = n) (hi : i ≤ n) :
    (Prog.resetIfFinished n st0 m (Prog.fbLoop b m ((List.range n).drop i))).PostS
      (fun _ l m' r => match r with
        | .ok s => Tick FbPass i n st0 l s ∧ remembers b m l s m'
        | .err => ∃ c ∈ l, c.res = .err) st := by
  apply postS_resetIfFinished _ _ _ _ _ _ hl
  · intro st' l h; exact h
  · intro st' l h1 h2 _ _
    rw [drop_range]
    apply postS_mono _ _ _ _ _ (postS_fbLoop b m n (n - i) i st' h1 (by omega))
    intro st'' l' m' r _ hP
    cases r with
    | err =>
      obtain ⟨c, hc, h⟩ := hP
      exact ⟨c, List.mem_append_right _ hc, h⟩
    | ok s =>
      exact ⟨⟨l, l', rfl, h2, hP.1⟩, remembers_append _ _ _ _ _ _
        (fun h => fbPass_running_ne_nil _ _ _ (h ▸ hP.1)) hP.2⟩

theorem resets_zero (b : Bool) : Resets b 0 [] := by
  cases b
  · rfl
  · exact calls_nil _ _

/-- An accepted tick whose hook cannot end in an error of its own. -/
theorem run_tick_err (o : Ops N) (hs : Sound o) (nd : Node N) (P : PostCond)
    (hp : (hookProg nd.kind .tick nd.state nd.mem (nd.env nd.ctr) (nd.children.map o.name)).PostS
      P (nd.children.map o.state))
    (hP : ∀ st l m, P st l m .err → ∃ c ∈ l, c.res = .err)
    (hk : nd.kind ≠ .leaf) (hm : CacheOk nd.mem)
    (hacc : accepts .tick nd.state = true) (hin : (nd.env nd.ctr).inputsOk = true)
    (hpush : (nd.env nd.ctr).pushOk = true)
    (h : (nd.run o .tick).res = .err) : ∃ c ∈ (nd.run o .tick).log, c.res = .err := by
  have hx := exec_postS o hs _ _ _ hp
  have hg := hook_good o hs .tick nd hk hm (nd.env nd.ctr)
  revert h
  apply run_cases o .tick nd (P := fun out => out.res = .err → ∃ c ∈ out.log, c.res = .err)
  · intro h; simp [hacc] at h
  · intro _ _ h; simp [hin] at h
  · intro x hxe _ _ hr _
    rcases hr with hr | ⟨s, _, _, _, hr⟩
    · rw [← hxe, hr] at hx
      exact hP _ _ _ hx
    · simp [hpush] at hr
  · intro x s hxe _ _ hr hal _
    have := hg.2 s (by rw [← hxe]; exact hr)
    simp [hal] at this
  · intro x s _ _ _ _ _ _ h; simp [Node.wrap] at h
  · intro h; cases h
  · intro x h; cases h

/-- Children of the root. -/
def rootChildren (n : Nat) (t : Tree (n + 1)) : List (Tree n) := Node.children (N := Tree n) t

/-! ### C11, C12 -/

theorem sequence_post (o : Ops N) (nd : Node N) (hk : nd.kind = .sequence) :
    (hookProg nd.kind .tick nd.state nd.mem (nd.env nd.ctr) (nd.children.map o.name)).PostS
      (fun _ l _ r => match r with
        | .ok s => Tick SeqPass 0 nd.children.length nd.state l s
        | .err => ∃ c ∈ l, c.res = .err) (nd.children.map o.state) := by
  rw [hk]
  simp only [hookProg, tickHook, List.length_map]
  split
  · rename_i h0
    exact ⟨[], [], rfl, by rw [h0]; exact resets_zero _,
      Or.inl ⟨rfl, by rw [h0]; exact calls_nil _ _, by simp⟩⟩
  · apply postS_mono _ _ _ _ _ (postS_seqTick false nd.mem nd.state (nd.children.map o.state) 0
      nd.children.length (by simp) (by omega))
    intro st' l m' r _ hP
    cases r with
    | err => exact hP
    | ok s => exact hP.1

theorem fallback_post (o : Ops N) (nd : Node N) (hk : nd.kind = .fallback) :
    (hookProg nd.kind .tick nd.state nd.mem (nd.env nd.ctr) (nd.children.map o.name)).PostS
      (fun _ l _ r => match r with
        | .ok s => Tick FbPass 0 nd.children.length nd.state l s
        | .err => ∃ c ∈ l, c.res = .err) (nd.children.map o.state) := by
  rw [hk]
  simp only [hookProg, tickHook, List.length_map]
  split
  · rename_i h0
    exact ⟨[], [], rfl, by rw [h0]; exact resets_zero _,
      Or.inl ⟨rfl, by rw [h0]; exact calls_nil _ _, by simp⟩⟩
  · apply postS_mono _ _ _ _ _ (postS_fbTick false nd.mem nd.state (nd.children.map o.state) 0
      nd.children.length (by simp) (by omega))
    intro st' l m' r _ hP
    cases r with
    | err => exact hP
    | ok s => exact hP.1

/-- **C11.** A tick of a Sequence (anywhere, over any children) that answers `Ok(s)` performs one
complete `SeqPass` from the first child on, after resetting all children if the
previous tick had finished. -/
theorem c11_sequence (n : Nat) (t : Tree (n + 1)) (hk : rootKind n t = .sequence) (s : BTState)
    (h : ((ops (n + 1)).run .tick t).res = .ok s) :
    Tick SeqPass 0 (rootChildren n t).length ((ops (n + 1)).state t)
      ((ops (n + 1)).run .tick t).log s :=
  (run_ok_post (ops n) (ops_sound n) .tick (by simp) t s _ (sequence_post (ops n) t hk) h).1

/-- **C11, errors.** A Sequence with its inputs and outputs in order answers `Err` only if one of its
children does. -/
theorem c11_sequence_error (n : Nat) (t : Tree (n + 1)) (hk : rootKind n t = .sequence)
    (hc : Caches (n + 1) t) (ha : Allowed .tick ((ops (n + 1)).state t))
    (hin : (nextEnv n t).inputsOk = true) (hpush : (nextEnv n t).pushOk = true)
    (h : ((ops (n + 1)).run .tick t).res = .err) :
    ∃ c ∈ ((ops (n + 1)).run .tick t).log, c.res = .err :=
  run_tick_err (ops n) (ops_sound n) t _ (sequence_post (ops n) t hk) (fun _ _ _ h => h)
    (fun h => by rw [show Node.kind (N := Tree n) t = .sequence from hk] at h; cases h)
    hc.1 ((accepts_iff _ _).2 ha) hin hpush h

/-- **C12.** A tick of a Fallback that answers `Ok(s)` performs one complete `FbPass` from the first
child on, after resetting all children if the previous tick had finished. -/
theorem c12_fallback (n : Nat) (t : Tree (n + 1)) (hk : rootKind n t = .fallback) (s : BTState)
    (h : ((ops (n + 1)).run .tick t).res = .ok s) :
    Tick FbPass 0 (rootChildren n t).length ((ops (n + 1)).state t)
      ((ops (n + 1)).run .tick t).log s :=
  (run_ok_post (ops n) (ops_sound n) .tick (by simp) t s _ (fallback_post (ops n) t hk) h).1

/-- **C12, errors.** As for Sequence. -/
theorem c12_fallback_error (n : Nat) (t : Tree (n + 1)) (hk : rootKind n t = .fallback)
    (hc : Caches (n + 1) t) (ha : Allowed .tick ((ops (n + 1)).state t))
    (hin : (nextEnv n t).inputsOk = true) (hpush : (nextEnv n t).pushOk = true)
    (h : ((ops (n + 1)).run .tick t).res = .err) :
    ∃ c ∈ ((ops (n + 1)).run .tick t).log, c.res = .err :=
  run_tick_err (ops n) (ops_sound n) t _ (fallback_post (ops n) t hk) (fun _ _ _ h => h)
    (fun h => by rw [show Node.kind (N := Tree n) t = .fallback from hk] at h; cases h)
    hc.1 ((accepts_iff _ _).2 ha) hin hpush h

/-! ### C13, C14 -/

/-- What happened: operation, answer and calls to the children. -/
def events {N : Type} (o : Ops N) (l : List Op) (t : N) : List (Op × Res × List Call) :=
  (l.zip (runs o l t).1).map fun p => (p.1, p.2.res, p.2.log)

/-- Every operation of the history has answered `Ok`. -/
def AllOk {N : Type} (o : Ops N) (l : List Op) (t : N) : Prop :=
  ∀ out ∈ (runs o l t).1, out.res.isOk = true

/-- Specification: how one operation changes the child with which the next pass starts. A tick that
is RUNNING stores the child it stopped at, a finished tick clears the memory, so do setup, reset and
shutdown; `keep` says whether an untick keeps it (ASSIGNED and UNASSIGNED change nothing). -/
def resumeStep (keep : Bool) (r : Nat) : Op × Res × List Call → Nat
  | (.tick, .ok .running, l) => stoppedAt l
  | (.tick, .ok .succeeded, _) => 0
  | (.tick, .ok .failed, _) => 0
  | (.tick, _, _) => r
  | (.untick, _, _) => if keep then r else 0
  | _ => 0

/-- Specification: with which child the next pass starts, given what happened since creation
(oldest first). -/
def resumeAt (keep : Bool) (h : List (Op × Res × List Call)) : Nat := h.foldl (resumeStep keep) 0

/-- Specification: no untick directly follows a tick that has finished (`fin`: the last operation
was such a tick). -/
def noLateUntick : Bool → List (Op × Res × List Call) → Bool
  | _, [] => true
  | _, (.tick, .ok s, _) :: h => noLateUntick (finished s) h
  | fin, (.untick, _, _) :: h => !fin && noLateUntick false h
  | _, _ :: h => noLateUntick false h

/-- The class with memory: MemoryFallback keeps the memory on untick. -/
def memKind (keep : Bool) : Kind := if keep then .memFallback else .memSequence

/-- Its pass. -/
def memPass (keep : Bool) : Nat → Nat → List Call → BTState → Prop := if keep then FbPass else SeqPass

/-- The memory agrees with the history. -/
structure Remembers (keep : Bool) (f : Bool) (r : Nat) (nd : Node N) : Prop where
  kind : nd.kind = memKind keep
  fin : finished nd.state = f
  done : f = true → r = 0
  mem : f = false → nd.mem.lastRunning = r
  bound : r ≤ nd.children.length
  down : nd.state = .shutdown → nd.mem.lastRunning = 0

theorem seqPass_stopped (i n : Nat) (l : List Call) (h : SeqPass i n l .running) :
    stoppedAt l < n := by
  rcases h with ⟨h1, _⟩ | ⟨j, pre, post, _, h2, h3, _, _, _, h7⟩
  · cases h1
  · have : post = [] := by simpa using h7
    subst this h3
    simpa [stoppedAt] using h2

theorem fbPass_stopped (i n : Nat) (l : List Call) (h : FbPass i n l .running) :
    stoppedAt l < n := by
  rcases h with ⟨h1, _⟩ | ⟨j, pre, post, _, h2, h3, _, _, h7⟩
  · cases h1
  · rcases h7 with ⟨_, rfl⟩ | ⟨h7, _⟩
    · subst h3
      simpa [stoppedAt] using h2
    · cases h7

theorem memPass_stopped (keep : Bool) (i n : Nat) (prev : BTState) (l : List Call)
    (h : Tick (memPass keep) i n prev l .running) : stoppedAt l < n := by
  obtain ⟨l₀, l₁, rfl, _, h⟩ := h
  cases keep with
  | false =>
    have h' : SeqPass i n l₁ .running := h
    rw [stoppedAt_append _ _ (seqPass_running_ne_nil _ _ _ h')]
    exact seqPass_stopped _ _ _ h'
  | true =>
    have h' : FbPass i n l₁ .running := h
    rw [stoppedAt_append _ _ (fbPass_running_ne_nil _ _ _ h')]
    exact fbPass_stopped _ _ _ h'

/-- A tick of a node with memory. -/
theorem mem_post (keep : Bool) (r : Nat) (o : Ops N) (nd : Node N)
    (h : Remembers keep (finished nd.state) r nd) :
    (hookProg nd.kind .tick nd.state nd.mem (nd.env nd.ctr) (nd.children.map o.name)).PostS
      (fun _ l m' res => match res with
        | .ok s => Tick (memPass keep) r nd.children.length nd.state l s ∧
            (s = .running → m'.lastRunning = stoppedAt l) ∧
            (s ≠ .running → finished s = false → m'.lastRunning = r)
        | .err => ∃ c ∈ l, c.res = .err) (nd.children.map o.state) := by
  have hr : (if nd.state = .succeeded ∨ nd.state = .failed then
      { nd.mem with lastRunning := 0 } else nd.mem).lastRunning = r := by
    split
    · rename_i hf
      have : finished nd.state = true := by simpa [finished] using hf
      exact (h.done this).symm
    · rename_i hf
      have : finished nd.state = false := by simpa [finished] using hf
      exact h.mem this
  rw [h.kind]
  cases keep with
  | false =>
    simp only [memKind, Bool.false_eq_true, if_false, hookProg, tickHook, List.length_map]
    split
    · rename_i h0
      have hr0 : r = 0 := by have := h.bound; omega
      exact ⟨⟨[], [], rfl, by rw [h0]; exact resets_zero _,
        Or.inl ⟨rfl, by rw [h0, hr0]; exact calls_nil _ _, by simp⟩⟩, by simp, by simp [finished]⟩
    · generalize (if nd.state = .succeeded ∨ nd.state = .failed then
        { nd.mem with lastRunning := 0 } else nd.mem) = m' at hr
      rw [hr]
      apply postS_mono _ _ _ _ _ (postS_seqTick true m' nd.state (nd.children.map o.state) r
        nd.children.length (by simp) h.bound)
      intro st' l m'' res _ hP
      cases res with
      | err => exact hP
      | ok s =>
        refine ⟨hP.1, fun hs => ?_, fun hs _ => ?_⟩
        · have := hP.2
          simpa [remembers, hs] using this
        · have := hP.2
          simpa [remembers, hs, hr] using this
  | true =>
    simp only [memKind, if_true, hookProg, tickHook, List.length_map]
    split
    · rename_i h0
      have hr0 : r = 0 := by have := h.bound; omega
      exact ⟨⟨[], [], rfl, by rw [h0]; exact resets_zero _,
        Or.inl ⟨rfl, by rw [h0, hr0]; exact calls_nil _ _, by simp⟩⟩, by simp, by simp [finished]⟩
    · generalize (if nd.state = .succeeded ∨ nd.state = .failed then
        { nd.mem with lastRunning := 0 } else nd.mem) = m' at hr
      rw [hr]
      apply postS_mono _ _ _ _ _ (postS_fbTick true m' nd.state (nd.children.map o.state) r
        nd.children.length (by simp) h.bound)
      intro st' l m'' res _ hP
      cases res with
      | err => exact hP
      | ok s =>
        refine ⟨hP.1, fun hs => ?_, fun hs _ => ?_⟩
        · have := hP.2
          simpa [remembers, hs] using this
        · have := hP.2
          simpa [remembers, hs, hr] using this

/-- `PostS` of a loop over all children that leaves the attributes alone. -/
theorem postS_allThen_mem (op : Op) (m : Mem) (s : BTState) (n : Nat) (st : List BTState)
    (hl : st.length = n) :
    (Prog.allThen n op m s).PostS (fun _ _ m' _ => m' = m) st := by
  unfold Prog.allThen
  rw [List.range_eq_range']
  apply postS_forAll
  · omega
  · intros; rfl
  · intros; rfl

theorem finishShutdown_mem (o : Ops N) (nd : Node N) (l t) :
    (nd.finishShutdown o l t).node.mem = nd.mem ∧ (nd.finishShutdown o l t).node.state = nd.state := by
  simp only [Node.finishShutdown]
  split <;> simp [Node.wrap]

/-- One operation keeps memory and history in agreement. -/
theorem remembers_run (keep : Bool) (o : Ops N) (hs : Sound o) (op : Op) (fin : Bool) (r : Nat)
    (nd : Node N) (h : Remembers keep fin r nd) (hok : (nd.run o op).res.isOk = true)
    (hlate : keep = true → op = .untick → fin = false) :
    Remembers keep (if op = .tick then finished (nd.run o op).node.state else false)
      (resumeStep keep r (op, (nd.run o op).res, (nd.run o op).log)) (nd.run o op).node := by
  obtain ⟨_, _, hkind, _, _, hlen⟩ := run_static o op nd
  have hkind' := hkind.trans h.kind
  by_cases hsd : op = .shutdown
  · subst hsd
    have key : (nd.run o .shutdown).node.mem.lastRunning = 0 ∧
        (nd.run o .shutdown).node.state = .shutdown := by
      revert hok
      apply run_cases o .shutdown nd (P := fun out => out.res.isOk = true →
        out.node.mem.lastRunning = 0 ∧ out.node.state = .shutdown)
      · intro h; simp [accepts] at h
      · intro h; cases h
      · intro x _ _ _ _ h; simp [Node.wrap] at h
      · intro x s _ _ _ _ _ h; simp [Node.wrap] at h
      · intro x s h; exact absurd rfl h
      · intro _ hst _
        obtain ⟨h1, h2⟩ := finishShutdown_mem o { nd with ctr := nd.ctr + 1 } [] []
        exact ⟨by rw [h1]; exact h.down hst, by rw [h2]; exact hst⟩
      · intro x _ hx _ _ _
        obtain ⟨h1, h2⟩ := finishShutdown_mem o { nd with
          ctr := nd.ctr + 1, mem := x.mem, children := x.children, state := .shutdown } x.log
          (.hook .shutdown nd.id :: x.trace)
        refine ⟨?_, h2⟩
        rw [h1, hx, h.kind]
        cases keep <;> rfl
    refine ⟨hkind', ?_, ?_, ?_, ?_, ?_⟩
    · rw [key.2]; rfl
    · simp
    · intro _; rw [key.1]; rfl
    · simp [resumeStep]
    · intro _; exact key.1
  · obtain ⟨s, hres⟩ : ∃ s, (nd.run o op).res = .ok s := by
      cases hr : (nd.run o op).res with
      | err => rw [hr] at hok; simp at hok
      | ok s => exact ⟨s, rfl⟩
    have hdoc := node_sound o op nd s hres
    cases op with
    | shutdown => exact absurd rfl hsd
    | tick =>
      have hfin : finished nd.state = fin := h.fin
      obtain ⟨hP, hst, _⟩ := run_ok_post o hs .tick (by simp) nd s _
        (mem_post keep r o nd (hfin ▸ h)) hres
      have hns : s ≠ .shutdown := by
        intro hs; rw [hs] at hdoc; have := hdoc.2; simp [allowedAfter] at this
      simp only [if_true]
      refine ⟨hkind', rfl, ?_, ?_, ?_, ?_⟩
      · rw [hst, hres]
        intro hf
        cases s <;> simp [finished] at hf <;> rfl
      · rw [hst, hres]
        intro hf
        by_cases hrun : s = .running
        · subst hrun
          exact hP.2.1 rfl
        · have := hP.2.2 hrun hf
          rw [this]
          cases s <;> simp [finished] at hf hrun <;> rfl
      · rw [hres, hlen]
        by_cases hrun : s = .running
        · subst hrun
          exact Nat.le_of_lt (memPass_stopped _ _ _ _ _ hP.1)
        · have := h.bound
          cases s <;> simp_all [resumeStep]
      · rw [hst]; intro h; exact absurd h hns
    | setup | reset =>
      have hm : (nd.run o _).node.mem.lastRunning = 0 := (run_ok_post o hs _ (by simp) nd s
        (fun _ _ m' r => r.isOk = true → m'.lastRunning = 0) (by
          rw [h.kind]
          cases keep <;>
          · simp only [memKind, hookProg, setupHook, resetHook, if_true, Bool.false_eq_true,
              if_false]
            apply postS_mono _ _ _ _ _ (postS_allThen_mem _ _ _ _ _ (by simp))
            intro _ _ m' _ _ hm _
            rw [hm]) hres).1 rfl
      have hst := hdoc.1
      have hdoc2 := hdoc.2
      have hid : s = .idle := by simpa [allowedAfter] using hdoc2
      have hst' : (nd.run o _).node.state = .idle := hst.trans hid
      refine ⟨hkind', ?_, ?_, ?_, ?_, ?_⟩
      · rw [hst']; rfl
      · simp
      · intro _; rw [hm]; rfl
      · simp [resumeStep]
      · intro _; exact hm
    | untick =>
      have hm : (nd.run o .untick).node.mem.lastRunning =
          (if keep then nd.mem.lastRunning else 0) := (run_ok_post o hs .untick (by simp) nd s
        (fun _ _ m' r => m'.lastRunning = if keep then nd.mem.lastRunning else 0) (by
          rw [h.kind]
          cases keep <;>
          · simp only [memKind, hookProg, untickHook, if_true, Bool.false_eq_true, if_false]
            apply postS_mono _ _ _ _ _ (postS_allThen_mem _ _ _ _ _ (by simp))
            intro _ _ m' _ _ hm
            rw [hm]) hres).1
      have hst : (nd.run o .untick).node.state = s := hdoc.1
      have hdoc2 : s = .idle ∨ s = .paused := by simpa [allowedAfter] using hdoc.2
      refine ⟨hkind', ?_, ?_, ?_, ?_, ?_⟩
      · rw [hst]; rcases hdoc2 with rfl | rfl <;> rfl
      · simp
      · intro _
        rw [hm]
        cases keep with
        | false => rfl
        | true => exact h.mem (hlate rfl rfl)
      · rw [hlen]
        have := h.bound
        cases keep <;> simp [resumeStep]
        exact this
      · rw [hst]; intro h; rcases hdoc2 with rfl | rfl <;> cases h

theorem remembers_runs (keep : Bool) (o : Ops N) (hs : Sound o) (l : List Op) : ∀ (fin : Bool) (r : Nat)
    (nd : Node N), Remembers keep fin r nd → AllOk (Node.ops o) l nd →
    (keep = true → noLateUntick fin (events (Node.ops o) l nd) = true) →
    ∃ fin', Remembers keep fin' ((events (Node.ops o) l nd).foldl (resumeStep keep) r)
      (runs (Node.ops o) l nd).2 := by
  induction l with
  | nil => intro fin r nd h _ _; exact ⟨fin, h⟩
  | cons op l ih =>
    intro fin r nd h hok hlate
    have hok1 : (nd.run o op).res.isOk = true := hok _ (by simp [runs, Node.ops])
    have hstep := remembers_run keep o hs op fin r nd h hok1 (by
      intro hk hop
      subst hop
      have := hlate hk
      simp only [events, runs, List.zip_cons_cons, List.map_cons, noLateUntick, Bool.and_eq_true,
        Bool.not_eq_true'] at this
      exact this.1)
    have hst : ∀ s, (nd.run o op).res = .ok s → (nd.run o op).node.state = s :=
      fun s h => (node_sound o op nd s h).1
    have := ih _ _ _ hstep (fun out ho => hok out (by
      simp only [runs, List.mem_cons]; exact Or.inr ho)) (by
      intro hk
      have := hlate hk
      simp only [events, runs, List.zip_cons_cons, List.map_cons, Node.ops] at this
      cases hr : (nd.run o op).res with
      | err => rw [hr] at hok1; simp at hok1
      | ok s =>
        rw [hr] at this
        cases op <;> simp only [noLateUntick, Bool.and_eq_true] at this <;>
          simp only [reduceCtorEq, if_false, if_true]
        · exact this
        · rw [hst s hr]; exact this
        · exact this.2
        · exact this
        · exact this)
    exact this

theorem remembers_fresh (keep : Bool) (nd : Node N) (hk : nd.kind = memKind keep)
    (hst : nd.state = .uninitialized) (hm : nd.mem = {}) : Remembers keep false 0 nd :=
  ⟨hk, by rw [hst]; rfl, by simp, by simp [hm], by simp, by simp [hm]⟩

/-- **C13.** Take a freshly created MemorySequence over any children and any history of successful
operations on it. A following tick that answers `Ok(s)` performs one `SeqPass` starting with exactly
the child that `resumeAt` computes from the history: the child on which the last tick stopped RUNNING,
or the first child if an untick, reset, shutdown or a finished tick came in between. -/
theorem c13_memory_sequence (n : Nat) (t : Tree (n + 1)) (hk : rootKind n t = .memSequence)
    (hf : Fresh (n + 1) t) (history : List Op) (hok : AllOk (ops (n + 1)) history t) (s : BTState)
    (h : ((ops (n + 1)).run .tick (runs (ops (n + 1)) history t).2).res = .ok s) :
    Tick SeqPass (resumeAt false (events (ops (n + 1)) history t))
      (rootChildren n (runs (ops (n + 1)) history t).2).length
      ((ops (n + 1)).state (runs (ops (n + 1)) history t).2)
      ((ops (n + 1)).run .tick (runs (ops (n + 1)) history t).2).log s := by
  obtain ⟨fin, hr⟩ := remembers_runs false (ops n) (ops_sound n) history false 0 t
    (remembers_fresh false t hk hf.1.1 hf.1.2) hok (by simp)
  have hfin := hr.fin
  subst hfin
  exact (run_ok_post (ops n) (ops_sound n) .tick (by simp) _ s _
    (mem_post false _ (ops n) _ hr) h).1.1

/-- **C14 (partial).** As for MemorySequence, with `FbPass` and with the memory kept on untick.
Missing for the full statement: histories in which an untick directly follows a finished tick; there
the code forgets to clear the memory, see `c14_stale_memory`. -/
theorem c14_memory_fallback_partial (n : Nat) (t : Tree (n + 1))
    (hk : rootKind n t = .memFallback)
    (hf : Fresh (n + 1) t) (history : List Op) (hok : AllOk (ops (n + 1)) history t)
    (hlate : noLateUntick false (events (ops (n + 1)) history t) = true) (s : BTState)
    (h : ((ops (n + 1)).run .tick (runs (ops (n + 1)) history t).2).res = .ok s) :
    Tick FbPass (resumeAt true (events (ops (n + 1)) history t))
      (rootChildren n (runs (ops (n + 1)) history t).2).length
      ((ops (n + 1)).state (runs (ops (n + 1)) history t).2)
      ((ops (n + 1)).run .tick (runs (ops (n + 1)) history t).2).log s := by
  obtain ⟨fin, hr⟩ := remembers_runs true (ops n) (ops_sound n) history false 0 t
    (remembers_fresh true t hk hf.1.1 hf.1.2) hok (fun _ => hlate)
  have hfin := hr.fin
  subst hfin
  exact (run_ok_post (ops n) (ops_sound n) .tick (by simp) _ s _
    (mem_post true _ (ops n) _ hr) h).1.1

/-! ### Non-vacuity and the violation of C14 -/

/-- Three leaves under the given class. The second one is RUNNING first and then succeeds. -/
def sampleMem (k : Kind) (first : BTState) : Tree 2 :=
  mk 1 1 k [mkLeaf 0 2 [.ok .idle, .ok first, .ok .idle, .ok first],
            mkLeaf 0 3 [.ok .idle, .ok .running, .ok .succeeded, .ok .idle, .ok .failed],
            mkLeaf 0 4 [.ok .idle, .ok .idle, .ok .idle, .ok .idle, .ok .idle]]

instance (n : Nat) (l : List Op) (t : Tree n) : Decidable (AllOk (ops n) l t) :=
  inferInstanceAs (Decidable (∀ _ ∈ _, _))

example : rootKind 1 (sampleMem .memSequence .succeeded) = .memSequence ∧
    Fresh 2 (sampleMem .memSequence .succeeded) ∧
    AllOk (ops 2) [.setup, .tick] (sampleMem .memSequence .succeeded) ∧
    resumeAt false (events (ops 2) [.setup, .tick] (sampleMem .memSequence .succeeded)) = 1 := by
  decide

example : rootKind 1 (sampleMem .memFallback .failed) = .memFallback ∧
    Fresh 2 (sampleMem .memFallback .failed) ∧
    AllOk (ops 2) [.setup, .tick] (sampleMem .memFallback .failed) ∧
    noLateUntick false (events (ops 2) [.setup, .tick] (sampleMem .memFallback .failed)) = true ∧
    resumeAt true (events (ops 2) [.setup, .tick] (sampleMem .memFallback .failed)) = 1 ∧
    ((ops 2).run .tick (runs (ops 2) [.setup, .tick] (sampleMem .memFallback .failed)).2).res
      = .ok .succeeded := by
  decide

example : ((ops 2).run .tick (runs (ops 2) [.setup] (sampleMem .sequence .succeeded)).2).log =
    [⟨.tick, 0, .ok .succeeded⟩, ⟨.tick, 1, .ok .running⟩] := by decide

example : ((ops 2).run .tick (runs (ops 2) [.setup] (sampleMem .fallback .failed)).2).log =
    [⟨.tick, 0, .ok .failed⟩, ⟨.tick, 1, .ok .running⟩] := by decide

/-- **C14 is violated.** A MemoryFallback is ticked until it succeeds (with its second child), is
unticked (what TICK_UNTIL_RESULT does after the result) and ticked again: the first child is skipped.
`_do_untick` does not clear `last_running_child` (`fallback.py:302-309`) and the state that would make
`_do_tick` clear it (268-269) is gone. -/
theorem c14_stale_memory :
    ∃ (t : Tree 2) (history : List Op), rootKind 1 t = .memFallback ∧ Fresh 2 t ∧
      AllOk (ops 2) history t ∧
      (events (ops 2) history t).map (fun e => (e.1, e.2.1)) =
        [(.setup, .ok .idle), (.tick, .ok .running), (.tick, .ok .succeeded), (.untick, .ok .idle)] ∧
      ((ops 2).run .tick (runs (ops 2) history t).2).log.head? = some ⟨.tick, 1, .ok .succeeded⟩ :=
  ⟨mk 1 1 .memFallback
      [mkLeaf 0 2 [.ok .idle, .ok .failed, .ok .idle],
       mkLeaf 0 3 [.ok .idle, .ok .running, .ok .succeeded, .ok .idle, .ok .succeeded]],
    [.setup, .tick, .tick, .untick], by decide⟩

end Verif.BT
