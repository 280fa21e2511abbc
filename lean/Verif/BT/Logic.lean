import Verif.BT.Struct
import Verif.BT.Lifecycle

/-!
# A program logic for hook bodies

`Prog.PostS P p st` says: whatever the children answer (within what `Sound` allows), running the
hook body `p` over children in states `st` ends with child states, calls, attributes and result
satisfying `P`.
-/

set_option autoImplicit false

namespace Verif.BT

variable {N : Type}

/-- Postconditions: child states, calls made, attributes, result. -/
abbrev PostCond := List BTState → List Call → Mem → Res → Prop

/-- Weakest precondition of a hook body over children in the given states. -/
def Prog.PostS : Prog → PostCond → List BTState → Prop
  | .done m r, P, st => P st [] m r
  | .call op i k, P, st => i < st.length ∧ ∀ r s',
      (∀ s, r = .ok s → s' = s ∧ allowedAfter op s = true) →
      (k r).PostS (fun st' l m r' => P st' (⟨op, i, r⟩ :: l) m r') (st.set i s')
  | .peek i k, P, st => ∃ h : i < st.length, (k st[i]).PostS P st

theorem postS_mono (p : Prog) : ∀ (P Q : PostCond) (st : List BTState),
    (∀ st' l m r, st'.length = st.length → P st' l m r → Q st' l m r) →
    p.PostS P st → p.PostS Q st := by
  induction p with
  | done m r => intro P Q st h hp; exact h _ _ _ _ rfl hp
  | call op i k ih =>
    intro P Q st h hp
    refine ⟨hp.1, fun r s' hs => ih r _ _ _ ?_ (hp.2 r s' hs)⟩
    intro st' l m r' hl hP
    exact h _ _ _ _ (by simpa using hl) hP
  | peek i k ih =>
    intro P Q st h hp
    obtain ⟨hi, hp⟩ := hp
    exact ⟨hi, ih _ _ _ _ h hp⟩

theorem postS_and (p : Prog) : ∀ (P Q : PostCond) (st : List BTState),
    p.PostS P st → p.PostS Q st → p.PostS (fun s l m r => P s l m r ∧ Q s l m r) st := by
  induction p with
  | done m r => intro P Q st h1 h2; exact ⟨h1, h2⟩
  | call op i k ih =>
    intro P Q st h1 h2
    exact ⟨h1.1, fun r s' hs => ih r _ _ _ (h1.2 r s' hs) (h2.2 r s' hs)⟩
  | peek i k ih =>
    intro P Q st h1 h2
    obtain ⟨hi, h1⟩ := h1
    obtain ⟨_, h2⟩ := h2
    exact ⟨hi, ih _ _ _ _ h1 h2⟩

theorem exec_postS (o : Ops N) (hs : Sound o) (p : Prog) : ∀ (P : PostCond) (cs : List N),
    p.PostS P (cs.map o.state) →
    P ((exec o p cs).children.map o.state) (exec o p cs).log (exec o p cs).mem
      (exec o p cs).res := by
  induction p with
  | done m r => intro P cs h; exact h
  | call op i k ih =>
    intro P cs h
    obtain ⟨hi, h⟩ := h
    simp only [List.length_map] at hi
    have hc : cs[i]? = some cs[i] := List.getElem?_eq_getElem hi
    simp only [exec, hc]
    have := ih (o.run op cs[i]).res _ (cs.set i (o.run op cs[i]).node) (by
      have h' := h (o.run op cs[i]).res (o.state (o.run op cs[i]).node) (hs op cs[i])
      rw [List.map_set]
      exact h')
    exact this
  | peek i k ih =>
    intro P cs h
    obtain ⟨hi, h⟩ := h
    have hi' : i < cs.length := by simpa using hi
    have hc : cs[i]? = some cs[i] := List.getElem?_eq_getElem hi'
    simp only [exec, hc]
    apply ih
    simpa using h

/-- An operation other than shutdown that answers `Ok` has run the hook and stored everything. -/
theorem run_ok (o : Ops N) (op : Op) (hop : op ≠ .shutdown) (nd : Node N) (s : BTState)
    (h : (nd.run o op).res = .ok s) : ∃ x, x = exec o (hookProg nd.kind op nd.state nd.mem
      (nd.env nd.ctr) (nd.children.map o.name)) nd.children ∧ x.res = .ok s ∧
      (nd.run o op).node = { nd with
        ctr := nd.ctr + 1, mem := x.mem, children := x.children, state := s } ∧
      (nd.run o op).log = x.log ∧ accepts op nd.state = true := by
  revert h
  apply run_cases o op nd (P := fun out => out.res = .ok s → ∃ x, x = exec o (hookProg nd.kind op
    nd.state nd.mem (nd.env nd.ctr) (nd.children.map o.name)) nd.children ∧ x.res = .ok s ∧
    out.node = { nd with
      ctr := nd.ctr + 1, mem := x.mem, children := x.children, state := s } ∧
    out.log = x.log ∧ accepts op nd.state = true)
  · intro _ h; simp [Node.wrap] at h
  · intro _ _ _ h; simp [Node.wrap] at h
  · intro x _ _ _ _ h; simp [Node.wrap] at h
  · intro x s _ _ _ _ _ h; simp [Node.wrap] at h
  · intro x s' _ hx ha _ hr _ h
    simp only [Node.wrap, Res.ok.injEq] at h
    subst h
    exact ⟨x, hx, hr, rfl, rfl, ha⟩
  · intro h; exact absurd h hop
  · intro x h; exact absurd h hop

/-- Same for a hook verified with `PostS`. -/
theorem run_ok_post (o : Ops N) (hs : Sound o) (op : Op) (hop : op ≠ .shutdown) (nd : Node N)
    (s : BTState) (P : PostCond)
    (hp : (hookProg nd.kind op nd.state nd.mem (nd.env nd.ctr) (nd.children.map o.name)).PostS P
      (nd.children.map o.state))
    (h : (nd.run o op).res = .ok s) :
    P ((nd.run o op).node.children.map o.state) (nd.run o op).log (nd.run o op).node.mem (.ok s) ∧
    (nd.run o op).node.state = s ∧ accepts op nd.state = true := by
  obtain ⟨x, hx, hr, hn, hl, ha⟩ := run_ok o op hop nd s h
  have := exec_postS o hs _ _ _ hp
  rw [← hx, hr] at this
  rw [hn, hl]
  exact ⟨this, rfl, ha⟩

section Loops

/-- Specification: `op` is called on the children `i, ..., n-1` in this order and every answer
is `Ok`. -/
def Calls (op : Op) (i n : Nat) (l : List Call) : Prop :=
  l.map (fun c => (c.op, c.child)) = (List.range' i (n - i)).map (fun j => (op, j)) ∧
  ∀ c ∈ l, c.res.isOk = true

theorem calls_nil (op : Op) (n : Nat) : Calls op n n [] := by simp [Calls]

theorem calls_cons (op : Op) (i n : Nat) (s : BTState) (l : List Call) (h : i < n)
    (hl : Calls op (i + 1) n l) : Calls op i n (⟨op, i, .ok s⟩ :: l) := by
  obtain ⟨h1, h2⟩ := hl
  refine ⟨?_, ?_⟩
  · have : n - i = (n - (i + 1)) + 1 := by omega
    rw [this, List.range'_succ]
    simp [h1]
  · intro c hc
    rcases List.mem_cons.1 hc with rfl | hc
    · rfl
    · exact h2 c hc

/-- The loop `for child in children[i:]: op; on error return`. -/
theorem postS_forAll (op : Op) (m : Mem) (k : Prog) (len : Nat) : ∀ (i : Nat) (P : PostCond)
    (st : List BTState), st.length = i + len →
    (∀ st' l, st'.length = st.length →
      (∀ j, j < i → st'[j]? = st[j]?) →
      (∃ c ∈ l, c.res = .err) → P st' l m .err) →
    (∀ st' l, st'.length = st.length → Calls op i (i + len) l →
      (∀ j, j < i → st'[j]? = st[j]?) →
      (∀ j s, i ≤ j → st'[j]? = some s → allowedAfter op s = true) →
      k.PostS (fun st'' l' => P st'' (l ++ l')) st') →
    (Prog.forAll op m (List.range' i len) k).PostS P st := by
  induction len with
  | zero =>
    intro i P st hl he hk
    have := hk st [] rfl (calls_nil op i) (fun _ _ => rfl) (by
      intro j s hj hs
      rw [List.getElem?_eq_none (by omega)] at hs
      cases hs)
    simpa [Prog.forAll] using this
  | succ len ih =>
    intro i P st hl he hk
    rw [List.range'_succ]
    refine ⟨by omega, fun r s' hs => ?_⟩
    have hset : ∀ j, j < i → (st.set i s')[j]? = st[j]? := by
      intro j hj
      rw [List.getElem?_set_ne (by omega)]
    cases r with
    | err =>
      exact he _ _ (by simp) (fun j hj => hset j hj) ⟨_, List.mem_singleton.2 rfl, rfl⟩
    | ok s =>
      obtain ⟨rfl, hal⟩ := hs s rfl
      apply ih (i + 1) _ (st.set i s') (by simp; omega)
      · intro st' l h1 h2 h3
        refine he _ _ (by simpa using h1) (fun j hj => ?_) ?_
        · rw [h2 j (by omega), hset j hj]
        · obtain ⟨c, hc, h⟩ := h3
          exact ⟨c, List.mem_cons_of_mem _ hc, h⟩
      · intro st' l h1 h2 h3 h4
        have := hk st' (⟨op, i, .ok s'⟩ :: l) (by simpa using h1)
          (calls_cons op i (i + (len + 1)) s' l (by omega) (by
            rw [show i + (len + 1) = i + 1 + len by omega]; exact h2))
          (fun j hj => by rw [h3 j (by omega), hset j hj])
          (by
            intro j s hj hjs
            by_cases hij : j = i
            · subst hij
              rw [h3 j (by omega), List.getElem?_set_self (by omega)] at hjs
              cases hjs
              exact hal
            · exact h4 j s (by omega) hjs)
        simpa using this

/-- The calls before a pass: all children are reset if the previous pass was finished. -/
def Resets (finished : Bool) (n : Nat) (l : List Call) : Prop :=
  if finished then Calls .reset 0 n l else l = []

/-- SUCCEEDED or FAILED. -/
def finished (s : BTState) : Bool := s = .succeeded || s = .failed

theorem postS_resetIfFinished (n : Nat) (st0 : BTState) (m : Mem) (k : Prog) (P : PostCond)
    (st : List BTState) (hl : st.length = n)
    (he : ∀ st' l, (∃ c ∈ l, c.res = .err) → P st' l m .err)
    (hk : ∀ st' l, st'.length = n → Resets (finished st0) n l →
      (finished st0 = false → st' = st) →
      (finished st0 = true → ∀ s ∈ st', s = .idle) →
      k.PostS (fun st'' l' => P st'' (l ++ l')) st') :
    (Prog.resetIfFinished n st0 m k).PostS P st := by
  unfold Prog.resetIfFinished
  split
  · rename_i h
    have hf : finished st0 = true := by simpa [finished] using h
    rw [List.range_eq_range']
    apply postS_forAll
    · omega
    · intro st' l _ _ h; exact he _ _ h
    · intro st' l h1 h2 _ h4
      refine hk st' l (by omega) (by simpa [Resets, hf] using h2) (by simp [hf]) ?_
      intro _ s hs
      obtain ⟨j, hj, rfl⟩ := List.mem_iff_getElem.1 hs
      have := h4 j st'[j] (by omega) (List.getElem?_eq_getElem hj)
      simpa [allowedAfter] using this
  · rename_i h
    have hf : finished st0 = false := by simpa [finished] using h
    have := hk st [] hl (by simp [Resets, hf]) (fun _ => rfl) (by simp [hf])
    simpa using this

end Loops

end Verif.BT
