import Verif.BT.Finish

/-!
# C105: the measure of each class

For each class a number that goes down with every RUNNING. `wait_of` turns it into a bound.
-/

set_option autoImplicit false

namespace Verif.BT.Finish

open Verif.BT.Laws

variable {N : Type}

/-- A tick answered RUNNING has run the hook to its end. -/
theorem tick_running (o : Ops N) (nd : Node N) (h : (nd.run o .tick).res = .ok .running) :
    core (exec o (hookProg nd.kind .tick nd.state nd.mem (nd.env nd.ctr) (nd.children.map o.name)) nd.children) =
      ((nd.run o .tick).node.children, (nd.run o .tick).node.mem, .ok .running) ∧
    (nd.run o .tick).node.state = .running ∧ (nd.run o .tick).node.ctr = nd.ctr + 1 := by
  obtain ⟨x, rfl, hr, hn, _, _⟩ := run_ok o .tick (by simp) nd .running h
  rw [hn]
  exact ⟨by simp [core, hr], rfl, rfl⟩

theorem known_first {o : Ops N} {cs : List N} {bs : List Nat} (h : Known o cs bs) {c : N} {rest : List N} (e : cs = c :: rest) :
    Prompt o (first bs) c := by
  cases h with
  | nil => simp at e
  | cons h0 _ => cases e; exact h0

/-! ### Leaves -/

theorem wait_leaf (o : Ops N) {b : Nat} {env : Nat → Env} {bs : List Nat} (ht : Tame b bs.length .leaf env) (nd : Node N)
    (h : Fit o b .leaf env bs nd) : Wait (Node.ops o) b nd := by
  refine wait_of (o := Node.ops o) (fun nd n => Fit o b .leaf env bs nd ∧ ∃ j, nd.ctr ≤ j ∧ j ≤ nd.ctr + n ∧ (env j).hook ≠ .ok .running) ?_ b nd ⟨h, ht.1 nd.ctr⟩
  rintro nd n ⟨hf, j, h1, h2, h3⟩ hr
  obtain ⟨hx, _, hc⟩ := tick_running o nd hr
  simp only [hf.kind, hookProg, tickHook, exec, core, Prod.mk.injEq, hf.envs] at hx
  have : j ≠ nd.ctr := fun e => h3 (e ▸ hx.2.2)
  refine ⟨n - 1, by omega, fit_run o ht .tick nd hf, j, ?_, ?_, h3⟩
  · show (nd.run o .tick).node.ctr ≤ j; omega
  · show j ≤ (nd.run o .tick).node.ctr + (n - 1); omega

/-! ### Decorators that hand on RUNNING -/

/-- Classes that answer RUNNING only if their child has just done so. -/
def handsOn : Kind → Bool
  | .ignoreFailure | .ignoreSuccess | .inverter | .optional | .watch | .getter | .throttle | .subtree => true
  | _ => false

theorem handsOn_exec (o : Ops N) {b : Nat} {k : Kind} (hk : handsOn k = true) {env : Nat → Env} {len : Nat} (ht : Tame b len k env) (st : BTState) (m : Mem) (hm : MemOk b k env m) (i : Nat)
    (cs cs' : List N) (m' : Mem) (h : core (exec o (hookProg k .tick st m (env i) (cs.map o.name)) cs) = (cs', m', .ok .running)) :
    ∃ c rest, cs = c :: rest ∧ (o.run .tick c).res = .ok .running ∧ cs' = (o.run .tick c).node :: rest := by
  cases cs with
  | nil =>
    exfalso
    cases k <;> simp [handsOn] at hk
    all_goals simp only [hookProg, tickHook, Prog.onHead, List.map_nil, List.length_nil, if_true] at h
    · simp [core] at h
    · simp [core] at h
    · simp [core] at h
    · split at h <;> simp [core, exec] at h
    · simp [core] at h
    · have := ht i
      cases hw : (env i).own <;> simp_all [core, OwnRes.toRes]
    · split at h <;> simp [core] at h <;> exact hm.1 h.2.2
    · split at h
      · split at h <;> simp [core, exec] at h
      · simp [core] at h
  | cons c rest =>
    refine ⟨c, rest, rfl, ?_⟩
    have h0 : (List.map o.name (c :: rest)).length ≠ 0 := by simp
    have hh : ∀ k : Res → Prog, core (exec o (.call .tick 0 k) (c :: rest)) = core (exec o (k (o.run .tick c).res) ((o.run .tick c).node :: rest)) := by
      intro k; simp [exec, core]
    have hd : core (exec o (.call .tick 0 fun r => .done m r) (c :: rest)) = (cs', m', .ok .running) → (o.run .tick c).res = .ok .running ∧ cs' = (o.run .tick c).node :: rest := by
      intro h
      rw [hh] at h
      simp [core] at h
      exact ⟨h.2.2, h.1.symm⟩
    have hmap : ∀ f : BTState → BTState, (∀ s, f s = .running → s = .running) → core (exec o (.call .tick 0 fun r => .done m (r.map f)) (c :: rest)) = (cs', m', .ok .running) →
        (o.run .tick c).res = .ok .running ∧ cs' = (o.run .tick c).node :: rest := by
      intro f hf h
      rw [hh] at h
      simp only [core, exec_done, Prod.mk.injEq] at h
      refine ⟨?_, h.1.symm⟩
      cases hr : (o.run .tick c).res with
      | err => rw [hr] at h; simp [Res.map] at h
      | ok s =>
        rw [hr] at h
        simp only [Res.map, Res.ok.injEq] at h
        rw [hf s h.2.2]
    cases k <;> simp [handsOn] at hk
    all_goals simp only [hookProg, tickHook, Prog.onHead, h0, if_false] at h
    · refine hmap _ ?_ h; intro s; split <;> simp
    · refine hmap _ ?_ h; intro s; split <;> simp
    · refine hmap _ ?_ h; intro s; split
      · simp
      · split <;> simp
    · split at h
      · exact hd h
      · simp [core] at h
    · simp only [ht i] at h
      split at h
      · exact hd (by simpa using h)
      · simp [core] at h
    · rw [hh] at h
      cases hr : (o.run .tick c).res with
      | err => rw [hr] at h; simp [core] at h
      | ok s =>
        rw [hr] at h
        simp only at h
        split at h
        · simp [core] at h
          exact ⟨by rw [h.2.2], h.1.symm⟩
        · have := ht i
          cases hw : (env i).own <;> simp_all [core, OwnRes.toRes]
    · split at h
      · rw [hh] at h
        split at h
        · rename_i hr
          simp [core] at h
          exact ⟨hr, h.1.symm⟩
        · exfalso
          rename_i hr
          simp only [exec, List.getElem?_cons_zero] at h
          split at h <;> simp_all [core]
      · simp [core] at h
        exact absurd h.2.2 hm.1
    · split at h
      · split at h
        · exact hd h
        · simp [core] at h
      · simp [core] at h

theorem wait_handsOn (o : Ops N) {b : Nat} {k : Kind} (hk : handsOn k = true) {env : Nat → Env} {bs : List Nat} (ht : Tame b bs.length k env) (nd : Node N)
    (h : Fit o b k env bs nd) : Wait (Node.ops o) (first bs) nd := by
  refine wait_of (o := Node.ops o) (fun nd n => Fit o b k env bs nd ∧ ∀ c rest, nd.children = c :: rest → Wait o n c) ?_ _ nd
    ⟨h, fun c rest e => (prompt_now (known_first h.known e)).2⟩
  rintro nd n ⟨hf, hw⟩ hr
  have hf' := fit_run o ht .tick nd hf
  obtain ⟨hx, _, _⟩ := tick_running o nd hr
  obtain ⟨rfl, rfl, hm, _⟩ := hf
  obtain ⟨c, rest, e1, e2, e3⟩ := handsOn_exec o hk ht _ _ hm _ _ _ _ hx
  obtain ⟨n', rfl, hw'⟩ := wait_pred (hw c rest e1) e2
  refine ⟨n', by omega, hf', ?_⟩
  intro c' rest' e
  have e : (nd.run o .tick).node.children = c' :: rest' := e
  rw [e3] at e
  cases e
  exact hw'

/-- IgnoreRunning and ThrottleSuccess never answer RUNNING. -/
theorem wait_never (o : Ops N) {k : Kind} (hk : k = .ignoreRunning ∨ k = .throttleSuccess) (nd : Node N) (h : nd.kind = k) : Wait (Node.ops o) 0 nd := by
  intro hr
  have hr : (nd.run o .tick).res = .ok .running := hr
  obtain ⟨hx, _, _⟩ := tick_running o nd hr
  generalize (nd.run o .tick).node.children = cs' at hx
  generalize (nd.run o .tick).node.mem = m' at hx
  have key : ∀ p : Prog, p.Post (fun _ _ => True) (fun _ r => r ≠ .ok .running) → core (exec o p nd.children) = (cs', m', .ok .running) → False := by
    intro p hp hc
    have := exec_post o (fun _ _ => True) (fun _ r => r ≠ .ok .running) (fun _ _ _ _ => trivial) p nd.children hp
    simp only [core, Prod.mk.injEq] at hc
    exact this hc.2.2
  refine key _ ?_ hx
  rcases hk with rfl | rfl <;> simp only [h, hookProg, tickHook]
  · refine post_onHead _ _ _ _ _ (by simp) (by simp) (fun s _ => ?_)
    split
    · rename_i h'; simpa using h'
    · split <;> simp
  · split
    · split
      · simp [Prog.Post]
      · intro r _; simp [Prog.Post]
    · simp [Prog.Post]

/-! ### Decorators that count -/

/-- Classes that repeat their child a limited number of times. -/
def counts : Kind → Bool
  | .retry | .repeat | .repeatNoAutoReset => true
  | _ => false

theorem counts_exec (o : Ops N) {b : Nat} {k : Kind} (hk : counts k = true) {env : Nat → Env} {len : Nat} (ht : Tame b len k env) (st : BTState) (m : Mem) (i : Nat)
    (cs cs' : List N) (m' : Mem) (h : core (exec o (hookProg k .tick st m (env i) (cs.map o.name)) cs) = (cs', m', .ok .running)) :
    ∃ c rest, cs = c :: rest ∧ (((o.run .tick c).res = .ok .running ∧ cs' = (o.run .tick c).node :: rest ∧ m' = m) ∨
      (m.count < m.limit ∧ m' = { m with count := m.count + 1 } ∧ cs' = (o.run .reset (o.run .tick c).node).node :: rest)) := by
  have key : ∀ on : BTState, on ≠ .running → ∀ p : Mem × BTState, p.2 ≠ .running → core (exec o (if (cs.map o.name).length = 0 then .done m (.ok .succeeded)
      else .call .tick 0 fun
        | .err => .done m .err
        | .ok s => if s = on then (if m.count < m.limit then .call .reset 0 fun r => .done { m with count := m.count + 1 } (r.map fun _ => .running) else .done p.1 (.ok p.2)) else .done m (.ok s)) cs) = (cs', m', .ok .running) →
      ∃ c rest, cs = c :: rest ∧ (((o.run .tick c).res = .ok .running ∧ cs' = (o.run .tick c).node :: rest ∧ m' = m) ∨
      (m.count < m.limit ∧ m' = { m with count := m.count + 1 } ∧ cs' = (o.run .reset (o.run .tick c).node).node :: rest)) := by
    intro on hon p hp h
    cases cs with
    | nil => simp [core] at h
    | cons c rest =>
      refine ⟨c, rest, rfl, ?_⟩
      simp only [List.map_cons, List.length_cons, Nat.add_eq_zero_iff, Nat.one_ne_zero, and_false, if_false] at h
      have hh : ∀ (op : Op) (k : Res → Prog) (c : N), core (exec o (.call op 0 k) (c :: rest)) = core (exec o (k (o.run op c).res) ((o.run op c).node :: rest)) := by
        intro op k c; simp [exec, core]
      rw [hh] at h
      cases hr : (o.run .tick c).res with
      | err => rw [hr] at h; simp [core] at h
      | ok s =>
        rw [hr] at h
        simp only at h
        split at h
        · split at h
          · rename_i hc
            rw [hh] at h
            simp [core] at h
            exact Or.inr ⟨hc, h.2.1.symm, h.1.symm⟩
          · simp [core] at h; exact absurd h.2.2 hp
        · simp [core] at h
          exact Or.inl ⟨by rw [h.2.2], h.1.symm, h.2.1.symm⟩
  cases k <;> simp [counts] at hk
  · exact key .failed (by simp) ({ m with count := 0 }, .failed) (by simp) h
  · exact key .succeeded (by simp) (m, .succeeded) (by simp) h
  · rw [noReset_prog _ _ _ _ (ht i).2] at h
    split at h
    · split at h
      · rename_i hlt
        refine key .succeeded (by simp) (m, .succeeded) (by simp) ?_
        simp only [hlt, if_true]
        exact h
      · simp [core] at h
    · simp [core] at h

theorem wait_counts (o : Ops N) {b : Nat} {k : Kind} (hk : counts k = true) {env : Nat → Env} {bs : List Nat} (ht : Tame b bs.length k env) (nd : Node N)
    (h : Fit o b k env bs nd) : Wait (Node.ops o) (b * (first bs + 1) + first bs) nd := by
  have hmem : ∀ m, MemOk b k env m → 0 ≤ m.count ∧ m.limit ≤ b := by
    intro m hm
    cases k <;> simp [counts] at hk <;> exact hm
  refine wait_of (o := Node.ops o) (fun nd n => Fit o b k env bs nd ∧ ∀ c rest, nd.children = c :: rest → ∃ w j : Nat, Wait o w c ∧ nd.mem.limit ≤ nd.mem.count + j ∧ j * (first bs + 1) + w ≤ n) ?_ _ nd
    ⟨h, fun c rest e => ⟨first bs, b, (prompt_now (known_first h.known e)).2, by have := hmem _ h.mem; omega, Nat.le_refl _⟩⟩
  rintro nd n ⟨hf, hw⟩ hr
  have hf' := fit_run o ht .tick nd hf
  obtain ⟨hx, _, _⟩ := tick_running o nd hr
  obtain ⟨rfl, rfl, hm, hkn⟩ := hf
  obtain ⟨c, rest, e1, h2⟩ := counts_exec o hk ht _ _ _ _ _ _ hx
  obtain ⟨w, j, w1, w2, w3⟩ := hw c rest e1
  rcases h2 with ⟨r1, r2, r3⟩ | ⟨r1, r2, r3⟩
  · obtain ⟨w', rfl, hw'⟩ := wait_pred w1 r1
    refine ⟨n - 1, by omega, hf', ?_⟩
    intro c' rest' e
    have e : (nd.run o .tick).node.children = c' :: rest' := e
    rw [r2] at e
    cases e
    refine ⟨w', j, hw', ?_, by omega⟩
    show (nd.run o .tick).node.mem.limit ≤ (nd.run o .tick).node.mem.count + j
    rw [r3]; exact w2
  · obtain ⟨j', rfl⟩ : ∃ j', j = j' + 1 := ⟨j - 1, by omega⟩
    have hmul : (j' + 1) * (first bs + 1) = j' * (first bs + 1) + (first bs + 1) := Nat.succ_mul _ _
    refine ⟨n - 1, by omega, hf', ?_⟩
    intro c' rest' e
    have e : (nd.run o .tick).node.children = c' :: rest' := e
    rw [r3] at e
    cases e
    refine ⟨first bs, j', (prompt_now (prompt_run .reset (prompt_run .tick (known_first hkn e1)))).2, ?_, by omega⟩
    show (nd.run o .tick).node.mem.limit ≤ (nd.run o .tick).node.mem.count + j'
    rw [r2]
    show nd.mem.limit ≤ nd.mem.count + 1 + j'
    omega

/-! ### IterateList -/

theorem iterate_exec (o : Ops N) (st : BTState) (m : Mem) (e : Env) (hfl : e.flag = false) (cs cs' : List N) (m' : Mem)
    (h : core (exec o (hookProg .iterateList .tick st m e (cs.map o.name)) cs) = (cs', m', .ok .running)) :
    m.counter < e.listLen ∧ ((cs = [] ∧ cs' = [] ∧ m'.counter = m.counter + 1 ∧ m.counter + 1 < e.listLen) ∨
      ∃ c rest, cs = c :: rest ∧ ((m.outChanged = true ∧ cs' = cs ∧ m'.counter = m.counter ∧ m'.outChanged = false) ∨
        (m.outChanged = false ∧ cs' = (o.run .tick c).node :: rest ∧ ((o.run .tick c).res = .ok .succeeded ∧ m'.counter = m.counter + 1 ∧ m'.outChanged = true ∧ m.counter + 1 < e.listLen ∨
          m'.counter = m.counter ∧ m'.outChanged = false ∧ ∃ s, (o.run .tick c).res = .ok s ∧ s ≠ .succeeded ∧ s ≠ .failed)))) := by
  simp only [hookProg, tickHook, hfl, Bool.false_eq_true, if_false] at h
  split at h
  · unfold iterateTick at h
    split at h
    · simp [core] at h
    · split at h
      · simp [core] at h
      · rename_i hlt
        have hlt : m.counter < e.listLen := by omega
        refine ⟨hlt, ?_⟩
        split at h
        · dsimp only at h
          split at h
          · rename_i hn
            have hn : cs = [] := by simpa using hn
            subst hn
            split at h
            · simp [core] at h
            · rename_i hne
              simp only [core, exec_done, Prod.mk.injEq] at h
              refine Or.inl ⟨rfl, h.1.symm, by rw [← h.2.1], by omega⟩
          · rename_i hn
            cases cs with
            | nil => simp at hn
            | cons c rest =>
              refine Or.inr ⟨c, rest, rfl, ?_⟩
              split at h
              · rename_i hoc
                simp only [core, exec_done, Prod.mk.injEq] at h
                exact Or.inl ⟨hoc, h.1.symm, by rw [← h.2.1], by rw [← h.2.1]⟩
              · rename_i hoc
                have hoc : m.outChanged = false := by simpa using hoc
                refine Or.inr ⟨hoc, ?_⟩
                have hh : ∀ (op : Op) (k : Res → Prog) (c : N), core (exec o (.call op 0 k) (c :: rest)) = core (exec o (k (o.run op c).res) ((o.run op c).node :: rest)) := by
                  intro op k c; simp [exec, core]
                rw [hh] at h
                cases hr : (o.run .tick c).res with
                | err => rw [hr] at h; simp [core] at h
                | ok s =>
                  rw [hr] at h
                  simp only at h
                  split at h
                  · rename_i hs
                    split at h
                    · simp [core] at h
                    · simp only [core, exec_done, Prod.mk.injEq] at h
                      exact ⟨h.1.symm, Or.inl ⟨by rw [hs], by rw [← h.2.1], by rw [← h.2.1], by omega⟩⟩
                  · split at h
                    · simp [core] at h
                    · rename_i h1 h2
                      simp only [core, exec_done, Prod.mk.injEq] at h
                      exact ⟨h.1.symm, Or.inr ⟨by rw [← h.2.1], by rw [← h.2.1]; exact hoc, s, rfl, h1, h2⟩⟩
        · simp [core] at h
  · simp [core] at h

theorem wait_iterate (o : Ops N) {b : Nat} {env : Nat → Env} {bs : List Nat} (ht : Tame b bs.length .iterateList env) (nd : Node N)
    (h : Fit o b .iterateList env bs nd) : Wait (Node.ops o) (b * (first bs + 2) - 1) nd := by
  refine wait_of (o := Node.ops o) (fun nd n => Fit o b .iterateList env bs nd ∧ (nd.mem.counter < b →
      (nd.children = [] → (b - nd.mem.counter) * (first bs + 2) - 1 ≤ n) ∧
      ∀ c rest, nd.children = c :: rest → (nd.mem.outChanged = true → (b - nd.mem.counter) * (first bs + 2) - 1 ≤ n) ∧
        (nd.mem.outChanged = false → ∃ w, Wait o w c ∧ (b - nd.mem.counter - 1) * (first bs + 2) + w ≤ n))) ?_ _ nd ⟨h, ?_⟩
  · rintro nd n ⟨hf, hw⟩ hr
    have hf' := fit_run o ht .tick nd hf
    obtain ⟨hx, _, _⟩ := tick_running o nd hr
    have hk := hf.known
    rw [hf.kind, hf.envs] at hx
    have hl := ht nd.ctr
    obtain ⟨hc, h2⟩ := iterate_exec o _ _ _ hl.2 _ _ _ hx
    obtain ⟨w0, w1⟩ := hw (by omega)
    generalize hnd : (nd.run o .tick).node = nd' at *
    have e0 : (Node.ops o).run .tick nd = nd.run o .tick := rfl
    simp only [e0, hnd]
    rcases h2 with ⟨e1, e2, e3, e4⟩ | ⟨c, rest, e1, h3⟩
    · have hd : b - nd.mem.counter = (b - nd'.mem.counter) + 1 := by omega
      have h1 := w0 e1
      rw [hd, Nat.succ_mul] at h1
      have hp : 1 * (first bs + 2) ≤ (b - nd'.mem.counter) * (first bs + 2) := Nat.mul_le_mul_right _ (by omega)
      refine ⟨n - 1, by omega, hf', fun _ => ⟨fun _ => by omega, ?_⟩⟩
      intro c rest e
      rw [e2] at e; cases e
    · obtain ⟨w1, w2⟩ := w1 c rest e1
      rcases h3 with ⟨a1, a2, a3, a4⟩ | ⟨a1, a2, h4⟩
      · have h1 := w1 a1
        have hd : b - nd.mem.counter = (b - nd'.mem.counter - 1) + 1 := by omega
        rw [hd, Nat.succ_mul] at h1
        refine ⟨n - 1, by omega, hf', fun _ => ⟨fun e => (by rw [a2, e1] at e; cases e), fun c' rest' e => ⟨fun e' => (by rw [a4] at e'; cases e'), fun _ => ?_⟩⟩⟩
        exact ⟨first bs, (prompt_now (known_first hf'.known e)).2, by omega⟩
      · obtain ⟨w, hwc, hwn⟩ := w2 a1
        rcases h4 with ⟨b1, b2, b3, b4⟩ | ⟨b2, b3, s, s1, s2, s3⟩
        · have hd : b - nd.mem.counter - 1 = b - nd'.mem.counter := by omega
          rw [hd] at hwn
          have hp : 1 * (first bs + 2) ≤ (b - nd'.mem.counter) * (first bs + 2) := Nat.mul_le_mul_right _ (by omega)
          refine ⟨n - 1, by omega, hf', fun _ => ⟨fun e => (by rw [a2] at e; cases e), fun c' rest' e => ⟨fun _ => by omega, fun e' => by rw [b3] at e'; cases e'⟩⟩⟩
        · have hs : s = .running := by
            have := (prompt_now (known_first hk e1)).1
            rw [s1] at this
            rcases this with e | e | e | e <;> cases e
            · rfl
            · exact absurd rfl s2
            · exact absurd rfl s3
          rw [hs] at s1
          obtain ⟨w', rfl, hw'⟩ := wait_pred hwc s1
          refine ⟨n - 1, by omega, hf', fun _ => ⟨fun e => (by rw [a2] at e; cases e), fun c' rest' e => ⟨fun e' => (by rw [b3] at e'; cases e'), fun _ => ?_⟩⟩⟩
          rw [a2] at e
          cases e
          exact ⟨w', hw', by rw [b2]; omega⟩
  · intro hc
    have hmul : (b - nd.mem.counter) * (first bs + 2) ≤ b * (first bs + 2) := Nat.mul_le_mul_right _ (by omega)
    refine ⟨fun _ => by omega, fun c rest e => ⟨fun _ => by omega, fun _ => ⟨first bs, (prompt_now (known_first h.known e)).2, ?_⟩⟩⟩
    have hd : b - nd.mem.counter = (b - nd.mem.counter - 1) + 1 := by omega
    rw [hd, Nat.succ_mul] at hmul
    omega

/-! ### Sequence and Fallback -/

/-- How a tick of a Sequence or Fallback ends. -/
theorem core_row (o : Ops N) (seq : Bool) (st : BTState) (m : Mem) (e : Env) (cs : List N) :
    core (exec o (hookProg (rowKind seq) .tick st m e (cs.map o.name)) cs) =
      if (rowStart o st cs).2 then ((pass o seq (rowStart o st cs).1).1, m, (pass o seq (rowStart o st cs).1).2.res seq)
      else ((rowStart o st cs).1, m, .err) := by
  have hh : hookProg (rowKind seq) .tick st m e (cs.map o.name) =
      if cs.length = 0 then .done m (Went.through.res seq)
      else Prog.resetIfFinished cs.length st m (if seq then Prog.seqLoop false m (List.range cs.length) else Prog.fbLoop false m (List.range cs.length)) := by
    cases seq <;> simp [rowKind, hookProg, tickHook, Went.res]
  have loop : ∀ cs : List N, core (exec o (if seq then Prog.seqLoop false m (List.range cs.length) else Prog.fbLoop false m (List.range cs.length)) cs) =
      ((pass o seq cs).1, m, (pass o seq cs).2.res seq) := by
    intro cs
    cases seq
    · simpa [List.range_eq_range'] using core_fbLoop o m cs []
    · simpa [List.range_eq_range'] using core_seqLoop o m cs []
  have hlen : ∀ cs : List N, (sweep o .reset cs).1.length = cs.length := by
    intro cs
    induction cs with
    | nil => rfl
    | cons c cs ih => simp only [sweep]; split <;> simp [ih]
  rw [hh]
  split
  · rename_i h0
    have h0 : cs = [] := List.length_eq_zero_iff.1 h0
    simp [h0, rowStart, sweep, pass, core, exec]
  · unfold Prog.resetIfFinished
    by_cases hf : st = .succeeded ∨ st = .failed
    · have hf' : finished st = true := by rcases hf with h | h <;> simp [finished, h]
      simp only [hf, if_true, rowStart, hf']
      rw [core_forAll0]
      have := loop (sweep o .reset cs).1
      rw [hlen] at this
      rw [this]
    · have hf' : finished st = false := by simpa [finished] using hf
      simp only [hf, if_false, rowStart, hf']
      rw [loop]
      simp

/-- How much waiting is left in a row. -/
inductive RowLeft (o : Ops N) : List N → List Nat → Nat → Prop
  | nil : RowLeft o [] [] 0
  | cons {c : N} {b w v : Nat} {cs : List N} {bs : List Nat} : Prompt o b c → Wait o w c → RowLeft o cs bs v → RowLeft o (c :: cs) (b :: bs) (v * (b + 1) + w)

theorem rowLeft_full (o : Ops N) (cs : List N) (bs : List Nat) (h : Known o cs bs) : RowLeft o cs bs (rowBound bs) := by
  induction h with
  | nil => exact .nil
  | cons h0 _ ih => exact .cons h0 (prompt_now h0).2 ih

theorem pass_left (o : Ops N) (seq : Bool) (cs : List N) (bs : List Nat) (n : Nat) (h : RowLeft o cs bs n) (hr : (pass o seq cs).2.res seq = .ok .running) :
    ∃ n', n' < n ∧ RowLeft o (pass o seq cs).1 bs n' := by
  induction h with
  | nil => cases seq <;> simp [pass, Went.res] at hr
  | @cons c b w v cs bs hp hw hl ih =>
    simp only [pass] at hr ⊢
    cases hc : (o.run .tick c).res with
    | err => simp [hc, Went.res] at hr
    | ok s =>
      simp only [hc] at hr ⊢
      split at hr <;> rename_i hg
      · simp only [hg, if_true]
        obtain ⟨v', hv, hl'⟩ := ih hr
        refine ⟨v' * (b + 1) + b, ?_, .cons (prompt_run .tick hp) (prompt_now (prompt_run .tick hp)).2 hl'⟩
        have h1 : (v' + 1) * (b + 1) ≤ v * (b + 1) := Nat.mul_le_mul_right _ hv
        rw [Nat.succ_mul] at h1
        omega
      · simp only [hg, Bool.false_eq_true, if_false]
        split at hr <;> rename_i hs
        · simp only [hs, if_true]
          obtain ⟨w', rfl, hw'⟩ := wait_pred hw (by rw [hc, hs])
          exact ⟨v * (b + 1) + w', by omega, .cons (prompt_run .tick hp) hw' hl⟩
        · split at hr
          · simp [Went.res] at hr; exact absurd hr hs
          · simp [Went.res] at hr

theorem wait_row (o : Ops N) (seq : Bool) {b : Nat} {env : Nat → Env} {bs : List Nat} (ht : Tame b bs.length (rowKind seq) env) (nd : Node N)
    (h : Fit o b (rowKind seq) env bs nd) : Wait (Node.ops o) (rowBound bs) nd := by
  refine wait_of (o := Node.ops o) (fun nd n => Fit o b (rowKind seq) env bs nd ∧ (rowBound bs ≤ n ∨ finished nd.state = false ∧ ∃ n', n' ≤ n ∧ RowLeft o nd.children bs n')) ?_ _ nd ⟨h, Or.inl (Nat.le_refl _)⟩
  rintro nd n ⟨hf, hw⟩ hr
  have hf' := fit_run o ht .tick nd hf
  obtain ⟨hx, hst, _⟩ := tick_running o nd hr
  rw [hf.kind, core_row] at hx
  split at hx
  · simp only [Prod.mk.injEq] at hx
    obtain ⟨x1, x2, x3⟩ := hx
    have hl : ∃ n', n' ≤ n ∧ RowLeft o (rowStart o nd.state nd.children).1 bs n' := by
      rcases hw with hw | ⟨hw, n', h1, h2⟩
      · refine ⟨_, hw, rowLeft_full o _ _ ?_⟩
        unfold rowStart
        split
        · exact sweep_known o .reset _ _ hf.known
        · exact hf.known
      · exact ⟨n', h1, by simpa [rowStart, hw] using h2⟩
    obtain ⟨n', h1, h2⟩ := hl
    obtain ⟨n'', h3, h4⟩ := pass_left o seq _ _ _ h2 x3
    rw [x1] at h4
    exact ⟨n'', by omega, hf', Or.inr ⟨by show finished (nd.run o .tick).node.state = false; rw [hst]; rfl, n'', Nat.le_refl _, h4⟩⟩
  · simp at hx

/-! ### MemorySequence and MemoryFallback -/

/-- How much waiting is left in the rest of a row that is not ticked from its beginning. -/
def RestLeft (o : Ops N) (n : Nat) : List N → List Nat → Prop
  | c :: _, _ :: bs => ∃ w, Wait o w c ∧ w + bs.sum ≤ n
  | _, _ => True

theorem restLeft_full (o : Ops N) (cs : List N) (bs : List Nat) (h : Known o cs bs) : RestLeft o bs.sum cs bs := by
  cases h with
  | nil => trivial
  | cons h0 _ => exact ⟨_, (prompt_now h0).2, by simp⟩

/-- The loop of the classes with memory. -/
def memLoop (seq : Bool) (m : Mem) (is : List Nat) : Prog := if seq then Prog.seqLoop true m is else Prog.fbLoop true m is

theorem memLoop_left (o : Ops N) (seq : Bool) (m m' : Mem) (out : List N) : ∀ (cs : List N) (bs : List Nat) (pre : List N) (pbs : List Nat) (n : Nat), Known o cs bs → pre.length = pbs.length →
    RestLeft o n cs bs → core (exec o (memLoop seq m (List.range' pre.length cs.length)) (pre ++ cs)) = (out, m', .ok .running) →
    ∃ n', n' < n ∧ RestLeft o n' (out.drop m'.lastRunning) ((pbs ++ bs).drop m'.lastRunning) := by
  intro cs
  induction cs with
  | nil =>
    intro bs pre pbs n _ _ _ h
    cases seq <;> simp [memLoop, Prog.seqLoop, Prog.fbLoop, core] at h
  | cons c cs ih =>
    intro bs pre pbs n hk hl hr h
    cases hk with
    | @cons _ b _ bs hp hk =>
    obtain ⟨w, hw, hn⟩ := hr
    have e1 : memLoop seq m (List.range' pre.length (c :: cs).length) = .call .tick pre.length fun
        | .err => .done m .err
        | .ok s => if goesOn seq s then memLoop seq m (List.range' (pre.length + 1) cs.length) else if s = .running then .done { m with lastRunning := pre.length } (.ok s)
          else Prog.forAll .untick m (List.range' (pre.length + 1) cs.length) (.done m (.ok s)) := by
      cases seq
      · simp only [memLoop, List.length_cons, List.range'_succ, Prog.fbLoop, goesOn, Bool.false_eq_true, if_false]
        congr 1; funext r
        cases r with
        | err => rfl
        | ok s => cases s <;> rfl
      · simp only [memLoop, List.length_cons, List.range'_succ, Prog.seqLoop, goesOn, if_true]
        congr 1; funext r
        cases r with
        | err => rfl
        | ok s => cases s <;> rfl
    rw [e1, core_call] at h
    cases hc : (o.run .tick c).res with
    | err => rw [hc] at h; simp [core] at h
    | ok s =>
      rw [hc] at h
      simp only at h
      split at h
      · have := ih bs (pre ++ [(o.run .tick c).node]) (pbs ++ [b]) bs.sum hk (by simp [hl]) (restLeft_full o _ _ hk) (by simpa using h)
        obtain ⟨n', h1, h2⟩ := this
        exact ⟨n', by omega, by simpa using h2⟩
      · split at h
        · rename_i hs
          simp only [core, exec_done, Prod.mk.injEq] at h
          obtain ⟨rfl, rfl, _⟩ := h
          obtain ⟨w', rfl, hw'⟩ := wait_pred hw (by rw [hc, hs])
          refine ⟨n - 1, by omega, ?_⟩
          have d1 : List.drop pre.length (pre ++ (o.run .tick c).node :: cs) = (o.run .tick c).node :: cs := List.drop_left
          have d2 : List.drop pre.length (pbs ++ b :: bs) = b :: bs := by rw [hl]; exact List.drop_left
          show RestLeft o (n - 1) (List.drop pre.length (pre ++ (o.run .tick c).node :: cs)) (List.drop pre.length (pbs ++ b :: bs))
          rw [d1, d2]
          exact ⟨w', hw', by omega⟩
        · rename_i hs
          have hf := core_forAll o .untick m (.done m (.ok s)) cs (pre ++ [(o.run .tick c).node])
          simp only [List.length_append, List.length_cons, List.length_nil, List.append_assoc, List.singleton_append, Nat.zero_add] at hf
          rw [hf] at h
          split at h <;> simp [core] at h
          exact absurd h.2.2 hs

/-- The class of a row with memory. -/
def memKind (seq : Bool) : Kind := if seq then .memSequence else .memFallback

theorem wait_mem (o : Ops N) (seq : Bool) {b : Nat} {env : Nat → Env} {bs : List Nat} (ht : Tame b bs.length (memKind seq) env) (nd : Node N)
    (h : Fit o b (memKind seq) env bs nd) : Wait (Node.ops o) bs.sum nd := by
  have hdrop : ∀ j : Nat, ∀ cs bs, Known o cs bs → RestLeft o bs.sum (cs.drop j) (bs.drop j) := by
    intro j
    induction j with
    | zero => intro cs bs h; simpa using restLeft_full o _ _ h
    | succ j ih =>
      intro cs bs h
      cases h with
      | nil => trivial
      | @cons c b' cs bs h0 ht =>
        have := ih _ _ ht
        simp only [List.drop_succ_cons, List.sum_cons]
        revert this
        generalize List.drop j cs = l1
        generalize List.drop j bs = l2
        intro this
        cases l1 with
        | nil => trivial
        | cons x xs =>
          cases l2 with
          | nil => trivial
          | cons y ys =>
            obtain ⟨w, h1, h2⟩ := this
            exact ⟨w, h1, by omega⟩
  refine wait_of (o := Node.ops o) (fun nd n => Fit o b (memKind seq) env bs nd ∧ (bs.sum ≤ n ∨ finished nd.state = false ∧ RestLeft o n (nd.children.drop nd.mem.lastRunning) (bs.drop nd.mem.lastRunning))) ?_ _ nd ⟨h, Or.inl (Nat.le_refl _)⟩
  rintro nd n ⟨hf, hw⟩ hr
  have hf' := fit_run o ht .tick nd hf
  obtain ⟨hx, hst, _⟩ := tick_running o nd hr
  have hfin : finished (nd.run o .tick).node.state = false := by rw [hst]; rfl
  have loop : ∀ (cs : List N) (m : Mem) (n : Nat), Known o cs bs → RestLeft o n (cs.drop m.lastRunning) (bs.drop m.lastRunning) →
      core (exec o (memLoop seq m ((List.range cs.length).drop m.lastRunning)) cs) = ((nd.run o .tick).node.children, (nd.run o .tick).node.mem, .ok .running) →
      ∃ n', n' < n ∧ RestLeft o n' ((nd.run o .tick).node.children.drop (nd.run o .tick).node.mem.lastRunning) (bs.drop (nd.run o .tick).node.mem.lastRunning) := by
    intro cs m n hk hl hc
    by_cases hj : m.lastRunning < cs.length
    · have e1 : (List.range cs.length).drop m.lastRunning = List.range' (cs.take m.lastRunning).length (cs.drop m.lastRunning).length := by
        rw [List.range_eq_range', List.drop_range', List.length_take, List.length_drop]
        simp [Nat.min_eq_left (Nat.le_of_lt hj)]
      have e2 : cs = cs.take m.lastRunning ++ cs.drop m.lastRunning := (List.take_append_drop _ _).symm
      have hk' : Known o (cs.drop m.lastRunning) (bs.drop m.lastRunning) := by
        have : ∀ (j : Nat) (cs : List N) (bs : List Nat), Known o cs bs → Known o (cs.drop j) (bs.drop j) := by
          intro j
          induction j with
          | zero => intro cs bs h; simpa using h
          | succ j ih =>
            intro cs bs h
            cases h with
            | nil => exact .nil
            | cons _ ht => exact ih _ _ ht
        exact this _ _ _ hk
      have := memLoop_left o seq m _ _ (cs.drop m.lastRunning) (bs.drop m.lastRunning) (cs.take m.lastRunning) (bs.take m.lastRunning) n hk'
        (by rw [List.length_take, List.length_take, hk.length]) hl (by rw [← e1, ← e2]; exact hc)
      rwa [List.take_append_drop] at this
    · exfalso
      have : (List.range cs.length).drop m.lastRunning = [] := List.drop_eq_nil_of_le (by simp; omega)
      rw [this] at hc
      cases seq <;> simp [memLoop, Prog.seqLoop, Prog.fbLoop, core] at hc
  have hh : hookProg (memKind seq) .tick nd.state nd.mem (nd.env nd.ctr) (nd.children.map o.name) =
      if nd.children.length = 0 then .done nd.mem (.ok (if seq then .succeeded else .failed)) else
        let m' := if nd.state = .succeeded ∨ nd.state = .failed then { nd.mem with lastRunning := 0 } else nd.mem
        Prog.resetIfFinished nd.children.length nd.state m' (memLoop seq m' ((List.range nd.children.length).drop m'.lastRunning)) := by
    cases seq <;> simp [memKind, hookProg, tickHook, memLoop]
  rw [hf.kind, hh] at hx
  split at hx
  · cases seq <;> simp [core] at hx
  · dsimp only at hx
    unfold Prog.resetIfFinished at hx
    by_cases hs : nd.state = .succeeded ∨ nd.state = .failed
    · simp only [hs, if_true] at hx
      rw [core_forAll0] at hx
      split at hx
      · have hlen : ∀ cs : List N, (sweep o .reset cs).1.length = cs.length := by
          intro cs
          induction cs with
          | nil => rfl
          | cons c cs ih => simp only [sweep]; split <;> simp [ih]
        rw [← hlen nd.children] at hx
        have hk2 := sweep_known o .reset _ _ hf.known
        obtain ⟨n', h1, h2⟩ := loop _ { nd.mem with lastRunning := 0 } bs.sum hk2 (hdrop 0 _ _ hk2) hx
        have : bs.sum ≤ n := by
          rcases hw with hw | ⟨hw, _⟩
          · exact hw
          · rcases hs with hs | hs <;> rw [hs] at hw <;> simp [finished] at hw
        exact ⟨n', by omega, hf', Or.inr ⟨hfin, h2⟩⟩
      · simp at hx
    · simp only [hs, if_false] at hx
      have hl : ∃ n1, n1 ≤ n ∧ RestLeft o n1 (nd.children.drop nd.mem.lastRunning) (bs.drop nd.mem.lastRunning) := by
        rcases hw with hw | ⟨_, hw⟩
        · exact ⟨_, hw, hdrop _ _ _ hf.known⟩
        · exact ⟨n, Nat.le_refl _, hw⟩
      obtain ⟨n1, h0, hl⟩ := hl
      obtain ⟨n', h1, h2⟩ := loop _ nd.mem n1 hf.known hl hx
      exact ⟨n', by omega, hf', Or.inr ⟨hfin, h2⟩⟩

/-! ### Parallel and ParallelFailureTolerance -/

/-- What one tick of a Parallel does with a child. -/
def Moved (o : Ops N) (c c' : N) : Prop :=
  (finished (o.state c) = true ∧ c' = c) ∨ (finished (o.state c) = false ∧ c' = (o.run .tick c).node ∧ ∃ s, (o.run .tick c).res = .ok s)

/-- Number of children in a state. -/
def inState (o : Ops N) (s : BTState) (cs : List N) : Nat := (cs.filter fun c => o.state c = s).length

theorem core_parLoop (o : Ops N) (m m' : Mem) (k : Nat → Nat → Prog) (out : List N) : ∀ (cs pre : List N) (sf : Nat × Nat),
    core (exec o (Prog.parLoop m k (List.range' pre.length cs.length) sf) (pre ++ cs)) = (out, m', .ok .running) →
    ∃ cs', Each (Moved o) cs cs' ∧ core (exec o (k (sf.1 + inState o .succeeded cs') (sf.2 + inState o .failed cs')) (pre ++ cs')) = (out, m', .ok .running) := by
  intro cs
  induction cs with
  | nil => intro pre sf h; exact ⟨[], .nil, by simpa [Prog.parLoop, inState] using h⟩
  | cons c cs ih =>
    intro pre sf h
    simp only [List.length_cons, List.range'_succ, Prog.parLoop] at h
    have hp : ∀ (kk : BTState → Prog) (c : N), core (exec o (.peek pre.length kk) (pre ++ c :: cs)) = core (exec o (kk (o.state c)) (pre ++ c :: cs)) := by
      intro kk c; simp [exec, core]
    have hcount : ∀ c : N, ∀ cs' : List N, (Prog.countState (o.state c) sf).1 + inState o .succeeded cs' = sf.1 + inState o .succeeded (c :: cs') ∧
        (Prog.countState (o.state c) sf).2 + inState o .failed cs' = sf.2 + inState o .failed (c :: cs') := by
      intro c cs'
      unfold Prog.countState inState
      by_cases h1 : o.state c = .succeeded
      · simp [h1]; omega
      · by_cases h2 : o.state c = .failed
        · simp [h2]; omega
        · simp [h1, h2]
    rw [hp] at h
    split at h
    · rename_i hs
      have hs : finished (o.state c) = true := by simpa [finished] using hs
      obtain ⟨cs', h1, h2⟩ := ih (pre ++ [c]) _ (by simpa using h)
      rw [(hcount c cs').1, (hcount c cs').2] at h2
      exact ⟨c :: cs', .cons (Or.inl ⟨hs, rfl⟩) h1, by simpa using h2⟩
    · rename_i hs
      have hs : finished (o.state c) = false := by simpa [finished] using hs
      rw [core_call] at h
      cases hr : (o.run .tick c).res with
      | err => rw [hr] at h; simp [core] at h
      | ok s =>
        rw [hr] at h
        simp only at h
        rw [hp] at h
        obtain ⟨cs', h1, h2⟩ := ih (pre ++ [(o.run .tick c).node]) _ (by simpa using h)
        rw [(hcount (o.run .tick c).node cs').1, (hcount (o.run .tick c).node cs').2] at h2
        exact ⟨(o.run .tick c).node :: cs', .cons (Or.inr ⟨hs, rfl, s, hr⟩) h1, by simpa using h2⟩

theorem all_done (o : Ops N) : ∀ cs : List N, (∀ c ∈ cs, finished (o.state c) = true) → inState o .succeeded cs + inState o .failed cs = cs.length := by
  intro cs
  induction cs with
  | nil => intro _; rfl
  | cons c cs ih =>
    intro h
    have h1 := ih fun c hc => h c (by simp [hc])
    have h2 := h c (by simp)
    unfold inState at h1 ⊢
    by_cases h3 : o.state c = .succeeded
    · simp [h3]; omega
    · have h4 : o.state c = .failed := by simpa [finished, h3] using h2
      simp [h4]; omega

theorem all_known (o : Ops N) (cs : List N) (bs : List Nat) (h : Known o cs bs) : ∀ c ∈ cs, Prompt o (most bs) c := by
  have hm : ∀ {a b : Nat} {c : N}, a ≤ b → Prompt o a c → Prompt o b c := fun hab hp l => ⟨(hp l).1, wait_mono hab (hp l).2⟩
  induction h with
  | nil => intro c hc; cases hc
  | @cons c b cs bs h0 _ ih =>
    intro x hx
    rcases List.mem_cons.1 hx with rfl | hx
    · exact hm (Nat.le_max_left _ _) h0
    · exact hm (Nat.le_max_right _ _) (ih x hx)

/-- The end of a tick of a parallel node: RUNNING only if children are not done. -/
def Undecided (k : Nat → Nat → Prog) (len : Nat) (m : Mem) : Prop :=
  ∀ s f : Nat, k s f = .done m (.ok .running) ∧ s + f ≠ len ∨ (k s f).Post (fun _ _ => True) (fun _ r => r ≠ .ok .running)

theorem par_step (o : Ops N) (hs : Sound o) (m m' : Mem) (k : Nat → Nat → Prog) (cs out : List N) (hu : Undecided k cs.length m) (b n : Nat)
    (hk : ∀ c ∈ cs, Prompt o b c) (hw : ∀ c ∈ cs, finished (o.state c) = true ∨ Wait o n c)
    (h : core (exec o (Prog.parLoop m k (List.range cs.length) (0, 0)) cs) = (out, m', .ok .running)) :
    ∃ n', n' < n ∧ ∀ c ∈ out, finished (o.state c) = true ∨ Wait o n' c := by
  obtain ⟨cs', h1, h2⟩ := core_parLoop o m m' k out cs [] (0, 0) (by simpa [List.range_eq_range'] using h)
  simp only [List.nil_append, Nat.zero_add] at h2
  rcases hu (inState o .succeeded cs') (inState o .failed cs') with ⟨e1, e2⟩ | hp
  · rw [e1] at h2
    simp only [core, exec_done, Prod.mk.injEq] at h2
    obtain ⟨rfl, _, _⟩ := h2
    have step : ∀ c', c' ∈ cs' → finished (o.state c') = true ∨ ∃ n', n = n' + 1 ∧ Wait o n' c' := by
      intro c' hc'
      obtain ⟨i, hi⟩ := List.getElem?_of_mem hc'
      rcases h1.get i with ⟨_, h0⟩ | ⟨c, d, g1, g2, hmv⟩
      · rw [h0] at hi; cases hi
      · rw [g2] at hi
        cases hi
        have hc : c ∈ cs := List.mem_of_getElem? g1
        rcases hmv with ⟨f1, rfl⟩ | ⟨f1, rfl, s, hr⟩
        · exact Or.inl f1
        · have hst := (hs _ _ _ hr).1
          have hpl := (prompt_now (hk c hc)).1
          rw [hr] at hpl
          rcases hpl with e | e | e | e
          · cases e
            rcases hw c hc with hw | hw
            · rw [f1] at hw; cases hw
            · obtain ⟨n', e, hw'⟩ := wait_pred hw hr
              exact Or.inr ⟨n', e, hw'⟩
          · cases e; exact Or.inl (by rw [hst]; rfl)
          · cases e; exact Or.inl (by rw [hst]; rfl)
          · cases e
    have : ∃ n', n = n' + 1 := by
      by_cases hall : ∀ c ∈ cs', finished (o.state c) = true
      · have := all_done o cs' hall
        rw [← h1.length] at this
        exact absurd this e2
      · simp only [Classical.not_forall] at hall
        obtain ⟨c, hc, hf⟩ := hall
        rcases step c hc with h | ⟨n', e, _⟩
        · exact absurd h hf
        · exact ⟨n', e⟩
    obtain ⟨n', rfl⟩ := this
    refine ⟨n', by omega, fun c hc => ?_⟩
    rcases step c hc with h | ⟨n'', e, h⟩
    · exact Or.inl h
    · have : n'' = n' := by omega
      subst this
      exact Or.inr h
  · exfalso
    have := exec_post o (fun _ _ => True) (fun _ r => r ≠ .ok .running) (fun _ _ _ _ => trivial) _ cs' hp
    simp only [core, Prod.mk.injEq] at h2
    exact this h2.2.2

/-- The last part of a tick of a parallel node. -/
def parEnd (k : Kind) (m : Mem) (n : Nat) (s f : Nat) : Prog :=
  if m.needed ≤ (s : Int) then Prog.parFinish m .succeeded (List.range n)
  else if (if k = .parallel then (n : Int) - m.needed else m.tolerate) < (f : Int) then Prog.parFinish m .failed (List.range n)
  else .done m (.ok .running)

theorem parEnd_undecided (k : Kind) (m : Mem) (n : Nat) (h : k = .parallel ∨ m.needed + m.tolerate ≤ n) : Undecided (parEnd k m n) n m := by
  intro s f
  unfold parEnd
  split
  · exact Or.inr (post_parFinish _ _ _ (by simp) (by simp))
  · rename_i h1
    by_cases h2 : (if k = .parallel then (n : Int) - m.needed else m.tolerate) < (f : Int)
    · rw [if_pos h2]
      exact Or.inr (post_parFinish _ _ _ (by simp) (by simp))
    · rw [if_neg h2]
      refine Or.inl ⟨rfl, ?_⟩
      rcases h with rfl | h
      · simp only [if_true] at h2; omega
      · split at h2 <;> omega

theorem wait_par (o : Ops N) (hs : Sound o) {b : Nat} {k : Kind} (hk : k = .parallel ∨ k = .parallelTol) {env : Nat → Env} {bs : List Nat} (ht : Tame b bs.length k env) (nd : Node N)
    (h : Fit o b k env bs nd) : Wait (Node.ops o) (most bs) nd := by
  refine wait_of (o := Node.ops o) (fun nd n => Fit o b k env bs nd ∧ (most bs ≤ n ∨ finished nd.state = false ∧ ∀ c ∈ nd.children, finished (o.state c) = true ∨ Wait o n c)) ?_ _ nd ⟨h, Or.inl (Nat.le_refl _)⟩
  rintro nd n ⟨hf, hw⟩ hr
  have hf' := fit_run o ht .tick nd hf
  obtain ⟨hx, hst, _⟩ := tick_running o nd hr
  have hfin : finished (nd.run o .tick).node.state = false := by rw [hst]; rfl
  have hu : Undecided (parEnd k nd.mem nd.children.length) nd.children.length nd.mem := by
    apply parEnd_undecided
    rcases hk with rfl | rfl
    · exact Or.inl rfl
    · obtain ⟨s, f, h1, h2⟩ := ht
      have h3 := hf.mem s f h2
      rw [hf.known.length]
      exact Or.inr (by omega)
  have hh : hookProg k .tick nd.state nd.mem (nd.env nd.ctr) (nd.children.map o.name) =
      Prog.resetIfFinished nd.children.length nd.state nd.mem (Prog.parLoop nd.mem (parEnd k nd.mem nd.children.length) (List.range nd.children.length) (0, 0)) := by
    rcases hk with rfl | rfl <;> simp only [hookProg, tickHook, List.length_map] <;> rfl
  rw [hf.kind, hh] at hx
  unfold Prog.resetIfFinished at hx
  by_cases hs' : nd.state = .succeeded ∨ nd.state = .failed
  · simp only [hs', if_true] at hx
    rw [core_forAll0] at hx
    have hn : most bs ≤ n := by
      rcases hw with hw | ⟨hw, _⟩
      · exact hw
      · rcases hs' with hs' | hs' <;> rw [hs'] at hw <;> simp [finished] at hw
    split at hx
    · have hlen : ∀ cs : List N, (sweep o .reset cs).1.length = cs.length := by
        intro cs
        induction cs with
        | nil => rfl
        | cons c cs ih => simp only [sweep]; split <;> simp [ih]
      rw [← hlen nd.children] at hx hu
      have hk2 := all_known o _ _ (sweep_known o .reset _ _ hf.known)
      obtain ⟨n', h1, h2⟩ := par_step o hs _ _ _ _ _ hu (most bs) (most bs) hk2 (fun c hc => Or.inr (prompt_now (hk2 c hc)).2) hx
      exact ⟨n', by omega, hf', Or.inr ⟨hfin, h2⟩⟩
    · simp at hx
  · simp only [hs', if_false] at hx
    have hk2 := all_known o _ _ hf.known
    have hl : ∃ n1, n1 ≤ n ∧ ∀ c ∈ nd.children, finished (o.state c) = true ∨ Wait o n1 c := by
      rcases hw with hw | ⟨_, hw⟩
      · exact ⟨_, hw, fun c hc => Or.inr (prompt_now (hk2 c hc)).2⟩
      · exact ⟨n, Nat.le_refl _, hw⟩
    obtain ⟨n1, h0, hl⟩ := hl
    obtain ⟨n', h1, h2⟩ := par_step o hs _ _ _ _ _ hu (most bs) n1 hk2 hl hx
    exact ⟨n', by omega, hf', Or.inr ⟨hfin, h2⟩⟩

/-! ### Switches -/

theorem untickOthers_keeps (o : Ops N) (m m' : Mem) (nm j : Nat) (out : List N) : ∀ (d : List (Nat × Nat)) (cs : List N) (k : Prog), (∀ p ∈ d, p.2 = j → p.1 = nm) →
    core (exec o (Prog.untickOthers m nm d k) cs) = (out, m', .ok .running) → ∃ cs' : List N, cs'[j]? = cs[j]? ∧ core (exec o k cs') = (out, m', .ok .running) := by
  intro d
  induction d with
  | nil => intro cs k _ h; exact ⟨cs, rfl, h⟩
  | cons p d ih =>
    obtain ⟨a, i⟩ := p
    intro cs k hd h
    simp only [Prog.untickOthers] at h
    split at h
    · exact ih cs k (fun p hp => hd p (by simp [hp])) h
    · rename_i hne
      have hij : i ≠ j := fun e => hne (hd (a, i) (by simp) e)
      cases hc : cs[i]? with
      | none => simp [exec, core, hc] at h
      | some c =>
        cases hr : (o.run .untick c).res with
        | err => simp [exec, core, hc, hr] at h
        | ok s =>
          have h' : core (exec o (Prog.untickOthers m nm d k) (cs.set i (o.run .untick c).node)) = (out, m', .ok .running) := by
            simpa [exec, core, hc, hr] using h
          obtain ⟨cs', h1, h2⟩ := ih _ k (fun p hp => hd p (by simp [hp])) h'
          exact ⟨cs', by rw [h1, List.getElem?_set_ne hij], h2⟩

theorem map_one (m : Mem) (hm : m.childMap = [] ∨ ∃ names, m.childMap = buildMap names) (nm j : Nat) (h : dictGet m.childMap nm = some j) : ∀ p ∈ m.childMap, p.2 = j → p.1 = nm := by
  rcases hm with e | ⟨names, e⟩
  · rw [e]; intro p hp; cases hp
  · rw [e] at h ⊢
    obtain ⟨h1, h2⟩ := buildMap_spec names
    rintro ⟨a, i⟩ hp rfl
    have h3 := (h2 a i).1 hp
    have h4 := (h2 nm i).1 ((dictGet_eq _ h1 _ _).1 h)
    have := h3.1.symm.trans h4.1
    exact Option.some.inj this

theorem wait_switch (o : Ops N) {b : Nat} {k : Kind} (hk : k = .nameSwitch ∨ k = .enumSwitch) {env : Nat → Env} {bs : List Nat} (ht : Tame b bs.length k env) (nd : Node N)
    (h : Fit o b k env bs nd) : Wait (Node.ops o) (most bs) nd := by
  have hkey : ∀ i j, (env i).key = (env j).key := by rcases hk with rfl | rfl <;> exact ht
  have hmm : ∀ m, MemOk b k env m → (m.childMap = [] ∨ ∃ names, m.childMap = buildMap names) := by rcases hk with rfl | rfl <;> exact fun m h => h
  refine wait_of (o := Node.ops o) (fun nd n => Fit o b k env bs nd ∧ (most bs ≤ n ∨ finished nd.state = false ∧ ∀ nm j c, (env 0).key = some nm → dictGet nd.mem.childMap nm = some j → nd.children[j]? = some c → Wait o n c)) ?_ _ nd ⟨h, Or.inl (Nat.le_refl _)⟩
  rintro nd n ⟨hf, hw⟩ hr
  have hf' := fit_run o ht .tick nd hf
  obtain ⟨hx, hst, _⟩ := tick_running o nd hr
  have hfin : finished (nd.run o .tick).node.state = false := by rw [hst]; rfl
  have hh : hookProg k .tick nd.state nd.mem (env nd.ctr) (nd.children.map o.name) =
      if (env nd.ctr).cfgOk then
        match (env nd.ctr).key with
        | none => .done nd.mem (.ok .failed)
        | some name =>
          match dictGet nd.mem.childMap name with
          | none => .done nd.mem (.ok .failed)
          | some j => Prog.resetIfFinished nd.children.length nd.state nd.mem (Prog.untickOthers nd.mem name nd.mem.childMap (.call .tick j fun r => .done nd.mem r))
      else .done nd.mem .err := by
    rcases hk with rfl | rfl <;> simp only [hookProg, tickHook, List.length_map] <;> rfl
  rw [hf.kind, hf.envs, hh] at hx
  split at hx
  · cases hkk : (env nd.ctr).key with
    | none => simp [hkk, core] at hx
    | some nm =>
      simp only [hkk] at hx
      have hk0 : (env 0).key = some nm := by rw [hkey 0 nd.ctr, hkk]
      cases hj : dictGet nd.mem.childMap nm with
      | none => simp [hj, core] at hx
      | some j =>
        simp only [hj] at hx
        have main : ∀ (cs : List N) (n : Nat), (∀ c, cs[j]? = some c → Wait o n c) →
            core (exec o (Prog.untickOthers nd.mem nm nd.mem.childMap (.call .tick j fun r => .done nd.mem r)) cs) = ((nd.run o .tick).node.children, (nd.run o .tick).node.mem, .ok .running) →
            ∃ n', n' < n ∧ ∀ nm' j' c, (env 0).key = some nm' → dictGet (nd.run o .tick).node.mem.childMap nm' = some j' → (nd.run o .tick).node.children[j']? = some c → Wait o n' c := by
          intro cs n hc h
          obtain ⟨cs', h1, h2⟩ := untickOthers_keeps o _ _ nm j _ _ cs _ (map_one nd.mem (hmm _ hf.mem) nm j hj) h
          cases hcj : cs'[j]? with
          | none => simp [exec, core, hcj] at h2
          | some c =>
            simp only [exec, hcj, core, Prod.mk.injEq] at h2
            obtain ⟨g1, g2, g3⟩ := h2
            rw [h1] at hcj
            obtain ⟨n', rfl, hw'⟩ := wait_pred (hc c hcj) g3
            refine ⟨n', by omega, ?_⟩
            intro nm' j' c' e1 e2 e3
            rw [hk0] at e1
            cases e1
            rw [← g2, hj] at e2
            cases e2
            rw [← g1] at e3
            have hlt : j < cs'.length := by
              rw [h1.symm] at hcj
              exact (List.getElem?_eq_some_iff.1 hcj).1
            rw [List.getElem?_set_self hlt] at e3
            cases e3
            exact hw'
        unfold Prog.resetIfFinished at hx
        by_cases hs' : nd.state = .succeeded ∨ nd.state = .failed
        · simp only [hs', if_true] at hx
          rw [core_forAll0] at hx
          have hn : most bs ≤ n := by
            rcases hw with hw | ⟨hw, _⟩
            · exact hw
            · rcases hs' with hs' | hs' <;> rw [hs'] at hw <;> simp [finished] at hw
          split at hx
          · have hk2 := all_known o _ _ (sweep_known o .reset _ _ hf.known)
            obtain ⟨n', h1, h2⟩ := main _ (most bs) (fun c hc => (prompt_now (hk2 c (List.mem_of_getElem? hc))).2) hx
            exact ⟨n', by omega, hf', Or.inr ⟨hfin, h2⟩⟩
          · simp at hx
        · simp only [hs', if_false] at hx
          have hk2 := all_known o _ _ hf.known
          have hl : ∃ n1, n1 ≤ n ∧ ∀ c, nd.children[j]? = some c → Wait o n1 c := by
            rcases hw with hw | ⟨_, hw⟩
            · exact ⟨_, hw, fun c hc => (prompt_now (hk2 c (List.mem_of_getElem? hc))).2⟩
            · exact ⟨n, Nat.le_refl _, fun c hc => hw nm j c hk0 hj hc⟩
          obtain ⟨n1, h0, hl⟩ := hl
          obtain ⟨n', h1, h2⟩ := main _ n1 hl hx
          exact ⟨n', by omega, hf', Or.inr ⟨hfin, h2⟩⟩
  · simp [core] at hx

/-! ### All classes -/

/-- Over children with known numbers, a tame node has a known number too. -/
theorem node_prompt (o : Ops N) (hs : Sound o) {b : Nat} {k : Kind} {env : Nat → Env} {bs : List Nat} (ht : Tame b bs.length k env) (nd : Node N)
    (h : Fit o b k env bs nd) : Prompt (Node.ops o) (nodeBound k b bs) nd := by
  refine prompt_of (o := Node.ops o) (Fit o b k env bs) (fun op t h => fit_run o ht op t h) (fun t h => ⟨fit_plain o ht t h, ?_⟩) h
  cases k with
  | leaf => exact wait_leaf o ht t h
  | sequence => exact wait_row o true ht t h
  | fallback => exact wait_row o false ht t h
  | memSequence => exact wait_mem o true ht t h
  | memFallback => exact wait_mem o false ht t h
  | nameSwitch => exact wait_switch o (Or.inl rfl) ht t h
  | enumSwitch => exact wait_switch o (Or.inr rfl) ht t h
  | parallel => exact wait_par o hs (Or.inl rfl) ht t h
  | parallelTol => exact wait_par o hs (Or.inr rfl) ht t h
  | ignoreRunning => exact wait_never o (Or.inl rfl) t h.kind
  | throttleSuccess => exact wait_never o (Or.inr rfl) t h.kind
  | retry | «repeat» | repeatNoAutoReset => exact wait_counts o rfl ht t h
  | iterateList => exact wait_iterate o ht t h
  | untilSuccess | repeatAlways | repeatUntilFail | repeatIfFail => exact ht.elim
  | ignoreFailure | ignoreSuccess | inverter | optional | watch | getter | throttle | subtree => exact wait_handsOn o rfl ht t h

end Verif.BT.Finish
