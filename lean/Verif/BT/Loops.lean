import Verif.BT.Sem

/-!
# Normal forms for the loops used in hooks
-/

set_option autoImplicit false

namespace Verif.BT

variable {N : Type}

@[simp] theorem exec_done (o : Ops N) (m : Mem) (r : Res) (cs : List N) :
    exec o (.done m r) cs = ⟨cs, m, r, [], []⟩ := rfl

/-- Calling `op` on the children `cs` in order until one answers `Err`: children afterwards,
whether all answered `Ok`, calls (child numbers starting at `j`) and trace. -/
def callAll (o : Ops N) (op : Op) : Nat → List N → List N × Bool × List Call × List Ev
  | _, [] => ([], true, [], [])
  | j, c :: cs =>
    let out := o.run op c
    if out.res.isOk then
      let (cs', b, l, t) := callAll o op (j + 1) cs
      (out.node :: cs', b, ⟨op, j, out.res⟩ :: l, out.trace ++ t)
    else (out.node :: cs, false, [⟨op, j, out.res⟩], out.trace)

theorem exec_forAll (o : Ops N) (op : Op) (m : Mem) (k : Prog) (todo : List N) :
    ∀ pre : List N,
    exec o (Prog.forAll op m (List.range' pre.length todo.length) k) (pre ++ todo) =
      let (cs', b, l, t) := callAll o op pre.length todo
      if b then
        let x := exec o k (pre ++ cs')
        { x with log := l ++ x.log, trace := t ++ x.trace }
      else ⟨pre ++ cs', m, .err, l, t⟩ := by
  induction todo with
  | nil => intro pre; simp [Prog.forAll, callAll]
  | cons c cs ih =>
    intro pre
    have h := ih (pre ++ [(o.run op c).node])
    simp only [List.length_append, List.length_cons, List.length_nil, List.append_assoc,
      List.singleton_append, Nat.zero_add] at h
    simp only [List.length_cons, List.range'_succ, Prog.forAll, exec, callAll]
    simp only [List.getElem?_append_right (Nat.le_refl _), Nat.sub_self, List.getElem?_cons_zero]
    cases hr : (o.run op c).res with
    | err => simp [exec]
    | ok s =>
      simp only [Res.isOk_ok, if_true]
      rw [List.set_append_right _ _ (Nat.le_refl _)]
      simp only [Nat.sub_self, List.set_cons_zero]
      rw [h]
      rcases callAll o op (pre.length + 1) cs with ⟨cs', b, l, t⟩
      cases b <;> simp

theorem exec_forAll_range (o : Ops N) (op : Op) (m : Mem) (k : Prog) (cs : List N) :
    exec o (Prog.forAll op m (List.range cs.length) k) cs =
      let (cs', b, l, t) := callAll o op 0 cs
      if b then
        let x := exec o k cs'
        { x with log := l ++ x.log, trace := t ++ x.trace }
      else ⟨cs', m, .err, l, t⟩ := by
  have := exec_forAll o op m k cs []
  simpa [List.range_eq_range'] using this

theorem exec_allThen (o : Ops N) (op : Op) (m : Mem) (s : BTState) (cs : List N) (n : Nat)
    (hn : n = cs.length) :
    exec o (Prog.allThen n op m s) cs =
      let (cs', b, l, t) := callAll o op 0 cs
      ⟨cs', m, if b then .ok s else .err, l, t⟩ := by
  subst hn
  unfold Prog.allThen
  rw [exec_forAll_range]
  rcases callAll o op 0 cs with ⟨cs', b, l, t⟩
  cases b <;> simp

theorem exec_untickPaused (o : Ops N) (m : Mem) (cs : List N) (n : Nat)
    (hn : n = cs.length) :
    exec o (Prog.untickPaused n m) cs =
      let (cs', b, l, t) := callAll o .untick 0 cs
      ⟨cs', m, if b then .ok .paused else .err, l, t⟩ :=
  exec_allThen o .untick m .paused cs n hn

theorem callAll_length (o : Ops N) (op : Op) (j : Nat) (cs : List N) :
    (callAll o op j cs).1.length = cs.length := by
  induction cs generalizing j with
  | nil => simp [callAll]
  | cons c cs ih =>
    simp only [callAll]
    split <;> simp [ih]

/-- If all answers are `Ok`, every child has been replaced by its successor. -/
theorem callAll_ok (o : Ops N) (op : Op) (j : Nat) (cs : List N)
    (h : (callAll o op j cs).2.1 = true) :
    (callAll o op j cs).1 = cs.map (fun c => (o.run op c).node) ∧
    ∀ c ∈ cs, (o.run op c).res.isOk = true := by
  induction cs generalizing j with
  | nil => simp [callAll]
  | cons c cs ih =>
    simp only [callAll] at h ⊢
    by_cases hr : (o.run op c).res.isOk = true
    · simp only [hr, if_true] at h ⊢
      have := ih _ h
      simp [this.1, hr]
      exact this.2
    · simp only [hr] at h
      simp at h

theorem exec_onHead_nil (o : Ops N) (op : Op) (m : Mem) (f : BTState → BTState) (d : BTState) :
    exec o (Prog.onHead 0 op m f d) ([] : List N) = ⟨[], m, .ok d, [], []⟩ := by
  simp [Prog.onHead]

theorem exec_onHead_cons (o : Ops N) (op : Op) (m : Mem) (f : BTState → BTState) (d : BTState)
    (c : N) (cs : List N) :
    exec o (Prog.onHead (cs.length + 1) op m f d) (c :: cs) =
      ⟨(o.run op c).node :: cs, m, (o.run op c).res.map f, [⟨op, 0, (o.run op c).res⟩],
        (o.run op c).trace⟩ := by
  simp [Prog.onHead, exec]

theorem exec_call_head (o : Ops N) (op : Op) (k : Res → Prog) (c : N) (cs : List N) :
    exec o (.call op 0 k) (c :: cs) =
      let out := o.run op c
      let rest := exec o (k out.res) (out.node :: cs)
      { rest with log := ⟨op, 0, out.res⟩ :: rest.log, trace := out.trace ++ rest.trace } := by
  simp [exec]

end Verif.BT
