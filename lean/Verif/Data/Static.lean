import Verif.Data.Permitted

/-! C48: static values are write-once. -/

set_option autoImplicit false

namespace Verif.Data

/-- An operation that does not clear the updated flag. -/
def COp.keepsFlag : COp → Bool
  | .resetUpdated => false
  | _ => true

theorem locked_step (env : Env) (c : Cont) (o : COp) (hs : c.isStatic = true) (hu : c.updated = true) (ho : o.keepsFlag = true) :
    (c.step env o).1 = c := by
  have hset : ∀ v, (c.set v).1 = c := by
    intro v
    unfold Cont.set Cont.assign
    split
    · simp [hs, hu]
    · rfl
  cases o with
  | set v => exact hset v
  | deserialize n j =>
    simp only [Cont.step, Cont.deserializeValue]
    split
    · exact hset _
    · rfl
  | resetValue => simp [Cont.step, Cont.resetValue, hs]
  | flagUpdated => simp only [Cont.step, Cont.flagUpdated]; rw [← hu]
  | resetUpdated => simp [COp.keepsFlag] at ho

/-- A static container whose flag is set keeps its value, and refuses every value, until the flag is cleared. Missing for the
full property: the flag is cleared by every tick of the node (`c48_after_tick`), and it is not set by writing the value that is
already there (`c48_after_default`). -/
theorem c48_locked_partial (env : Env) (c : Cont) (ops : List COp) (hs : c.isStatic = true) (hu : c.updated = true)
    (ho : ∀ o ∈ ops, o.keepsFlag = true) : c.run env ops = c ∧ ∀ v, (c.set v).2 ≠ .ok := by
  refine ⟨?_, ?_⟩
  · induction ops with
    | nil => rfl
    | cons o ops ih =>
      show Cont.run env (c.step env o).1 ops = c
      rw [locked_step env c o hs hu (ho o (.head _))]
      exact ih fun o h => ho o (.tail _ h)
  · intro v
    unfold Cont.set Cont.assign
    split
    · simp [hs, hu]
    · assumption

/-- The first write of a different value to a static container locks it: no later write changes it while the flag is not cleared. -/
theorem c48_first_write_partial (env : Env) (c : Cont) (v : Val) (ops : List COp) (hs : c.isStatic = true)
    (hok : (c.set v).2 = .ok) (hne : ∀ w, c.value = some w → pyEq w (clean c.ty v) = false) (ho : ∀ o ∈ ops, o.keepsFlag = true) :
    ((c.set v).1.run env ops).value = some (clean c.ty v) := by
  rcases set_cases c v with ⟨a, ha, e⟩ | ⟨_, e⟩ | ⟨_, w, hw, h2, _⟩
  · rw [e] at hok; exact absurd hok ha
  · rw [e]
    rw [(c48_locked_partial env _ ops (by simpa using hs) rfl ho).1]
  · rw [hne w hw] at h2; cases h2

/-- Resetting values (as `Node.setup` and `Node.reset` do) never changes a static container. -/
theorem c48_reset (c : Cont) (hs : c.isStatic = true) : c.resetValue = c := by simp [Cont.resetValue, hs]

/-! ### Violations -/

/-- Once the node has been ticked (`reset_updated`), a static value can be overwritten. -/
theorem c48_after_tick (lo hi i j : Int) (h1 : lo ≤ i) (h2 : i ≤ hi) (h3 : lo ≤ j) (h4 : j ≤ hi) (hij : i ≠ j) :
    let c : Cont := ⟨.int lo hi, true, true, true, none, false⟩
    (c.set (.int i)).2 = .ok ∧ (c.set (.int i)).1.value = some (.int i) ∧
    ((c.set (.int i)).1.resetUpdated.set (.int j)).2 = .ok ∧
    ((c.set (.int i)).1.resetUpdated.set (.int j)).1.value = some (.int j) := by
  have e6 : pyEq (.int i) (.int j) = false := by simp [pyEq, pyEq.numEq, Val.num, Flt.eq]; exact hij
  have c1 : check (.int lo hi) (.int i) = .ok := (check_ok _ _).mpr (.int (.int _) h1 h2)
  have c2 : check (.int lo hi) (.int j) = .ok := (check_ok _ _).mpr (.int (.int _) h3 h4)
  simp [Cont.set, c1, c2, Cont.assign, clean, Cont.resetUpdated, e6]

/-- Writing the automatic value does not lock a static container. -/
theorem c48_after_default :
    ∃ c, Cont.new (fun _ => []) (.int 0 9) true true none none = some c ∧ c.isStatic = true ∧
      (c.set (.int 0)).2 = .ok ∧ ((c.set (.int 0)).1.set (.int 5)).2 = .ok ∧ ((c.set (.int 0)).1.set (.int 5)).1.value = some (.int 5) := by
  refine ⟨⟨.int 0 9, true, true, true, some (.int 0), false⟩, rfl, rfl, ?_⟩
  simp [Cont.set, check, Cont.assign, clean, pyEq, pyEq.numEq, Val.num, Flt.eq]

/-! A non-trivial instance: 7 is written to a static input that held 0, later attempts have no effect. -/

example (env : Env) :
    ((((⟨.int 0 9, true, true, true, some (.int 0), false⟩ : Cont).set (.int 7)).1).run env
      [.set (.int 3), .resetValue, .flagUpdated, .set (.int 0)]).value = some (.int 7) := by
  refine c48_first_write_partial env _ (.int 7) _ rfl ?_ ?_ ?_
  · simp [Cont.set, check, Cont.assign]
  · intro w hw
    cases hw
    simp [clean, pyEq, pyEq.numEq, Val.num, Flt.eq]
  · decide

end Verif.Data
