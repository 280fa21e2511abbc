import Verif.BT.Rounds

/-!
# C138: when a ParallelFailureTolerance comes to an end

C16 shows that a ParallelFailureTolerance may answer RUNNING forever. Here is exactly when: for given
results of the children, and for given options.
-/

set_option autoImplicit false

namespace Verif.BT.Tolerance

open Rounds

/-! ### Specification -/

/-- Specification: the number of children among the first `len` whose result is `b`. -/
def total (len : Nat) (w : Nat → BTState) (b : BTState) : Nat :=
  ((List.range len).filter fun j => decide (w j = b)).length

/-! ### Counting -/

theorem reached_le (len : Nat) (D : Nat → Nat) (w : Nat → BTState) (b : BTState) (i : Nat) :
    reached len D w b i ≤ total len w b := by
  unfold reached total
  rw [← List.countP_eq_length_filter, ← List.countP_eq_length_filter]
  apply List.countP_mono_left
  intro j _ h
  simp only [Bool.and_eq_true] at h
  exact h.2

theorem reached_end (len : Nat) (D : Nat → Nat) (w : Nat → BTState) (b : BTState) (i : Nat)
    (hi : ∀ j, j < len → D j ≤ i) : reached len D w b i = total len w b := by
  unfold reached total
  congr 1
  apply List.filter_congr
  intro j hj
  simp [hi j (List.mem_range.1 hj)]

theorem total_all (len : Nat) (w : Nat → BTState)
    (hw : ∀ j, j < len → w j = .succeeded ∨ w j = .failed) :
    total len w .succeeded + total len w .failed = len := by
  obtain ⟨i, hi⟩ := exists_bound len fun _ => 0
  rw [← reached_end len (fun _ => 0) w _ i hi, ← reached_end len (fun _ => 0) w _ i hi]
  exact reached_all len _ w hw i hi

theorem total_first (k : Nat) : ∀ len, k ≤ len →
    total len (fun j => if j < k then .succeeded else .failed) .succeeded = k := by
  intro len
  induction len with
  | zero => intro h; simp [total]; omega
  | succ len ih =>
    intro h
    unfold total at ih ⊢
    rw [List.range_succ, List.filter_append, List.length_append]
    by_cases e : k ≤ len
    · rw [ih e]
      have : ¬ len < k := by omega
      simp [this]
    · have : k = len + 1 := by omega
      subst this
      have h1 : ((List.range len).filter fun j => decide ((if j < len + 1 then BTState.succeeded
          else .failed) = .succeeded)) = List.range len := by
        rw [List.filter_eq_self]
        intro j hj
        have := List.mem_range.1 hj
        simp [show j < len + 1 by omega]
      rw [h1]
      simp

theorem verdict_running (len : Nat) (k lim : Int) (D : Nat → Nat) (w : Nat → BTState) (i : Nat) :
    verdict len k lim D w i = .running ↔
      (reached len D w .succeeded i : Int) < k ∧ (reached len D w .failed i : Int) ≤ lim := by
  unfold verdict
  split
  · simp; omega
  · split
    · simp; omega
    · simp; omega

/-! ### C138 -/

/-- **C138, which results end a round.** The rule of `c138_round` comes to an end for given durations
and results of the children if and only if at last enough of them succeed or too many fail. -/
theorem c138_ends_iff (len : Nat) (k lim : Int) (D : Nat → Nat) (w : Nat → BTState) :
    (∃ T, verdict len k lim D w T ≠ .running) ↔
      k ≤ (total len w .succeeded : Int) ∨ lim < (total len w .failed : Int) := by
  constructor
  · intro ⟨T, hT⟩
    rw [Ne, verdict_running] at hT
    have h1 := reached_le len D w .succeeded T
    have h2 := reached_le len D w .failed T
    omega
  · intro h
    obtain ⟨i, hi⟩ := exists_bound len D
    refine ⟨i, ?_⟩
    rw [Ne, verdict_running, reached_end len D w _ i hi, reached_end len D w _ i hi]
    omega

/-- **C138, a round without end.** A ParallelFailureTolerance is set up and a new round begins, as in
`c138_round`. If in the end too few children succeed, but not too many fail, it answers RUNNING to every
tick, however often it is ticked, although all children come to a result; and once they have, none of
them is ticked any more. -/
theorem c138_forever (n : Nat) (t : Tree (n + 1)) (hk : rootKind n t = .parallelTol)
    (hset : ((ops (n + 1)).run .setup t).res.isOk = true) (rest : List Op)
    (hrest : Op.setup ∉ rest) (D : Nat → Nat) (w : Nat → BTState)
    (hw : ∀ j, j < (rootChildren n t).length → w j = .succeeded ∨ w j = .failed) (m : Nat) :
    let len := (rootChildren n t).length
    let t' := (runs (ops (n + 1)) rest ((ops (n + 1)).run .setup t).node).2
    let outs := (runs (ops (n + 1)) (List.replicate (m + 1) .tick) t').1
    (((ops (n + 1)).state t' = .succeeded ∨ (ops (n + 1)).state t' = .failed) ∨
      ∀ c ∈ rootChildren n t', (ops n).state c ≠ .succeeded ∧ (ops n).state c ≠ .failed) →
    (total len w .succeeded : Int) < (nextEnv n t).num →
    (total len w .failed : Int) ≤ (nextEnv n t).num2 →
    (∀ out ∈ outs, out.res.isOk = true) →
    (∀ j, j < len → answers j (outs.flatMap Out.log) <+: course (D j) (w j)) →
    outs.map Out.res = List.replicate (m + 1) (.ok .running) ∧
    ((∀ j, j < len → D j ≤ m) →
      ∀ j, j < len → answers j (outs.flatMap Out.log) = course (D j) (w j)) := by
  intro len t' outs hnew hs hf hok hpre
  have hlim : limit n t = (nextEnv n t).num2 := by simp [limit, hk]
  have hopen : ∀ i, verdict len (nextEnv n t).num (limit n t) D w i = .running := by
    intro i
    rw [verdict_running, hlim]
    have h1 := reached_le len D w .succeeded i
    have h2 := reached_le len D w .failed i
    omega
  have h := c138_round n t (Or.inr hk) hset rest hrest D w hw m hnew (fun i _ => hopen i) hok hpre
  refine ⟨?_, ?_⟩
  · rw [h.1]
    refine List.eq_replicate_iff.2 ⟨by simp, ?_⟩
    intro r hr
    obtain ⟨i, _, rfl⟩ := List.mem_map.1 hr
    exact congrArg Res.ok (hopen i)
  · intro hD j hj
    rw [h.2 j hj]
    apply List.take_of_length_le
    have := hD j hj
    simp [course]
    omega

/-- **C138, which options are safe.** For a ParallelFailureTolerance that was set up and needs at least
one success, every round comes to an end, whatever the durations and results of the children are, if and
only if it has at least `needed_successes` + `tolerate_failures` children. -/
theorem c138_safe_options (n : Nat) (t : Tree (n + 1)) (hk : rootKind n t = .parallelTol)
    (hset : ((ops (n + 1)).run .setup t).res.isOk = true) (hpos : 0 < (nextEnv n t).num) :
    let len := (rootChildren n t).length
    (∀ (D : Nat → Nat) (w : Nat → BTState), (∀ j, j < len → w j = .succeeded ∨ w j = .failed) →
      ∃ T, verdict len (nextEnv n t).num (limit n t) D w T ≠ .running) ↔
    (nextEnv n t).num + (nextEnv n t).num2 ≤ (len : Int) := by
  intro len
  have hle : (nextEnv n t).num ≤ (len : Int) := (par_setup (ops n) t (Or.inr hk) hset).2.1
  have hlim : limit n t = (nextEnv n t).num2 := by simp [limit, hk]
  rw [hlim]
  constructor
  · intro h
    have hw : ∀ j, j < len → (fun j => if j < ((nextEnv n t).num - 1).toNat then BTState.succeeded
        else .failed) j = .succeeded ∨ (fun j => if j < ((nextEnv n t).num - 1).toNat then
        BTState.succeeded else .failed) j = .failed := by
      intro j _
      show (if _ then _ else _) = _ ∨ (if _ then _ else _) = _
      split
      · exact Or.inl rfl
      · exact Or.inr rfl
    have h1 := (c138_ends_iff _ _ _ _ _).1 (h (fun _ => 0) _ hw)
    have h2 := total_all len _ hw
    have h3 := total_first ((nextEnv n t).num - 1).toNat len (by omega)
    rw [h3] at h1 h2
    omega
  · intro h D w hw
    rw [c138_ends_iff]
    have := total_all len w hw
    omega

/-! ### Examples -/

/-- With two needed successes and one tolerated failure three children are enough. -/
example :
    rootKind 1 (sampleRound .parallelTol) = .parallelTol ∧
    ((ops 2).run .setup (sampleRound .parallelTol)).res.isOk = true ∧
    (nextEnv 1 (sampleRound .parallelTol)).num + (nextEnv 1 (sampleRound .parallelTol)).num2 ≤
      ((rootChildren 1 (sampleRound .parallelTol)).length : Int) := by
  decide +kernel

/-- Three leaves, of which one succeeds; two successes are needed and two failures are tolerated. -/
def sampleOpen : Tree 2 :=
  mk 1 1 .parallelTol
    [mkLeaf 0 2 [.ok .idle, .ok .running, .ok .running, .ok .succeeded],
     mkLeaf 0 3 [.ok .idle, .ok .failed],
     mkLeaf 0 4 [.ok .idle, .ok .running, .ok .failed]]
    (fun _ => { num := 2, num2 := 2 })

/-- The hypotheses of `c138_forever` hold, and the node is still RUNNING in the tenth tick. -/
example :
    let D := fun j => [2, 0, 1].getD j 0
    let w := fun j => [BTState.succeeded, .failed, .failed].getD j .failed
    let t' := ((ops 2).run .setup sampleOpen).node
    let outs := (runs (ops 2) (List.replicate 10 .tick) t').1
    ((ops 2).run .setup sampleOpen).res.isOk = true ∧
    (∀ c ∈ rootChildren 1 t', (ops 1).state c = .idle) ∧
    (total 3 w .succeeded : Int) < (nextEnv 1 sampleOpen).num ∧
    (total 3 w .failed : Int) ≤ (nextEnv 1 sampleOpen).num2 ∧
    (∀ out ∈ outs, out.res = .ok .running) ∧
    (List.range 3).map (fun j => answers j (outs.flatMap Out.log)) =
      (List.range 3).map (fun j => course (D j) (w j)) := by
  decide +kernel

end Verif.BT.Tolerance
