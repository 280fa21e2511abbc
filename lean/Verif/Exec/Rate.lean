import Mathlib.Algebra.Order.Field.Rat
import Mathlib.Tactic.Linarith
import Mathlib.Tactic.Positivity
import Mathlib.Tactic.NormNum
import Mathlib.Tactic.Ring
import Mathlib.Tactic.FieldSimp
import Verif.Exec.Calls

/-! C100: the rate of ticking (tree_exec_manager.py 440-453, 718-740 and 1103-1106). Numbers are exact instead of floats. -/

set_option autoImplicit false

namespace Verif.Exec.Rate

open Verif.BT (Op Res BTState Ops)

/-! ### The model -/

/-- What the manager knows about the rate of ticking: `tick_frequency_hz`, `tick_sliding_window`; and what comes out of it: the number of warnings
"Tick took longer than set period" and the messages published as tick frequency. -/
structure Meter where
  freq : ℚ
  window : List ℚ
  warnings : Nat := 0
  published : List ℚ := []

/-- tree_exec_manager.py 443-452: the setter of `tick_frequency_hz`. -/
def setFreq (f : ℚ) (m : Meter) : Meter := { m with freq := if f = 0 then 10 else f }

/-- tree_exec_manager.py 351-355: `__init__`. -/
def create (f : ℚ) : Meter := { freq := if f = 0 then 10 else f, window := List.replicate 10 (if f = 0 then 10 else f) }

/-- tree_exec_manager.py 724: the condition for the warning, for a tick that has taken `d` nanoseconds. -/
def warns (f : ℚ) (d : Nat) : Prop := 1 / f > d * 10 ^ 9

instance (f : ℚ) (d : Nat) : Decidable (warns f d) := by unfold warns; infer_instance

/-- tree_exec_manager.py 732-734 -/
def mean (l : List ℚ) : ℚ := l.sum / l.length

/-- tree_exec_manager.py 731: `duration.nanoseconds * 1e9` -/
def entry (d : Nat) : ℚ := d * 10 ^ 9

/-- tree_exec_manager.py 718-740: after a tick that has taken `d` nanoseconds. -/
def ticked (d : Nat) (m : Meter) : Meter :=
  let w := m.window.tail ++ [entry d]
  { m with window := w, warnings := if warns m.freq d then m.warnings + 1 else m.warnings, published := m.published ++ [mean w] }

/-- What can happen: a frequency is set (by loading a tree or with TICK_PERIODICALLY and TICK_UNTIL_RESULT), or a tick ends. -/
inductive Event
  | set (f : ℚ)
  | tick (d : Nat)

def step : Event → Meter → Meter
  | .set f => setFreq f
  | .tick d => ticked d

def run (es : List Event) (m : Meter) : Meter := es.foldl (fun m e => step e m) m

/-- tree_exec_manager.py 1103-1107 with 1098-1102: TICK_PERIODICALLY and TICK_UNTIL_RESULT with a negative frequency, no thread running and a
tree with a root: `create_rate` raises `ValueError` before the thread is started. -/
def negative {N : Type} (untilResult : Bool) (m : Mgr N) : Mgr N := { renew m with state := .ticking, once := false, untilResult := untilResult }

/-! ### What is wanted -/

/-- The tick has taken longer than the period. -/
def TooSlow (f : ℚ) (d : Nat) : Prop := 1 / f < d / 10 ^ 9

/-- The durations of the ticks in a history, in nanoseconds. -/
def durations : List Event → List Nat
  | [] => []
  | .tick d :: es => d :: durations es
  | .set _ :: es => durations es

/-- Ticks per second, if the last ticks have taken so long. -/
def hertz (l : List Nat) : ℚ := l.length / ((l.map fun d : Nat => (d : ℚ) / 10 ^ 9).sum)

/-! ### Proofs -/

theorem freq_ne (es : List Event) : ∀ m : Meter, m.freq ≠ 0 → (run es m).freq ≠ 0 := by
  induction es with
  | nil => intro m h; exact h
  | cons e es ih =>
    intro m h
    refine ih (step e m) ?_
    cases e with
    | set f =>
      show (if f = 0 then (10 : ℚ) else f) ≠ 0
      split
      · norm_num
      · assumption
    | tick d => exact h

/-- C100: whatever frequencies are asked for, the tick frequency is never zero (so that the period exists). -/
theorem c100_never_zero (f : ℚ) (es : List Event) : (run es (create f)).freq ≠ 0 := by
  refine freq_ne es _ ?_
  show (if f = 0 then (10 : ℚ) else f) ≠ 0
  split
  · norm_num
  · assumption

theorem window_run (es : List Event) : ∀ m : Meter, m.window.length = 10 →
    (run es m).window = (m.window ++ (durations es).map entry).drop (durations es).length ∧ (run es m).window.length = 10 := by
  induction es with
  | nil => intro m h; simp [run, durations, h]
  | cons e es ih =>
    intro m h
    cases e with
    | set f => exact ih (setFreq f m) h
    | tick d =>
      have hl : (ticked d m).window.length = 10 := by simp [ticked, h]
      have := ih (ticked d m) hl
      refine ⟨?_, this.2⟩
      show (run es (ticked d m)).window = _
      rw [this.1]
      cases hw : m.window with
      | nil => rw [hw] at h; cases h
      | cons x xs => simp [ticked, hw, durations]

/-- C100: the number published after a tick is the mean of the last ten entries of the window, which are, oldest first, the given frequency (ten
times) and then the durations of the ticks, in units of 10⁻¹⁸ s. (What is missing: it is not a frequency, see `c100_not_hertz`.) -/
theorem c100_mean_partial (f : ℚ) (es : List Event) (d : Nat) :
    (run (es ++ [.tick d]) (create f)).published.getLast? =
      some (mean ((List.replicate 10 (if f = 0 then 10 else f) ++ (durations es ++ [d]).map entry).drop ((durations es).length + 1))) := by
  have e : run (es ++ [.tick d]) (create f) = ticked d (run es (create f)) := by simp [run, step]
  rw [e]
  have hw := window_run es (create f) (by simp [create])
  unfold ticked
  dsimp only
  rw [List.getLast?_append]
  simp only [List.getLast?_singleton, Option.some_or]
  congr 2
  have hx : (run es (create f)).window.tail ++ [entry d] = ((run es (create f)).window ++ [entry d]).drop 1 := by
    cases hc : (run es (create f)).window with
    | nil => rw [hc] at hw; cases hw.2
    | cons x xs => rfl
  rw [hx, hw.1]
  have hc : (create f).window = List.replicate 10 (if f = 0 then 10 else f) := rfl
  rw [hc]
  generalize List.replicate 10 (if f = 0 then (10 : ℚ) else f) = w
  rw [List.map_append, ← List.append_assoc, ← List.drop_drop]
  congr 1
  have hle : (durations es).length ≤ (w ++ (durations es).map entry).length := by rw [List.length_append, List.length_map]; omega
  exact (List.drop_append_of_le_length hle).symm

/-- C100: if a tick takes longer than the period, there is no warning, whatever the frequency. -/
theorem c100_never_warns (f : ℚ) (d : Nat) (h : TooSlow f d) (m : Meter) (hm : m.freq = f) :
    (ticked d m).warnings = m.warnings := by
  have hn : ¬ warns f d := by
    unfold TooSlow at h
    unfold warns
    have h1 : (0 : ℚ) ≤ d := by positivity
    have h2 : (d : ℚ) / 10 ^ 9 ≤ d * 10 ^ 9 := by
      rw [div_le_iff₀ (by norm_num)]
      nlinarith
    linarith
  unfold ticked
  dsimp only
  rw [hm, if_neg hn]

/-- C100: there is a warning if the tick took no time at all; and for frequencies from a nanohertz on only then. -/
theorem c100_warns_iff (f : ℚ) (d : Nat) (hf : 1 / 10 ^ 9 ≤ f) (m : Meter) (hm : m.freq = f) :
    (ticked d m).warnings = m.warnings + 1 ↔ d = 0 := by
  have hp : 0 < f := lt_of_lt_of_le (by norm_num) hf
  have hw : warns f d ↔ d = 0 := by
    unfold warns
    constructor
    · intro h
      rcases Nat.eq_zero_or_pos d with h0 | h0
      · exact h0
      · exfalso
        have h1 : (1 : ℚ) ≤ d := by exact_mod_cast h0
        have h2 : 1 / f ≤ 10 ^ 9 := by
          rw [div_le_iff₀ hp]
          nlinarith
        nlinarith
    · intro h
      subst h
      have : 0 < 1 / f := by positivity
      simpa using this
  unfold ticked
  dsimp only
  rw [hm]
  by_cases h : warns f d
  · rw [if_pos h]; exact ⟨fun _ => hw.1 h, fun _ => rfl⟩
  · rw [if_neg h]; exact ⟨fun e => absurd e (by omega), fun e => absurd (hw.2 e) h⟩

/-- C100: after ten ticks that took the same time, a nanosecond or more, the published number is the frequency of the ticks only if they took exactly a
nanosecond. -/
theorem c100_not_hertz (f : ℚ) (es : List Event) (d : Nat) (hd : 0 < d) :
    (run (es ++ List.replicate 10 (.tick d)) (create f)).published.getLast? = some ((d : ℚ) * 10 ^ 9) ∧
    ((d : ℚ) * 10 ^ 9 = hertz (List.replicate 10 d) ↔ d = 1) := by
  constructor
  · have e : es ++ List.replicate 10 (Event.tick d) = (es ++ List.replicate 9 (Event.tick d)) ++ [.tick d] := by
      rw [List.append_assoc]; rfl
    rw [e, c100_mean_partial]
    have hdur : ∀ (a b : List Event), durations (a ++ b) = durations a ++ durations b := by
      intro a b
      induction a with
      | nil => rfl
      | cons x xs ih => cases x <;> simp [durations, ih]
    have h9 : durations (List.replicate 9 (Event.tick d)) = List.replicate 9 d := rfl
    rw [hdur, h9]
    have : (List.replicate 10 (if f = 0 then (10 : ℚ) else f) ++ (durations es ++ List.replicate 9 d ++ [d]).map entry).drop
        ((durations es ++ List.replicate 9 d).length + 1) = List.replicate 10 (entry d) := by
      have e2 : (durations es ++ List.replicate 9 d ++ [d]) = durations es ++ List.replicate 10 d := by
        rw [List.append_assoc]; rfl
      rw [e2, List.map_append, ← List.append_assoc]
      rw [List.drop_append_of_le_length (by simp)]
      rw [List.drop_eq_nil_of_le (by simp)]
      simp
    rw [this]
    unfold mean entry
    simp
    ring
  · have h0 : (0 : ℚ) < d := by exact_mod_cast hd
    have : hertz (List.replicate 10 d) = 10 ^ 9 / d := by
      unfold hertz
      simp
      field_simp
      norm_num
    rw [this, eq_div_iff (ne_of_gt h0)]
    constructor
    · intro h
      have h1 : (d : ℚ) * d = 1 := by nlinarith
      have h2 : d * d = 1 := by exact_mod_cast h1
      exact Nat.eq_one_of_mul_eq_one_right h2
    · intro h; subst h; norm_num

/-- C100: after a request to tick with a negative frequency nothing runs, but the state is TICKING and no edit is possible; the next STOP is refused;
only a SHUTDOWN after that makes the tree editable again. -/
theorem c100_negative_frequency :
    let m : Mgr BTState := negative false { tree := .root .uninitialized }
    let m1 := control toy true .stop m
    let m2 := control toy true .shutdown m1.1
    m.state = .ticking ∧ m.thread.isAlive = false ∧ m1.2.success = false ∧ m1.1.state = .stopRequested ∧ (edit id m1.1).2 = false ∧ m2.2.success = true ∧ m2.1.state = .editable := by
  decide

/-! ### Examples -/

/-- A tick at 10 Hz that has taken a second is too slow. -/
example : TooSlow 10 (10 ^ 9) ∧ (0 : ℚ) < 10 := by unfold TooSlow; norm_num

/-- Ten ticks of 20 ms each at 10 Hz: no warning, and the published number is not 50. -/
example : (run (List.replicate 10 (.tick (2 * 10 ^ 7))) (create 10)).published.getLast? = some (2 * 10 ^ 16) := by
  have := (c100_not_hertz 10 [] (2 * 10 ^ 7) (by norm_num)).1
  rw [List.nil_append] at this
  rw [this]
  norm_num

end Verif.Exec.Rate
