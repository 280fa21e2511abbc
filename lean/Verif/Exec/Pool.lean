/-! C117: STOP and SHUTDOWN end although the requests share a few threads. The executor runs the callbacks of services and timers in a pool of three
threads (`tree_node.py` 518). A request that stops a ticking tree keeps its thread until the tick thread has ended (`tree_exec_manager.py`
1233-1253); the tick thread sleeps until a timer callback wakes it (line 740), and that callback needs a thread of the pool. -/

set_option autoImplicit false

namespace Verif.Exec.Pool

/-! ### The model -/

/-- Where the handler of a STOP or SHUTDOWN request is, tree_exec_manager.py 1157-1317: at line 1190, at 1234 having read TICKING, or in the loop
of joins (1240-1246; ROS is not shutting down, so the loop is left only when the thread has ended). -/
inductive Handler | entered | saw | joining
  deriving DecidableEq, Repr

/-- Where the tick thread is, tree_exec_manager.py 684-748: at the head of the loop (686), in a tick (689-739), in `rate.sleep()` (740), or it has
ended. The tree is ticked periodically and its hooks end. -/
inductive Ticker | head | tick | sleep | ended
  deriving DecidableEq, Repr

/-- `self.state`, as far as it matters. -/
inductive State | ticking | stopRequested | idle
  deriving DecidableEq, Repr

/-- The pool size, the requests that wait for a thread of the pool, the handlers that have one, `self.state`, the tick thread, and the number of
requests that have been answered. -/
structure Sys where
  workers : Nat
  queue : Nat := 0
  busy : List Handler := []
  state : State := .ticking
  ticker : Ticker := .head
  answered : Nat := 0
  deriving DecidableEq, Repr

/-- What can happen next: a request arrives, a thread of the pool takes one, a handler goes on, the timer callback is run, the tick thread goes on. -/
inductive Act | arrive | take | handler (i : Nat) | timer | think
  deriving DecidableEq, Repr

/-- The handler answers and its thread is free again. -/
def Sys.answer (s : Sys) (i : Nat) : Sys := { s with busy := s.busy.eraseIdx i, answered := s.answered + 1 }

/-- One step of a handler, tree_exec_manager.py 1190, 1233-1253. `none`: it waits. -/
def stepHandler (s : Sys) (i : Nat) : Option Sys :=
  match s.busy[i]? with
  | none => none
  | some .entered => if s.state = .ticking then some { s with busy := s.busy.set i .saw } else some (s.answer i)
  | some .saw =>
    if s.ticker = .ended then some ({ s with state := .stopRequested }.answer i)
    else some { s with state := .stopRequested, busy := s.busy.set i .joining }
  | some .joining => if s.ticker = .ended then some (s.answer i) else none

/-- One step of the tick thread, tree_exec_manager.py 684-748. -/
def stepTicker (s : Sys) : Option Sys :=
  match s.ticker with
  | .head => if s.state = .stopRequested then some { s with ticker := .ended, state := .idle } else some { s with ticker := .tick }
  | .tick => some { s with ticker := .sleep }
  | .sleep => none
  | .ended => none

/-- One step; `none`: it cannot happen now. tree_node.py 518-523 (the pool), tree_exec_manager.py 740 (the timer). The callback of the timer is
short, so its use of a thread is one step. -/
def step (s : Sys) : Act → Option Sys
  | .arrive => some { s with queue := s.queue + 1 }
  | .take => if 0 < s.queue ∧ s.busy.length < s.workers then some { s with queue := s.queue - 1, busy := s.busy ++ [.entered] } else none
  | .handler i => stepHandler s i
  | .timer => if s.ticker = .sleep ∧ s.busy.length < s.workers then some { s with ticker := .head } else none
  | .think => stepTicker s

/-- Some steps, one after the other. -/
def run (s : Sys) : List Act → Option Sys
  | [] => some s
  | a :: as => (step s a).bind fun s => run s as

/-! ### Specification -/

/-- Nothing can happen but the arrival of further requests. -/
def Stuck (s : Sys) : Prop := ∀ a, a ≠ .arrive → step s a = none

/-- Somebody waits for an answer. -/
def Waits (s : Sys) : Prop := 0 < s.queue + s.busy.length

/-- The states that can be reached from a ticking tree. -/
def Reached (s : Sys) : Prop := ∃ n as, run { workers := n } as = some s

/-! ### Proofs -/

theorem run_append (s : Sys) (as bs : List Act) : run s (as ++ bs) = (run s as).bind fun s => run s bs := by
  induction as generalizing s with
  | nil => rfl
  | cons a as ih =>
    simp only [List.cons_append, run]
    cases step s a with
    | none => rfl
    | some s' => exact ih s'

/-- Induction over runs. -/
theorem run_keeps {P : Sys → Prop} (hs : ∀ s a s', P s → step s a = some s' → P s') : ∀ (as : List Act) (s s' : Sys), P s → run s as = some s' → P s' := by
  intro as
  induction as with
  | nil => intro s s' h hr; cases hr; exact h
  | cons a as ih =>
    intro s s' h hr
    simp only [run] at hr
    cases h1 : step s a with
    | none => rw [h1] at hr; cases hr
    | some s1 =>
      rw [h1] at hr
      exact ih s1 s' (hs s a s1 h h1) hr

/-- In all reached states: the pool is not overfull, and a handler joins only a thread that has been told to stop. -/
structure Inv (s : Sys) : Prop where
  pool : s.busy.length ≤ s.workers
  joining : Handler.joining ∈ s.busy → s.state = .stopRequested ∨ s.ticker = .ended
  idle : s.state = .idle → s.ticker = .ended

theorem mem_of_eraseIdx {l : List Handler} {i : Nat} {h : Handler} (hm : h ∈ l.eraseIdx i) : h ∈ l := List.mem_of_mem_eraseIdx hm

theorem inv_step (s : Sys) (a : Act) (s' : Sys) (h : Inv s) (hs : step s a = some s') : Inv s' := by
  obtain ⟨h1, h2, h4⟩ := h
  cases a with
  | arrive => cases hs; exact ⟨h1, h2, h4⟩
  | take =>
    simp only [step] at hs
    split at hs
    · rename_i hc
      cases hs
      refine ⟨?_, ?_, h4⟩
      · simp only [List.length_append, List.length_cons, List.length_nil]
        omega
      · intro hj
        exact h2 (by simpa using hj)
    · cases hs
  | timer =>
    simp only [step] at hs
    split at hs
    · rename_i hc
      cases hs
      have hi : s.state ≠ .idle := fun h => by rw [h4 h] at hc; cases hc.1
      refine ⟨h1, fun hj => .inl ?_, fun h => absurd h hi⟩
      rcases h2 hj with h | h
      · exact h
      · rw [h] at hc
        cases hc.1
    · cases hs
  | think =>
    simp only [step, stepTicker] at hs
    split at hs
    · rename_i ht
      split at hs
      · cases hs
        exact ⟨h1, fun _ => .inr rfl, fun _ => rfl⟩
      · rename_i hc
        cases hs
        have hi : s.state ≠ .idle := fun h => by have := h4 h; rw [ht] at this; cases this
        refine ⟨h1, fun hj => ?_, fun h => absurd h hi⟩
        rcases h2 hj with h | h
        · exact absurd h hc
        · rw [ht] at h; cases h
    · rename_i ht
      cases hs
      have hi : s.state ≠ .idle := fun h => by have := h4 h; rw [ht] at this; cases this
      refine ⟨h1, fun hj => ?_, fun h => absurd h hi⟩
      rcases h2 hj with h | h
      · exact .inl h
      · rw [ht] at h; cases h
    · cases hs
    · cases hs
  | handler i =>
    simp only [step, stepHandler] at hs
    split at hs
    · cases hs
    · split at hs
      · cases hs
        refine ⟨by simpa using h1, fun hj => h2 ?_, h4⟩
        rcases List.mem_or_eq_of_mem_set hj with h | h
        · exact h
        · cases h
      · cases hs
        refine ⟨?_, fun hj => h2 (mem_of_eraseIdx hj), h4⟩
        exact Nat.le_trans (List.length_eraseIdx_le _ _) h1
    · split at hs
      · rename_i ht
        cases hs
        refine ⟨Nat.le_trans (List.length_eraseIdx_le _ _) h1, fun _ => .inl rfl, fun _ => ht⟩
      · rename_i ht
        cases hs
        refine ⟨by simpa using h1, fun _ => .inl rfl, fun h => (nomatch h)⟩
    · split at hs
      · cases hs
        refine ⟨Nat.le_trans (List.length_eraseIdx_le _ _) h1, fun hj => h2 (mem_of_eraseIdx hj), h4⟩
      · cases hs

theorem inv_reached {s : Sys} (h : Reached s) : Inv s := by
  obtain ⟨n, as, hr⟩ := h
  exact run_keeps inv_step as _ s ⟨by simp, by simp, by simp⟩ hr

/-- **C117.** When nothing goes on any more although somebody waits: exactly if every thread of the pool waits for the tick thread and that one
sleeps. -/
theorem c117_hangs_iff {s : Sys} (hr : Reached s) (hw : Waits s) (hn : 0 < s.workers) :
    Stuck s ↔ s.ticker = .sleep ∧ s.busy.length = s.workers ∧ ∀ h ∈ s.busy, h = .joining := by
  have hi := inv_reached hr
  constructor
  · intro hst
    have hsleep : s.ticker = .sleep ∨ s.ticker = .ended := by
      have := hst .think (by simp)
      simp only [step, stepTicker] at this
      cases ht : s.ticker with
      | head => rw [ht] at this; dsimp only at this; split at this <;> cases this
      | tick => rw [ht] at this; cases this
      | sleep => exact .inl rfl
      | ended => exact .inr rfl
    have hall : ∀ h ∈ s.busy, h = .joining ∧ s.ticker ≠ .ended := by
      intro h hm
      obtain ⟨i, hl, he⟩ := List.mem_iff_getElem.1 hm
      have := hst (.handler i) (by simp)
      simp only [step, stepHandler, List.getElem?_eq_getElem hl, he] at this
      cases h with
      | entered => dsimp only at this; split at this <;> cases this
      | saw => dsimp only at this; split at this <;> cases this
      | joining =>
        refine ⟨rfl, fun h => ?_⟩
        dsimp only at this
        rw [if_pos h] at this
        cases this
    have hfull : s.busy.length = s.workers := by
      have htake := hst .take (by simp)
      have htimer := hst .timer (by simp)
      simp only [step] at htake htimer
      refine Decidable.byContradiction fun hne => ?_
      have hlt : s.busy.length < s.workers := Nat.lt_of_le_of_ne hi.pool hne
      have hq : s.queue = 0 := by
        refine Decidable.byContradiction fun hq => ?_
        rw [if_pos ⟨Nat.pos_of_ne_zero hq, hlt⟩] at htake
        cases htake
      rcases hsleep with h | h
      · rw [if_pos ⟨h, hlt⟩] at htimer
        cases htimer
      · unfold Waits at hw
        rw [hq, Nat.zero_add] at hw
        obtain ⟨x, hx⟩ := List.exists_mem_of_length_pos hw
        exact (hall x hx).2 h
    refine ⟨?_, hfull, fun h hm => (hall h hm).1⟩
    rcases hsleep with h | h
    · exact h
    · obtain ⟨x, hx⟩ := List.exists_mem_of_length_pos (l := s.busy) (by omega)
      exact absurd h (hall x hx).2
  · rintro ⟨h1, h2, h3⟩ a ha
    cases a with
    | arrive => exact absurd rfl ha
    | take => simp [step, h2]
    | timer => simp [step, h2]
    | think => simp [step, stepTicker, h1]
    | handler i =>
      simp only [step, stepHandler]
      cases hb : s.busy[i]? with
      | none => rfl
      | some h =>
        have : h = .joining := h3 h (List.mem_of_getElem? hb)
        subst this
        simp [h1]

/-- **C117.** With fewer requests at a time than threads, there is always something that can go on while somebody waits. Missing: as many requests. -/
theorem c117_goes_on_partial {s : Sys} (hr : Reached s) (hw : Waits s) (hf : s.queue + s.busy.length < s.workers) : ¬ Stuck s := by
  intro h
  have := ((c117_hangs_iff hr hw (by omega)).1 h).2.1
  omega

/-- How much a handler still has to do. -/
def rest : Handler → Nat
  | .entered => 3
  | .saw => 2
  | .joining => 1

/-- What is left to do once the tree has been told to stop. -/
def left (s : Sys) : Nat :=
  s.queue * 4 + (s.busy.map rest).sum + (match s.ticker with | .tick => 3 | .sleep => 2 | .head => 1 | .ended => 0)

/-- The tree has been told to stop. -/
def Stopping (s : Sys) : Prop := s.state = .stopRequested ∨ s.ticker = .ended

theorem sum_set {l : List Nat} {i : Nat} (hi : i < l.length) (a : Nat) : (l.set i a).sum + l[i] = l.sum + a := by
  induction l generalizing i with
  | nil => cases hi
  | cons b l ih =>
    cases i with
    | zero => simp; omega
    | succ i =>
      have := ih (i := i) (by simpa using hi)
      simp only [List.set_cons_succ, List.sum_cons, List.getElem_cons_succ]
      omega

theorem sum_erase {l : List Nat} {i : Nat} (hi : i < l.length) : (l.eraseIdx i).sum + l[i] = l.sum := by
  induction l generalizing i with
  | nil => cases hi
  | cons b l ih =>
    cases i with
    | zero => simp; omega
    | succ i =>
      have := ih (i := i) (by simpa using hi)
      simp only [List.eraseIdx_cons_succ, List.sum_cons, List.getElem_cons_succ]
      omega

theorem eraseIdx_map (l : List Handler) (i : Nat) : (l.eraseIdx i).map rest = (l.map rest).eraseIdx i := by
  induction l generalizing i with
  | nil => rfl
  | cons a l ih =>
    cases i with
    | zero => rfl
    | succ i => simp [ih]

theorem set_map (l : List Handler) (i : Nat) (h : Handler) : (l.set i h).map rest = (l.map rest).set i (rest h) := by
  induction l generalizing i with
  | nil => rfl
  | cons a l ih =>
    cases i with
    | zero => rfl
    | succ i => simp [ih]

theorem erase_left {s : Sys} {i : Nat} {h : Handler} (hb : s.busy[i]? = some h) : ((s.busy.eraseIdx i).map rest).sum + rest h = (s.busy.map rest).sum := by
  obtain ⟨hl, he⟩ := List.getElem?_eq_some_iff.1 hb
  have := sum_erase (l := s.busy.map rest) (i := i) (by simpa using hl)
  rw [eraseIdx_map]
  simpa [he] using this

theorem set_left {s : Sys} {i : Nat} {h : Handler} (h' : Handler) (hb : s.busy[i]? = some h) :
    ((s.busy.set i h').map rest).sum + rest h = (s.busy.map rest).sum + rest h' := by
  obtain ⟨hl, he⟩ := List.getElem?_eq_some_iff.1 hb
  have := sum_set (l := s.busy.map rest) (i := i) (by simpa using hl) (rest h')
  rw [set_map]
  simpa [he] using this

/-- After the tree has been told to stop, every step brings the end nearer. -/
theorem left_step {s s' : Sys} {a : Act} (hst : Stopping s) (hs : step s a = some s') (ha : a ≠ .arrive) :
    left s' < left s ∧ Stopping s' ∧ s'.queue + s'.busy.length ≤ s.queue + s.busy.length ∧ s'.workers = s.workers := by
  unfold left
  cases a with
  | arrive => exact absurd rfl ha
  | take =>
    simp only [step] at hs
    split at hs
    · rename_i hc
      cases hs
      refine ⟨?_, hst, ?_, rfl⟩
      · simp only [List.map_append, List.sum_append, List.map_cons, List.map_nil, List.sum_cons, List.sum_nil, rest]
        omega
      · simp only [List.length_append, List.length_cons, List.length_nil]
        omega
    · cases hs
  | timer =>
    simp only [step] at hs
    split at hs
    · rename_i hc
      cases hs
      refine ⟨?_, ?_, Nat.le_refl _, rfl⟩
      · rw [hc.1]
        dsimp only
        omega
      · rcases hst with h | h
        · exact .inl h
        · rw [h] at hc
          cases hc.1
    · cases hs
  | think =>
    simp only [step, stepTicker] at hs
    split at hs
    · rename_i ht
      split at hs
      · cases hs
        refine ⟨?_, .inr rfl, Nat.le_refl _, rfl⟩
        rw [ht]
        dsimp only
        omega
      · rename_i hc
        rcases hst with h | h
        · exact absurd h hc
        · rw [ht] at h; cases h
    · rename_i ht
      cases hs
      refine ⟨?_, ?_, Nat.le_refl _, rfl⟩
      · rw [ht]
        dsimp only
        omega
      · rcases hst with h | h
        · exact .inl h
        · rw [ht] at h; cases h
    · cases hs
    · cases hs
  | handler i =>
    simp only [step, stepHandler] at hs
    split at hs
    · cases hs
    · rename_i hb
      have h1 := erase_left hb
      have h2 := set_left .saw hb
      simp only [rest] at h1 h2
      have h3 : i < s.busy.length := (List.getElem?_eq_some_iff.1 hb).1
      split at hs
      · cases hs
        refine ⟨by dsimp only; omega, hst, by simp, rfl⟩
      · cases hs
        refine ⟨by simp only [Sys.answer]; omega, hst, ?_, rfl⟩
        simp only [Sys.answer, List.length_eraseIdx]
        split <;> omega
    · rename_i hb
      have h1 := erase_left hb
      have h2 := set_left .joining hb
      simp only [rest] at h1 h2
      split at hs
      · cases hs
        refine ⟨by simp only [Sys.answer]; omega, .inl rfl, ?_, rfl⟩
        simp only [Sys.answer, List.length_eraseIdx]
        split <;> omega
      · cases hs
        refine ⟨by dsimp only; omega, .inl rfl, by simp, rfl⟩
    · rename_i hb
      have h1 := erase_left hb
      simp only [rest] at h1
      split at hs
      · cases hs
        refine ⟨by simp only [Sys.answer]; omega, hst, ?_, rfl⟩
        simp only [Sys.answer, List.length_eraseIdx]
        split <;> omega
      · cases hs

/-- **C117.** Once the tree has been told to stop and nobody asks for more, only finitely many steps are left whatever their order, and if they end
then everybody has been answered. Missing: as many requests at a time as threads. -/
theorem c117_ends_partial {s s' : Sys} (hr : Reached s) (hst : Stopping s) (as : List Act) (ha : ∀ a ∈ as, a ≠ .arrive) (he : run s as = some s') :
    as.length ≤ left s ∧ (Stuck s' → s.queue + s.busy.length < s.workers → s'.queue = 0 ∧ s'.busy = []) := by
  have key : ∀ (as : List Act) (s : Sys), Stopping s → (∀ a ∈ as, a ≠ .arrive) → run s as = some s' →
      as.length + left s' ≤ left s ∧ s'.queue + s'.busy.length ≤ s.queue + s.busy.length ∧ s'.workers = s.workers := by
    intro as
    induction as with
    | nil => intro s _ _ he; cases he; exact ⟨by simp, Nat.le_refl _, rfl⟩
    | cons a as ih =>
      intro s hst ha he
      simp only [run] at he
      cases h1 : step s a with
      | none => rw [h1] at he; cases he
      | some s1 =>
        rw [h1] at he
        obtain ⟨g1, g2, g3, g4⟩ := left_step hst h1 (ha a (by simp))
        obtain ⟨k1, k2, k3⟩ := ih s1 g2 (fun b hb => ha b (by simp [hb])) he
        refine ⟨?_, Nat.le_trans k2 g3, k3.trans g4⟩
        simp only [List.length_cons]
        omega
  obtain ⟨h1, h2, h3⟩ := key as s hst ha he
  refine ⟨by omega, fun hstuck hf => ?_⟩
  have hr' : Reached s' := by
    obtain ⟨n, bs, hb⟩ := hr
    exact ⟨n, bs ++ as, by rw [run_append, hb]; exact he⟩
  refine Decidable.byContradiction fun hne => ?_
  refine c117_goes_on_partial hr' ?_ (by omega) hstuck
  unfold Waits
  refine Decidable.byContradiction fun h0 => hne ⟨by omega, ?_⟩
  exact List.eq_nil_of_length_eq_zero (by omega)

/-- **C117.** Then the tree is IDLE and its thread has ended, provided that no handler still believes the tree to be ticking. Missing: a handler that has read
TICKING and sets STOP_REQUESTED only when the thread has ended. -/
theorem c117_idle_partial {s s' : Sys} (hr : Reached s) (hst : s.state = .stopRequested) (ht : s.ticker ≠ .ended) (hsaw : Handler.saw ∉ s.busy) (as : List Act)
    (ha : ∀ a ∈ as, a ≠ .arrive) (he : run s as = some s') (hend : Stuck s') (hf : s.queue + s.busy.length < s.workers) :
    s'.state = .idle ∧ s'.ticker = .ended := by
  have hinv := run_keeps (P := fun x => Handler.saw ∉ x.busy ∧ (x.state = .stopRequested ∧ x.ticker ≠ .ended ∨ x.state = .idle ∧ x.ticker = .ended)) ?_
    as s s' ⟨hsaw, .inl ⟨hst, ht⟩⟩ he
  · rcases hinv.2 with ⟨_, h2⟩ | h
    · exfalso
      obtain ⟨_, h⟩ := c117_ends_partial hr (.inl hst) as ha he
      obtain ⟨_, hb⟩ := h hend hf
      have hthink := hend .think (by simp)
      have htimer := hend .timer (by simp)
      have hw : s'.workers = s.workers := by
        refine run_keeps (P := fun x => x.workers = s.workers) ?_ as s s' rfl he
        intro x a x' hx hs
        cases a with
        | arrive => cases hs; exact hx
        | take => simp only [step] at hs; split at hs <;> cases hs; exact hx
        | timer => simp only [step] at hs; split at hs <;> cases hs; exact hx
        | think => simp only [step, stepTicker] at hs; split at hs <;> (try split at hs) <;> cases hs <;> exact hx
        | handler i => simp only [step, stepHandler] at hs; split at hs <;> (try split at hs) <;> cases hs <;> exact hx
      cases hx : s'.ticker with
      | head => simp only [step, stepTicker, hx] at hthink; split at hthink <;> cases hthink
      | tick => simp [step, stepTicker, hx] at hthink
      | sleep =>
        simp only [step, hx, hb, List.length_nil, hw] at htimer
        rw [if_pos ⟨trivial, by omega⟩] at htimer
        cases htimer
      | ended => exact h2 hx
    · exact h
  · rintro x a x' ⟨h1, h2⟩ hs
    cases a with
    | arrive => cases hs; exact ⟨h1, h2⟩
    | take =>
      simp only [step] at hs
      split at hs <;> cases hs
      exact ⟨by simpa using h1, h2⟩
    | timer =>
      simp only [step] at hs
      split at hs <;> cases hs
      rename_i hc
      refine ⟨h1, .inl ⟨?_, fun h => (nomatch h)⟩⟩
      rcases h2 with h | h
      · exact h.1
      · rw [h.2] at hc
        cases hc.1
    | think =>
      simp only [step, stepTicker] at hs
      rcases h2 with ⟨h3, h4⟩ | ⟨_, h4⟩
      · rw [h3] at hs
        split at hs
        · cases hs
          exact ⟨h1, .inr ⟨rfl, rfl⟩⟩
        · cases hs
          exact ⟨h1, .inl ⟨rfl, fun h => (nomatch h)⟩⟩
        · cases hs
        · cases hs
      · rw [h4] at hs
        cases hs
    | handler i =>
      simp only [step, stepHandler] at hs
      split at hs
      · cases hs
      · split at hs
        · rename_i hc
          rcases h2 with ⟨h3, _⟩ | ⟨h3, _⟩ <;> rw [h3] at hc <;> cases hc
        · cases hs
          exact ⟨fun h => h1 (mem_of_eraseIdx h), h2⟩
      · rename_i hb
        exact absurd (List.mem_of_getElem? hb) h1
      · split at hs <;> cases hs
        exact ⟨fun h => h1 (mem_of_eraseIdx h), h2⟩

/-- **C117, violated.** Of two requests one can read TICKING before and set STOP_REQUESTED after the other has stopped the tree; then the tree says
STOP_REQUESTED with no thread that could stop. -/
theorem c117_late : run { workers := 3 } [.arrive, .arrive, .take, .take, .handler 0, .handler 1, .handler 0, .think, .handler 0, .handler 0] =
    some { workers := 3, state := .stopRequested, ticker := .ended, answered := 2 } := by decide +kernel

/-- The pool has three threads, two requests overlap. -/
def two : List Act := [.think, .think, .arrive, .arrive, .take, .take, .handler 0, .handler 1, .handler 0, .handler 1]

/-- Where they lead: both handlers wait for the tick thread, which sleeps. -/
def afterTwo : Sys := { workers := 3, busy := [.joining, .joining], state := .stopRequested, ticker := .sleep }

example : Reached afterTwo ∧ Waits afterTwo ∧ Stopping afterTwo ∧ Handler.saw ∉ afterTwo.busy ∧ afterTwo.queue + afterTwo.busy.length < afterTwo.workers ∧
    run afterTwo [.timer, .think, .handler 1, .handler 0] = some { workers := 3, state := .idle, ticker := .ended, answered := 2 } :=
  ⟨⟨3, two, by decide +kernel⟩, by unfold Waits; decide, .inl rfl, by decide, by decide, by decide +kernel⟩

/-- Once all threads of the pool wait, they wait forever, and no request is answered any more. -/
theorem c117_forever {s s' : Sys} (h1 : s.ticker = .sleep) (h2 : s.busy.length = s.workers) (h3 : ∀ h ∈ s.busy, h = .joining) (as : List Act)
    (he : run s as = some s') : s'.answered = s.answered ∧ s'.busy = s.busy ∧ s'.ticker = .sleep := by
  have := run_keeps (P := fun x => x.answered = s.answered ∧ x.busy = s.busy ∧ x.ticker = .sleep ∧ x.workers = s.workers) ?_ as s s' ⟨rfl, rfl, h1, rfl⟩ he
  · exact ⟨this.1, this.2.1, this.2.2.1⟩
  · rintro x a x' ⟨g1, g2, g3, g4⟩ hs
    cases a with
    | arrive => cases hs; exact ⟨g1, g2, g3, g4⟩
    | take => simp [step, g2, g4, h2] at hs
    | timer => simp [step, g2, g4, h2] at hs
    | think => simp [step, stepTicker, g3] at hs
    | handler i =>
      simp only [step, stepHandler, g2] at hs
      cases hb : s.busy[i]? with
      | none => rw [hb] at hs; cases hs
      | some h =>
        have : h = .joining := h3 h (List.mem_of_getElem? hb)
        subst this
        rw [hb] at hs
        simp [g3] at hs

/-- Three requests that stop the tree at the same moment. -/
def three : List Act := [.think, .think, .arrive, .arrive, .arrive, .take, .take, .take, .handler 0, .handler 1, .handler 2, .handler 0, .handler 1, .handler 2]

/-- Where they lead. -/
def afterThree : Sys := { workers := 3, busy := [.joining, .joining, .joining], state := .stopRequested, ticker := .sleep }

/-- **C117, violated.** Three requests that stop a ticking tree at the same moment are never answered, nor is any later request. -/
theorem c117_hang : ∃ s, run { workers := 3 } three = some s ∧ Waits s ∧ Stuck s ∧ ∀ as s', run s as = some s' → s'.answered = 0 := by
  have hr : run { workers := 3 } three = some afterThree := by decide +kernel
  have hw : Waits afterThree := by unfold Waits; decide
  refine ⟨afterThree, hr, hw, ?_, ?_⟩
  · exact (c117_hangs_iff ⟨3, three, hr⟩ hw (by decide)).2 ⟨rfl, rfl, by decide⟩
  · intro as s' he
    exact (c117_forever (s := afterThree) rfl rfl (by decide) as he).1

/-- Handlers go on one after the other. -/
theorem set_next (a b : Handler) (k m : Nat) :
    (List.replicate k a ++ List.replicate (m + 1) b).set k a = List.replicate (k + 1) a ++ List.replicate m b := by
  induction k with
  | zero => rfl
  | succ k ih =>
    rw [List.replicate_succ, List.cons_append, List.set_cons_succ, ih, List.replicate_succ (n := k + 1), List.cons_append]

theorem get_next (a b : Handler) (k m : Nat) : (List.replicate k a ++ List.replicate (m + 1) b)[k]? = some b := by
  rw [List.getElem?_append_right (by simp)]
  simp

/-- **C117, violated.** More threads do not help: whatever the size of the pool, as many requests at the same moment are never answered. -/
theorem c117_hang_any (n : Nat) : ∃ s, Reached s ∧ s.workers = n ∧ s.busy.length = n ∧ s.queue = 0 ∧
    ∀ as s', run s as = some s' → s'.answered = 0 := by
  have next : ∀ {s s' : Sys} {a : Act}, Reached s → step s a = some s' → Reached s' := by
    rintro s s' a ⟨m, as, h⟩ hs
    exact ⟨m, as ++ [a], by rw [run_append, h]; simp [run, hs]⟩
  -- the requests arrive while the tick thread sleeps
  have h1 : ∀ q, Reached { workers := n, queue := q, ticker := .sleep } := by
    intro q
    induction q with
    | zero => exact ⟨n, [.think, .think], rfl⟩
    | succ q ih => exact next ih (a := .arrive) rfl
  -- every thread takes one
  have h2 : ∀ k q, k + q = n → Reached { workers := n, queue := q, busy := List.replicate k .entered, ticker := .sleep } := by
    intro k
    induction k with
    | zero => intro q _; exact h1 q
    | succ k ih =>
      intro q hk
      refine next (ih (q + 1) (by omega)) (a := .take) ?_
      have hlt : k < n := by omega
      simp [step, hlt, List.replicate_succ']
  -- each of them reads TICKING
  have h3 : ∀ k m, k + m = n → Reached { workers := n, busy := List.replicate k .saw ++ List.replicate m .entered, ticker := .sleep } := by
    intro k
    induction k with
    | zero =>
      intro m hm
      have : m = n := by omega
      subst this
      simpa using h2 m 0 (by omega)
    | succ k ih =>
      intro m hm
      refine next (ih (m + 1) (by omega)) (a := .handler k) ?_
      simp only [step, stepHandler, get_next, set_next, if_true]
  -- and joins the tick thread
  have h4 : ∀ k m, k + m = n → ∃ st, Reached { workers := n, busy := List.replicate k .joining ++ List.replicate m .saw, state := st, ticker := .sleep } := by
    intro k
    induction k with
    | zero =>
      intro m hm
      have : m = n := by omega
      subst this
      exact ⟨.ticking, by simpa using h3 m 0 (by omega)⟩
    | succ k ih =>
      intro m hm
      obtain ⟨st, h⟩ := ih (m + 1) (by omega)
      refine ⟨.stopRequested, next h (a := .handler k) ?_⟩
      simp only [step, stepHandler, get_next, set_next, reduceCtorEq, if_false]
  obtain ⟨st, h⟩ := h4 n 0 rfl
  refine ⟨_, h, rfl, by simp, rfl, fun as s' he => ?_⟩
  exact (c117_forever (s := { workers := n, busy := List.replicate n .joining ++ List.replicate 0 .saw, state := st, ticker := .sleep }) rfl (by simp)
    (by intro x hx; simpa using (List.eq_of_mem_replicate (by simpa using hx : x ∈ List.replicate n Handler.joining))) as he).1

end Verif.Exec.Pool
