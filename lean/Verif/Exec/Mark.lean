import Verif.Exec.Rest

/-! When the tick thread initialises the data flow (tree_exec_manager.py 674-678). The tree carries a mark that the setup of the root sets; apart from the mark
nothing changes. -/

set_option autoImplicit false

namespace Verif.Exec.Mark

open Verif.BT (Op Res BTState Ops Tree ops Out)

variable {N : Type} {o : Ops N}

/-! ### The model -/

/-- tree_exec_manager.py 674: the condition for initialising. -/
def rests (s : BTState) : Bool := s = .uninitialized || s = .shutdown

/-- tree_exec_manager.py 674-678: the only call of `setup` on the root comes right after the only call of `initialize`. -/
def marked (o : Ops N) : Ops (N × Bool) where
  run op x := ⟨((o.run op x.1).node, x.2 || op = .setup), (o.run op x.1).res, (o.run op x.1).log, (o.run op x.1).trace⟩
  state x := o.state x.1
  name x := o.name x.1

/-- An exception in the root's `setup` comes after `initialize`. (The operation is not known here, but `setup` is called exactly if the root rests; the other
operations of a root that rests are refused and raise nothing.) -/
def upWorld (o : Ops N) (w : World N) : World (N × Bool) :=
  { push := w.push, raise := w.raise.map fun f x => (f x.1, x.2 || rests (o.state x.1)) }

/-- The tree with a mark. -/
def upTree (b : Bool) : Topo N → Topo (N × Bool)
  | .bad => .bad
  | .empty => .empty
  | .root t => .root (t, b)

/-- The manager with a mark. -/
def up (o : Ops N) (b : Bool) (m : Mgr N) : Mgr (N × Bool) :=
  { tree := upTree b m.tree, orphans := m.orphans, state := m.state, thread := m.thread, lost := m.lost, once := m.once, untilResult := m.untilResult,
    world := fun i => upWorld o (m.world i), clock := m.clock, calls := m.calls, asked := m.asked, broke := m.broke, single := m.single }

/-- The mark. -/
def mark : Topo (N × Bool) → Bool
  | .root x => x.2
  | _ => false

/-- Does the command come to line 677? -/
def controlInits (o : Ops N) (timely : Bool) (c : Cmd) (m : Mgr N) : Bool := mark (control (marked o) timely c (up o false m)).1.tree

/-- Does this step of the tick thread come to line 677? -/
def threadInits (o : Ops N) (m : Mgr N) : Bool := mark (threadStep (marked o) (up o false m)).tree

/-! ### Nothing else changes -/

theorem call_up (b : Bool) (m : Mgr N) (w : World N) (op : Op) (t : N) :
    ∃ b', (up o b m).call (marked o) (upWorld o w) op (t, b) = (up o b' (m.call o w op t).1, (m.call o w op t).2) := by
  unfold Mgr.call upWorld
  cases w.raise with
  | none => exact ⟨_, rfl⟩
  | some f => exact ⟨_, rfl⟩

theorem call_root (m : Mgr N) (w : World N) (op : Op) (t : N) : ∃ t', (m.call o w op t).1.tree = .root t' := by
  unfold Mgr.call
  cases w.raise with
  | none => exact ⟨_, rfl⟩
  | some f => exact ⟨_, rfl⟩

theorem start_up (b : Bool) (m : Mgr N) (w : World N) : ∃ b', startStep (marked o) (upWorld o w) (up o b m) = up o b' (startStep o w m) := by
  unfold startStep
  cases ho : m.orphans with
  | true => exact ⟨b, by simp [up, ho, Mgr.goto]⟩
  | false =>
    cases ht : m.tree with
    | bad => exact ⟨b, by simp [up, ho, ht, upTree, Mgr.goto]⟩
    | empty => exact ⟨b, by simp [up, ho, ht, upTree, Mgr.goto]⟩
    | root t =>
      have e1 : (up o b m).orphans = false := ho
      have e2 : (up o b m).tree = .root (t, b) := by simp [up, ht, upTree]
      have e3 : (marked o).state (t, b) = o.state t := rfl
      rw [e1, e2]
      simp only [e3, Bool.false_eq_true, if_false]
      split
      · obtain ⟨b', e⟩ := call_up (o := o) b m w .setup t
        obtain ⟨t', h1⟩ := call_root (o := o) m w .setup t
        rw [e]
        cases hc : m.call o w .setup t with
        | mk m1 r =>
          rw [hc] at h1
          cases r with
          | none => exact ⟨b', rfl⟩
          | some r =>
            dsimp only at h1 ⊢
            have e4 : (up o b' m1).tree = .root (t', b') := by simp [up, h1, upTree]
            have e5 : (marked o).state (t', b') = o.state t' := rfl
            rw [e4, h1]
            simp only [e5]
            split
            · exact ⟨b', rfl⟩
            · exact ⟨b', rfl⟩
      · exact ⟨b, rfl⟩

theorem tick_up (b : Bool) (m : Mgr N) (w : World N) : ∃ b', tickStep (marked o) (upWorld o w) (up o b m) = up o b' (tickStep o w m) := by
  unfold tickStep
  have e0 : (upWorld o w).push = w.push := rfl
  rw [e0]
  split
  · exact ⟨b, rfl⟩
  · cases ht : m.tree with
    | bad => exact ⟨b, by simp [up, ht, upTree, Mgr.goto]⟩
    | empty => exact ⟨b, by simp [up, ht, upTree, Mgr.goto]⟩
    | root t =>
      have e2 : (up o b m).tree = .root (t, b) := by simp [up, ht, upTree]
      rw [e2]
      obtain ⟨b', e⟩ := call_up (o := o) b m w .tick t
      dsimp only
      rw [e]
      cases hc : m.call o w .tick t with
      | mk m1 r =>
        cases r with
        | none => exact ⟨b', rfl⟩
        | some r => cases r <;> exact ⟨b', rfl⟩

theorem untick_up (b : Bool) (m : Mgr N) (w : World N) : ∃ b', untickStep (marked o) (upWorld o w) (up o b m) = up o b' (untickStep o w m) := by
  unfold untickStep
  cases ht : m.tree with
  | bad => exact ⟨b, by simp [up, ht, upTree, Mgr.goto]⟩
  | empty => exact ⟨b, by simp [up, ht, upTree, Mgr.goto]⟩
  | root t =>
    have e2 : (up o b m).tree = .root (t, b) := by simp [up, ht, upTree]
    rw [e2]
    obtain ⟨b', e⟩ := call_up (o := o) b m w .untick t
    dsimp only
    rw [e]
    cases hc : m.call o w .untick t with
    | mk m1 r =>
      cases r with
      | none => exact ⟨b', rfl⟩
      | some r => cases r <;> exact ⟨b', rfl⟩

theorem result_up (b : Bool) (m : Mgr N) (s : BTState) : resultStep s (up o b m) = up o b (resultStep s m) := by
  unfold resultStep
  by_cases h : m.untilResult = true ∧ (s = .failed ∨ s = .succeeded)
  · have h' : (up o b m).untilResult = true ∧ (s = .failed ∨ s = .succeeded) := h
    rw [if_pos h, if_pos h']
    rfl
  · have h' : ¬ ((up o b m).untilResult = true ∧ (s = .failed ∨ s = .succeeded)) := h
    rw [if_neg h, if_neg h']
    by_cases k : m.once = true
    · have k' : (up o b m).once = true := k
      rw [if_pos k, if_pos k']
      rfl
    · have k' : ¬ (up o b m).once = true := k
      rw [if_neg k, if_neg k']
      rfl

theorem thread_up (b : Bool) (m : Mgr N) : ∃ b', threadStep (marked o) (up o b m) = up o b' (threadStep o m) := by
  obtain ⟨tree, orphans, state, thread, lost, once, untilResult, world, clock, calls, asked, broke, single⟩ := m
  cases thread with
  | absent | fresh | dead => exact ⟨b, rfl⟩
  | alive pc =>
    cases pc with
    | start => exact start_up b ⟨tree, orphans, state, .alive .start, lost, once, untilResult, world, clock + 1, calls, asked, broke, single⟩ (world clock)
    | head =>
      by_cases hs : state = .stopRequested
      · subst hs; exact ⟨b, rfl⟩
      · refine ⟨b, ?_⟩
        simp only [threadStep, up, hs, if_false]
        rfl
    | tick => exact tick_up b ⟨tree, orphans, state, .alive .tick, lost, once, untilResult, world, clock + 1, calls, asked, broke, single⟩ (world clock)
    | result s =>
      exact ⟨b, result_up b ⟨tree, orphans, state, .alive (.result s), lost, once, untilResult, world, clock + 1, calls, asked, broke, single⟩ s⟩
    | leave => exact ⟨b, rfl⟩
    | untick => exact untick_up b ⟨tree, orphans, state, .alive .untick, lost, once, untilResult, world, clock + 1, calls, asked, broke, single⟩ (world clock)
    | failed => exact ⟨b, rfl⟩
    | ended => exact ⟨b, rfl⟩

theorem join_up (n : Nat) : ∀ (b : Bool) (m : Mgr N), ∃ b', join (marked o) n (up o b m) = up o b' (join o n m) := by
  induction n with
  | zero => exact fun b m => ⟨b, rfl⟩
  | succ n ih =>
    intro b m
    simp only [join]
    have e0 : (up o b m).thread = m.thread := rfl
    rw [e0]
    split
    · obtain ⟨b', e⟩ := thread_up (o := o) b m
      rw [e]
      exact ih b' _
    · exact ⟨b, rfl⟩

theorem op_up (b : Bool) (m : Mgr N) (op : Op) (t : N) :
    { up o b m with tree := .root ((marked o).run op (t, b)).node } = up o (b || op = .setup) { m with tree := .root (o.run op t).node } := rfl

theorem shutdown_up (b : Bool) (m : Mgr N) : ∃ b', shutdownCmd (marked o) (up o b m) = (up o b' (shutdownCmd o m).1, (shutdownCmd o m).2) := by
  unfold shutdownCmd
  cases ht : m.tree with
  | bad => exact ⟨b, by simp [up, ht, upTree]⟩
  | empty => exact ⟨b, by simp [up, ht, upTree]⟩
  | root t =>
    have e2 : (up o b m).tree = .root (t, b) := by simp [up, ht, upTree]
    have e3 : ((marked o).run .shutdown (t, b)).res = (o.run .shutdown t).res := rfl
    rw [e2]
    dsimp only
    rw [e3]
    cases (o.run .shutdown t).res with
    | err => exact ⟨_, rfl⟩
    | ok s => exact ⟨_, rfl⟩

theorem stopPart_up (b : Bool) (m : Mgr N) : ∃ b', stopPart (marked o) (up o b m) = (up o b' (stopPart o m).1, (stopPart o m).2) := by
  unfold stopPart
  have e0 : (up o b m).state = m.state := rfl
  rw [e0]
  cases hs : m.state with
  | ticking =>
    dsimp only
    obtain ⟨b', e⟩ := join_up (o := o) joinSteps b { m with state := .stopRequested, asked := true }
    have e' : { up o b m with state := .stopRequested, asked := true } = up o b { m with state := .stopRequested, asked := true } := rfl
    rw [e', e]
    have e1 : ∀ m : Mgr N, (up o b' m).thread = m.thread := fun _ => rfl
    have e2 : ∀ m : Mgr N, (up o b' m).state = m.state := fun _ => rfl
    rw [e1, e2]
    split
    · exact ⟨b', rfl⟩
    · split
      · exact ⟨b', rfl⟩
      · exact ⟨b', rfl⟩
  | waiting =>
    dsimp only
    cases ht : m.tree with
    | bad => exact ⟨b, by simp [up, ht, upTree]⟩
    | empty => exact ⟨b, by simp [up, ht, upTree]⟩
    | root t =>
      have e2 : (up o b m).tree = .root (t, b) := by simp [up, ht, upTree]
      rw [e2]
      dsimp only
      have e3 : (marked o).state ((marked o).run .untick (t, b)).node = o.state (o.run .untick t).node := rfl
      rw [e3]
      split
      · exact ⟨b || (Op.untick = Op.setup : Bool), by simp [up, upTree, marked, hs]⟩
      · exact ⟨b || (Op.untick = Op.setup : Bool), by simp [up, upTree, marked, hs]⟩
  | _ => exact ⟨b, rfl⟩

theorem stopCmd_up (down : Bool) (b : Bool) (m : Mgr N) : ∃ b', stopCmd (marked o) down (up o b m) = (up o b' (stopCmd o down m).1, (stopCmd o down m).2) := by
  unfold stopCmd
  obtain ⟨b', e⟩ := stopPart_up (o := o) b m
  rw [e]
  cases hp : stopPart o m with
  | mk m' r =>
    cases r with
    | some r => exact ⟨b', rfl⟩
    | none =>
      dsimp only
      split
      · exact shutdown_up b' m'
      · exact ⟨b', rfl⟩

theorem once_eq (o : Ops N) (m : Mgr N) (t : N) (ht : m.tree = .root t) (ha : ¬ m.thread.isAlive = true) (J : Mgr N)
    (hJ : J = join o joinSteps (startThread true { m with once := true, untilResult := false, state := .ticking })) :
    tickOnceCmd o m = if J.thread.isAlive then (J, ⟨false, some J.state⟩) else if J.state = .waiting then (J, ⟨true, some .waiting⟩) else (J, ⟨false, none⟩) := by
  subst hJ
  unfold tickOnceCmd
  rw [if_neg ha, ht]

theorem once_up (b : Bool) (m : Mgr N) : ∃ b', tickOnceCmd (marked o) (up o b m) = (up o b' (tickOnceCmd o m).1, (tickOnceCmd o m).2) := by
  by_cases ha : m.thread.isAlive = true
  · refine ⟨b, ?_⟩
    have ha' : (up o b m).thread.isAlive = true := ha
    unfold tickOnceCmd
    rw [if_pos ha, if_pos ha']
  · have ha' : ¬ (up o b m).thread.isAlive = true := ha
    cases ht : m.tree with
    | bad =>
      refine ⟨b, ?_⟩
      have e2 : (up o b m).tree = .bad := by simp [up, ht, upTree]
      unfold tickOnceCmd
      rw [if_neg ha, if_neg ha', e2, ht]
      rfl
    | empty =>
      refine ⟨b, ?_⟩
      have e2 : (up o b m).tree = .empty := by simp [up, ht, upTree]
      unfold tickOnceCmd
      rw [if_neg ha, if_neg ha', e2, ht]
      rfl
    | root t =>
      have e2 : (up o b m).tree = .root (t, b) := by simp [up, ht, upTree]
      obtain ⟨b', e⟩ := join_up (o := o) joinSteps b (startThread true { m with once := true, untilResult := false, state := .ticking })
      refine ⟨b', ?_⟩
      rw [once_eq (marked o) (up o b m) (t, b) e2 ha' _ e.symm, once_eq o m t ht ha _ rfl]
      have e3 : ∀ m : Mgr N, (up o b' m).thread = m.thread := fun _ => rfl
      have e4 : ∀ m : Mgr N, (up o b' m).state = m.state := fun _ => rfl
      rw [e3, e4]
      split
      · rfl
      · split <;> rfl

theorem dispatch_up (c : Cmd) (b : Bool) (m : Mgr N) : ∃ b', dispatch (marked o) c (up o b m) = (up o b' (dispatch o c m).1, (dispatch o c m).2) := by
  have hm : ∀ u, ∃ b', tickMultipleCmd u (up o b m) = (up o b' (tickMultipleCmd u m).1, (tickMultipleCmd u m).2) := by
    intro u
    unfold tickMultipleCmd
    have e0 : (up o b m).thread = m.thread := rfl
    rw [e0]
    split
    · exact ⟨b, rfl⟩
    · cases ht : m.tree with
      | bad => exact ⟨b, by simp [up, ht, upTree]⟩
      | empty => exact ⟨b, by simp [up, ht, upTree]⟩
      | root t => exact ⟨b, by simp [up, ht, upTree, startThread]⟩
  unfold dispatch
  have e0 : (up o b m).state = m.state := rfl
  have e1 : (up o b m).thread = m.thread := rfl
  rw [e0, e1]
  split
  · exact ⟨b, rfl⟩
  · cases c with
    | setupAndShutdown =>
      dsimp only
      split
      · exact ⟨b, rfl⟩
      · cases ht : m.tree with
        | bad => exact ⟨b, by simp [up, ht, upTree]⟩
        | empty =>
          have e2 : (up o b m).tree = .empty := by simp [up, ht, upTree]
          rw [e2]
          exact stopCmd_up true b m
        | root t =>
          have e2 : (up o b m).tree = .root (t, b) := by simp [up, ht, upTree]
          rw [e2]
          exact stopCmd_up true b m
    | stop => exact stopCmd_up false b m
    | shutdown => exact stopCmd_up true b m
    | tickOnce =>
      exact once_up b m
    | tickPeriodically => exact hm false
    | tickUntilResult => exact hm true
    | reset =>
      dsimp only
      unfold resetCmd
      rw [e1]
      split
      · exact ⟨b, rfl⟩
      · cases ht : m.tree with
        | bad => exact ⟨b, by simp [up, ht, upTree]⟩
        | empty => exact ⟨b, by simp [up, ht, upTree]⟩
        | root t =>
          have e2 : (up o b m).tree = .root (t, b) := by simp [up, ht, upTree]
          have e3 : ((marked o).run .reset (t, b)).res = (o.run .reset t).res := rfl
          rw [e2]
          dsimp only
          rw [e3]
          cases (o.run .reset t).res with
          | err => exact ⟨_, rfl⟩
          | ok s => exact ⟨_, rfl⟩
    | doNothing => exact ⟨b, rfl⟩
    | unknown => exact ⟨b, rfl⟩

theorem renew_up (b : Bool) (m : Mgr N) : renew (up o b m) = up o b (renew m) := by
  unfold renew
  have e1 : (up o b m).thread = m.thread := rfl
  rw [e1]
  split <;> rfl

/-- Apart from the mark, commands on the marked tree are those on the tree. -/
theorem control_up (timely : Bool) (c : Cmd) (b : Bool) (m : Mgr N) :
    ∃ b', control (marked o) timely c (up o b m) = (up o b' (control o timely c m).1, (control o timely c m).2) := by
  unfold Exec.control
  have e0 : (up o b m).state = m.state := rfl
  have e1 : (up o b m).thread = m.thread := rfl
  rw [e0, e1]
  split
  · split
    · obtain ⟨b', e⟩ := join_up (o := o) joinSteps b m
      rw [e, renew_up]
      exact dispatch_up c b' _
    · exact ⟨b, rfl⟩
  · rw [renew_up]
    exact dispatch_up c b _

/-! ### Where a tree can be that has not been initialised -/

/-- Why the data flow may not be initialised: the tree can be edited, the tick thread has not begun (then it is about to), or it has failed. -/
def Excused (s : TState) (t : Thread) (r : BTState) : Prop := s = .editable ∨ (t = .alive .start ∧ rests r = true) ∨ s = .error ∨ t = .alive .failed

/-- Either marked or excused. -/
def Fresh (o : Ops N) (m : Mgr (N × Bool)) : Prop := ∀ x, m.tree = .root x → x.2 = true ∨ Excused m.state m.thread (o.state x.1)

theorem call_mark (m : Mgr (N × Bool)) (w : World (N × Bool)) (op : Op) (x : N × Bool) (hw : ∀ f, w.raise = some f → ∀ x, x.2 = true → (f x).2 = true)
    (hx : x.2 = true) : ∃ y, (m.call (marked o) w op x).1.tree = .root y ∧ y.2 = true := by
  unfold Mgr.call
  cases hf : w.raise with
  | none => exact ⟨_, rfl, by simp [marked, hx]⟩
  | some f => exact ⟨_, rfl, hw f hf x hx⟩

theorem call_setup (m : Mgr (N × Bool)) (w : World N) (x : N × Bool) (hx : rests (o.state x.1) = true) :
    ∃ y, (m.call (marked o) (upWorld o w) .setup x).1.tree = .root y ∧ y.2 = true := by
  unfold Mgr.call upWorld
  cases hf : w.raise with
  | none => exact ⟨_, rfl, by simp [marked]⟩
  | some f => exact ⟨_, rfl, by simp [hx]⟩

theorem call_rest (m : Mgr (N × Bool)) (w : World (N × Bool)) (op : Op) (x : N × Bool) :
    (m.call (marked o) w op x).1.state = m.state ∧ (m.call (marked o) w op x).1.thread = m.thread := by
  unfold Mgr.call
  cases w.raise with
  | none => exact ⟨rfl, rfl⟩
  | some f => exact ⟨rfl, rfl⟩

theorem raise_up (w : World N) (f : N × Bool → N × Bool) (h : (upWorld o w).raise = some f) (x : N × Bool) (hx : x.2 = true) : (f x).2 = true := by
  unfold upWorld at h
  cases hf : w.raise with
  | none => rw [hf] at h; cases h
  | some g => rw [hf] at h; cases h; simp [hx]

theorem fresh_thread {m : Mgr N} {b : Bool} (hi : Inv' (up o b m)) (h : Fresh o (up o b m)) : Fresh o (threadStep (marked o) (up o b m)) := by
  have hw : ∀ i f, ((up o b m).world i).raise = some f → ∀ x, x.2 = true → (f x).2 = true := fun i f => raise_up (m.world i) f
  have hw' : ∀ i, ∃ w, (up o b m).world i = upWorld o w := fun i => ⟨_, rfl⟩
  generalize up o b m = m at hi h hw hw'
  cases ht : m.thread with
  | absent | fresh | dead => rw [threadStep_still _ (by rw [ht]; rfl)]; exact h
  | alive pc =>
    by_cases hp : pc = .start
    · subst hp
      unfold threadStep
      rw [ht]
      dsimp only
      unfold startStep
      split
      · exact fun x _ => .inr (.inr (.inr (.inr rfl)))
      · dsimp only
        split
        · exact fun x _ => .inr (.inr (.inr (.inr rfl)))
        · exact fun x _ => .inr (.inr (.inr (.inr rfl)))
        · rename_i x hx
          split
          · rename_i hs
            have hs : rests (o.state x.1) = true := by
              have : (marked o).state x = o.state x.1 := rfl
              rw [this] at hs
              rcases hs with e | e <;> simp [rests, e]
            obtain ⟨w, ew⟩ := hw' m.clock
            obtain ⟨y, h1, h2⟩ := call_setup (o := o) { m with clock := m.clock + 1, thread := .alive .start } w x hs
            rw [ew]
            cases hc : Mgr.call (marked o) { m with clock := m.clock + 1, thread := .alive .start } (upWorld o w) .setup x with
            | mk m1 r =>
              rw [hc] at h1
              dsimp only at h1 ⊢
              cases r with
              | none =>
                intro z hz
                have : m1.tree = .root z := hz
                rw [h1] at this
                cases this
                exact .inl h2
              | some r =>
                dsimp only
                rw [h1]
                dsimp only
                split
                · intro z hz
                  have : m1.tree = .root z := hz
                  rw [h1] at this
                  cases this
                  exact .inl h2
                · exact fun z _ => .inr (.inr (.inr (.inr rfl)))
          · rename_i hs
            intro z hz
            have hz : m.tree = .root z := hz
            have hx : m.tree = .root x := hx
            have e : z = x := by rw [hx] at hz; cases hz; rfl
            subst e
            rcases h z hx with k | k | k | k | k
            · exact .inl k
            · exact .inr (.inl k)
            · exfalso
              apply hs
              have := k.2
              simpa [rests, marked] using this
            · exact .inr (.inr (.inr (.inl k)))
            · rw [ht] at k; cases k
    · have hi2 := hi.quiet
      rw [ht, exec_alive] at hi2
      have hk : ∀ x, m.tree = .root x → x.2 = true ∨ ((m.state = .editable ∨ m.state = .error) ∧ (pc = .failed ∨ pc = .ended)) ∨ pc = .failed := by
        intro x hx
        have hq : m.state ≠ .ticking → m.state ≠ .stopRequested → m.state ≠ .idle → pc = .failed ∨ pc = .ended := by
          intro a b c
          have := hi2 a b c
          by_cases h1 : pc = .failed
          · exact .inl h1
          · by_cases h2 : pc = .ended
            · exact .inr h2
            · exact absurd ⟨h1, h2⟩ this
        rcases h x hx with k | k | k | k | k
        · exact .inl k
        · exact .inr (.inl ⟨.inl k, hq (by simp [k]) (by simp [k]) (by simp [k])⟩)
        · rw [ht] at k; exact absurd (by cases k.1; rfl) hp
        · exact .inr (.inl ⟨.inr k, hq (by simp [k]) (by simp [k]) (by simp [k])⟩)
        · rw [ht] at k; cases k; exact .inr (.inr rfl)
      have mv := moves (o := marked o) m ht
      generalize threadStep (marked o) m = m' at mv
      clear hi hi2 h
      cases mv with
      | failed => exact fun x _ => .inr (.inr (.inr (.inl rfl)))
      | ended =>
        intro x hx
        rcases hk x hx with k | ⟨k | k, _⟩ | k
        · exact .inl k
        · exact .inr (.inl k)
        · exact .inr (.inr (.inr (.inl k)))
        · cases k
      | startFail | startRaise | startSetup | startBad | startGo => exact absurd rfl hp
      | tickRaise t f e hf =>
        intro z hz
        cases hz
        rcases hk _ e with k | ⟨_, k | k⟩ | k
        · exact .inl (hw _ _ hf _ k)
        · cases k
        · cases k
        · cases k
      | untickRaise t f e hf =>
        intro z hz
        cases hz
        rcases hk _ e with k | ⟨_, k | k⟩ | k
        · exact .inl (hw _ _ hf _ k)
        · cases k
        · cases k
        · cases k
      | tickOk t s e =>
        intro z hz
        cases hz
        rcases hk _ e with k | ⟨_, k | k⟩ | k
        · exact .inl (by simp [marked, k])
        · cases k
        · cases k
        · cases k
      | untickOk t s e =>
        intro z hz
        cases hz
        rcases hk _ e with k | ⟨_, k | k⟩ | k
        · exact .inl (by simp [marked, k])
        · cases k
        · cases k
        · cases k
      | _ =>
        first
        | exact fun x _ => .inr (.inr (.inr (.inr rfl)))
        | (intro x hx
           rcases hk x hx with k | ⟨_, k | k⟩ | k
           · exact .inl k
           · cases k
           · cases k
           · cases k)

theorem fresh_join (n : Nat) : ∀ {m : Mgr N} {b : Bool}, Inv' (up o b m) → Fresh o (up o b m) → Fresh o (join (marked o) n (up o b m)) := by
  induction n with
  | zero => intro m b _ h; exact h
  | succ n ih =>
    intro m b hi h
    simp only [join]
    split
    · have hi' := inv'_thread (o := marked o) hi
      have h' := fresh_thread hi h
      obtain ⟨b', e⟩ := thread_up (o := o) b m
      rw [e] at hi' h' ⊢
      exact ih hi' h'
    · exact h

theorem fresh_shutdown {m : Mgr N} {b : Bool} (hq : m.thread ≠ .alive .start) (h : Fresh o (up o b m)) : Fresh o (shutdownCmd (marked o) (up o b m)).1 := by
  unfold shutdownCmd
  cases ht : m.tree with
  | bad => rw [show (up o b m).tree = .bad by simp [up, ht, upTree]]; exact fun x _ => .inr (.inl rfl)
  | empty => rw [show (up o b m).tree = .empty by simp [up, ht, upTree]]; exact fun x _ => .inr (.inl rfl)
  | root t =>
    have e := show (up o b m).tree = .root (t, b) by simp [up, ht, upTree]
    rw [e]
    dsimp only
    split
    · intro x hx
      cases hx
      rcases h _ e with k | k | k | k | k
      · exact .inl (by simpa [marked] using k)
      · exact .inr (.inl k)
      · exact absurd k.1 hq
      · exact .inr (.inr (.inr (.inl k)))
      · exact .inr (.inr (.inr (.inr k)))
    · exact fun x _ => .inr (.inl rfl)

theorem fresh_op {m : Mgr N} {b : Bool} {t : N} (ht : m.tree = .root t) (op : Op) (hq : m.thread ≠ .alive .start) (h : Fresh o (up o b m)) :
    Fresh o { up o b m with tree := .root ((marked o).run op (t, b)).node } := by
  have e := show (up o b m).tree = .root (t, b) by simp [up, ht, upTree]
  intro x hx
  cases hx
  rcases h _ e with k | k | k | k | k
  · exact .inl (by simpa [marked] using .inl k)
  · exact .inr (.inl k)
  · exact absurd k.1 hq
  · exact .inr (.inr (.inr (.inl k)))
  · exact .inr (.inr (.inr (.inr k)))

theorem not_start {m : Mgr N} (h : ¬ Executing m.thread) : m.thread ≠ .alive .start := fun e => h ⟨_, e, by simp, by simp⟩

theorem fresh_stop (down : Bool) {m : Mgr N} {b : Bool} (hi : Inv m) (hd : m.state = .idle → m.thread.isAlive = false) (h : Fresh o (up o b m)) :
    Fresh o (stopCmd (marked o) down (up o b m)).1 := by
  have hp : Fresh o (stopPart (marked o) (up o b m)).1 := by
    unfold stopPart
    have e0 : (up o b m).state = m.state := rfl
    rw [e0]
    cases hs : m.state with
    | ticking =>
      dsimp only
      have hf : Fresh o (up o b { m with state := .stopRequested, asked := true }) := by
        intro x hx
        rcases h x hx with k | k | k | k | k
        · exact .inl k
        · rw [e0, hs] at k; cases k
        · exact .inr (.inr (.inl k))
        · rw [e0, hs] at k; cases k
        · exact .inr (.inr (.inr (.inr k)))
      have hi' : Inv' (up o b { m with state := .stopRequested, asked := true }) := ⟨hi.lost, by simp [up], by simp [up]⟩
      have := fresh_join joinSteps hi' hf
      split
      · exact this
      · split <;> exact this
    | waiting =>
      dsimp only
      cases ht : m.tree with
      | bad => rw [show (up o b m).tree = .bad by simp [up, ht, upTree]]; exact h
      | empty => rw [show (up o b m).tree = .empty by simp [up, ht, upTree]]; exact h
      | root t =>
        rw [show (up o b m).tree = .root (t, b) by simp [up, ht, upTree]]
        dsimp only
        have := fresh_op ht .untick (not_start (hi.quiet (by simp [hs]) (by simp [hs]))) h
        have e : ({ up o b m with tree := .root ((marked o).run .untick (t, b)).node } : Mgr (N × Bool)) =
          { up o b m with tree := .root ((marked o).run .untick (t, b)).node, state := .waiting } := by simp [up, hs]
        rw [e] at this
        split <;> exact this
    | _ => exact h
  obtain ⟨b', e⟩ := stopPart_up (o := o) b m
  have hq := (inv_stopPart (o := o) hi hd).2
  unfold stopCmd
  rw [e] at hp ⊢
  cases hs : stopPart o m with
  | mk m' r =>
    rw [hs] at hp hq
    cases r with
    | some r => exact hp
    | none =>
      dsimp only
      split
      · exact fresh_shutdown (not_start hq) hp
      · exact hp

theorem fresh_dispatch (c : Cmd) {m : Mgr N} {b : Bool} (hi : Inv m) (hd : m.state = .idle → m.thread.isAlive = false)
    (hc : m.state = .editable → Holds (fun t => rests (o.state t) = true) m.tree) (hr : ∀ t, rests (o.state t) = true → (o.run .reset t).res = .err)
    (h : Fresh o (up o b m)) : Fresh o (dispatch (marked o) c (up o b m)).1 := by
  have e0 : (up o b m).state = m.state := rfl
  have e1 : (up o b m).thread = m.thread := rfl
  have hs : ∀ single once untilResult, ¬ (m.state = .error ∧ c ≠ .shutdown) → c ≠ .shutdown → ¬ m.thread.isAlive = true →
      Fresh o (up o b (startThread single { m with once, untilResult, state := .ticking })) := by
    intro a1 a2 a3 h1 h2 h3 x hx
    rcases h x hx with k | k | k | k | k
    · exact .inl k
    · refine .inr (.inr (.inl ⟨rfl, ?_⟩))
      cases ht : m.tree with
      | bad => rw [show (up o b (startThread a1 { m with once := a2, untilResult := a3, state := .ticking })).tree = .bad by simp [up, ht, upTree, startThread]] at hx; cases hx
      | empty => rw [show (up o b (startThread a1 { m with once := a2, untilResult := a3, state := .ticking })).tree = .empty by simp [up, ht, upTree, startThread]] at hx; cases hx
      | root t =>
        rw [show (up o b (startThread a1 { m with once := a2, untilResult := a3, state := .ticking })).tree = .root (t, b) by simp [up, ht, upTree, startThread]] at hx
        cases hx
        exact hc k t ht
    · rw [e1] at k; rw [k.1] at h3; exact absurd rfl h3
    · exact absurd ⟨k, h2⟩ h1
    · rw [e1] at k; rw [k] at h3; exact absurd rfl h3
  unfold dispatch
  rw [e0, e1]
  split
  · exact h
  · rename_i hx
    have hm : ∀ u, c ≠ .shutdown → Fresh o (tickMultipleCmd u (up o b m)).1 := by
      intro u hcs
      unfold tickMultipleCmd
      rw [e1]
      split
      · exact h
      · rename_i ha
        cases ht : m.tree with
        | bad => rw [show (up o b m).tree = .bad by simp [up, ht, upTree]]; exact h
        | empty => rw [show (up o b m).tree = .empty by simp [up, ht, upTree]]; exact h
        | root t =>
          rw [show (up o b m).tree = .root (t, b) by simp [up, ht, upTree]]
          have := hs false false u hx hcs ha
          intro x hx'
          refine this x ?_
          simp only [startThread] at hx'
          simp only [up, startThread, ht, upTree]
          exact hx'
    cases c with
    | setupAndShutdown =>
      dsimp only
      split
      · exact h
      · split
        · exact h
        · exact fresh_stop true hi hd h
    | stop => exact fresh_stop false hi hd h
    | shutdown => exact fresh_stop true hi hd h
    | tickOnce =>
      dsimp only
      by_cases ha : m.thread.isAlive = true
      · have ha' : (up o b m).thread.isAlive = true := ha
        unfold tickOnceCmd
        rw [if_pos ha']
        exact h
      · have ha' : ¬ (up o b m).thread.isAlive = true := ha
        cases ht : m.tree with
        | bad =>
          unfold tickOnceCmd
          rw [if_neg ha', show (up o b m).tree = .bad by simp [up, ht, upTree]]
          exact h
        | empty =>
          unfold tickOnceCmd
          rw [if_neg ha', show (up o b m).tree = .empty by simp [up, ht, upTree]]
          exact h
        | root t =>
          have hf := hs true true false hx (by simp) ha
          have hi' : Inv' (up o b (startThread true { m with once := true, untilResult := false, state := .ticking })) :=
            ⟨hi.lost, by simp [up, startThread], by simp [up, startThread]⟩
          have := fresh_join joinSteps hi' hf
          rw [once_eq (marked o) (up o b m) (t, b) (by simp [up, ht, upTree]) ha' _ rfl]
          split
          · exact this
          · split <;> exact this
    | tickPeriodically => exact hm false (by simp)
    | tickUntilResult => exact hm true (by simp)
    | reset =>
      dsimp only
      unfold resetCmd
      rw [e1]
      split
      · exact h
      · rename_i ha
        cases ht : m.tree with
        | bad => rw [show (up o b m).tree = .bad by simp [up, ht, upTree]]; exact h
        | empty =>
          rw [show (up o b m).tree = .empty by simp [up, ht, upTree]]
          intro x hx'
          cases hx'
        | root t =>
          have e2 := show (up o b m).tree = .root (t, b) by simp [up, ht, upTree]
          rw [e2]
          dsimp only
          have ho := fresh_op ht .reset (fun e => ha (by rw [e]; rfl)) h
          cases hres : ((marked o).run .reset (t, b)).res with
          | err => exact ho
          | ok s =>
            intro x hx'
            cases hx'
            rcases h _ e2 with k | k | k | k | k
            · exact .inl (by simpa [marked] using k)
            · have := hr t (hc k t ht)
              have e3 : ((marked o).run .reset (t, b)).res = (o.run .reset t).res := rfl
              rw [e3, this] at hres
              cases hres
            · rw [e1] at k; exact absurd (by rw [k.1]; rfl) ha
            · exact absurd ⟨k, by simp⟩ hx
            · rw [e1] at k; exact absurd (by rw [k]; rfl) ha
    | doNothing => exact h
    | unknown => exact h

theorem fresh_renew {m : Mgr N} {b : Bool} (h : Fresh o (up o b m)) : Fresh o (up o b (renew m)) := by
  unfold renew
  split
  · exact h
  · rename_i ha
    intro x hx
    rcases h x hx with k | k | k | k | k
    · exact .inl k
    · exact .inr (.inl k)
    · have k1 : m.thread = .alive .start := k.1
      exact absurd (by rw [k1]; rfl) ha
    · exact .inr (.inr (.inr (.inl k)))
    · have k1 : m.thread = .alive .failed := k
      exact absurd (by rw [k1]; rfl) ha

theorem fresh_control (c : Cmd) (timely : Bool) {m : Mgr N} {b : Bool} (hi : Inv m) (hc : m.state = .editable → Holds (fun t => rests (o.state t) = true) m.tree)
    (hr : ∀ t, rests (o.state t) = true → (o.run .reset t).res = .err) (h : Fresh o (up o b m)) :
    Fresh o (control (marked o) timely c (up o b m)).1 := by
  unfold Exec.control
  have e0 : (up o b m).state = m.state := rfl
  have e1 : (up o b m).thread = m.thread := rfl
  rw [e0, e1]
  have hready := inv_ready (o := o) hi
  unfold ready at hready
  split
  · rename_i hh
    rw [if_pos hh] at hready
    split
    · have hi' : Inv' (up o b m) := ⟨hi.weak.lost, hi.weak.quiet, hi.weak.idle⟩
      have hf := fresh_join joinSteps hi' h
      obtain ⟨b', e⟩ := join_up (o := o) joinSteps b m
      rw [e] at hf ⊢
      rw [renew_up]
      refine fresh_dispatch c hready.1 hready.2 (fun he => ?_) hr (fresh_renew hf)
      have h2 : (join o joinSteps m).state ≠ .editable := Rest.never_join _ (by simp [hh.1])
      have h3 : (renew (join o joinSteps m)).state = (join o joinSteps m).state := by unfold renew; split <;> rfl
      exact absurd (h3 ▸ he) h2
    · exact h
  · rename_i hh
    rw [if_neg hh] at hready
    rw [renew_up]
    refine fresh_dispatch c hready.1 hready.2 ?_ hr (fresh_renew h)
    have h3 : (renew m).state = m.state ∧ (renew m).tree = m.tree := by unfold renew; split <;> exact ⟨rfl, rfl⟩
    rw [h3.1, h3.2]
    exact hc

/-- The root, if there is one, is excused. -/
def Loose (o : Ops N) (m : Mgr N) : Prop := ∀ t, m.tree = .root t → Excused m.state m.thread (o.state t)

theorem fresh_false {m : Mgr N} (h : Loose o m) : Fresh o (up o false m) := by
  intro x hx
  cases ht : m.tree with
  | bad => rw [show (up o false m).tree = .bad by simp [up, ht, upTree]] at hx; cases hx
  | empty => rw [show (up o false m).tree = .empty by simp [up, ht, upTree]] at hx; cases hx
  | root t =>
    rw [show (up o false m).tree = .root (t, false) by simp [up, ht, upTree]] at hx
    cases hx
    exact .inr (h t ht)

theorem loose_up {m : Mgr N} {b : Bool} (h : Fresh o (up o b m)) : mark (up o b m).tree = true ∨ Loose o m := by
  by_cases hm : mark (up o b m).tree = true
  · exact .inl hm
  · refine .inr fun t ht => ?_
    have e : (up o b m).tree = .root (t, b) := by simp [up, ht, upTree]
    rw [e] at hm
    rcases h _ e with k | k
    · exact absurd k hm
    · exact k

/-- A command leaves the root excused, or it initialises the data flow. -/
theorem control_inits (c : Cmd) (timely : Bool) {m : Mgr N} (hi : Inv m) (hc : m.state = .editable → Holds (fun t => rests (o.state t) = true) m.tree)
    (hr : ∀ t, rests (o.state t) = true → (o.run .reset t).res = .err) (h : Loose o m) :
    controlInits o timely c m = true ∨ Loose o (control o timely c m).1 := by
  have := fresh_control c timely hi hc hr (fresh_false h)
  obtain ⟨b', e⟩ := control_up (o := o) timely c false m
  unfold controlInits
  rw [e] at this ⊢
  exact loose_up this

/-- So does a step of the tick thread. -/
theorem thread_inits {m : Mgr N} (hi : Inv m) (h : Loose o m) : threadInits o m = true ∨ Loose o (threadStep o m) := by
  have hi' : Inv' (up o false m) := ⟨hi.weak.lost, hi.weak.quiet, hi.weak.idle⟩
  have := fresh_thread hi' (fresh_false h)
  obtain ⟨b', e⟩ := thread_up (o := o) false m
  unfold threadInits
  rw [e] at this ⊢
  exact loose_up this

end Verif.Exec.Mark
