import Verif.BT.Broken

/-!
# C07 (at most one tick per node) and C08 (errors are not swallowed)
-/

set_option autoImplicit false

namespace Verif.BT

variable {N : Type}

/-! ## C07 -/

/-- A hook body ticks only children listed in `S`, each at most as often as it is listed. -/
def Prog.TicksIn : List Nat → Prog → Prop
  | _, .done _ _ => True
  | S, .call op i k =>
    if op = .tick then i ∈ S ∧ ∀ r, Prog.TicksIn (S.erase i) (k r) else ∀ r, Prog.TicksIn S (k r)
  | S, .peek _ k => ∀ s, Prog.TicksIn S (k s)

/-- Number of ticks of a node that a child may contribute. -/
def weight (f : N → Nat) (cs : List N) (i : Nat) : Nat :=
  match cs[i]? with
  | none => 0
  | some c => f c

theorem weight_set (f : N → Nat) (cs : List N) (i : Nat) (c c' : N) (hc : cs[i]? = some c)
    (hf : f c' = f c) (j : Nat) : weight f (cs.set i c') j = weight f cs j := by
  unfold weight
  by_cases h : i = j
  · subst h
    obtain ⟨hlt, hget⟩ := List.getElem?_eq_some_iff.1 hc
    simp [hlt, hget, hf]
  · simp [h]

theorem sum_map_erase (g : Nat → Nat) (S : List Nat) (i : Nat) (h : i ∈ S) :
    (S.map g).sum = g i + ((S.erase i).map g).sum := by
  induction S with
  | nil => simp at h
  | cons a S ih =>
    by_cases ha : a = i
    · subst ha; simp
    · have hi : i ∈ S := by
        rcases List.mem_cons.1 h with rfl | h
        · exact absurd rfl ha
        · exact h
      rw [List.erase_cons_tail (by simpa using ha)]
      simp only [List.map_cons, List.sum_cons, ih hi]
      omega

theorem tickCalls_append (id : Nat) (a b : List Ev) :
    tickCalls id (a ++ b) = tickCalls id a + tickCalls id b := by
  simp [tickCalls]

theorem exec_ticks (o : Ops N) (id : Nat) (f : N → Nat)
    (hf : ∀ op c, f (o.run op c).node = f c)
    (ht : ∀ c, tickCalls id (o.run .tick c).trace ≤ f c)
    (hn : ∀ op c, op ≠ .tick → tickCalls id (o.run op c).trace = 0) (p : Prog) :
    ∀ (S : List Nat) (cs : List N), p.TicksIn S →
      tickCalls id (exec o p cs).trace ≤ (S.map (weight f cs)).sum := by
  induction p with
  | done m r => intro S cs _; simp [tickCalls]
  | call op i k ih =>
    intro S cs h
    simp only [Prog.TicksIn] at h
    simp only [exec]
    split
    · split at h
      · have := ih .err (S.erase i) cs (h.2 _)
        rw [sum_map_erase _ S i h.1]
        omega
      · exact ih _ _ _ (h _)
    · rename_i c hc
      have hw : ∀ j, weight f (cs.set i (o.run op c).node) j = weight f cs j :=
        weight_set f cs i c _ hc (hf op c)
      simp only [tickCalls_append]
      split at h
      · rename_i hop
        subst hop
        have := ih (o.run .tick c).res (S.erase i) (cs.set i (o.run .tick c).node) (h.2 _)
        rw [sum_map_erase _ S i h.1]
        have h1 := ht c
        have h2 : weight f cs i = f c := by simp [weight, hc]
        simp only [funext hw] at this
        omega
      · rename_i hop
        have := ih (o.run op c).res S (cs.set i (o.run op c).node) (h _)
        simp only [funext hw] at this
        have h1 := hn op c hop
        omega
  | peek i k ih =>
    intro S cs h
    simp only [exec]
    split <;> exact ih _ _ _ (h _)

theorem ticksIn_mono (p : Prog) : ∀ (S : List Nat), p.TicksIn [] → p.TicksIn S := by
  induction p with
  | done m r => intro S _; trivial
  | call op i k ih =>
    intro S h
    simp only [Prog.TicksIn] at h ⊢
    split at h
    · simp at h
    · rename_i hop
      simp only [hop, if_false]
      exact fun r => ih r S (h r)
  | peek i k ih => intro S h s; exact ih s S (h s)

theorem ticksIn_forAll (op : Op) (hop : op ≠ .tick) (m : Mem) (S is : List Nat) (k : Prog)
    (hk : k.TicksIn S) : (Prog.forAll op m is k).TicksIn S := by
  induction is with
  | nil => exact hk
  | cons i is ih =>
    simp only [Prog.forAll, Prog.TicksIn, hop, if_false]
    intro r
    cases r with
    | err => trivial
    | ok s => exact ih

theorem ticksIn_onHead (n : Nat) (op : Op) (hop : op ≠ .tick) (m : Mem) (f : BTState → BTState)
    (d : BTState) (S : List Nat) : (Prog.onHead n op m f d).TicksIn S := by
  unfold Prog.onHead
  split
  · trivial
  · simp [Prog.TicksIn, hop]

theorem ticksIn_onHead_tick (n : Nat) (m : Mem) (f : BTState → BTState) (d : BTState) :
    (Prog.onHead n .tick m f d).TicksIn [0] := by
  unfold Prog.onHead
  split
  · trivial
  · simp [Prog.TicksIn]

theorem ticksIn_resetIfFinished (n : Nat) (st : BTState) (m : Mem) (k : Prog) (S : List Nat)
    (hk : k.TicksIn S) : (Prog.resetIfFinished n st m k).TicksIn S := by
  unfold Prog.resetIfFinished
  split
  · exact ticksIn_forAll _ (by simp) _ _ _ _ hk
  · exact hk

theorem ticksIn_seqLoop (b : Bool) (m : Mem) (is : List Nat) : (Prog.seqLoop b m is).TicksIn is := by
  induction is with
  | nil => trivial
  | cons i is ih =>
    simp only [Prog.seqLoop, Prog.TicksIn, if_true, List.mem_cons, true_or, true_and,
      List.erase_cons_head]
    intro r
    cases r with
    | err => trivial
    | ok s =>
      simp only
      split
      · exact ih
      · split
        · trivial
        · exact ticksIn_forAll _ (by simp) _ _ _ _ trivial

theorem ticksIn_fbLoop (b : Bool) (m : Mem) (is : List Nat) : (Prog.fbLoop b m is).TicksIn is := by
  induction is with
  | nil => trivial
  | cons i is ih =>
    simp only [Prog.fbLoop, Prog.TicksIn, if_true, List.mem_cons, true_or, true_and,
      List.erase_cons_head]
    intro r
    cases r with
    | err => trivial
    | ok s =>
      simp only
      split
      · trivial
      · split
        · exact ticksIn_forAll _ (by simp) _ _ _ _ trivial
        · exact ih

theorem ticksIn_parFinish (m : Mem) (s : BTState) (S is : List Nat) :
    (Prog.parFinish m s is).TicksIn S := by
  induction is with
  | nil => trivial
  | cons i is ih =>
    intro st
    simp only
    split
    · exact ih
    · simp only [Prog.TicksIn, reduceCtorEq, if_false]
      intro r
      cases r with
      | err => trivial
      | ok _ => exact ih

/-- The tick loop of the parallel nodes ticks the listed children at most once each. -/
theorem ticksIn_parLoop (m : Mem) (k : Nat → Nat → Prog) (hk : ∀ a b, (k a b).TicksIn []) :
    ∀ (is : List Nat) (sf : Nat × Nat), (Prog.parLoop m k is sf).TicksIn is := by
  -- skipped children stay available, so prove it for every list of which `is` is a part
  have key : ∀ (is : List Nat) (S : List Nat) (sf : Nat × Nat), is.Sublist S →
      (Prog.parLoop m k is sf).TicksIn S := by
    intro is
    induction is with
    | nil => intro S sf _; exact ticksIn_mono _ _ (hk _ _)
    | cons i is ih =>
      intro S sf hs st
      simp only
      split
      · exact ih S _ ((List.sublist_cons_self i is).trans hs)
      · simp only [Prog.TicksIn, if_true]
        refine ⟨hs.subset (by simp), ?_⟩
        intro r
        cases r with
        | err => trivial
        | ok _ =>
          intro st'
          refine ih _ _ ?_
          have := hs.erase i
          simpa using this
  intro is sf
  exact key is is sf (List.Sublist.refl _)

theorem ticksIn_untickOthers (m : Mem) (nm : Nat) (l : List (Nat × Nat)) (k : Prog) (S : List Nat)
    (hk : k.TicksIn S) : (Prog.untickOthers m nm l k).TicksIn S := by
  induction l with
  | nil => exact hk
  | cons p l ih =>
    obtain ⟨a, i⟩ := p
    unfold Prog.untickOthers
    split
    · exact ih
    · simp only [Prog.TicksIn, reduceCtorEq, if_false]
      intro r
      cases r with
      | err => trivial
      | ok _ => exact ih

theorem ticksIn_tickResetOn (n : Nat) (on : BTState) (m : Mem) :
    (Prog.tickResetOn n on m).TicksIn [0] := by
  unfold Prog.tickResetOn
  split
  · trivial
  · simp only [Prog.TicksIn, if_true, List.mem_singleton, true_and]
    intro r
    cases r with
    | err => trivial
    | ok s =>
      simp only
      split
      · simp [Prog.TicksIn]
      · trivial

/-- The hooks other than `_do_tick` tick nothing. -/
theorem hook_no_tick (k : Kind) (op : Op) (hop : op ≠ .tick) (st : BTState) (m : Mem) (e : Env)
    (names : List Nat) : (hookProg k op st m e names).TicksIn [] := by
  cases op with
  | tick => exact absurd rfl hop
  | setup =>
    cases k <;> simp only [hookProg, setupHook, Prog.allThen] <;> (repeat' split) <;>
      first
      | trivial
      | exact ticksIn_forAll _ (by simp) _ _ _ _ trivial
      | exact ticksIn_onHead _ _ (by simp) _ _ _ _
      | simp [Prog.TicksIn]
  | untick =>
    cases k <;> simp only [hookProg, untickHook, Prog.allThen, Prog.untickPaused] <;>
      (repeat' split) <;>
      first
      | trivial
      | exact ticksIn_forAll _ (by simp) _ _ _ _ trivial
      | exact ticksIn_onHead _ _ (by simp) _ _ _ _
      | simp [Prog.TicksIn]
  | reset =>
    cases k <;> simp only [hookProg, resetHook, Prog.allThen] <;> (repeat' split) <;>
      first
      | trivial
      | exact ticksIn_forAll _ (by simp) _ _ _ _ trivial
      | exact ticksIn_onHead _ _ (by simp) _ _ _ _
      | simp [Prog.TicksIn]
  | shutdown =>
    cases k <;> simp only [hookProg, shutdownHook] <;> (repeat' split) <;>
      first
      | trivial
      | simp [Prog.TicksIn]

theorem ticks_tick0 (k : Res → Prog) (h : ∀ r, (k r).TicksIn []) :
    (Prog.call .tick 0 k).TicksIn [0] := by
  simp only [Prog.TicksIn, if_true, List.mem_singleton, true_and]
  simpa using h

theorem ticks_other (op : Op) (hop : op ≠ .tick) (i : Nat) (k : Res → Prog) (S : List Nat)
    (h : ∀ r, (k r).TicksIn S) : (Prog.call op i k).TicksIn S := by
  simp only [Prog.TicksIn, hop, if_false]
  exact h

/-- `_do_tick` ticks a list of distinct children. -/
theorem hook_ticks (k : Kind) (st : BTState) (m : Mem) (e : Env) (names : List Nat) :
    ∃ S : List Nat, S.Nodup ∧ (hookProg k .tick st m e names).TicksIn S := by
  have z : ([0] : List Nat).Nodup := by simp
  cases k with
  | leaf => exact ⟨[], by simp, trivial⟩
  | sequence =>
    refine ⟨List.range names.length, List.nodup_range, ?_⟩
    simp only [hookProg, tickHook]
    split
    · trivial
    · exact ticksIn_resetIfFinished _ _ _ _ _ (ticksIn_seqLoop _ _ _)
  | fallback =>
    refine ⟨List.range names.length, List.nodup_range, ?_⟩
    simp only [hookProg, tickHook]
    split
    · trivial
    · exact ticksIn_resetIfFinished _ _ _ _ _ (ticksIn_fbLoop _ _ _)
  | memSequence =>
    simp only [hookProg, tickHook]
    split
    · exact ⟨[], by simp, trivial⟩
    · exact ⟨_, List.nodup_range.sublist (List.drop_sublist _ _),
        ticksIn_resetIfFinished _ _ _ _ _ (ticksIn_seqLoop _ _ _)⟩
  | memFallback =>
    simp only [hookProg, tickHook]
    split
    · exact ⟨[], by simp, trivial⟩
    · exact ⟨_, List.nodup_range.sublist (List.drop_sublist _ _),
        ticksIn_resetIfFinished _ _ _ _ _ (ticksIn_fbLoop _ _ _)⟩
  | nameSwitch | enumSwitch =>
    simp only [hookProg, tickHook]
    split
    · split
      · exact ⟨[], by simp, trivial⟩
      · split
        · exact ⟨[], by simp, trivial⟩
        · rename_i j _
          refine ⟨[j], by simp, ticksIn_resetIfFinished _ _ _ _ _ (ticksIn_untickOthers _ _ _ _ _ ?_)⟩
          simp [Prog.TicksIn]
    · exact ⟨[], by simp, trivial⟩
  | parallel | parallelTol =>
    refine ⟨List.range names.length, List.nodup_range, ?_⟩
    simp only [hookProg, tickHook]
    refine ticksIn_resetIfFinished _ _ _ _ _ (ticksIn_parLoop _ _ ?_ _ _)
    intro a b
    split
    · exact ticksIn_parFinish _ _ _ _
    · split
      · exact ticksIn_parFinish _ _ _ _
      · trivial
  | ignoreFailure | ignoreRunning | ignoreSuccess | inverter =>
    exact ⟨[0], z, ticksIn_onHead_tick _ _ _ _⟩
  | untilSuccess | repeatUntilFail | repeatIfFail => exact ⟨[0], z, ticksIn_tickResetOn _ _ _⟩
  | retry | «repeat» | repeatAlways | getter =>
    refine ⟨[0], z, ?_⟩
    simp only [hookProg, tickHook]
    split
    · trivial
    · refine ticks_tick0 _ ?_
      intro r
      cases r with
      | err => trivial
      | ok s =>
        simp only
        repeat' split
        all_goals first
          | trivial
          | (refine ticks_other _ (by simp) _ _ _ ?_; intro r; cases r <;> trivial)
  | optional | subtree =>
    refine ⟨[0], z, ?_⟩
    simp only [hookProg, tickHook]
    repeat' split
    all_goals first
      | trivial
      | exact ticks_tick0 _ (fun r => trivial)
  | watch =>
    refine ⟨[0], z, ?_⟩
    simp only [hookProg, tickHook]
    repeat' split
    all_goals first
      | trivial
      | exact ticks_tick0 _ (fun r => trivial)
      | skip
    refine ticks_other _ (by simp) _ _ _ ?_
    intro r
    cases r with
    | err => trivial
    | ok _ => exact ticks_tick0 _ (fun r => trivial)
  | throttle =>
    refine ⟨[0], z, ?_⟩
    simp only [hookProg, tickHook]
    repeat' split
    all_goals first
      | trivial
      | skip
    refine ticks_tick0 _ ?_
    intro r
    split
    · trivial
    · refine ticks_other _ (by simp) _ _ _ ?_
      intro r
      split <;> trivial
  | throttleSuccess =>
    refine ⟨[0], z, ?_⟩
    simp only [hookProg, tickHook]
    repeat' split
    all_goals first
      | trivial
      | exact ticks_tick0 _ (fun r => trivial)
  | repeatNoAutoReset =>
    refine ⟨[0], z, ?_⟩
    simp only [hookProg, tickHook]
    generalize (if e.flag = true then { m with count := 0 } else m) = m'
    repeat' split
    all_goals first
      | trivial
      | skip
    refine ticks_tick0 _ ?_
    intro r
    cases r with
    | err => trivial
    | ok s =>
      simp only
      repeat' split
      all_goals first
        | trivial
        | exact ticks_other _ (by simp) _ _ _ (fun r => trivial)
  | iterateList =>
    refine ⟨[0], z, ?_⟩
    simp only [hookProg, tickHook]
    generalize (if e.flag = true then { m with outChanged := true, counter := 0 } else m) = m'
    simp only [iterateTick]
    repeat' split
    all_goals first
      | trivial
      | skip
    all_goals
      refine ticks_tick0 _ ?_
      intro r
      cases r with
      | err => trivial
      | ok s =>
        simp only
        repeat' split
        all_goals trivial

theorem sum_sub_range (f : N → Nat) (cs : List N) (S : List Nat) (hS : S.Nodup) :
    (S.map (weight f cs)).sum ≤ (cs.map f).sum := by
  induction cs generalizing S with
  | nil =>
    have : S.map (weight f []) = S.map (fun _ => 0) := by
      apply List.map_congr_left; intro i _; simp [weight]
    rw [this]
    clear this hS
    induction S with
    | nil => simp
    | cons a S ih => simpa using ih
  | cons c cs ih =>
    -- split off index 0
    have hw0 : weight f (c :: cs) 0 = f c := by simp [weight]
    have hws : ∀ i, weight f (c :: cs) (i + 1) = weight f cs i := by intro i; simp [weight]
    have key : ∀ T : List Nat, T.Nodup → 0 ∉ T →
        (T.map (weight f (c :: cs))).sum ≤ (cs.map f).sum := by
      intro T hT h0
      have e : T.map (weight f (c :: cs)) = (T.map (· - 1)).map (weight f cs) := by
        rw [List.map_map]
        apply List.map_congr_left
        intro i hi
        cases i with
        | zero => exact absurd hi h0
        | succ i => simp [hws]
      rw [e]
      apply ih
      rw [List.nodup_iff_pairwise_ne, List.pairwise_map]
      refine (List.nodup_iff_pairwise_ne.1 hT).imp_of_mem ?_
      intro a b ha hb hab
      have ha0 : a ≠ 0 := fun e => h0 (e ▸ ha)
      have hb0 : b ≠ 0 := fun e => h0 (e ▸ hb)
      omega
    by_cases h0 : 0 ∈ S
    · rw [sum_map_erase _ S 0 h0, hw0, List.map_cons, List.sum_cons]
      have := key (S.erase 0) (hS.erase 0) (hS.not_mem_erase)
      omega
    · have := key S hS h0
      simp only [List.map_cons, List.sum_cons]
      omega

theorem shutdownAll_ticks (o : Ops N) (id : Nat)
    (hn : ∀ op c, op ≠ .tick → tickCalls id (o.run op c).trace = 0) (cs : List N) :
    tickCalls id (shutdownAll o cs).2.2 = 0 := by
  induction cs with
  | nil => simp [shutdownAll, tickCalls]
  | cons c cs ih => simp [shutdownAll, tickCalls_append, ih, hn .shutdown c (by simp)]

/-- One step of the induction for C07. -/
theorem run_ticks (o : Ops N) (id : Nat) (f : N → Nat)
    (hf : ∀ op c, f (o.run op c).node = f c)
    (ht : ∀ c, tickCalls id (o.run .tick c).trace ≤ f c)
    (hn : ∀ op c, op ≠ .tick → tickCalls id (o.run op c).trace = 0) (op : Op) (nd : Node N) :
    tickCalls id (nd.run o op).trace ≤
      if op = .tick then (if nd.id = id then 1 else 0) + (nd.children.map f).sum else 0 := by
  have hwrap : ∀ (nd' : Node N) r l t, nd'.id = nd.id →
      tickCalls id (Node.wrap op nd' r l t).trace =
        (if op = .tick ∧ nd.id = id then 1 else 0) + tickCalls id t := by
    intro nd' r l t h
    simp only [Node.wrap, h, tickCalls, List.count_cons, List.count_append, List.count_nil]
    by_cases h1 : op = .tick ∧ nd.id = id
    · simp [h1.1, h1.2]; omega
    · have : (Ev.call op nd.id == Ev.call .tick id) = false := by
        simp; intro a b; exact h1 ⟨a, b⟩
      simp [this, h1]
  have hx : ∀ x, x = exec o (hookProg nd.kind op nd.state nd.mem (nd.env nd.ctr)
      (nd.children.map o.name)) nd.children →
      tickCalls id (.hook op nd.id :: x.trace) ≤ if op = .tick then (nd.children.map f).sum else 0 := by
    intro x hx
    have e : tickCalls id (.hook op nd.id :: x.trace) = tickCalls id x.trace := by
      simp [tickCalls]
    rw [e, hx]
    by_cases hop : op = .tick
    · subst hop
      simp only [if_true]
      obtain ⟨S, hS, hS'⟩ := hook_ticks nd.kind nd.state nd.mem (nd.env nd.ctr)
        (nd.children.map o.name)
      exact Nat.le_trans (exec_ticks o id f hf ht hn _ S _ hS') (sum_sub_range f _ S hS)
    · simp only [hop, if_false]
      have := exec_ticks o id f hf ht hn _ [] nd.children
        (hook_no_tick nd.kind op hop nd.state nd.mem (nd.env nd.ctr) (nd.children.map o.name))
      simpa using this
  have e0 : tickCalls id [] = 0 := by simp [tickCalls]
  apply run_cases o op nd (P := fun out => tickCalls id out.trace ≤ _)
  · intro _; rw [hwrap, e0]
    · split <;> split <;> simp_all
    · rfl
  · intro h _ _; rw [hwrap, e0]
    · subst h; simp
    · rfl
  · intro x h _ _ _; rw [hwrap]
    · have := hx x h
      by_cases hop : op = .tick
      · subst hop; simp only [if_true, true_and] at this ⊢; omega
      · simp only [hop, if_false, false_and] at this ⊢; omega
    · rfl
  · intro x s h _ _ _ _; rw [hwrap]
    · have := hx x h
      by_cases hop : op = .tick
      · subst hop; simp only [if_true, true_and] at this ⊢; omega
      · simp only [hop, if_false, false_and] at this ⊢; omega
    · rfl
  · intro x s _ h _ _ _ _; rw [hwrap]
    · have := hx x h
      by_cases hop : op = .tick
      · subst hop; simp only [if_true, true_and] at this ⊢; omega
      · simp only [hop, if_false, false_and] at this ⊢; omega
    · rfl
  · intro hop _
    subst hop
    simp only [Node.finishShutdown]
    split
    · rw [hwrap]
      · simp [shutdownAll_ticks o id hn]
      · rfl
    · rw [hwrap]
      · simp [e0]
      · rfl
  · intro x hop h _ _
    subst hop
    have := hx x h
    simp only [Node.finishShutdown]
    split
    · rw [hwrap]
      · rw [tickCalls_append, shutdownAll_ticks o id hn]
        simp only [reduceCtorEq, if_false, false_and] at this ⊢; omega
      · rfl
    · rw [hwrap]
      · simp only [reduceCtorEq, if_false, false_and] at this ⊢; omega
      · rfl

theorem count_flatten (id : Nat) (n : Nat) (cs : List (Tree n)) :
    ((cs.flatMap (nodeStates n)).map (·.1)).count id =
      (cs.map (fun c => (nodeIds n c).count id)).sum := by
  induction cs with
  | nil => simp
  | cons c cs ih => simp [ih, nodeIds]

theorem ticks_bounded (n : Nat) (id : Nat) : ∀ op (t : Tree n),
    tickCalls id ((ops n).run op t).trace ≤ if op = .tick then (nodeIds n t).count id else 0 := by
  induction n with
  | zero => intro op t; exact Empty.elim t
  | succ n ih =>
    intro op t
    have h := run_ticks (ops n) id (fun c => (nodeIds n c).count id)
      (fun op c => by rw [nodeIds_run]) (fun c => by simpa using ih .tick c)
      (fun op c hop => by have := ih op c; simp [hop] at this; exact this) op t
    refine Nat.le_trans h ?_
    split
    · apply Nat.le_of_eq
      rw [← count_flatten]
      simp only [nodeIds, nodeStates, List.map_cons, List.count_cons]
      by_cases e : Node.id (N := Tree n) t = id
      · simp [e]; omega
      · simp [e]
    · exact Nat.le_refl _

/-- **C07.** During one tick of the root of any tree with distinct node ids, every node is ticked at
most once. -/
theorem c07_one_tick_per_node (n : Nat) (t : Tree n) (h : (nodeIds n t).Nodup) (id : Nat) :
    tickCalls id ((ops n).run .tick t).trace ≤ 1 := by
  have h1 := ticks_bounded n id .tick t
  simp only [if_true] at h1
  exact Nat.le_trans h1 (List.nodup_iff_count.1 h id)

example : (nodeIds 3 samplePar).Nodup ∧
    tickCalls 3 ((ops 3).run .tick ((ops 3).run .setup samplePar).node).trace = 1 := by decide

/-- **C07, other operations.** setup, untick, reset and shutdown tick no node at all. -/
theorem c07_only_tick_ticks (n : Nat) (t : Tree n) (op : Op) (hop : op ≠ .tick) (id : Nat) :
    tickCalls id ((ops n).run op t).trace = 0 := by
  have h1 := ticks_bounded n id op t
  simp [hop] at h1
  exact h1

example : let t := (runs (ops 3) [.setup, .tick] samplePar).2
    Ev.call .untick 3 ∈ ((ops 3).run .untick t).trace ∧
    tickCalls 3 ((ops 3).run .untick t).trace = 0 := by
  decide

/-! ## C08 -/

/-- The event "an operation answered `Err`". -/
def Ev.isError : Ev → Bool
  | .ret _ _ .err => true
  | _ => false

/-- Every way to end is `Err`. -/
def Prog.Fails (p : Prog) : Prop := p.Post (fun _ _ => True) (fun _ r => r = .err)

/-- Once a child has answered `Err`, the hook answers `Err`. -/
def Prog.Propagates : Prog → Prop
  | .done _ _ => True
  | .call _ _ k => (k .err).Fails ∧ ∀ s, Prog.Propagates (k (.ok s))
  | .peek _ k => ∀ s, Prog.Propagates (k s)

theorem exec_fails (o : Ops N) (p : Prog) (cs : List N) (h : p.Fails) : (exec o p cs).res = .err :=
  exec_post o (fun _ _ => True) (fun _ r => r = .err) (fun _ _ _ _ => trivial) p cs h

/-- If the hook does not fail, no call it made failed. -/
theorem exec_propagates (o : Ops N) (Q : N → Prop) (hQ : ∀ op c, Q c → Q (o.run op c).node)
    (hc : ∀ op c, Q c → (o.run op c).res.isOk = true →
      ∀ ev ∈ (o.run op c).trace, ev.isError = false) (p : Prog) :
    ∀ cs : List N, (∀ c ∈ cs, Q c) → p.Propagates → (exec o p cs).res.isOk = true →
      (∀ ev ∈ (exec o p cs).trace, ev.isError = false) ∧
      ∀ c ∈ (exec o p cs).log, c.res.isOk = true := by
  induction p with
  | done m r => intro cs _ _ _; simp
  | call op i k ih =>
    intro cs hcs hp hok
    simp only [exec] at hok ⊢
    split at hok
    · exact absurd hok (by rw [exec_fails o _ _ hp.1]; simp)
    · rename_i c hci
      simp only at hok ⊢
      have hq := hcs c (List.mem_of_getElem? hci)
      cases hr : (o.run op c).res with
      | err =>
        rw [hr, exec_fails o _ _ hp.1] at hok
        simp at hok
      | ok s =>
        rw [hr] at hok
        have h2 := ih (.ok s) (cs.set i (o.run op c).node)
          (List.forall_mem_set_of hcs (hQ op c hq)) (hp.2 s) hok
        refine ⟨?_, ?_⟩
        · intro ev hev
          rcases List.mem_append.1 hev with hev | hev
          · exact hc op c hq (by rw [hr]; rfl) ev hev
          · exact h2.1 ev hev
        · intro c' hc'
          rcases List.mem_cons.1 hc' with rfl | hc'
          · rfl
          · exact h2.2 c' hc'
  | peek i k ih =>
    intro cs hcs hp hok
    simp only [exec] at hok ⊢
    split at hok <;> exact ih _ _ hcs (hp _) hok

theorem prop_forAll (op : Op) (m : Mem) (is : List Nat) (k : Prog) (hk : k.Propagates) :
    (Prog.forAll op m is k).Propagates := by
  induction is with
  | nil => exact hk
  | cons i is ih => exact ⟨rfl, fun s => ih⟩

theorem prop_onHead (n : Nat) (op : Op) (m : Mem) (f : BTState → BTState) (d : BTState) :
    (Prog.onHead n op m f d).Propagates := by
  unfold Prog.onHead
  split
  · trivial
  · exact ⟨rfl, fun s => trivial⟩

theorem prop_resetIfFinished (n : Nat) (st : BTState) (m : Mem) (k : Prog) (hk : k.Propagates) :
    (Prog.resetIfFinished n st m k).Propagates := by
  unfold Prog.resetIfFinished
  split
  · exact prop_forAll _ _ _ _ hk
  · exact hk

theorem prop_seqLoop (b : Bool) (m : Mem) (is : List Nat) : (Prog.seqLoop b m is).Propagates := by
  induction is with
  | nil => trivial
  | cons i is ih =>
    refine ⟨rfl, fun s => ?_⟩
    simp only
    split
    · exact ih
    · split
      · trivial
      · exact prop_forAll _ _ _ _ trivial

theorem prop_fbLoop (b : Bool) (m : Mem) (is : List Nat) : (Prog.fbLoop b m is).Propagates := by
  induction is with
  | nil => trivial
  | cons i is ih =>
    refine ⟨rfl, fun s => ?_⟩
    simp only
    split
    · trivial
    · split
      · exact prop_forAll _ _ _ _ trivial
      · exact ih

theorem prop_parFinish (m : Mem) (s : BTState) (is : List Nat) :
    (Prog.parFinish m s is).Propagates := by
  induction is with
  | nil => trivial
  | cons i is ih =>
    intro st
    simp only
    split
    · exact ih
    · exact ⟨rfl, fun _ => ih⟩

theorem prop_parLoop (m : Mem) (k : Nat → Nat → Prog) (hk : ∀ a b, (k a b).Propagates) :
    ∀ (is : List Nat) (sf : Nat × Nat), (Prog.parLoop m k is sf).Propagates := by
  intro is
  induction is with
  | nil => intro sf; exact hk _ _
  | cons i is ih =>
    intro sf st
    simp only
    split
    · exact ih _
    · exact ⟨rfl, fun _ st' => ih _⟩

theorem prop_untickOthers (m : Mem) (nm : Nat) (l : List (Nat × Nat)) (k : Prog)
    (hk : k.Propagates) : (Prog.untickOthers m nm l k).Propagates := by
  induction l with
  | nil => exact hk
  | cons p l ih =>
    obtain ⟨a, i⟩ := p
    unfold Prog.untickOthers
    split
    · exact ih
    · exact ⟨rfl, fun _ => ih⟩

theorem prop_call_done (op : Op) (i : Nat) (m : Mem) :
    (Prog.call op i fun r => .done m r).Propagates := ⟨rfl, fun _ => trivial⟩

/-- All classes but ThrottleSuccess propagate errors of children, in every hook. -/
theorem hook_propagates (k : Kind) (hk : k ≠ .throttleSuccess) (op : Op) (st : BTState) (m : Mem)
    (e : Env) (names : List Nat) : (hookProg k op st m e names).Propagates := by
  cases op with
  | setup =>
    cases k <;> simp only [hookProg, setupHook, Prog.allThen] <;> (repeat' split) <;>
      first
      | trivial
      | exact prop_forAll _ _ _ _ trivial
      | exact prop_onHead _ _ _ _ _
      | exact prop_call_done _ _ _
  | untick =>
    cases k <;> simp only [hookProg, untickHook, Prog.allThen, Prog.untickPaused] <;>
      (repeat' split) <;>
      first
      | trivial
      | exact prop_forAll _ _ _ _ trivial
      | exact prop_onHead _ _ _ _ _
      | exact prop_call_done _ _ _
  | reset =>
    cases k <;> simp only [hookProg, resetHook, Prog.allThen] <;> (repeat' split) <;>
      first
      | trivial
      | exact prop_forAll _ _ _ _ trivial
      | exact prop_onHead _ _ _ _ _
      | exact prop_call_done _ _ _
  | shutdown =>
    cases k <;> simp only [hookProg, shutdownHook] <;> (repeat' split) <;>
      first
      | trivial
      | exact prop_call_done _ _ _
  | tick =>
    cases k with
    | leaf => trivial
    | sequence =>
      simp only [hookProg, tickHook]
      split
      · trivial
      · exact prop_resetIfFinished _ _ _ _ (prop_seqLoop _ _ _)
    | memSequence =>
      simp only [hookProg, tickHook]
      split
      · trivial
      · exact prop_resetIfFinished _ _ _ _ (prop_seqLoop _ _ _)
    | fallback =>
      simp only [hookProg, tickHook]
      split
      · trivial
      · exact prop_resetIfFinished _ _ _ _ (prop_fbLoop _ _ _)
    | memFallback =>
      simp only [hookProg, tickHook]
      split
      · trivial
      · exact prop_resetIfFinished _ _ _ _ (prop_fbLoop _ _ _)
    | nameSwitch | enumSwitch =>
      simp only [hookProg, tickHook]
      split
      · split
        · trivial
        · split
          · trivial
          · exact prop_resetIfFinished _ _ _ _ (prop_untickOthers _ _ _ _ (prop_call_done _ _ _))
      · trivial
    | parallel | parallelTol =>
      simp only [hookProg, tickHook]
      refine prop_resetIfFinished _ _ _ _ (prop_parLoop _ _ ?_ _ _)
      intro a b
      split
      · exact prop_parFinish _ _ _
      · split
        · exact prop_parFinish _ _ _
        · trivial
    | ignoreFailure | ignoreRunning | ignoreSuccess | inverter => exact prop_onHead _ _ _ _ _
    | untilSuccess | repeatUntilFail | repeatIfFail =>
      simp only [hookProg, tickHook, Prog.tickResetOn]
      split
      · trivial
      · refine ⟨rfl, fun s => ?_⟩
        simp only
        split
        · exact ⟨rfl, fun _ => trivial⟩
        · trivial
    | retry | «repeat» | repeatAlways | getter =>
      simp only [hookProg, tickHook]
      split
      · trivial
      · refine ⟨rfl, fun s => ?_⟩
        simp only
        repeat' split
        all_goals first
          | trivial
          | exact ⟨rfl, fun _ => trivial⟩
    | optional | subtree =>
      simp only [hookProg, tickHook]
      repeat' split
      all_goals first
        | trivial
        | exact ⟨rfl, fun _ => trivial⟩
    | watch =>
      simp only [hookProg, tickHook]
      repeat' split
      all_goals first
        | trivial
        | exact ⟨rfl, fun _ => trivial⟩
        | exact ⟨rfl, fun _ => prop_call_done _ _ _⟩
    | throttle =>
      simp only [hookProg, tickHook]
      repeat' split
      all_goals first
        | trivial
        | skip
      refine ⟨?_, fun s => ?_⟩
      · simp only [reduceCtorEq, if_false]
        intro r _
        by_cases h : r = .err <;> simp [h, Prog.Post]
      · simp only
        split
        · trivial
        · refine ⟨?_, fun s => ?_⟩
          · simp [Prog.Fails, Prog.Post]
          · simp only [reduceCtorEq, if_false]
            trivial
    | throttleSuccess => exact absurd rfl hk
    | repeatNoAutoReset =>
      simp only [hookProg, tickHook]
      generalize (if e.flag = true then { m with count := 0 } else m) = m'
      repeat' split
      all_goals first
        | trivial
        | skip
      refine ⟨rfl, fun s => ?_⟩
      simp only
      repeat' split
      all_goals first
        | trivial
        | exact ⟨rfl, fun _ => trivial⟩
    | iterateList =>
      simp only [hookProg, tickHook]
      generalize (if e.flag = true then { m with outChanged := true, counter := 0 } else m) = m'
      simp only [iterateTick]
      repeat' split
      all_goals first
        | trivial
        | skip
      all_goals
        refine ⟨rfl, fun s => ?_⟩
        simp only
        repeat' split
        all_goals trivial

/-- No ThrottleSuccess in the tree. -/
def NoThrottleSuccess (n : Nat) (t : Tree n) : Prop :=
  AllNodes (fun nd => nd.kind ≠ .throttleSuccess) n t

instance (n : Nat) (t : Tree n) : Decidable (NoThrottleSuccess n t) :=
  decAllNodes _ (fun _ => inferInstance) n t

theorem NoThrottleSuccess_run (n : Nat) (op : Op) (t : Tree n) (h : NoThrottleSuccess n t) :
    NoThrottleSuccess n ((ops n).run op t).node := by
  induction n generalizing op with
  | zero => exact Empty.elim t
  | succ n ih =>
    refine ⟨?_, run_children (ops n) _ (fun op c hc => ih op c hc) op t h.2⟩
    show (Node.run (ops n) op t).node.kind ≠ _
    rw [(run_static (ops n) op t).2.2.1]
    exact h.1

theorem shutdownAll_clean (o : Ops N) (Q : N → Prop)
    (hc : ∀ op c, Q c → (o.run op c).res.isOk = true →
      ∀ ev ∈ (o.run op c).trace, ev.isError = false) (cs : List N) (h : ∀ c ∈ cs, Q c)
    (hok : (shutdownAll o cs).2.1 = false) :
    ∀ ev ∈ (shutdownAll o cs).2.2, ev.isError = false := by
  induction cs with
  | nil => simp [shutdownAll]
  | cons c cs ih =>
    simp only [shutdownAll, Bool.or_eq_false_iff] at hok
    intro ev hev
    rcases List.mem_append.1 hev with hev | hev
    · refine hc .shutdown c (h c (by simp)) ?_ ev hev
      cases hr : (o.run .shutdown c).res with
      | ok s => rfl
      | err => simp [hr] at hok
    · exact ih (fun c hc => h c (by simp [hc])) hok.2 ev hev

theorem run_clean (o : Ops N) (Q : N → Prop) (hQ : ∀ op c, Q c → Q (o.run op c).node)
    (hc : ∀ op c, Q c → (o.run op c).res.isOk = true →
      ∀ ev ∈ (o.run op c).trace, ev.isError = false)
    (op : Op) (nd : Node N) (hk : nd.kind ≠ .throttleSuccess) (hcs : ∀ c ∈ nd.children, Q c)
    (hok : (nd.run o op).res.isOk = true) : ∀ ev ∈ (nd.run o op).trace, ev.isError = false := by
  have hw : ∀ (nd' : Node N) s l t, (∀ ev ∈ t, ev.isError = false) →
      ∀ ev ∈ (Node.wrap op nd' (.ok s) l t).trace, ev.isError = false := by
    intro nd' s l t ht ev hev
    simp only [Node.wrap, List.mem_cons, List.mem_append, List.not_mem_nil, or_false] at hev
    rcases hev with rfl | hev | rfl
    · rfl
    · exact ht ev hev
    · rfl
  have hx : ∀ x, x = exec o (hookProg nd.kind op nd.state nd.mem (nd.env nd.ctr)
      (nd.children.map o.name)) nd.children → x.res.isOk = true →
      ∀ ev ∈ Ev.hook op nd.id :: x.trace, ev.isError = false := by
    intro x hx hok ev hev
    rcases List.mem_cons.1 hev with rfl | hev
    · rfl
    · subst hx
      exact (exec_propagates o Q hQ hc _ _ hcs (hook_propagates _ hk _ _ _ _ _) hok).1 ev hev
  have hfin : ∀ (nd' : Node N) l t, op = .shutdown → (∀ c ∈ nd'.children, Q c) →
      (∀ ev ∈ t, ev.isError = false) →
      (nd'.finishShutdown o l t).res.isOk = true →
      ∀ ev ∈ (nd'.finishShutdown o l t).trace, ev.isError = false := by
    intro nd' l t hop hcs' ht hok'
    subst hop
    simp only [Node.finishShutdown] at hok' ⊢
    split at hok'
    · rename_i hv
      simp only [hv, if_true]
      cases he : (shutdownAll o nd'.children).2.1 with
      | true => simp [he, Node.wrap] at hok'
      | false =>
        simp only [Bool.false_eq_true, if_false]
        refine hw _ _ _ _ ?_
        intro ev hev
        rcases List.mem_append.1 hev with hev | hev
        · exact ht ev hev
        · exact shutdownAll_clean o Q hc _ hcs' he ev hev
    · rename_i hv
      simp only [hv, Bool.false_eq_true, if_false]
      exact hw _ _ _ _ ht
  revert hok
  apply run_cases o op nd (P := fun out => out.res.isOk = true →
    ∀ ev ∈ out.trace, ev.isError = false)
  · intro _ h; simp [Node.wrap] at h
  · intro _ _ _ h; simp [Node.wrap] at h
  · intro x _ _ _ _ h; simp [Node.wrap] at h
  · intro x s _ _ _ _ _ h; simp [Node.wrap] at h
  · intro x s _ h _ _ hr _ _
    exact hw _ _ _ _ (hx x h (by simp [hr]))
  · intro hop _ hok
    exact hfin _ _ _ hop hcs (by simp) hok
  · intro x hop h _ hr hok
    refine hfin _ _ _ hop ?_ (hx x h (by simp [hr])) hok
    subst h
    exact exec_children o Q hQ _ _ hcs

/-- **C08 (partial).** In every tree without ThrottleSuccess: if an operation on the root (in
particular a tick) answers `Ok`, no operation called on any node of the tree during it answered
`Err`. Missing for the full statement: ThrottleSuccess ignores its child's answer, see
`c08_throttle_success_swallows`. -/
theorem c08_errors_surface_partial (n : Nat) : ∀ (op : Op) (t : Tree n), NoThrottleSuccess n t →
    ((ops n).run op t).res.isOk = true →
    ∀ ev ∈ ((ops n).run op t).trace, ev.isError = false := by
  induction n with
  | zero => intro op t; exact Empty.elim t
  | succ n ih =>
    intro op t h hok
    exact run_clean (ops n) _ (fun op c hc => NoThrottleSuccess_run n op c hc) ih op t h.1 h.2 hok

example : let t := (runs (ops 3) [.setup, .tick] samplePar).2
    NoThrottleSuccess 3 t ∧ ((ops 3).run .untick t).res.isOk = true := by decide

/-- A ThrottleSuccess over a leaf that fails with an error. -/
def sampleThrottle : Tree 2 := mk 1 1 .throttleSuccess [mkLeaf 0 2 [.ok .idle, .err]]

/-- **C08 is violated by ThrottleSuccess** (`throttle.py:134-148`): its child fails with an error and is
BROKEN, the tick answers `Ok(FAILED)`. -/
theorem c08_throttle_success_swallows :
    let t := ((ops 2).run .setup sampleThrottle).node
    ((ops 2).run .tick t).res = .ok .failed ∧
    Ev.ret .tick 2 .err ∈ ((ops 2).run .tick t).trace ∧
    nodeStates 2 ((ops 2).run .tick t).node = [(1, .failed), (2, .broken)] := by decide

end Verif.BT
