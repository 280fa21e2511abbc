import Verif.BT.Duration

/-!
# C139: how long a tree takes, round after round

`Duration.lean` is about the first round after a setup or reset. A tree that has finished may be ticked
again: its finished nodes then reset their children on their own and begin a new round.
-/

set_option autoImplicit false

namespace Verif.BT.Again

open Rounds Duration

variable {N : Type}

/-! ### Specification -/

/-- The node as it begins the next round: the children of a finished node with memory or a finished
parallel node are reset. -/
def renewOf (o : Ops N) (R : N → N) (nd : Node N) : Node N :=
  match part nd.kind with
  | .chain _ | .together =>
    if finished nd.state then { nd with children := nd.children.map fun c => (o.run .reset c).node }
    else nd
  | .rename _ _ =>
    match nd.children with
    | [] => nd
    | c :: cs => { nd with children := R c :: cs }
  | .atom => nd

/-- The tree as it begins the next round. -/
def renew : (n : Nat) → Tree n → Tree n
  | 0, t => t
  | n + 1, t => renewOf (ops n) (renew n) t

/-- Specification: the rounds of a tree have these durations and results: computed for the tree as
it begins the round, and the next round begins when this one is over. -/
def Series (n : Nat) : Tree n → List (Nat × BTState) → Prop
  | _, [] => True
  | t, p :: ps => Lasts n (renew n t) p.1 p.2 ∧
      Series n (runs (ops n) (List.replicate (p.1 + 1) .tick) t).2 ps

/-- Specification: the answers of all rounds, one after the other. -/
def courses (ps : List (Nat × BTState)) : List Res := ps.flatMap fun p => course p.1 p.2

/-- The number of ticks of all rounds. -/
def ticks (ps : List (Nat × BTState)) : Nat := (ps.map fun p => p.1 + 1).foldr (· + ·) 0

/-- The node is finished or at the beginning of a round. -/
def dueOf (B D : N → Prop) (nd : Node N) : Prop :=
  match part nd.kind with
  | .chain _ | .together => finished nd.state = true ∨ beginOf B nd
  | .rename _ _ => ∀ c, nd.children[0]? = some c → D c
  | .atom => True

/-- A new round is due. -/
def Due : (n : Nat) → Tree n → Prop
  | 0, t => Empty.elim t
  | n + 1, t => dueOf (Begin n) (Due n) t

theorem begin_due (n : Nat) : ∀ t : Tree n, Begin n t → Due n t := by
  induction n with
  | zero => intro t; exact Empty.elim t
  | succ n ih =>
    intro t h
    have h' : beginOf (Begin n) (t : Node (Tree n)) := h
    show dueOf (Begin n) (Due n) (t : Node (Tree n))
    unfold dueOf
    split
    · exact Or.inr h'
    · exact Or.inr h'
    · rename_i f d hp
      have h2 := h'.2
      rw [hp] at h2
      exact fun c hc => ih c (h2 c hc)
    · trivial

/-! ### The resets -/

theorem reset_exec (o : Ops N) (m : Mem) (st : BTState) (k : Prog) (cs : List N) (s : BTState)
    (hf : finished st = true) (hr : (exec o (Prog.resetIfFinished cs.length st m k) cs).res = .ok s) :
    (∀ c ∈ cs, (o.run .reset c).res.isOk = true) ∧
    (exec o k (cs.map fun c => (o.run .reset c).node)).res = .ok s ∧
    (exec o (Prog.resetIfFinished cs.length st m k) cs).children =
      (exec o k (cs.map fun c => (o.run .reset c).node)).children ∧
    (exec o (Prog.resetIfFinished cs.length st m k) cs).mem =
      (exec o k (cs.map fun c => (o.run .reset c).node)).mem := by
  have e : Prog.resetIfFinished cs.length st m k =
      Prog.forAll .reset m (List.range cs.length) k := by
    unfold Prog.resetIfFinished
    rw [if_pos ((finished_iff _).2 hf)]
  rw [e, exec_forAll_range] at hr
  rw [e, exec_forAll_range]
  have hok := callAll_ok o .reset 0 cs
  generalize callAll o .reset 0 cs = q at hr hok ⊢
  obtain ⟨cs', b, l, t⟩ := q
  cases b with
  | false => simp at hr
  | true =>
    obtain ⟨h1, h2⟩ := hok rfl
    simp only at h1
    subst h1
    exact ⟨h2, hr, rfl, rfl⟩

/-! ### A further round -/

/-- A finished node with memory. -/
theorem chain_again (o : Ops N) (go s : BTState) (T : Nat) (nd : Node N) (ps : List (Nat × BTState))
    (hk : part nd.kind = .chain go) (hf : finished nd.state = true)
    (hl : (∀ c ∈ nd.children, (o.run .reset c).res.isOk = true) →
      Left o (nd.children.map fun c => (o.run .reset c).node) 0 ps)
    (hch : chain go ps = (T, s)) : Takes (Node.ops o) s T nd := by
  have key : ∀ a, (nd.run o .tick).res = .ok a → (T = 0 ∧ a = s) ∨
      (a = .running ∧ ∃ (x : ExecOut N) (i' : Nat) (ps' : List (Nat × BTState)),
        (nd.run o .tick).node = { nd with
          ctr := nd.ctr + 1, mem := x.mem, children := x.children, state := a } ∧
        x.mem.lastRunning = i' ∧ Left o x.children i' ps' ∧
        (T, s) = ((chain go ps').1 + 1, (chain go ps').2)) := by
    intro a ha
    obtain ⟨x, hx, hr, hn, _, _⟩ := run_ok o .tick (by simp) nd a ha
    have hf' := (finished_iff _).2 hf
    by_cases h0 : nd.children.length = 0
    · have hnil := List.length_eq_zero_iff.1 h0
      have hps : ps = [] := by
        have := (hl (by rw [hnil]; simp)).1
        rw [hnil] at this
        exact List.length_eq_zero_iff.1 (by simpa using this)
      subst hps
      left
      rw [hx] at hr
      rcases chain_go _ _ hk with ⟨h, rfl⟩ | ⟨h, rfl⟩
      · rw [h] at hr
        simp only [hookProg, tickHook, List.length_map, h0, if_true, exec, Res.ok.injEq] at hr
        simp only [chain, Prod.mk.injEq] at hch
        exact ⟨hch.1.symm, by rw [← hr, ← hch.2]⟩
      · rw [h] at hr
        simp only [hookProg, tickHook, List.length_map, h0, if_true, exec, Res.ok.injEq] at hr
        simp only [chain, Prod.mk.injEq] at hch
        exact ⟨hch.1.symm, by rw [← hr, ← hch.2]⟩
    · have hh : ∃ (m : Mem) (L : List Nat → Prog), ChainLoop go m L ∧
          hookProg nd.kind .tick nd.state nd.mem (nd.env nd.ctr) (nd.children.map o.name) =
            Prog.resetIfFinished nd.children.length nd.state m
              (L (List.range' 0 nd.children.length)) := by
        rcases chain_go _ _ hk with ⟨h, rfl⟩ | ⟨h, rfl⟩
        · refine ⟨{ nd.mem with lastRunning := 0 }, _, seqLoop_chain _, ?_⟩
          rw [h]
          simp only [hookProg, tickHook, List.length_map, if_neg h0, if_pos hf', List.drop_zero]
          rw [List.range_eq_range']
        · refine ⟨{ nd.mem with lastRunning := 0 }, _, fbLoop_chain _, ?_⟩
          rw [h]
          simp only [hookProg, tickHook, List.length_map, if_neg h0, if_pos hf', List.drop_zero]
          rw [List.range_eq_range']
      obtain ⟨m, L, hL, hh⟩ := hh
      rw [hh] at hx
      rw [hx] at hr
      obtain ⟨r1, r2, r3, r4⟩ := reset_exec o m nd.state _ nd.children a hf hr
      rw [← hx] at r3 r4
      have hleft := hl r1
      have hlen : ps.length = nd.children.length := by
        have := hleft.1
        simpa using this
      rw [← hlen] at r2 r3 r4
      rcases chain_step o go m L hL ps 0 _ a hleft r2 with ⟨h1, h2⟩ | ⟨h1, i', ps', h2, h3, h4⟩
      · left
        rw [hch] at h1 h2
        exact ⟨h1, h2⟩
      · right
        refine ⟨h1, x, i', ps', hn, by rw [r4]; exact h2, by rw [r3]; exact h3, ?_⟩
        rw [← hch, h4]
  cases T with
  | zero =>
    intro a ha
    rcases key a ha with ⟨_, h⟩ | ⟨_, _, _, _, _, _, _, h⟩
    · exact h
    · have := congrArg Prod.fst h
      simp at this
  | succ T =>
    intro a ha
    rcases key a ha with ⟨h, _⟩ | ⟨rfl, x, i', ps', hn, h1, h2, h3⟩
    · cases h
    · refine ⟨rfl, ?_⟩
      have e : ((Node.ops o).run .tick nd).node = { nd with
        ctr := nd.ctr + 1, mem := x.mem, children := x.children, state := .running } := hn
      rw [e]
      refine chain_takes o go s T { nd with
        ctr := nd.ctr + 1, mem := x.mem, children := x.children, state := .running } ps' hk rfl ?_ ?_
      · show Left o x.children x.mem.lastRunning ps'
        rw [h1]
        exact h2
      · have h4 := congrArg Prod.fst h3
        have h5 := congrArg Prod.snd h3
        simp only [Nat.add_right_cancel_iff] at h4 h5
        rw [h4, h5]

/-- The pass of a parallel node, whatever happened before. -/
theorem par_exec (o : Ops N) (hs : Sound o) (m : Mem) (k lim : Int) (ps : List (Nat × BTState))
    (d : Nat) (cs : List N) (s : BTState) (len : Nat) (h : Share o ps d cs)
    (hr : (exec o (Prog.parLoop m (fun s f =>
      if k ≤ (s : Int) then Prog.parFinish m .succeeded (List.range len)
      else if lim < (f : Int) then Prog.parFinish m .failed (List.range len)
      else .done m (.ok .running)) (List.range' 0 cs.length) (0, 0)) cs).res = .ok s) :
    s = together k lim ps d ∧
    (s = .running → Share o ps (d + 1) (exec o (Prog.parLoop m (fun s f =>
      if k ≤ (s : Int) then Prog.parFinish m .succeeded (List.range len)
      else if lim < (f : Int) then Prog.parFinish m .failed (List.range len)
      else .done m (.ok .running)) (List.range' 0 cs.length) (0, 0)) cs).children) := by
  obtain ⟨cs', h1, _, h3, h4, h5⟩ := parLoop_exec o m _ s _ 0 (0, 0) cs (by omega) hr
  have hsh := share_ticked o hs ps d cs cs' h h1 (fun j c hj => h3 j c hj (by omega))
  simp only [List.drop_zero, Nat.zero_add] at h4 h5
  rw [share_count o ps d cs' hsh _ rfl, share_count o ps d cs' hsh _ rfl] at h4 h5
  unfold together verdict
  by_cases hw : k ≤ (reached ps.length (fun j => (ps.getD j (0, .failed)).1)
      (fun j => (ps.getD j (0, .failed)).2) .succeeded d : Int)
  · rw [if_pos hw] at h4 ⊢
    have := parFinish_res o _ _ _ _ _ h4
    subst this
    exact ⟨rfl, fun h => by cases h⟩
  · rw [if_neg hw] at h4 h5 ⊢
    by_cases hlo : lim < (reached ps.length (fun j => (ps.getD j (0, .failed)).1)
      (fun j => (ps.getD j (0, .failed)).2) .failed d : Int)
    · rw [if_pos hlo] at h4 ⊢
      have := parFinish_res o _ _ _ _ _ h4
      subst this
      exact ⟨rfl, fun h => by cases h⟩
    · rw [if_neg hlo] at h4 h5 ⊢
      simp only [exec, Res.ok.injEq] at h4 h5
      subst h4
      refine ⟨rfl, fun _ => ?_⟩
      rw [h5]
      exact hsh

/-- A finished parallel node. -/
theorem par_again (o : Ops N) (hs : Sound o) (T : Nat) (nd : Node N) (ps : List (Nat × BTState))
    (hk : part nd.kind = .together) (hf : finished nd.state = true)
    (hsh : (∀ c ∈ nd.children, (o.run .reset c).res.isOk = true) →
      Share o ps 0 (nd.children.map fun c => (o.run .reset c).node))
    (hopen : ∀ i, i < T → together nd.mem.needed (bears nd) ps i = .running) :
    Takes (Node.ops o) (together nd.mem.needed (bears nd) ps T) T nd := by
  have key : ∀ a, (nd.run o .tick).res = .ok a → a = together nd.mem.needed (bears nd) ps 0 ∧
      (a = .running → ∃ x : ExecOut N, (nd.run o .tick).node = { nd with
          ctr := nd.ctr + 1, mem := x.mem, children := x.children, state := .running } ∧
        Share o ps 1 x.children) := by
    intro a ha
    obtain ⟨x, hx, hr, hn, _, _⟩ := run_ok o .tick (by simp) nd a ha
    have hh : hookProg nd.kind .tick nd.state nd.mem (nd.env nd.ctr) (nd.children.map o.name) =
        Prog.resetIfFinished nd.children.length nd.state nd.mem (Prog.parLoop nd.mem (fun s f =>
          if nd.mem.needed ≤ (s : Int) then
            Prog.parFinish nd.mem .succeeded (List.range nd.children.length)
          else if bears nd < (f : Int) then
            Prog.parFinish nd.mem .failed (List.range nd.children.length)
          else .done nd.mem (.ok .running)) (List.range' 0 nd.children.length) (0, 0)) := by
      rw [← List.range_eq_range']
      rcases par_kind _ hk with e | e
      · simp only [hookProg, tickHook, e, List.length_map, bears, if_true]
      · simp only [hookProg, tickHook, e, List.length_map, bears, reduceCtorEq, if_false]
    rw [hh] at hx
    rw [hx] at hr
    obtain ⟨r1, r2, r3, _⟩ := reset_exec o nd.mem nd.state _ nd.children a hf hr
    rw [← hx] at r3
    have hlen : nd.children.length = (nd.children.map fun c => (o.run .reset c).node).length := by
      simp
    have e := congrArg (List.range' 0) hlen
    rw [e] at r2 r3
    have hp := par_exec o hs nd.mem _ _ ps 0 _ a _ (hsh r1) r2
    refine ⟨hp.1, fun h => ⟨x, by rw [hn, h], ?_⟩⟩
    rw [r3]
    exact hp.2 h
  cases T with
  | zero => intro a ha; exact (key a ha).1
  | succ T =>
    intro a ha
    obtain ⟨h1, h2⟩ := key a ha
    have hrun : a = .running := h1.trans (hopen 0 (by omega))
    refine ⟨hrun, ?_⟩
    obtain ⟨x, hx, hs1⟩ := h2 hrun
    have hcfg := run_cfg o .tick (by simp) nd
    have e1 : (nd.run o .tick).node.mem.needed = nd.mem.needed := congrArg Cfg.needed hcfg
    have e2 : bears (nd.run o .tick).node = bears nd := by
      obtain ⟨_, _, hkd, _, _, hlen⟩ := run_static o .tick nd
      unfold bears
      rw [hkd, hlen, e1]
      have : (nd.run o .tick).node.mem.tolerate = nd.mem.tolerate := congrArg Cfg.tolerate hcfg
      rw [this]
    have := par_takes o hs ps T 1 (nd.run o .tick).node (by rw [hx]; exact hk) (by rw [hx]; rfl)
      (by rw [hx]; exact hs1) (by
        intro i hi
        rw [e1, e2, Nat.add_comm]
        exact hopen (i + 1) (by omega))
    rw [e1, e2, Nat.add_comm] at this
    exact this

theorem reset_begin (n : Nat) (cs : List (Tree n))
    (h : ∀ c ∈ cs, ((ops n).run .reset c).res.isOk = true) :
    ∀ c ∈ cs.map fun c => ((ops n).run .reset c).node, Begin n c := by
  intro c hc
  obtain ⟨d, hd, rfl⟩ := List.mem_map.1 hc
  have := h d hd
  cases hr : ((ops n).run .reset d).res with
  | err => rw [hr] at this; cases this
  | ok a => exact begin_start .reset (Or.inr rfl) n d a hr

theorem renew_chain (o : Ops N) (R : N → N) (nd : Node N) (go : BTState)
    (hp : part nd.kind = .chain go) : renewOf o R nd =
      if finished nd.state then { nd with children := nd.children.map fun c => (o.run .reset c).node }
      else nd := by
  unfold renewOf
  rw [hp]

theorem renew_together (o : Ops N) (R : N → N) (nd : Node N) (hp : part nd.kind = .together) :
    renewOf o R nd =
      if finished nd.state then { nd with children := nd.children.map fun c => (o.run .reset c).node }
      else nd := by
  unfold renewOf
  rw [hp]

theorem renew_empty (o : Ops N) (R : N → N) (nd : Node N) (f : BTState → BTState) (d : BTState)
    (hp : part nd.kind = .rename f d) (hc : nd.children = []) : renewOf o R nd = nd := by
  unfold renewOf
  simp only [hp, hc]

theorem renew_atom (o : Ops N) (R : N → N) (nd : Node N) (hp : part nd.kind = .atom) :
    renewOf o R nd = nd := by
  unfold renewOf
  rw [hp]

/-- A tree for which a new round is due takes as long as computed. -/
theorem due_takes (n : Nat) : ∀ (t : Tree n) (T : Nat) (s : BTState), Due n t →
    Lasts n (renew n t) T s → Takes (ops n) s T t := by
  induction n with
  | zero => intro t; exact Empty.elim t
  | succ n ih =>
    intro t T s hd hl
    have hd : dueOf (Begin n) (Due n) (t : Node (Tree n)) := hd
    have hl' : Lasts (n + 1) (renewOf (ops n) (renew n) (t : Node (Tree n))) T s := hl
    have hl : lastsOf (ops n) (Lasts n) (renewOf (ops n) (renew n) (t : Node (Tree n))) T s := hl
    show Takes (Node.ops (ops n)) s T t
    unfold dueOf at hd
    cases hp : part (Node.kind (N := Tree n) t) with
    | chain go =>
      simp only [hp] at hd
      by_cases hf : finished (Node.state (N := Tree n) t) = true
      · have e : renewOf (ops n) (renew n) (t : Node (Tree n)) = { (t : Node (Tree n)) with
            children := (Node.children (N := Tree n) t).map fun c => ((ops n).run .reset c).node } := by
          exact (renew_chain _ _ _ go hp).trans (if_pos hf)
        rw [e] at hl
        unfold lastsOf at hl
        simp only [hp] at hl
        obtain ⟨ps, he, hc⟩ := hl
        refine chain_again (ops n) go s T t ps hp hf ?_ hc
        intro hok
        have hbeg := reset_begin n _ hok
        refine ⟨by rw [Nat.zero_add]; exact he.1, each_fin (lasts_fin n) he, ?_⟩
        intro k p hk
        have hk' : k < ((Node.children (N := Tree n) t).map fun c =>
            ((ops n).run .reset c).node).length := by
          rw [← he.1]
          rcases Nat.lt_or_ge k ps.length with h | h
          · exact h
          · rw [List.getElem?_eq_none h] at hk
            cases hk
        have hc' := List.getElem?_eq_getElem hk'
        exact ⟨_, by rw [Nat.zero_add]; exact hc',
          lasts_takes n _ _ _ (hbeg _ (List.getElem_mem hk')) (he.2 k _ p hc' hk)⟩
      · have e : renewOf (ops n) (renew n) (t : Node (Tree n)) = t := by
          exact (renew_chain _ _ _ go hp).trans (if_neg hf)
        rw [e] at hl'
        rcases hd with hd | hd
        · exact absurd hd hf
        · exact lasts_takes (n + 1) t T s hd hl'
    | together =>
      simp only [hp] at hd
      by_cases hf : finished (Node.state (N := Tree n) t) = true
      · have e : renewOf (ops n) (renew n) (t : Node (Tree n)) = { (t : Node (Tree n)) with
            children := (Node.children (N := Tree n) t).map fun c => ((ops n).run .reset c).node } := by
          exact (renew_together _ _ _ hp).trans (if_pos hf)
        rw [e] at hl
        unfold lastsOf at hl
        simp only [hp] at hl
        obtain ⟨ps, he, hopen, hres, _⟩ := hl
        have eb : bears { (t : Node (Tree n)) with
            children := (Node.children (N := Tree n) t).map fun c => ((ops n).run .reset c).node } =
            bears (t : Node (Tree n)) := by
          unfold bears
          simp
        rw [eb] at hopen hres
        rw [← hres]
        refine par_again (ops n) (ops_sound n) T t ps hp hf ?_ hopen
        intro hok
        have hbeg := reset_begin n _ hok
        refine ⟨he.1, ?_⟩
        intro j c p hc hq
        have hmem := List.mem_of_getElem? hc
        refine ⟨each_fin (lasts_fin n) he p (List.mem_of_getElem? hq), ?_⟩
        rw [if_neg (by omega)]
        exact ⟨begin_open n c (hbeg c hmem), lasts_takes n _ _ _ (hbeg c hmem) (he.2 j c p hc hq)⟩
      · have e : renewOf (ops n) (renew n) (t : Node (Tree n)) = t := by
          exact (renew_together _ _ _ hp).trans (if_neg hf)
        rw [e] at hl'
        rcases hd with hd | hd
        · exact absurd hd hf
        · exact lasts_takes (n + 1) t T s hd hl'
    | rename f d =>
      simp only [hp] at hd
      cases hc : Node.children (N := Tree n) t with
      | nil =>
        have e : renewOf (ops n) (renew n) (t : Node (Tree n)) = t :=
          renew_empty _ _ _ f d hp hc
        rw [e] at hl
        unfold lastsOf at hl
        simp only [hp, hc] at hl
        obtain ⟨rfl, rfl⟩ := hl
        exact rename_empty (ops n) f s t hp hc
      | cons c cs =>
        have e : renewOf (ops n) (renew n) (t : Node (Tree n)) =
            { (t : Node (Tree n)) with children := renew n c :: cs } := by
          unfold renewOf
          simp only [hp, hc]
        rw [e] at hl
        unfold lastsOf at hl
        simp only [hp] at hl
        obtain ⟨w, hw, rfl⟩ := hl
        have hc0 : (Node.children (N := Tree n) t)[0]? = some c := by rw [hc]; rfl
        exact rename_takes (ops n) f d w (lasts_fin n _ _ _ hw) T t c hp hc0
          (ih c T w (hd c hc0) hw)
    | atom =>
      have e : renewOf (ops n) (renew n) (t : Node (Tree n)) = t :=
        renew_atom _ _ _ hp
      rw [e] at hl
      unfold lastsOf at hl
      simp only [hp] at hl
      exact hl.1

/-! ### The end of a round -/

theorem runs_state (o : Ops N) (hs : Sound o) (w : BTState) (T : Nat) : ∀ c : N,
    (runs o (List.replicate (T + 1) .tick) c).1.map Out.res = course T w →
    o.state (runs o (List.replicate (T + 1) .tick) c).2 = w := by
  induction T with
  | zero =>
    intro c h
    have e : (runs o (List.replicate (0 + 1) .tick) c).1 = [o.run .tick c] := rfl
    have e2 : (runs o (List.replicate (0 + 1) .tick) c).2 = (o.run .tick c).node := rfl
    rw [e] at h
    rw [e2]
    exact (hs .tick c w (List.cons.inj h).1).1
  | succ T ih =>
    intro c h
    exact ih _ (List.cons.inj h).2

theorem rename_runs (o : Ops N) (f : BTState → BTState) (df : BTState) (k : Nat) : ∀ (nd : Node N)
    (c : N), part nd.kind = .rename f df → nd.children[0]? = some c →
    (∀ out ∈ (runs (Node.ops o) (List.replicate k .tick) nd).1, out.res.isOk = true) →
    part (runs (Node.ops o) (List.replicate k .tick) nd).2.kind = .rename f df ∧
    (runs (Node.ops o) (List.replicate k .tick) nd).2.children[0]? =
      some (runs o (List.replicate k .tick) c).2 ∧
    ∀ out ∈ (runs o (List.replicate k .tick) c).1, out.res.isOk = true := by
  induction k with
  | zero => intro nd c hk hc _; exact ⟨hk, hc, fun out h => by cases h⟩
  | succ k ih =>
    intro nd c hk hc hok
    have e : (runs (Node.ops o) (List.replicate (k + 1) .tick) nd).1 = nd.run o .tick ::
        (runs (Node.ops o) (List.replicate k .tick) (nd.run o .tick).node).1 := rfl
    rw [e] at hok
    have h0 := hok _ List.mem_cons_self
    cases hr : (nd.run o .tick).res with
    | err => rw [hr] at h0; cases h0
    | ok a =>
      obtain ⟨x, hx, hxr, hn, _, _⟩ := run_ok o .tick (by simp) nd a hr
      obtain ⟨g, _, hh⟩ := rename_hook _ _ _ hk nd.state nd.mem (nd.env nd.ctr)
        (nd.children.map o.name)
      have hne : nd.children.length ≠ 0 := by
        intro h
        rw [List.length_eq_zero_iff.1 h] at hc
        cases hc
      rw [hh] at hx
      simp only [Prog.onHead, List.length_map, if_neg hne, exec, hc] at hx
      have hc1 : (nd.run o .tick).node.children[0]? = some (o.run .tick c).node := by
        rw [hn]
        show x.children[0]? = _
        rw [hx]
        exact List.getElem?_set_self (by omega)
      have hk1 : part (nd.run o .tick).node.kind = .rename f df := by rw [hn]; exact hk
      obtain ⟨h1, h2, h3⟩ := ih _ _ hk1 hc1 (fun out ho => hok out (List.mem_cons_of_mem _ ho))
      refine ⟨h1, h2, ?_⟩
      intro out ho
      have ho' : out ∈ o.run .tick c :: (runs o (List.replicate k .tick) (o.run .tick c).node).1 := ho
      rcases List.mem_cons.1 ho' with rfl | ho'
      · cases hres : (o.run .tick c).res with
        | err =>
          rw [hx] at hxr
          simp [hres, Res.map] at hxr
        | ok b => rfl
      · exact h3 out ho'

/-- When a round is over, the next one is due. -/
theorem due_after (n : Nat) : ∀ (t : Tree n) (T : Nat) (s : BTState), Due n t →
    Lasts n (renew n t) T s →
    (∀ out ∈ (runs (ops n) (List.replicate (T + 1) .tick) t).1, out.res.isOk = true) →
    Due n (runs (ops n) (List.replicate (T + 1) .tick) t).2 := by
  induction n with
  | zero => intro t; exact Empty.elim t
  | succ n ih =>
    intro t T s hd hl hok
    have hres := takes_runs (ops (n + 1)) s T t (due_takes (n + 1) t T s hd hl) hok
    have hst := runs_state (ops (n + 1)) (ops_sound (n + 1)) s T t hres
    have hfin : finished s = true := (finished_iff _).1 (lasts_fin (n + 1) _ T s hl)
    have hkind : ∀ (l : List Op) (t : Tree (n + 1)),
        Node.kind (N := Tree n) (runs (ops (n + 1)) l t).2 = Node.kind (N := Tree n) t := by
      intro l
      induction l with
      | nil => intro t; rfl
      | cons op l ihl => intro t; exact (ihl _).trans (run_static (ops n) op t).2.2.1
    show dueOf (Begin n) (Due n)
      ((runs (ops (n + 1)) (List.replicate (T + 1) .tick) t).2 : Node (Tree n))
    unfold dueOf
    rw [hkind]
    have hd : dueOf (Begin n) (Due n) (t : Node (Tree n)) := hd
    have hl : lastsOf (ops n) (Lasts n) (renewOf (ops n) (renew n) (t : Node (Tree n))) T s := hl
    unfold dueOf at hd
    cases hp : part (Node.kind (N := Tree n) t) with
    | chain go =>
      left
      have : Node.state (N := Tree n) (runs (ops (n + 1)) (List.replicate (T + 1) .tick) t).2 = s := hst
      rw [this]
      exact hfin
    | together =>
      left
      have : Node.state (N := Tree n) (runs (ops (n + 1)) (List.replicate (T + 1) .tick) t).2 = s := hst
      rw [this]
      exact hfin
    | rename f d =>
      simp only [hp] at hd ⊢
      intro c' hc'
      cases hc : Node.children (N := Tree n) t with
      | nil =>
        have hlen : (Node.children (N := Tree n)
            (runs (ops (n + 1)) (List.replicate (T + 1) .tick) t).2).length = 0 := by
          have := (runs_cfg (ops n) (List.replicate (T + 1) .tick) (by simp) t).2.2
          rw [hc] at this
          exact this
        rw [List.length_eq_zero_iff.1 hlen] at hc'
        cases hc'
      | cons c cs =>
        have hc0 : (Node.children (N := Tree n) t)[0]? = some c := by rw [hc]; rfl
        obtain ⟨_, h2, h3⟩ := rename_runs (ops n) f d (T + 1) t c hp hc0 hok
        have e : renewOf (ops n) (renew n) (t : Node (Tree n)) =
            { (t : Node (Tree n)) with children := renew n c :: cs } := by
          unfold renewOf
          simp only [hp, hc]
        rw [e] at hl
        unfold lastsOf at hl
        simp only [hp] at hl
        obtain ⟨w, hw, _⟩ := hl
        have e2 : c' = (runs (ops n) (List.replicate (T + 1) .tick) c).2 := by
          have h2' : (Node.children (N := Tree n)
            (runs (ops (n + 1)) (List.replicate (T + 1) .tick) t).2)[0]? =
              some (runs (ops n) (List.replicate (T + 1) .tick) c).2 := h2
          rw [hc'] at h2'
          exact Option.some.inj h2'
        rw [e2]
        exact ih c T w (hd c hc0) hw h3
    | atom => trivial

/-! ### C139, round after round -/

theorem runs_add (o : Ops N) (a b : Nat) : ∀ c : N,
    (runs o (List.replicate (a + b) .tick) c).1 = (runs o (List.replicate a .tick) c).1 ++
      (runs o (List.replicate b .tick) (runs o (List.replicate a .tick) c).2).1 := by
  induction a with
  | zero => intro c; simp [runs]
  | succ a ih =>
    intro c
    have e : (runs o (List.replicate (a + 1 + b) .tick) c).1 =
        o.run .tick c :: (runs o (List.replicate (a + b) .tick) (o.run .tick c).node).1 := by
      rw [show a + 1 + b = (a + b) + 1 by omega]
      rfl
    rw [e, ih]
    rfl

theorem series_answers (n : Nat) : ∀ (ps : List (Nat × BTState)) (t : Tree n), Due n t →
    Series n t ps →
    (∀ out ∈ (runs (ops n) (List.replicate (ticks ps) .tick) t).1, out.res.isOk = true) →
    (runs (ops n) (List.replicate (ticks ps) .tick) t).1.map Out.res = courses ps := by
  intro ps
  induction ps with
  | nil => intro t _ _ _; rfl
  | cons p ps ih =>
    intro t hd hser hok
    have e : ticks (p :: ps) = (p.1 + 1) + ticks ps := rfl
    rw [e, runs_add] at hok ⊢
    have h1 : ∀ out ∈ (runs (ops n) (List.replicate (p.1 + 1) .tick) t).1, out.res.isOk = true :=
      fun out ho => hok out (List.mem_append_left _ ho)
    rw [List.map_append, takes_runs (ops n) p.2 p.1 t (due_takes n t p.1 p.2 hd hser.1) h1,
      ih _ (due_after n t p.1 p.2 hd hser.1 h1) hser.2
        (fun out ho => hok out (List.mem_append_right _ ho))]
    rfl

/-- **C139, round after round.** A tree with any past is set up or reset, and then ticked without pause
through any number of rounds, where all ticks answer `Ok`. Each round takes as long and ends as computed
from its atoms, which are, below a finished node with memory or a finished parallel node, those after the
reset that begins the round. -/
theorem c139_rounds (n : Nat) (t : Tree n) (before : List Op) (op : Op)
    (hop : op = .setup ∨ op = .reset) (ps : List (Nat × BTState)) :
    let start := (ops n).run op (runs (ops n) before t).2
    let outs := (runs (ops n) (List.replicate (ticks ps) .tick) start.node).1
    start.res.isOk = true → Series n start.node ps → (∀ out ∈ outs, out.res.isOk = true) →
    outs.map Out.res = ps.flatMap fun p => List.replicate p.1 (.ok .running) ++ [.ok p.2] := by
  intro start outs hset hser hok
  cases hr : start.res with
  | err => rw [hr] at hset; cases hset
  | ok a =>
    exact series_answers n ps _ (begin_due n _ (begin_start op hop n _ a hr)) hser hok

/-! ### Example -/

/-- A Parallel of two leaves, which answer differently in the second round. -/
def sampleAgain : Tree 2 :=
  mk 1 1 .parallel
    [mkLeaf 0 2 [.ok .idle, .ok .running, .ok .succeeded, .ok .idle, .ok .succeeded],
     mkLeaf 0 3 [.ok .idle, .ok .succeeded, .ok .idle, .ok .running, .ok .running, .ok .succeeded]]
    (fun _ => { num := 2 })

/-- The first round takes one further tick, the second one two. -/
theorem sample_series :
    Series 2 ((ops 2).run .setup sampleAgain).node [(1, .succeeded), (2, .succeeded)] := by
  refine ⟨⟨[(1, .succeeded), (0, .succeeded)], ⟨by decide +kernel, ?_⟩, by decide +kernel,
    by decide +kernel, by decide⟩, ⟨[(0, .succeeded), (2, .succeeded)], ⟨by decide +kernel, ?_⟩,
    by decide +kernel, by decide +kernel, by decide⟩, trivial⟩
  · intro j c p hc hp
    match j with
    | 0 =>
      cases hc
      cases hp
      exact ⟨takes_of_runs (ops 1) _ 1 _ (by decide +kernel), Or.inl rfl⟩
    | 1 =>
      cases hc
      cases hp
      exact ⟨takes_of_runs (ops 1) _ 0 _ (by decide +kernel), Or.inl rfl⟩
    | j + 2 => cases hp
  · intro j c p hc hp
    match j with
    | 0 =>
      cases hc
      cases hp
      exact ⟨takes_of_runs (ops 1) _ 0 _ (by decide +kernel), Or.inl rfl⟩
    | 1 =>
      cases hc
      cases hp
      exact ⟨takes_of_runs (ops 1) _ 2 _ (by decide +kernel), Or.inl rfl⟩
    | j + 2 => cases hp

example : ((ops 2).run .setup sampleAgain).res.isOk = true ∧
    (runs (ops 2) (List.replicate (ticks [(1, .succeeded), (2, .succeeded)]) .tick)
      ((ops 2).run .setup sampleAgain).node).1.map Out.res =
      [.ok .running, .ok .succeeded, .ok .running, .ok .running, .ok .succeeded] := by
  decide +kernel

end Verif.BT.Again
