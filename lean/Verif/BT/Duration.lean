import Verif.BT.Rounds
import Verif.BT.Loops

/-!
# C139: how long a tree takes

The durations of C138, put together over whole trees: the number of ticks that a tree of
MemorySequence, MemoryFallback, Parallel, ParallelFailureTolerance and renaming decorators needs, and
its result, are computed from those of the other nodes.
-/

set_option autoImplicit false

namespace Verif.BT.Duration

open Rounds

variable {N : Type}

/-! ### Specification -/

/-- Specification: whenever ticks answer `Ok`, the first `d` of them answer RUNNING, the next one
answers `w`. -/
def Takes (o : Ops N) (w : BTState) : Nat → N → Prop
  | 0, c => ∀ s, (o.run .tick c).res = .ok s → s = w
  | d + 1, c => ∀ s, (o.run .tick c).res = .ok s → s = .running ∧ Takes o w d (o.run .tick c).node

/-- Specification: children that work one after the other as long as they result in `go`: their
durations add up, up to the first other result. -/
def chain (go : BTState) : List (Nat × BTState) → Nat × BTState
  | [] => (0, go)
  | (d, w) :: rest => if w = go then (d + (chain go rest).1, (chain go rest).2) else (d, w)

/-- Specification: the answer to tick `i` of children that work at the same time, see `verdict`. -/
def together (k lim : Int) (ps : List (Nat × BTState)) (i : Nat) : BTState :=
  verdict ps.length k lim (fun j => (ps.getD j (0, .failed)).1) (fun j => (ps.getD j (0, .failed)).2) i

/-- What a node contributes. -/
inductive Part where
  | chain (go : BTState)
  | together
  | rename (f : BTState → BTState) (d : BTState)
  | atom

/-- Everything but the two nodes with memory, the two parallel nodes and the decorators that only
rename results is an atom. -/
def part : Kind → Part
  | .memSequence => .chain .succeeded
  | .memFallback => .chain .failed
  | .parallel | .parallelTol => .together
  | .inverter => .rename (fun | .succeeded => .failed | .failed => .succeeded | s => s) .succeeded
  | .ignoreFailure => .rename (fun | .failed => .succeeded | s => s) .succeeded
  | .ignoreSuccess => .rename (fun | .succeeded => .failed | s => s) .failed
  | _ => .atom

/-- SUCCEEDED or FAILED. -/
def Fin (s : BTState) : Prop := s = .succeeded ∨ s = .failed

/-- The number of failures that a parallel node bears. -/
def bears (nd : Node N) : Int :=
  if nd.kind = .parallel then (nd.children.length : Int) - nd.mem.needed else nd.mem.tolerate

/-- The durations and results of the children, one by one. -/
def Each (L : N → Nat → BTState → Prop) (cs : List N) (ps : List (Nat × BTState)) : Prop :=
  ps.length = cs.length ∧ ∀ (j : Nat) (c : N) (p : Nat × BTState),
    cs[j]? = some c → ps[j]? = some p → L c p.1 p.2

/-- Duration and result of a node from those of its children. -/
def lastsOf (o : Ops N) (L : N → Nat → BTState → Prop) (nd : Node N) (T : Nat) (s : BTState) : Prop :=
  match part nd.kind with
  | .chain go => ∃ ps, Each L nd.children ps ∧ chain go ps = (T, s)
  | .together => ∃ ps, Each L nd.children ps ∧
      (∀ i, i < T → together nd.mem.needed (bears nd) ps i = .running) ∧
      together nd.mem.needed (bears nd) ps T = s ∧ s ≠ .running
  | .rename f d =>
    match nd.children with
    | [] => T = 0 ∧ s = d
    | c :: _ => ∃ w, L c T w ∧ s = f w
  | .atom => Takes (Node.ops o) s T nd ∧ Fin s

/-- Specification: a tree needs `T` ticks after the first one for its result `s`, computed from its
atoms. -/
def Lasts : (n : Nat) → Tree n → Nat → BTState → Prop
  | 0, t => Empty.elim t
  | n + 1, t => lastsOf (ops n) (Lasts n) t

/-- The node is at the beginning of a round. -/
def beginOf (B : N → Prop) (nd : Node N) : Prop :=
  finished nd.state = false ∧
  match part nd.kind with
  | .chain _ => nd.mem.lastRunning = 0 ∧ ∀ c ∈ nd.children, B c
  | .together => ∀ c ∈ nd.children, B c
  | .rename _ _ => ∀ c, nd.children[0]? = some c → B c
  | .atom => True

/-- The tree is at the beginning of a round. -/
def Begin : (n : Nat) → Tree n → Prop
  | 0, t => Empty.elim t
  | n + 1, t => beginOf (Begin n) t

/-! ### Results -/

theorem chain_fin (go : BTState) (hgo : Fin go) : ∀ ps : List (Nat × BTState), (∀ p ∈ ps, Fin p.2) →
    Fin (chain go ps).2 := by
  intro ps
  induction ps with
  | nil => intro _; exact hgo
  | cons p ps ih =>
    intro h
    obtain ⟨d, w⟩ := p
    simp only [chain]
    split
    · exact ih (fun p hp => h p (List.mem_cons_of_mem _ hp))
    · exact h (d, w) List.mem_cons_self

theorem each_fin {L : N → Nat → BTState → Prop} (hL : ∀ c T s, L c T s → Fin s) {cs : List N}
    {ps : List (Nat × BTState)} (h : Each L cs ps) : ∀ p ∈ ps, Fin p.2 := by
  intro p hp
  obtain ⟨j, hj, rfl⟩ := List.mem_iff_getElem.1 hp
  have hj' : j < cs.length := by rw [← h.1]; exact hj
  exact hL _ _ _ (h.2 j _ _ (List.getElem?_eq_getElem hj') (List.getElem?_eq_getElem hj))

theorem together_fin (k lim : Int) (ps : List (Nat × BTState)) (i : Nat)
    (h : together k lim ps i ≠ .running) : Fin (together k lim ps i) := by
  unfold together verdict at h ⊢
  split
  · exact Or.inl rfl
  · rename_i h1
    split
    · exact Or.inr rfl
    · rename_i h2
      rw [if_neg h1, if_neg h2] at h
      exact absurd rfl h

/-- A renaming decorator leaves RUNNING alone and results results. -/
theorem rename_spec (k : Kind) (f : BTState → BTState) (d : BTState) (h : part k = .rename f d) :
    f .running = .running ∧ Fin d ∧ ∀ s, Fin s → Fin (f s) := by
  cases k <;> simp [part] at h
  all_goals
    obtain ⟨rfl, rfl⟩ := h
    refine ⟨rfl, by simp [Fin], ?_⟩
    rintro s (rfl | rfl) <;> simp [Fin]

theorem chain_go (k : Kind) (go : BTState) (h : part k = .chain go) :
    (k = .memSequence ∧ go = .succeeded) ∨ (k = .memFallback ∧ go = .failed) := by
  cases k <;> simp [part] at h
  · exact Or.inl ⟨rfl, h.symm⟩
  · exact Or.inr ⟨rfl, h.symm⟩

theorem lasts_fin (n : Nat) : ∀ (t : Tree n) (T : Nat) (s : BTState), Lasts n t T s → Fin s := by
  induction n with
  | zero => intro t; exact Empty.elim t
  | succ n ih =>
    intro t T s h
    have h : lastsOf (ops n) (Lasts n) (t : Node (Tree n)) T s := h
    unfold lastsOf at h
    split at h
    · rename_i go hp
      obtain ⟨ps, he, hc⟩ := h
      have := chain_fin go (by rcases chain_go _ _ hp with ⟨_, rfl⟩ | ⟨_, rfl⟩ <;> simp [Fin]) ps
        (each_fin ih he)
      rw [hc] at this
      exact this
    · obtain ⟨ps, _, _, hs, hne⟩ := h
      rw [← hs] at hne ⊢
      exact together_fin _ _ _ _ hne
    · rename_i f d hp
      obtain ⟨_, hd, hf⟩ := rename_spec _ _ _ hp
      split at h
      · rw [h.2]; exact hd
      · obtain ⟨w, hw, rfl⟩ := h
        exact hf _ (ih _ _ _ hw)
    · exact h.2

/-! ### One after the other -/

theorem forAll_res (o : Ops N) (op : Op) (m m' : Mem) (a : BTState) : ∀ (is : List Nat) (cs : List N)
    (s : BTState), (exec o (Prog.forAll op m is (.done m' (.ok a))) cs).res = .ok s → s = a := by
  intro is
  induction is with
  | nil =>
    intro cs s h
    simp only [Prog.forAll, exec, Res.ok.injEq] at h
    exact h.symm
  | cons i is ih =>
    intro cs s h
    simp only [Prog.forAll, exec] at h
    split at h
    · cases h
    · next c hc =>
      cases hx : (o.run op c).res with
      | err => simp [hx] at h
      | ok s' =>
        simp only [hx] at h
        exact ih _ _ h

/-- What both loops with memory have in common. -/
def ChainLoop (go : BTState) (m : Mem) (L : List Nat → Prog) : Prop :=
  L [] = .done m (.ok go) ∧ ∀ i is, ∃ k, L (i :: is) = .call .tick i k ∧ k .err = .done m .err ∧
    k (.ok .running) = .done { m with lastRunning := i } (.ok .running) ∧
    ∀ w, Fin w → k (.ok w) = if w = go then L is else Prog.forAll .untick m is (.done m (.ok w))

theorem seqLoop_chain (m : Mem) : ChainLoop .succeeded m (Prog.seqLoop true m) := by
  refine ⟨rfl, fun i is => ⟨_, rfl, rfl, rfl, ?_⟩⟩
  rintro w (rfl | rfl) <;> rfl

theorem fbLoop_chain (m : Mem) : ChainLoop .failed m (Prog.fbLoop true m) := by
  refine ⟨rfl, fun i is => ⟨_, rfl, rfl, rfl, ?_⟩⟩
  rintro w (rfl | rfl) <;> rfl

/-- The children from `i` on are at the beginning of what they take. -/
def Left (o : Ops N) (cs : List N) (i : Nat) (ps : List (Nat × BTState)) : Prop :=
  i + ps.length = cs.length ∧ (∀ p ∈ ps, Fin p.2) ∧ ∀ (k : Nat) (p : Nat × BTState),
    ps[k]? = some p → ∃ c, cs[i + k]? = some c ∧ Takes o p.2 p.1 c

theorem left_head {o : Ops N} {cs : List N} {i : Nat} {p : Nat × BTState} {ps : List (Nat × BTState)}
    (h : Left o cs i (p :: ps)) : ∃ c, cs[i]? = some c ∧ Takes o p.2 p.1 c := by
  simpa using h.2.2 0 p rfl

theorem left_tail {o : Ops N} {cs : List N} {i : Nat} {p : Nat × BTState} {ps : List (Nat × BTState)}
    (h : Left o cs i (p :: ps)) (c' : N) : Left o (cs.set i c') (i + 1) ps := by
  refine ⟨?_, fun q hq => h.2.1 q (List.mem_cons_of_mem _ hq), ?_⟩
  · have := h.1
    simp only [List.length_cons] at this
    simp only [List.length_set]
    omega
  · intro k q hk
    obtain ⟨c, hc, ht⟩ := h.2.2 (k + 1) q (by simpa using hk)
    refine ⟨c, ?_, ht⟩
    rw [List.getElem?_set_ne (by omega), ← hc]
    congr 1
    omega

theorem left_again {o : Ops N} {cs : List N} {i : Nat} {p : Nat × BTState} {ps : List (Nat × BTState)}
    (h : Left o cs i (p :: ps)) (d : Nat) (c' : N) (hc : Takes o p.2 d c') :
    Left o (cs.set i c') i ((d, p.2) :: ps) := by
  have hlen := h.1
  simp only [List.length_cons] at hlen
  refine ⟨by simpa using hlen, ?_, ?_⟩
  · intro q hq
    rcases List.mem_cons.1 hq with rfl | hq
    · exact h.2.1 p List.mem_cons_self
    · exact h.2.1 q (List.mem_cons_of_mem _ hq)
  · intro k q hk
    cases k with
    | zero =>
      simp only [List.getElem?_cons_zero, Option.some.injEq] at hk
      subst hk
      exact ⟨c', by rw [Nat.add_zero, List.getElem?_set_self (by omega)], hc⟩
    | succ k =>
      obtain ⟨c, hc', ht⟩ := h.2.2 (k + 1) q (by simpa using hk)
      exact ⟨c, by rw [List.getElem?_set_ne (by omega)]; exact hc', ht⟩

/-- One tick of a loop with memory. -/
theorem chain_step (o : Ops N) (go : BTState) (m : Mem) (L : List Nat → Prog)
    (hL : ChainLoop go m L) : ∀ (ps : List (Nat × BTState)) (i : Nat) (cs : List N) (s : BTState),
    Left o cs i ps → (exec o (L (List.range' i ps.length)) cs).res = .ok s →
    ((chain go ps).1 = 0 ∧ s = (chain go ps).2) ∨
    (s = .running ∧ ∃ i' ps', (exec o (L (List.range' i ps.length)) cs).mem.lastRunning = i' ∧
      Left o (exec o (L (List.range' i ps.length)) cs).children i' ps' ∧
      chain go ps = ((chain go ps').1 + 1, (chain go ps').2)) := by
  intro ps
  induction ps with
  | nil =>
    intro i cs s _ hr
    simp only [List.length_nil, List.range'_zero, hL.1, exec, Res.ok.injEq] at hr
    exact Or.inl ⟨rfl, hr.symm⟩
  | cons p ps ih =>
    intro i cs s hl hr
    obtain ⟨c, hc, ht⟩ := left_head hl
    obtain ⟨d, w⟩ := p
    have hw : Fin w := hl.2.1 _ List.mem_cons_self
    obtain ⟨k, hk, hke, hkr, hkw⟩ := hL.2 i (List.range' (i + 1) ps.length)
    rw [List.length_cons, List.range'_succ, hk] at hr ⊢
    simp only [exec, hc] at hr ⊢
    cases hx : (o.run .tick c).res with
    | err => simp [hx, hke] at hr
    | ok a =>
      rw [hx] at hr
      cases d with
      | zero =>
        have ha : a = w := ht a hx
        subst ha
        rw [hkw a hw] at hr ⊢
        by_cases hgo : a = go
        · subst hgo
          rw [if_pos rfl] at hr ⊢
          have := ih (i + 1) _ s (left_tail hl (o.run .tick c).node) hr
          have e : chain a ((0, a) :: ps) = chain a ps := by simp [chain]
          rw [e]
          exact this
        · rw [if_neg hgo] at hr ⊢
          have := forAll_res o .untick m m a _ _ s hr
          left
          simp [chain, hgo, this]
      | succ d =>
        obtain ⟨rfl, ht'⟩ := ht a hx
        rw [hkr] at hr ⊢
        simp only [exec, Res.ok.injEq] at hr ⊢
        refine Or.inr ⟨hr.symm, i, (d, w) :: ps, rfl, left_again hl d _ ht', ?_⟩
        simp only [chain]
        split
        · simp; omega
        · rfl

theorem range_drop (n j : Nat) : (List.range n).drop j = List.range' j (n - j) := by
  rw [List.range_eq_range', List.drop_range']
  simp

/-- The hook of a node with memory in the middle of a round. -/
theorem chain_hook (go : BTState) (nd : Node N) (names : List Nat) (e : Env)
    (hk : part nd.kind = .chain go) (hf : finished nd.state = false) (len : Nat)
    (hlen : nd.mem.lastRunning + len = names.length) :
    ∃ L, ChainLoop go nd.mem L ∧
      hookProg nd.kind .tick nd.state nd.mem e names = L (List.range' nd.mem.lastRunning len) := by
  have hf' : ¬ (nd.state = .succeeded ∨ nd.state = .failed) := by
    rw [finished_iff, hf]
    simp
  have hr : (List.range names.length).drop nd.mem.lastRunning =
      List.range' nd.mem.lastRunning len := by
    rw [range_drop]
    congr 1
    omega
  rcases chain_go _ _ hk with ⟨h, rfl⟩ | ⟨h, rfl⟩
  · refine ⟨_, seqLoop_chain nd.mem, ?_⟩
    rw [h]
    simp only [hookProg, tickHook, Prog.resetIfFinished, if_neg hf', hr]
    split
    · rename_i h0
      have : len = 0 := by omega
      subst this
      rfl
    · rfl
  · refine ⟨_, fbLoop_chain nd.mem, ?_⟩
    rw [h]
    simp only [hookProg, tickHook, Prog.resetIfFinished, if_neg hf', hr]
    split
    · rename_i h0
      have : len = 0 := by omega
      subst this
      rfl
    · rfl

theorem chain_takes (o : Ops N) (go s : BTState) (T : Nat) : ∀ (nd : Node N)
    (ps : List (Nat × BTState)), part nd.kind = .chain go → finished nd.state = false →
    Left o nd.children nd.mem.lastRunning ps → chain go ps = (T, s) →
    Takes (Node.ops o) s T nd := by
  induction T with
  | zero =>
    intro nd ps hk hf hl hch a ha
    obtain ⟨x, hx, hr, _, _, _⟩ := run_ok o .tick (by simp) nd a ha
    obtain ⟨L, hL, hh⟩ := chain_hook go nd (nd.children.map o.name) (nd.env nd.ctr) hk hf ps.length
      (by simpa using hl.1)
    rw [hx, hh] at hr
    rcases chain_step o go nd.mem L hL ps _ _ a hl hr with ⟨_, h⟩ | ⟨_, _, _, _, _, h⟩
    · rw [h, hch]
    · rw [hch] at h
      have := congrArg Prod.fst h
      simp at this
  | succ T ih =>
    intro nd ps hk hf hl hch a ha
    obtain ⟨x, hx, hr, hn, _, _⟩ := run_ok o .tick (by simp) nd a ha
    obtain ⟨L, hL, hh⟩ := chain_hook go nd (nd.children.map o.name) (nd.env nd.ctr) hk hf ps.length
      (by simpa using hl.1)
    rw [hh] at hx
    rw [hx] at hr
    rcases chain_step o go nd.mem L hL ps _ _ a hl hr with ⟨h, _⟩ | ⟨rfl, i', ps', h1, h2, h3⟩
    · rw [hch] at h
      cases h
    · refine ⟨rfl, ?_⟩
      have e : ((Node.ops o).run .tick nd).node = { nd with
        ctr := nd.ctr + 1, mem := x.mem, children := x.children, state := .running } := hn
      rw [e]
      refine ih { nd with
        ctr := nd.ctr + 1, mem := x.mem, children := x.children, state := .running } ps' hk rfl ?_ ?_
      · rw [← hx] at h1 h2
        show Left o x.children x.mem.lastRunning ps'
        rw [h1]
        exact h2
      · rw [hch] at h3
        have h4 := congrArg Prod.fst h3
        have h5 := congrArg Prod.snd h3
        simp only [Nat.add_right_cancel_iff] at h4 h5
        rw [h4, h5]

/-! ### At the same time -/

/-- What a pass of a parallel node does with a child. -/
def ticked (o : Ops N) (c : N) : N := if finished (o.state c) then c else (o.run .tick c).node

theorem parLoop_exec (o : Ops N) (m : Mem) (k : Nat → Nat → Prog) (s : BTState) (len : Nat) :
    ∀ (i : Nat) (sf : Nat × Nat) (cs : List N), i + len = cs.length →
    (exec o (Prog.parLoop m k (List.range' i len) sf) cs).res = .ok s →
    ∃ cs' : List N, cs'.length = cs.length ∧
      (∀ (j : Nat) (c : N), cs[j]? = some c → j < i → cs'[j]? = some c) ∧
      (∀ (j : Nat) (c : N), cs[j]? = some c → i ≤ j → cs'[j]? = some (ticked o c) ∧
        (finished (o.state c) = false → ∃ a, (o.run .tick c).res = .ok a)) ∧
      (exec o (k (sf.1 + ((cs'.map o.state).drop i).count .succeeded)
        (sf.2 + ((cs'.map o.state).drop i).count .failed)) cs').res = .ok s ∧
      (exec o (Prog.parLoop m k (List.range' i len) sf) cs).children =
        (exec o (k (sf.1 + ((cs'.map o.state).drop i).count .succeeded)
          (sf.2 + ((cs'.map o.state).drop i).count .failed)) cs').children := by
  induction len with
  | zero =>
    intro i sf cs hl hr
    refine ⟨cs, rfl, fun _ _ h _ => h, ?_, ?_, ?_⟩
    · intro j c hj hi
      rw [List.getElem?_eq_none (by omega)] at hj
      cases hj
    · rw [List.drop_of_length_le (by simp; omega)]
      simpa [Prog.parLoop] using hr
    · rw [List.drop_of_length_le (by simp; omega)]
      simp [Prog.parLoop]
  | succ len ih =>
    intro i sf cs hl hr
    have hi : i < cs.length := by omega
    have hc : cs[i]? = some cs[i] := List.getElem?_eq_getElem hi
    generalize cs[i] = c at hc
    rw [List.range'_succ] at hr ⊢
    simp only [Prog.parLoop, exec, hc] at hr ⊢
    by_cases hf : finished (o.state c) = true
    · rw [if_pos ((finished_iff _).2 hf)] at hr ⊢
      obtain ⟨cs', h1, h2, h3, h4, h5⟩ := ih (i + 1) _ cs (by omega) hr
      have hi' : i < cs'.length := by omega
      have hat : cs'[i] = c := by
        have := h2 i c hc (by omega)
        rw [List.getElem?_eq_getElem hi', Option.some.injEq] at this
        exact this
      have hcs := countState_eq (o.state c) sf ((cs'.map o.state).drop (i + 1))
      have hd : (cs'.map o.state).drop i = o.state c :: (cs'.map o.state).drop (i + 1) := by
        rw [List.drop_eq_getElem_cons (by simpa using hi')]
        simp [hat]
      rw [hcs.1, hcs.2, ← hd] at h4 h5
      refine ⟨cs', h1, fun j c' hj hji => h2 j c' hj (by omega), ?_, h4, h5⟩
      intro j c' hj hij
      by_cases e : j = i
      · subst e
        rw [hc, Option.some.injEq] at hj
        subst hj
        refine ⟨?_, fun h => by rw [hf] at h; cases h⟩
        rw [h2 j c hc (by omega), ticked, if_pos hf]
      · exact h3 j c' hj (by omega)
    · have hf' : finished (o.state c) = false := by simpa using hf
      rw [if_neg (fun h => hf ((finished_iff _).1 h))] at hr ⊢
      simp only [exec, hc] at hr ⊢
      cases hx : (o.run .tick c).res with
      | err => simp [hx] at hr
      | ok a =>
        have hset : (cs.set i (o.run .tick c).node)[i]? = some (o.run .tick c).node :=
          List.getElem?_set_self hi
        simp only [hx, exec, hset] at hr ⊢
        obtain ⟨cs', h1, h2, h3, h4, h5⟩ := ih (i + 1) _ _ (by simp; omega) hr
        rw [List.length_set] at h1
        have hi' : i < cs'.length := by omega
        have hat : cs'[i] = (o.run .tick c).node := by
          have := h2 i _ hset (by omega)
          rw [List.getElem?_eq_getElem hi', Option.some.injEq] at this
          exact this
        have hcs := countState_eq (o.state (o.run .tick c).node) sf ((cs'.map o.state).drop (i + 1))
        have hd : (cs'.map o.state).drop i =
            o.state (o.run .tick c).node :: (cs'.map o.state).drop (i + 1) := by
          rw [List.drop_eq_getElem_cons (by simpa using hi')]
          simp [hat]
        rw [hcs.1, hcs.2, ← hd] at h4 h5
        refine ⟨cs', h1, ?_, ?_, h4, h5⟩
        · intro j c' hj hji
          exact h2 j c' (by rw [List.getElem?_set_ne (by omega)]; exact hj) (by omega)
        · intro j c' hj hij
          by_cases e : j = i
          · subst e
            rw [hc, Option.some.injEq] at hj
            subst hj
            refine ⟨?_, fun _ => ⟨a, hx⟩⟩
            rw [h2 j _ hset (by omega), ticked, hf']
            rfl
          · exact h3 j c' (by rw [List.getElem?_set_ne (fun h => e h.symm)]; exact hj) (by omega)

theorem parFinish_res (o : Ops N) (m : Mem) (a : BTState) : ∀ (is : List Nat) (cs : List N)
    (s : BTState), (exec o (Prog.parFinish m a is) cs).res = .ok s → s = a := by
  intro is
  induction is with
  | nil =>
    intro cs s h
    simp only [Prog.parFinish, exec, Res.ok.injEq] at h
    exact h.symm
  | cons i is ih =>
    intro cs s h
    simp only [Prog.parFinish, exec] at h
    split at h
    · next hc =>
      rw [if_neg (by simp)] at h
      simp [exec, hc] at h
    · next c hc =>
      split at h
      · exact ih _ _ h
      · simp only [exec, hc] at h
        cases hx : (o.run .untick c).res with
        | err => simp [hx] at h
        | ok s' =>
          simp only [hx] at h
          exact ih _ _ h

/-- The children of a parallel node when tick `d` of a round begins. -/
def Share (o : Ops N) (ps : List (Nat × BTState)) (d : Nat) (cs : List N) : Prop :=
  ps.length = cs.length ∧ ∀ (j : Nat) (c : N) (p : Nat × BTState), cs[j]? = some c → ps[j]? = some p →
    Fin p.2 ∧ if p.1 < d then o.state c = p.2
      else finished (o.state c) = false ∧ Takes o p.2 (p.1 - d) c

theorem share_ticked (o : Ops N) (hs : Sound o) (ps : List (Nat × BTState)) (d : Nat) (cs cs' : List N)
    (h : Share o ps d cs) (hl : cs'.length = cs.length)
    (ht : ∀ (j : Nat) (c : N), cs[j]? = some c → cs'[j]? = some (ticked o c) ∧
        (finished (o.state c) = false → ∃ a, (o.run .tick c).res = .ok a)) :
    Share o ps (d + 1) cs' := by
  refine ⟨h.1.trans hl.symm, ?_⟩
  intro j c' p hj hp
  have hlt : j < cs.length := by
    rcases Nat.lt_or_ge j cs'.length with h | h
    · omega
    · rw [List.getElem?_eq_none h] at hj
      cases hj
  have hc := List.getElem?_eq_getElem hlt
  generalize cs[j] = c at hc
  obtain ⟨h1, h2⟩ := ht j c hc
  rw [h1, Option.some.injEq] at hj
  subst hj
  obtain ⟨hp2, hif⟩ := h.2 j c p hc hp
  refine ⟨hp2, ?_⟩
  split at hif
  · rename_i hd
    rw [if_pos (by omega), ticked, if_pos (by rw [hif]; exact (finished_iff _).1 hp2)]
    exact hif
  · rename_i hd
    obtain ⟨hf, htk⟩ := hif
    obtain ⟨a, ha⟩ := h2 hf
    have hst := (hs .tick c a ha).1
    have htc : ticked o c = (o.run .tick c).node := by rw [ticked, hf]; rfl
    rw [htc]
    cases he : p.1 - d with
    | zero =>
      rw [he] at htk
      rw [if_pos (by omega), hst]
      exact htk a ha
    | succ e =>
      rw [he] at htk
      obtain ⟨rfl, h3⟩ := htk a ha
      rw [if_neg (by omega), hst]
      refine ⟨rfl, ?_⟩
      rw [show p.1 - (d + 1) = e by omega]
      exact h3

theorem share_count (o : Ops N) (ps : List (Nat × BTState)) (d : Nat) (cs : List N)
    (h : Share o ps (d + 1) cs) (b : BTState) (hb : finished b = true) :
    (cs.map o.state).count b = reached ps.length (fun j => (ps.getD j (0, .failed)).1)
      (fun j => (ps.getD j (0, .failed)).2) b d := by
  apply count_at _ _ _ _ _ (by simp [h.1]) _ b hb
  intro j hj
  have hj' : j < cs.length := by rw [← h.1]; exact hj
  have := h.2 j _ _ (List.getElem?_eq_getElem hj') (List.getElem?_eq_getElem hj)
  refine ⟨o.state cs[j], by simp [hj'], ?_⟩
  simp only [List.getD_eq_getElem?_getD, List.getElem?_eq_getElem hj, Option.getD_some]
  split
  · rename_i hd
    rw [if_pos hd] at this
    exact this.2
  · rename_i hd
    rw [if_neg hd] at this
    exact this.2.1

theorem par_kind (k : Kind) (h : part k = .together) : k = .parallel ∨ k = .parallelTol := by
  cases k <;> simp [part] at h <;> simp

/-- One tick of a parallel node in the middle of a round. -/
theorem par_step (o : Ops N) (hs : Sound o) (nd : Node N) (ps : List (Nat × BTState)) (d : Nat)
    (hk : part nd.kind = .together) (hf : finished nd.state = false) (h : Share o ps d nd.children)
    (s : BTState) (hr : (nd.run o .tick).res = .ok s) :
    s = together nd.mem.needed (bears nd) ps d ∧
    (s = .running → ∃ x : ExecOut N, (nd.run o .tick).node = { nd with
        ctr := nd.ctr + 1, mem := x.mem, children := x.children, state := .running } ∧
      Share o ps (d + 1) x.children) := by
  obtain ⟨x, hx, hxr, hn, _, _⟩ := run_ok o .tick (by simp) nd s hr
  have hf' : ¬ (nd.state = .succeeded ∨ nd.state = .failed) := by
    rw [finished_iff, hf]
    simp
  have hh : hookProg nd.kind .tick nd.state nd.mem (nd.env nd.ctr) (nd.children.map o.name) =
      Prog.parLoop nd.mem (fun s f =>
        if nd.mem.needed ≤ (s : Int) then
          Prog.parFinish nd.mem .succeeded (List.range nd.children.length)
        else if bears nd < (f : Int) then
          Prog.parFinish nd.mem .failed (List.range nd.children.length)
        else .done nd.mem (.ok .running)) (List.range' 0 nd.children.length) (0, 0) := by
    rw [← List.range_eq_range']
    rcases par_kind _ hk with e | e
    · simp only [hookProg, tickHook, Prog.resetIfFinished, if_neg hf', e, List.length_map, bears,
        if_true]
    · have : ¬ nd.kind = .parallel := by rw [e]; simp
      simp only [hookProg, tickHook, Prog.resetIfFinished, if_neg hf', e, List.length_map, bears,
        reduceCtorEq, if_false]
  rw [hh] at hx
  rw [hx] at hxr
  obtain ⟨cs', h1, _, h3, h4, h5⟩ := parLoop_exec o nd.mem _ s _ 0 (0, 0) nd.children (by omega) hxr
  have hsh := share_ticked o hs ps d nd.children cs' h h1 (fun j c hj => h3 j c hj (by omega))
  simp only [List.drop_zero, Nat.zero_add] at h4 h5
  rw [share_count o ps d cs' hsh _ rfl, share_count o ps d cs' hsh _ rfl] at h4 h5
  unfold together verdict
  by_cases hw : nd.mem.needed ≤ (reached ps.length (fun j => (ps.getD j (0, .failed)).1)
      (fun j => (ps.getD j (0, .failed)).2) .succeeded d : Int)
  · rw [if_pos hw] at h4 ⊢
    have := parFinish_res o _ _ _ _ _ h4
    subst this
    exact ⟨rfl, fun h => by cases h⟩
  · rw [if_neg hw] at h4 h5 ⊢
    by_cases hlo : bears nd < (reached ps.length (fun j => (ps.getD j (0, .failed)).1)
      (fun j => (ps.getD j (0, .failed)).2) .failed d : Int)
    · rw [if_pos hlo] at h4 ⊢
      have := parFinish_res o _ _ _ _ _ h4
      subst this
      exact ⟨rfl, fun h => by cases h⟩
    · rw [if_neg hlo] at h4 h5 ⊢
      simp only [exec, Res.ok.injEq] at h4 h5
      subst h4
      refine ⟨rfl, fun _ => ⟨x, hn, ?_⟩⟩
      rw [hx, h5]
      exact hsh

theorem par_takes (o : Ops N) (hs : Sound o) (ps : List (Nat × BTState)) (r : Nat) : ∀ (d : Nat)
    (nd : Node N), part nd.kind = .together → finished nd.state = false → Share o ps d nd.children →
    (∀ i, i < r → together nd.mem.needed (bears nd) ps (d + i) = .running) →
    Takes (Node.ops o) (together nd.mem.needed (bears nd) ps (d + r)) r nd := by
  induction r with
  | zero =>
    intro d nd hk hf h _ s hr
    exact (par_step o hs nd ps d hk hf h s hr).1
  | succ r ih =>
    intro d nd hk hf h hopen s hr
    obtain ⟨h1, h2⟩ := par_step o hs nd ps d hk hf h s hr
    have hs' : s = .running := h1.trans (hopen 0 (by omega))
    refine ⟨hs', ?_⟩
    obtain ⟨x, hx, hsh⟩ := h2 hs'
    have hcfg := run_cfg o .tick (by simp) nd
    have e1 : (nd.run o .tick).node.mem.needed = nd.mem.needed := congrArg Cfg.needed hcfg
    have e2 : bears (nd.run o .tick).node = bears nd := by
      obtain ⟨_, _, hkd, _, _, hlen⟩ := run_static o .tick nd
      unfold bears
      rw [hkd, hlen, e1]
      have : (nd.run o .tick).node.mem.tolerate = nd.mem.tolerate := congrArg Cfg.tolerate hcfg
      rw [this]
    have := ih (d + 1) (nd.run o .tick).node (by rw [hx]; exact hk) (by rw [hx]; rfl)
      (by rw [hx]; exact hsh) (by
        intro i hi
        rw [e1, e2, show d + 1 + i = d + (i + 1) by omega]
        exact hopen (i + 1) (by omega))
    rw [e1, e2, show d + 1 + r = d + (r + 1) by omega] at this
    exact this

/-! ### Decorators -/

theorem rename_hook (k : Kind) (f : BTState → BTState) (df : BTState) (h : part k = .rename f df)
    (st : BTState) (m : Mem) (e : Env) (names : List Nat) :
    ∃ g, (∀ s, s = .running ∨ Fin s → g s = f s) ∧
      hookProg k .tick st m e names = Prog.onHead names.length .tick m g df := by
  cases k <;> simp [part] at h
  all_goals
    obtain ⟨rfl, rfl⟩ := h
    refine ⟨_, ?_, rfl⟩
    rintro s (rfl | rfl | rfl) <;> rfl

theorem rename_takes (o : Ops N) (f : BTState → BTState) (df w : BTState) (hw : Fin w) (T : Nat) :
    ∀ (nd : Node N) (c : N), part nd.kind = .rename f df → nd.children[0]? = some c → Takes o w T c →
    Takes (Node.ops o) (f w) T nd := by
  induction T with
  | zero =>
    intro nd c hk hc ht a ha
    obtain ⟨x, hx, hr, _, _, _⟩ := run_ok o .tick (by simp) nd a ha
    obtain ⟨g, hg, hh⟩ := rename_hook _ _ _ hk nd.state nd.mem (nd.env nd.ctr)
      (nd.children.map o.name)
    have hne : nd.children.length ≠ 0 := by
      intro h
      rw [List.length_eq_zero_iff.1 h] at hc
      cases hc
    rw [hx, hh] at hr
    simp only [Prog.onHead, List.length_map, if_neg hne, exec, hc] at hr
    cases hres : (o.run .tick c).res with
    | err => simp [hres, Res.map] at hr
    | ok b =>
      simp only [hres, Res.map, Res.ok.injEq] at hr
      have hb : b = w := ht b hres
      rw [← hr, hb, hg w (Or.inr hw)]
  | succ T ih =>
    intro nd c hk hc ht a ha
    obtain ⟨x, hx, hr, hn, _, _⟩ := run_ok o .tick (by simp) nd a ha
    obtain ⟨g, hg, hh⟩ := rename_hook _ _ _ hk nd.state nd.mem (nd.env nd.ctr)
      (nd.children.map o.name)
    have hne : nd.children.length ≠ 0 := by
      intro h
      rw [List.length_eq_zero_iff.1 h] at hc
      cases hc
    rw [hh] at hx
    simp only [Prog.onHead, List.length_map, if_neg hne, exec, hc] at hx
    rw [hx] at hr
    cases hres : (o.run .tick c).res with
    | err => simp [hres, Res.map] at hr
    | ok b =>
      simp only [hres, Res.map, Res.ok.injEq] at hr
      obtain ⟨rfl, ht'⟩ := ht b hres
      refine ⟨?_, ?_⟩
      · rw [← hr, hg _ (Or.inl rfl)]
        exact (rename_spec _ _ _ hk).1
      · have e : ((Node.ops o).run .tick nd).node = { nd with
          ctr := nd.ctr + 1, mem := x.mem, children := x.children, state := a } := hn
        rw [e]
        refine ih { nd with
          ctr := nd.ctr + 1, mem := x.mem, children := x.children, state := a }
          (o.run .tick c).node hk ?_ ht'
        show x.children[0]? = _
        rw [hx]
        exact List.getElem?_set_self (by omega)

theorem rename_empty (o : Ops N) (f : BTState → BTState) (df : BTState) (nd : Node N)
    (hk : part nd.kind = .rename f df) (hc : nd.children = []) : Takes (Node.ops o) df 0 nd := by
  intro a ha
  obtain ⟨x, hx, hr, _, _, _⟩ := run_ok o .tick (by simp) nd a ha
  obtain ⟨g, _, hh⟩ := rename_hook _ _ _ hk nd.state nd.mem (nd.env nd.ctr) (nd.children.map o.name)
  rw [hx, hh] at hr
  simp only [Prog.onHead, List.length_map, hc, List.length_nil, if_true, exec, Res.ok.injEq] at hr
  exact hr.symm

/-! ### The beginning of a round -/

/-- A loop of setups or resets. -/
theorem forAll_fresh (o : Ops N) (B : N → Prop) (op : Op)
    (hB : ∀ c a, (o.run op c).res = .ok a → B (o.run op c).node) (m m' : Mem) (b s : BTState) :
    ∀ (is : List Nat) (cs : List N),
    (exec o (Prog.forAll op m is (.done m' (.ok b))) cs).res = .ok s →
    (exec o (Prog.forAll op m is (.done m' (.ok b))) cs).mem = m' ∧
    (∀ i c, (exec o (Prog.forAll op m is (.done m' (.ok b))) cs).children[i]? = some c →
      B c ∨ (i ∉ is ∧ cs[i]? = some c)) := by
  intro is
  induction is with
  | nil => intro cs _; exact ⟨rfl, fun i c h => Or.inr ⟨by simp, h⟩⟩
  | cons i is ih =>
    intro cs hr
    simp only [Prog.forAll, exec] at hr ⊢
    split at hr
    · simp at hr
    · next c hc =>
      cases hx : (o.run op c).res with
      | err => simp [hx] at hr
      | ok s' =>
        simp only [hx] at hr ⊢
        obtain ⟨h1, h2⟩ := ih _ hr
        refine ⟨h1, ?_⟩
        intro j d hd
        rcases h2 j d hd with h | ⟨h3, h4⟩
        · exact Or.inl h
        · rw [List.getElem?_set] at h4
          split at h4
          · split at h4
            · cases h4
              exact Or.inl (hB c s' hx)
            · cases h4
          · next hne =>
            refine Or.inr ⟨?_, h4⟩
            simp only [List.mem_cons, not_or]
            exact ⟨fun h => hne h.symm, h3⟩

theorem allThen_fresh (o : Ops N) (B : N → Prop) (op : Op)
    (hB : ∀ c a, (o.run op c).res = .ok a → B (o.run op c).node) (m : Mem) (b s : BTState)
    (cs : List N) (n : Nat) (hn : n = cs.length)
    (hr : (exec o (Prog.allThen n op m b) cs).res = .ok s) :
    (exec o (Prog.allThen n op m b) cs).mem = m ∧
    ∀ c ∈ (exec o (Prog.allThen n op m b) cs).children, B c := by
  obtain ⟨h1, h2⟩ := forAll_fresh o B op hB m m b s (List.range n) cs hr
  refine ⟨h1, ?_⟩
  intro c hc
  obtain ⟨j, hj, rfl⟩ := List.mem_iff_getElem.1 hc
  rcases h2 j _ (List.getElem?_eq_getElem hj) with h | ⟨h3, h4⟩
  · exact h
  · have : ¬ j < cs.length := by rw [List.mem_range, hn] at h3; exact h3
    rw [List.getElem?_eq_none (by omega)] at h4
    cases h4

theorem onHead_fresh (o : Ops N) (B : N → Prop) (op : Op)
    (hB : ∀ c a, (o.run op c).res = .ok a → B (o.run op c).node) (m : Mem) (b s : BTState)
    (cs : List N) (n : Nat) (hn : n = cs.length)
    (hr : (exec o (Prog.onHead n op m id b) cs).res = .ok s) :
    ∀ c, (exec o (Prog.onHead n op m id b) cs).children[0]? = some c → B c := by
  intro c hc
  subst hn
  unfold Prog.onHead at hr hc
  split at hc
  · rename_i h0
    rw [List.length_eq_zero_iff.1 h0] at hc
    cases hc
  · rename_i h0
    rw [if_neg h0] at hr
    have hd := List.getElem?_eq_getElem (l := cs) (i := 0) (by omega)
    generalize cs[0] = d at hd
    simp only [exec, hd] at hr hc
    rw [List.getElem?_set_self (by omega), Option.some.injEq] at hc
    subst hc
    cases hx : (o.run op d).res with
    | err => simp [hx, Res.map] at hr
    | ok a => exact hB d a hx

theorem node_begin (o : Ops N) (B : N → Prop) (op : Op) (hop : op = .setup ∨ op = .reset)
    (hB : ∀ c a, (o.run op c).res = .ok a → B (o.run op c).node) (nd : Node N) (s : BTState)
    (h : (nd.run o op).res = .ok s) (hs : allowedAfter op s = true) :
    beginOf B (nd.run o op).node := by
  have hns : op ≠ .shutdown := by rcases hop with rfl | rfl <;> simp
  obtain ⟨x, hx, hr, hn, _, _⟩ := run_ok o op hns nd s h
  have hidle : s = .idle := by rcases hop with rfl | rfl <;> simpa [allowedAfter] using hs
  rw [hn]
  refine ⟨by rw [hidle]; rfl, ?_⟩
  have hlen : (nd.children.map o.name).length = nd.children.length := List.length_map _
  show match part nd.kind with
    | .chain _ => x.mem.lastRunning = 0 ∧ ∀ c ∈ x.children, B c
    | .together => ∀ c ∈ x.children, B c
    | .rename _ _ => ∀ c, x.children[0]? = some c → B c
    | .atom => True
  rw [hx] at hr
  rw [hx]
  clear hx hn
  split
  · rename_i go hp
    have key : ∃ b : BTState, hookProg nd.kind op nd.state nd.mem (nd.env nd.ctr)
        (nd.children.map o.name) = Prog.allThen (nd.children.map o.name).length op
          { nd.mem with lastRunning := 0 } b := by
      rcases chain_go _ _ hp with ⟨e, _⟩ | ⟨e, _⟩ <;> rcases hop with rfl | rfl <;> rw [e] <;>
        exact ⟨_, rfl⟩
    obtain ⟨b, hb⟩ := key
    rw [hb] at hr ⊢
    obtain ⟨h1, h2⟩ := allThen_fresh o B op hB _ b s nd.children _ hlen hr
    exact ⟨by rw [h1], h2⟩
  · rename_i hp
    have key : ∃ (b : BTState) (m : Mem), hookProg nd.kind op nd.state nd.mem (nd.env nd.ctr)
        (nd.children.map o.name) = Prog.allThen (nd.children.map o.name).length op m b := by
      rcases par_kind _ hp with e | e <;> rcases hop with rfl | rfl <;> rw [e] at hr ⊢
      · simp only [hookProg, setupHook] at hr ⊢
        split at hr
        · split at hr
          · cases hr
          · rename_i h1 h2
            rw [if_pos h1, if_neg h2]
            exact ⟨_, _, rfl⟩
        · cases hr
      · exact ⟨_, _, rfl⟩
      · simp only [hookProg, setupHook] at hr ⊢
        split at hr
        · split at hr
          · cases hr
          · rename_i h1 h2
            rw [if_pos h1, if_neg h2]
            exact ⟨_, _, rfl⟩
        · cases hr
      · exact ⟨_, _, rfl⟩
    obtain ⟨b, m, hb⟩ := key
    rw [hb] at hr ⊢
    exact (allThen_fresh o B op hB _ b s nd.children _ hlen hr).2
  · rename_i f d hp
    have key : ∃ (b : BTState) (m : Mem), hookProg nd.kind op nd.state nd.mem (nd.env nd.ctr)
        (nd.children.map o.name) = Prog.onHead (nd.children.map o.name).length op m id b := by
      cases hkd : nd.kind <;> rw [hkd] at hp <;> simp [part] at hp <;>
        rcases hop with rfl | rfl <;> exact ⟨_, _, rfl⟩
    obtain ⟨b, m, hb⟩ := key
    rw [hb] at hr ⊢
    exact onHead_fresh o B op hB _ b s nd.children _ hlen hr
  · trivial

theorem begin_start (op : Op) (hop : op = .setup ∨ op = .reset) (n : Nat) : ∀ (t : Tree n) (s : BTState),
    ((ops n).run op t).res = .ok s → Begin n ((ops n).run op t).node := by
  induction n with
  | zero => intro t; exact Empty.elim t
  | succ n ih =>
    intro t s h
    exact node_begin (ops n) (Begin n) op hop ih t s h ((ops_sound (n + 1) op t s h).2)

theorem begin_open (n : Nat) (t : Tree n) (h : Begin n t) : finished ((ops n).state t) = false := by
  cases n with
  | zero => exact Empty.elim t
  | succ n => exact h.1

/-! ### Trees -/

/-- A tree at the beginning of a round takes as long as computed. -/
theorem lasts_takes (n : Nat) : ∀ (t : Tree n) (T : Nat) (s : BTState), Begin n t → Lasts n t T s →
    Takes (ops n) s T t := by
  induction n with
  | zero => intro t; exact Empty.elim t
  | succ n ih =>
    intro t T s hb hl
    have hb : beginOf (Begin n) (t : Node (Tree n)) := hb
    have hl : lastsOf (ops n) (Lasts n) (t : Node (Tree n)) T s := hl
    obtain ⟨hf, hb⟩ := hb
    unfold lastsOf at hl
    show Takes (Node.ops (ops n)) s T t
    cases hp : part (Node.kind (N := Tree n) t) with
    | chain go =>
      rw [hp] at hb hl
      obtain ⟨ps, he, hc⟩ := hl
      refine chain_takes (ops n) go s T t ps hp hf ?_ hc
      rw [hb.1]
      refine ⟨by rw [Nat.zero_add]; exact he.1, each_fin (lasts_fin n) he, ?_⟩
      intro k p hk
      have hk' : k < (Node.children (N := Tree n) t).length := by
        rw [← he.1]
        rcases Nat.lt_or_ge k ps.length with h | h
        · exact h
        · rw [List.getElem?_eq_none h] at hk
          cases hk
      have hc' := List.getElem?_eq_getElem hk'
      refine ⟨_, by rw [Nat.zero_add]; exact hc', ?_⟩
      exact ih _ _ _ (hb.2 _ (List.getElem_mem hk')) (he.2 k _ p hc' hk)
    | together =>
      rw [hp] at hb hl
      obtain ⟨ps, he, hopen, hs, _⟩ := hl
      have hsh : Share (ops n) ps 0 (Node.children (N := Tree n) t) := by
        refine ⟨he.1, ?_⟩
        intro j c p hc hq
        have hmem := List.mem_of_getElem? hc
        refine ⟨each_fin (lasts_fin n) he p (List.mem_of_getElem? hq), ?_⟩
        rw [if_neg (by omega)]
        exact ⟨begin_open n c (hb c hmem), ih _ _ _ (hb c hmem) (he.2 j c p hc hq)⟩
      have := par_takes (ops n) (ops_sound n) ps T 0 t hp hf hsh
        (fun i hi => by rw [Nat.zero_add]; exact hopen i hi)
      rw [Nat.zero_add, hs] at this
      exact this
    | rename f d =>
      rw [hp] at hb hl
      simp only at hl
      split at hl
      · rename_i hc
        obtain ⟨rfl, rfl⟩ := hl
        exact rename_empty (ops n) f s t hp hc
      · rename_i c rest hc
        obtain ⟨w, hw, rfl⟩ := hl
        have hc0 : (Node.children (N := Tree n) t)[0]? = some c := by rw [hc]; rfl
        exact rename_takes (ops n) f d w (lasts_fin n _ _ _ hw) T t c hp hc0
          (ih c T w (hb c hc0) hw)
    | atom =>
      rw [hp] at hl
      exact hl.1

/-- Ticks that all answer `Ok`. -/
theorem takes_runs (o : Ops N) (w : BTState) (T : Nat) : ∀ (c : N), Takes o w T c →
    (∀ out ∈ (runs o (List.replicate (T + 1) .tick) c).1, out.res.isOk = true) →
    (runs o (List.replicate (T + 1) .tick) c).1.map Out.res = course T w := by
  induction T with
  | zero =>
    intro c h hok
    have h0 := hok (o.run .tick c) List.mem_cons_self
    cases hx : (o.run .tick c).res with
    | err => rw [hx] at h0; cases h0
    | ok s =>
      have e : (runs o (List.replicate (0 + 1) .tick) c).1 = [o.run .tick c] := rfl
      rw [e, List.map_cons, hx, h s hx]
      rfl
  | succ T ih =>
    intro c h hok
    have e : (runs o (List.replicate (T + 1 + 1) .tick) c).1 =
        o.run .tick c :: (runs o (List.replicate (T + 1) .tick) (o.run .tick c).node).1 := rfl
    rw [e] at hok ⊢
    have h0 := hok (o.run .tick c) List.mem_cons_self
    cases hx : (o.run .tick c).res with
    | err => rw [hx] at h0; cases h0
    | ok s =>
      obtain ⟨rfl, h'⟩ := h s hx
      rw [List.map_cons, hx, ih _ h' (fun out ho => hok out (List.mem_cons_of_mem _ ho))]
      rfl

/-! ### C139 -/

/-- **C139.** A tree with any past is set up or reset, and then ticked until it has its result, where
all ticks answer `Ok`. `Lasts` computes its duration and result from those of its atoms: the durations
of the children of MemorySequence and MemoryFallback add up until one fails or succeeds, those of the
parallel nodes run at the same time until enough have succeeded or too many have failed, and the
decorators rename the result. The tree answers RUNNING for exactly that many ticks, and then gives that
result. -/
theorem c139_duration (n : Nat) (t : Tree n) (before : List Op) (op : Op)
    (hop : op = .setup ∨ op = .reset) (T : Nat) (s : BTState) :
    let start := (ops n).run op (runs (ops n) before t).2
    let outs := (runs (ops n) (List.replicate (T + 1) .tick) start.node).1
    start.res.isOk = true → Lasts n start.node T s → (∀ out ∈ outs, out.res.isOk = true) →
    outs.map Out.res = List.replicate T (.ok .running) ++ [.ok s] := by
  intro start outs hset hl hok
  cases hr : start.res with
  | err => rw [hr] at hset; cases hset
  | ok a =>
    exact takes_runs (ops n) s T _
      (lasts_takes n _ T s (begin_start op hop n _ a hr) hl) hok

/-- Every atom of the tree comes to a result, and no ParallelFailureTolerance has fewer children than
`needed_successes` + `tolerate_failures` (it might never end, see `Tolerance.lean`); for a Parallel the
condition always holds. -/
def Able : (n : Nat) → Tree n → Prop
  | 0, t => Empty.elim t
  | n + 1, t =>
    let nd : Node (Tree n) := t
    match part nd.kind with
    | .chain _ => ∀ c ∈ nd.children, Able n c
    | .together => nd.mem.needed + bears nd ≤ (nd.children.length : Int) ∧
        ∀ c ∈ nd.children, Able n c
    | .rename _ _ => ∀ c ∈ nd.children, Able n c
    | .atom => ∃ T s, Fin s ∧ Takes (ops (n + 1)) s T t

theorem each_exists (L : N → Nat → BTState → Prop) : ∀ cs : List N, (∀ c ∈ cs, ∃ T s, L c T s) →
    ∃ ps, Each L cs ps := by
  intro cs
  induction cs with
  | nil => intro _; exact ⟨[], rfl, fun j c p h => by simp at h⟩
  | cons c cs ih =>
    intro h
    obtain ⟨T, s, h0⟩ := h c List.mem_cons_self
    obtain ⟨ps, h1, h2⟩ := ih (fun c hc => h c (List.mem_cons_of_mem _ hc))
    refine ⟨(T, s) :: ps, by simp [h1], ?_⟩
    intro j c' p hc hp
    cases j with
    | zero =>
      simp only [List.getElem?_cons_zero, Option.some.injEq] at hc hp
      subst hc hp
      exact h0
    | succ j => exact h2 j c' p (by simpa using hc) (by simpa using hp)

/-- **C139, there is a result.** If all atoms of a tree come to a result and every
ParallelFailureTolerance has enough children, the whole tree comes to a result. -/
theorem c139_ends (n : Nat) : ∀ t : Tree n, Able n t → ∃ T s, Lasts n t T s := by
  induction n with
  | zero => intro t; exact Empty.elim t
  | succ n ih =>
    intro t h
    show ∃ T s, lastsOf (ops n) (Lasts n) (t : Node (Tree n)) T s
    unfold Able at h
    unfold lastsOf
    cases hp : part (Node.kind (N := Tree n) t) with
    | chain go =>
      simp only [hp] at h ⊢
      obtain ⟨ps, hps⟩ := each_exists (Lasts n) _ (fun c hc => ih c (h c hc))
      exact ⟨_, _, ps, hps, rfl⟩
    | together =>
      simp only [hp] at h ⊢
      obtain ⟨hle, hc⟩ := h
      obtain ⟨ps, hps⟩ := each_exists (Lasts n) _ (fun c h' => ih c (hc c h'))
      obtain ⟨i, hi⟩ := exists_bound ps.length (fun j => (ps.getD j (0, .failed)).1)
      have hend : together (Node.mem (N := Tree n) t).needed (bears (N := Tree n) t) ps i ≠
          .running := by
        have hall := reached_all ps.length (fun j => (ps.getD j (0, .failed)).1)
          (fun j => (ps.getD j (0, .failed)).2) (by
            intro j hj
            have := each_fin (lasts_fin n) hps ps[j] (List.getElem_mem hj)
            simpa [Fin, List.getD_eq_getElem?_getD, hj] using this) i hi
        have hlen := hps.1
        intro he
        unfold together verdict at he
        split at he
        · cases he
        · split at he
          · cases he
          · rename_i h1 h2
            omega
      obtain ⟨T, hT, hmin⟩ := least (fun i => together (Node.mem (N := Tree n) t).needed
        (bears (N := Tree n) t) ps i ≠ .running) i hend
      exact ⟨T, _, ps, hps, fun i hi => Classical.byContradiction fun he => hmin i hi he, rfl, hT⟩
    | rename f d =>
      simp only [hp] at h ⊢
      split
      · exact ⟨0, d, rfl, rfl⟩
      · rename_i c rest hc
        obtain ⟨T, s, hs⟩ := ih c (h c (by rw [hc]; exact List.mem_cons_self))
        exact ⟨T, f s, s, hs, rfl⟩
    | atom =>
      simp only [hp] at h ⊢
      obtain ⟨T, s, hs, ht⟩ := h
      exact ⟨T, s, ht, hs⟩

/-! ### Examples -/

/-- To see what an atom takes, it suffices to tick it. -/
theorem takes_of_runs (o : Ops N) (w : BTState) (T : Nat) : ∀ (c : N),
    (runs o (List.replicate (T + 1) .tick) c).1.map Out.res = course T w → Takes o w T c := by
  induction T with
  | zero =>
    intro c h s hs
    have e : (runs o (List.replicate (0 + 1) .tick) c).1 = [o.run .tick c] := rfl
    rw [e, List.map_cons, hs] at h
    exact Res.ok.inj (List.cons.inj h).1
  | succ T ih =>
    intro c h s hs
    have e : (runs o (List.replicate (T + 1 + 1) .tick) c).1 =
        o.run .tick c :: (runs o (List.replicate (T + 1) .tick) (o.run .tick c).node).1 := rfl
    rw [e, List.map_cons, hs] at h
    have h' := List.cons.inj h
    exact ⟨Res.ok.inj h'.1, ih _ h'.2⟩

/-- A MemorySequence of a Parallel, which needs two successes of its three children, and an
Inverter. -/
def sampleTree : Tree 3 :=
  mk 2 1 .memSequence
    [mk 1 2 .parallel
      [mkLeaf 0 3 [.ok .idle, .ok .running, .ok .running, .ok .succeeded],
       mkLeaf 0 4 [.ok .idle, .ok .failed],
       mkLeaf 0 5 [.ok .idle, .ok .running, .ok .succeeded]] (fun _ => { num := 2 }),
     mk 1 6 .inverter [mkLeaf 0 7 [.ok .idle, .ok .running, .ok .failed]]]

/-- The tree after its setup. -/
def sampleStart : Tree 3 := ((ops 3).run .setup sampleTree).node

/-- The Parallel takes two ticks, the Inverter one; so the tree takes three, and succeeds. -/
theorem sample_lasts : Lasts 3 sampleStart 3 .succeeded := by
  refine ⟨[(2, .succeeded), (1, .succeeded)], ⟨by decide +kernel, ?_⟩, by decide⟩
  intro j c p hc hp
  match j with
  | 0 =>
    cases hc
    cases hp
    refine ⟨[(2, .succeeded), (0, .failed), (1, .succeeded)], ⟨by decide +kernel, ?_⟩,
      by decide +kernel, by decide +kernel, by decide⟩
    intro j c p hc hp
    match j with
    | 0 =>
      cases hc
      cases hp
      exact ⟨takes_of_runs (ops 1) _ 2 _ (by decide +kernel), Or.inl rfl⟩
    | 1 =>
      cases hc
      cases hp
      exact ⟨takes_of_runs (ops 1) _ 0 _ (by decide +kernel), Or.inr rfl⟩
    | 2 =>
      cases hc
      cases hp
      exact ⟨takes_of_runs (ops 1) _ 1 _ (by decide +kernel), Or.inl rfl⟩
    | j + 3 => cases hp
  | 1 =>
    cases hc
    cases hp
    exact ⟨.failed, ⟨takes_of_runs (ops 1) _ 1 _ (by decide +kernel), Or.inr rfl⟩, rfl⟩
  | j + 2 => cases hp

/-- The other hypotheses of `c139_duration` hold for the sample, and its conclusion is as computed. -/
example : ((ops 3).run .setup sampleTree).res.isOk = true ∧
    (∀ out ∈ (runs (ops 3) (List.replicate 4 .tick) sampleStart).1, out.res.isOk = true) ∧
    (runs (ops 3) (List.replicate 4 .tick) sampleStart).1.map Out.res =
      [.ok .running, .ok .running, .ok .running, .ok .succeeded] := by
  decide +kernel

/-- The hypothesis of `c139_ends` holds for a ParallelFailureTolerance that was set up. -/
example : Able 2 ((ops 2).run .setup (sampleRound .parallelTol)).node := by
  refine ⟨by decide +kernel, ?_⟩
  intro c hc
  have hc' : c ∈ [((ops 1).run .setup (mkLeaf 0 2 [.ok .idle, .ok .running, .ok .running,
      .ok .succeeded])).node, ((ops 1).run .setup (mkLeaf 0 3 [.ok .idle, .ok .failed])).node,
      ((ops 1).run .setup (mkLeaf 0 4 [.ok .idle, .ok .running, .ok .succeeded])).node] := hc
  simp only [List.mem_cons, List.not_mem_nil, or_false] at hc'
  rcases hc' with rfl | rfl | rfl
  · exact ⟨2, .succeeded, Or.inl rfl, takes_of_runs (ops 1) _ 2 _ (by decide +kernel)⟩
  · exact ⟨0, .failed, Or.inr rfl, takes_of_runs (ops 1) _ 0 _ (by decide +kernel)⟩
  · exact ⟨1, .succeeded, Or.inl rfl, takes_of_runs (ops 1) _ 1 _ (by decide +kernel)⟩

end Verif.BT.Duration
