import Verif.BT.Trace
import Verif.BT.Sample

/-!
# A tree is a formula (C135)

Sequence, Fallback and the decorators without memory are connectives: what a tick of the root
answers is the value of a formula whose atoms are the other nodes, and the atoms that are ticked
are those that the formula needs, in its order. This holds for all trees, after every history of
operations, whatever the atoms are and do: the formula does not change.
-/

set_option autoImplicit false

namespace Verif.BT.Formula

variable {N : Type}

/-! ## Specification: formulas -/

/-- Formulas over the answers of nodes. -/
inductive Form where
  | atom (i : Nat)
  | const (s : BTState)
  /-- the second one only if the first one succeeds -/
  | both (a b : Form)
  /-- the second one only if the first one neither succeeds nor runs -/
  | either (a b : Form)
  /-- another word for the same answer -/
  | relabel (f : BTState → BTState) (a : Form)

/-- The value of a formula if the atoms answer as `ρ` says. -/
def Form.value (ρ : Nat → BTState) : Form → BTState
  | .atom i => ρ i
  | .const s => s
  | .both a b => if a.value ρ = .succeeded then b.value ρ else a.value ρ
  | .either a b => if a.value ρ = .succeeded ∨ a.value ρ = .running then a.value ρ else b.value ρ
  | .relabel f a => f (a.value ρ)

/-- The atoms that have to be asked, in order. -/
def Form.needed (ρ : Nat → BTState) : Form → List Nat
  | .atom i => [i]
  | .const _ => []
  | .both a b => a.needed ρ ++ if a.value ρ = .succeeded then b.needed ρ else []
  | .either a b => a.needed ρ ++ if a.value ρ = .succeeded ∨ a.value ρ = .running then [] else b.needed ρ
  | .relabel _ a => a.needed ρ

/-- All atoms. -/
def Form.atoms : Form → List Nat
  | .atom i => [i]
  | .const _ => []
  | .both a b | .either a b => a.atoms ++ b.atoms
  | .relabel _ a => a.atoms

/-- One after the other, as long as they succeed. -/
def conj : List Form → Form
  | [] => .const .succeeded
  | a :: l => .both a (conj l)

/-- One after the other, until one succeeds. -/
def disj : List Form → Form
  | [] => .const .failed
  | a :: l => .either a (disj l)

/-- What a decorator makes of the answer of its child, and what it answers without a child
(`decorators.py:49-63` and siblings; the hooks themselves are in `Verif.BT.Hooks`). -/
def renames : Kind → Option ((BTState → BTState) × BTState)
  | .inverter => some (fun | .succeeded => .failed | .failed => .succeeded | s => s, .succeeded)
  | .ignoreFailure => some (fun | .failed => .succeeded | s => s, .succeeded)
  | .ignoreSuccess => some (fun | .succeeded => .failed | s => s, .failed)
  | .untilSuccess | .repeatIfFail => some (fun | .failed => .running | s => s, .succeeded)
  | .repeatUntilFail => some (fun | .succeeded => .running | s => s, .succeeded)
  | .repeatAlways => some (fun _ => .running, .succeeded)
  | .watch => some (id, .succeeded)
  | _ => none

/-- The formula of a node with the formulas of its children. -/
def formOf (k : Kind) (id : Nat) (cs : List Form) : Form :=
  match k, renames k, cs with
  | .sequence, _, cs => conj cs
  | .fallback, _, cs => disj cs
  | _, some (_, d), [] => .const d
  | _, some (f, _), c :: _ => .relabel f c
  | _, none, _ => .atom id

/-- The formula of a tree. -/
def form : (n : Nat) → Tree n → Form
  | 0, t => Empty.elim t
  | n + 1, t => formOf (Node.kind (N := Tree n) t) (Node.id (N := Tree n) t) ((Node.children (N := Tree n) t).map (form n))

/-- The answers to ticks in an execution, in the order in which they are given. -/
def answers (t : List Ev) : List (Nat × Res) :=
  t.filterMap fun
    | .ret .tick i r => some (i, r)
    | _ => none

/-- The answers of the nodes that `L` selects. -/
def asked (L : Nat → Bool) (t : List Ev) : List (Nat × Res) := (answers t).filter fun p => L p.1

/-! ## Reading a formula off a list of answers -/

/-- Evaluate a formula with the answers from a list; what is not used is left over. -/
def Form.eval : Form → List (Nat × Res) → Option (BTState × List (Nat × Res))
  | .atom i, (j, .ok s) :: l => if i = j then some (s, l) else none
  | .atom _, _ => none
  | .const s, l => some (s, l)
  | .both a b, l =>
    match a.eval l with
    | some (s, l') => if s = .succeeded then b.eval l' else some (s, l')
    | none => none
  | .either a b, l =>
    match a.eval l with
    | some (s, l') => if s = .succeeded ∨ s = .running then some (s, l') else b.eval l'
    | none => none
  | .relabel f a, l => (a.eval l).map fun p => (f p.1, p.2)

theorem eval_used (φ : Form) : ∀ (l : List (Nat × Res)) (s : BTState) (rest : List (Nat × Res)),
    φ.eval l = some (s, rest) → ∃ used : List (Nat × BTState),
      l = used.map (fun p => (p.1, Res.ok p.2)) ++ rest ∧
      (used.map (·.1)).Sublist φ.atoms ∧
      ∀ ρ : Nat → BTState, (∀ p ∈ used, ρ p.1 = p.2) →
        φ.value ρ = s ∧ φ.needed ρ = used.map (·.1) := by
  induction φ with
  | atom i =>
    intro l s rest h
    match l, h with
    | [], h => cases h
    | (j, .err) :: l, h => cases h
    | (j, .ok s') :: l, h =>
      simp only [Form.eval] at h
      split at h
      · next e =>
        cases h
        subst e
        exact ⟨[(i, s)], rfl, List.Sublist.refl _, fun ρ hρ => ⟨hρ _ List.mem_cons_self, rfl⟩⟩
      · cases h
  | const s' =>
    intro l s rest h
    cases h
    exact ⟨[], rfl, List.Sublist.refl _, fun ρ _ => ⟨rfl, rfl⟩⟩
  | both a b iha ihb =>
    intro l s rest h
    simp only [Form.eval] at h
    split at h
    · next s' l' ha =>
      obtain ⟨u, hu, hsub, hv⟩ := iha l s' l' ha
      split at h
      · next hs =>
        obtain ⟨u', hu', hsub', hv'⟩ := ihb l' s rest h
        refine ⟨u ++ u', ?_, ?_, fun ρ hρ => ?_⟩
        · rw [hu, hu']; simp
        · rw [List.map_append]; exact hsub.append hsub'
        · obtain ⟨h1, h2⟩ := hv ρ (fun p hp => hρ p (List.mem_append_left _ hp))
          obtain ⟨h3, h4⟩ := hv' ρ (fun p hp => hρ p (List.mem_append_right _ hp))
          simp [Form.value, Form.needed, h1, h2, h3, h4, hs]
      · next hs =>
        cases h
        refine ⟨u, hu, hsub.trans (List.sublist_append_left _ _), fun ρ hρ => ?_⟩
        obtain ⟨h1, h2⟩ := hv ρ hρ
        simp [Form.value, Form.needed, h1, h2, hs]
    · cases h
  | either a b iha ihb =>
    intro l s rest h
    simp only [Form.eval] at h
    split at h
    · next s' l' ha =>
      obtain ⟨u, hu, hsub, hv⟩ := iha l s' l' ha
      split at h
      · next hs =>
        cases h
        refine ⟨u, hu, hsub.trans (List.sublist_append_left _ _), fun ρ hρ => ?_⟩
        obtain ⟨h1, h2⟩ := hv ρ hρ
        simp [Form.value, Form.needed, h1, h2, hs]
      · next hs =>
        obtain ⟨u', hu', hsub', hv'⟩ := ihb l' s rest h
        refine ⟨u ++ u', ?_, ?_, fun ρ hρ => ?_⟩
        · rw [hu, hu']; simp
        · rw [List.map_append]; exact hsub.append hsub'
        · obtain ⟨h1, h2⟩ := hv ρ (fun p hp => hρ p (List.mem_append_left _ hp))
          obtain ⟨h3, h4⟩ := hv' ρ (fun p hp => hρ p (List.mem_append_right _ hp))
          simp [Form.value, Form.needed, h1, h2, h3, h4, hs]
    · cases h
  | relabel f a ih =>
    intro l s rest h
    simp only [Form.eval, Option.map_eq_some_iff] at h
    obtain ⟨⟨s', l'⟩, ha, he⟩ := h
    cases he
    obtain ⟨u, hu, hsub, hv⟩ := ih l s' l' ha
    refine ⟨u, hu, hsub, fun ρ hρ => ?_⟩
    obtain ⟨h1, h2⟩ := hv ρ hρ
    exact ⟨by rw [Form.value, h1], h2⟩

/-- The answers `l` are exactly what the formula needs in order to have the value `s`. -/
def Reads (φ : Form) (s : BTState) (l : List (Nat × Res)) : Prop :=
  ∀ rest, φ.eval (l ++ rest) = some (s, rest)

theorem reads_both {a b : Form} {s : BTState} {l l' : List (Nat × Res)}
    (ha : Reads a .succeeded l) (hb : Reads b s l') : Reads (.both a b) s (l ++ l') := by
  intro rest
  simp only [Form.eval, List.append_assoc]
  rw [ha (l' ++ rest)]
  exact hb rest

theorem reads_both_stop {a b : Form} {s : BTState} {l : List (Nat × Res)}
    (ha : Reads a s l) (hs : s ≠ .succeeded) : Reads (.both a b) s l := by
  intro rest
  simp [Form.eval, ha rest, hs]

theorem reads_either {a b : Form} {s s' : BTState} {l l' : List (Nat × Res)}
    (ha : Reads a s' l) (hs : ¬ (s' = .succeeded ∨ s' = .running)) (hb : Reads b s l') :
    Reads (.either a b) s (l ++ l') := by
  intro rest
  simp only [Form.eval, List.append_assoc]
  rw [ha (l' ++ rest)]
  simp only [hs, if_false]
  exact hb rest

theorem reads_either_stop {a b : Form} {s : BTState} {l : List (Nat × Res)}
    (ha : Reads a s l) (hs : s = .succeeded ∨ s = .running) : Reads (.either a b) s l := by
  intro rest
  simp [Form.eval, ha rest, hs]

theorem reads_relabel {a : Form} {f : BTState → BTState} {s : BTState} {l : List (Nat × Res)}
    (ha : Reads a s l) : Reads (.relabel f a) (f s) l := by
  intro rest
  simp [Form.eval, ha rest]

theorem reads_const (s : BTState) : Reads (.const s) s [] := fun _ => rfl

/-! ## Traces -/

theorem asked_append (L : Nat → Bool) (a b : List Ev) : asked L (a ++ b) = asked L a ++ asked L b := by
  simp [asked, answers]

theorem asked_nil (L : Nat → Bool) : asked L [] = [] := rfl

/-- Answers that come from nodes with these ids. -/
def Within (ids : List Nat) (t : List Ev) : Prop := ∀ p ∈ answers t, p.1 ∈ ids

theorem within_asked {L : Nat → Bool} {ids : List Nat} {t : List Ev} (h : Within ids t)
    (hL : ∀ j ∈ ids, L j = false) : asked L t = [] := by
  unfold asked
  rw [List.filter_eq_nil_iff]
  intro p hp
  rw [hL p.1 (h p hp)]
  exact Bool.false_ne_true

/-- A hook that ticks nothing. -/
theorem exec_quiet (o : Ops N) (hn : ∀ op c, op ≠ .tick → answers (o.run op c).trace = []) (p : Prog) :
    p.TicksIn [] → ∀ cs, answers (exec o p cs).trace = [] := by
  induction p with
  | done m r => intro _ cs; rfl
  | call op i k ih =>
    intro h cs
    unfold Prog.TicksIn at h
    split at h
    · exact absurd h.1 (by simp)
    · next hop =>
      simp only [exec]
      split
      · exact ih _ (h _) _
      · next c _ =>
        have := hn op c hop
        simp only [answers, List.filterMap_append] at this ⊢
        rw [this, List.nil_append]
        exact ih _ (h _) _
  | peek i k ih =>
    intro h cs
    simp only [exec]
    split
    · exact ih _ (h _) _
    · exact ih _ (h _) _

theorem shutdownAll_quiet (o : Ops N) (hn : ∀ op c, op ≠ .tick → answers (o.run op c).trace = []) (cs : List N) :
    answers (shutdownAll o cs).2.2 = [] := by
  induction cs with
  | nil => rfl
  | cons c cs ih =>
    have := hn .shutdown c (by simp)
    simp only [answers, shutdownAll, List.filterMap_append] at this ih ⊢
    rw [this, ih]
    rfl

theorem wrap_answers (op : Op) (nd : Node N) (r : Res) (l : List Call) (t : List Ev) (hop : op ≠ .tick) :
    answers (Node.wrap op nd r l t).trace = answers t := by
  cases op <;> simp_all [Node.wrap, answers]

theorem run_quiet (o : Ops N) (hn : ∀ op c, op ≠ .tick → answers (o.run op c).trace = []) (op : Op) (nd : Node N)
    (hop : op ≠ .tick) : answers (nd.run o op).trace = [] := by
  have hx : ∀ x : ExecOut N, x = exec o (hookProg nd.kind op nd.state nd.mem (nd.env nd.ctr) (nd.children.map o.name)) nd.children →
      answers (.hook op nd.id :: x.trace) = [] := by
    intro x hx
    subst hx
    exact exec_quiet o hn _ (hook_no_tick _ op hop _ _ _ _) _
  apply run_cases o op nd (P := fun out => answers out.trace = [])
  · intro _; rw [wrap_answers _ _ _ _ _ hop]; rfl
  · intro h; exact absurd h hop
  · intro x h _ _ _; rw [wrap_answers _ _ _ _ _ hop]; exact hx x h
  · intro x s h _ _ _ _; rw [wrap_answers _ _ _ _ _ hop]; exact hx x h
  · intro x s _ h _ _ _ _; rw [wrap_answers _ _ _ _ _ hop]; exact hx x h
  · intro h _
    simp only [Node.finishShutdown]
    have := shutdownAll_quiet o hn nd.children
    split
    · rw [wrap_answers _ _ _ _ _ (by simp)]; simpa [answers] using this
    · rw [wrap_answers _ _ _ _ _ (by simp)]; rfl
  · intro x h hxe _ _
    subst h
    have h1 := hx x hxe
    simp only [Node.finishShutdown]
    have := shutdownAll_quiet o hn x.children
    split
    · rw [wrap_answers _ _ _ _ _ (by simp)]
      simp only [answers, List.filterMap_append] at this h1 ⊢
      rw [this, h1]
      rfl
    · rw [wrap_answers _ _ _ _ _ (by simp)]; exact h1

theorem tree_quiet (n : Nat) : ∀ (op : Op) (t : Tree n), op ≠ .tick → answers ((ops n).run op t).trace = [] := by
  induction n with
  | zero => intro _ t; exact Empty.elim t
  | succ n ih => intro op t hop; exact run_quiet (ops n) (fun op c h => ih op c h) op t hop

/-- What a tick of a node looks like: rejected, or a hook between call and answer. -/
theorem tick_shape (o : Ops N) (nd : Node N) :
    ∃ (t : List Ev) (r : Res), (nd.run o .tick).trace = .call .tick nd.id :: (t ++ [Ev.ret .tick nd.id r]) ∧ (nd.run o .tick).res = r ∧
      ((t = [] ∧ r = .err) ∨ ∃ x, x = exec o (hookProg nd.kind .tick nd.state nd.mem (nd.env nd.ctr) (nd.children.map o.name)) nd.children ∧
        t = .hook .tick nd.id :: x.trace ∧ ∀ s, r = .ok s → x.res = .ok s) := by
  apply run_cases o .tick nd (P := fun out => ∃ (t : List Ev) (r : Res), out.trace = .call .tick nd.id :: (t ++ [Ev.ret .tick nd.id r]) ∧ out.res = r ∧
      ((t = [] ∧ r = .err) ∨ ∃ x, x = exec o (hookProg nd.kind .tick nd.state nd.mem (nd.env nd.ctr) (nd.children.map o.name)) nd.children ∧
        t = .hook .tick nd.id :: x.trace ∧ ∀ s, r = .ok s → x.res = .ok s))
  · intro _; exact ⟨[], .err, rfl, rfl, Or.inl ⟨rfl, rfl⟩⟩
  · intro _ _ _; exact ⟨[], .err, rfl, rfl, Or.inl ⟨rfl, rfl⟩⟩
  · intro x h _ _ _; exact ⟨_, .err, rfl, rfl, Or.inr ⟨x, h, rfl, fun s hs => by cases hs⟩⟩
  · intro x s h _ _ _ _; exact ⟨_, .err, rfl, rfl, Or.inr ⟨x, h, rfl, fun s hs => by cases hs⟩⟩
  · intro x s _ h _ _ hr _; exact ⟨_, .ok s, rfl, rfl, Or.inr ⟨x, h, rfl, fun s' hs => by cases hs; exact hr⟩⟩
  · intro h; cases h
  · intro x h; cases h

theorem exec_within (o : Ops N) (f : N → List Nat) (hf : ∀ op c, f (o.run op c).node = f c)
    (hw : ∀ op c, Within (f c) (o.run op c).trace) (p : Prog) :
    ∀ cs : List N, Within (cs.flatMap f) (exec o p cs).trace := by
  induction p with
  | done m r => intro cs q hq; cases hq
  | call op i k ih =>
    intro cs
    simp only [exec]
    split
    · exact ih _ cs
    · next c hc =>
      intro q hq
      simp only [answers, List.filterMap_append, List.mem_append] at hq
      rcases hq with hq | hq
      · exact List.mem_flatMap.mpr ⟨c, List.mem_of_getElem? hc, hw op c q hq⟩
      · have := ih _ _ q hq
        obtain ⟨d, hd, hq'⟩ := List.mem_flatMap.mp this
        rcases List.mem_or_eq_of_mem_set hd with hd | rfl
        · exact List.mem_flatMap.mpr ⟨d, hd, hq'⟩
        · rw [hf] at hq'
          exact List.mem_flatMap.mpr ⟨c, List.mem_of_getElem? hc, hq'⟩
  | peek i k ih =>
    intro cs
    simp only [exec]
    split <;> exact ih _ cs

theorem nodeIds_succ (n : Nat) (t : Tree (n + 1)) :
    nodeIds (n + 1) t = Node.id (N := Tree n) t :: (Node.children (N := Tree n) t).flatMap (nodeIds n) := by
  simp only [nodeIds, nodeStates, List.map_cons, List.map_flatMap]
  rfl

theorem tree_within (n : Nat) : ∀ (op : Op) (t : Tree n), Within (nodeIds n t) ((ops n).run op t).trace := by
  induction n with
  | zero => intro _ t; exact Empty.elim t
  | succ n ih =>
    intro op t
    by_cases hop : op = .tick
    · subst hop
      obtain ⟨tr, r, ht, _, hc⟩ := tick_shape (ops n) t
      intro q hq
      have hq : q ∈ answers (Node.run (ops n) .tick t).trace := hq
      rw [ht] at hq
      rw [nodeIds_succ]
      simp only [answers, List.filterMap_cons, List.filterMap_append, List.mem_append, List.filterMap_nil, List.mem_singleton] at hq
      rcases hq with hq | hq
      · rcases hc with ⟨rfl, _⟩ | ⟨x, hx, rfl, _⟩
        · cases hq
        · subst hx
          exact List.mem_cons_of_mem _ (exec_within (ops n) (nodeIds n) (fun op c => nodeIds_run n op c) (fun op c => ih op c) _ _ q hq)
      · rw [hq]; exact List.mem_cons_self
    · intro q hq
      rw [tree_quiet (n + 1) op t hop] at hq
      cases hq

/-! ## The formula does not change -/

theorem form_run (n : Nat) : ∀ (op : Op) (t : Tree n), form n ((ops n).run op t).node = form n t := by
  induction n with
  | zero => intro _ t; exact Empty.elim t
  | succ n ih =>
    intro op t
    have h1 := run_children_map (ops n) (form n) (fun op c => ih op c) op t
    have h2 := run_static (ops n) op t
    show formOf (Node.run (ops n) op t).node.kind (Node.run (ops n) op t).node.id ((Node.run (ops n) op t).node.children.map (form n)) = _
    rw [h1, h2.1, h2.2.2.1]
    rfl

/-- `L` selects the atoms of a tree, and none of the other nodes. -/
def marks (L : Nat → Bool) (k : Kind) (id : Nat) (ps : List Prop) (below : List Nat) : Prop :=
  match k, renames k with
  | .sequence, _ => L id = false ∧ ∀ p ∈ ps, p
  | .fallback, _ => L id = false ∧ ∀ p ∈ ps, p
  | _, some _ => L id = false ∧ ∀ p, ps[0]? = some p → p
  | _, none => L id = true ∧ ∀ j ∈ below, L j = false

/-- See `marks`. -/
def Marked (L : Nat → Bool) : (n : Nat) → Tree n → Prop
  | 0, t => Empty.elim t
  | n + 1, t => marks L (Node.kind (N := Tree n) t) (Node.id (N := Tree n) t)
      ((Node.children (N := Tree n) t).map (Marked L n)) ((Node.children (N := Tree n) t).flatMap (nodeIds n))

theorem marked_run (L : Nat → Bool) (n : Nat) : ∀ (op : Op) (t : Tree n), Marked L n ((ops n).run op t).node = Marked L n t := by
  induction n with
  | zero => intro _ t; exact Empty.elim t
  | succ n ih =>
    intro op t
    have h1 := run_children_map (ops n) (Marked L n) (fun op c => ih op c) op t
    have h2 := run_static (ops n) op t
    have h3 := run_children_map (ops n) (nodeIds n) (fun op c => nodeIds_run n op c) op t
    have h4 : (Node.run (ops n) op t).node.children.flatMap (nodeIds n) = (Node.children (N := Tree n) t).flatMap (nodeIds n) := by
      rw [List.flatMap_def, List.flatMap_def, h3]
    show marks L (Node.run (ops n) op t).node.kind (Node.run (ops n) op t).node.id ((Node.run (ops n) op t).node.children.map (Marked L n))
      ((Node.run (ops n) op t).node.children.flatMap (nodeIds n)) = _
    rw [h1, h2.1, h2.2.2.1, h4]
    rfl

/-! ## Hooks -/

/-- What is known of the children: the formula of the child at each place. `Q` collects what else
does not change. -/
structure Kids (o : Ops N) (L : Nat → Bool) (fm : N → Form) (Q : N → Prop) : Prop where
  form : ∀ op c, fm (o.run op c).node = fm c
  keep : ∀ op c, Q c → Q (o.run op c).node
  quiet : ∀ op c, op ≠ .tick → answers (o.run op c).trace = []
  tick : ∀ c s, Q c → (o.run .tick c).res = .ok s → Reads (fm c) s (asked L (o.run .tick c).trace)

/-- The children at the places in `is` have the formulas `φ`. -/
def At (fm : N → Form) (Q : N → Prop) (φ : Nat → Form) (P : Nat → Prop) (cs : List N) : Prop :=
  ∀ i c, P i → cs[i]? = some c → fm c = φ i ∧ Q c

theorem at_set {o : Ops N} {L : Nat → Bool} {fm : N → Form} {Q : N → Prop} (hk : Kids o L fm Q) {φ : Nat → Form} {P : Nat → Prop}
    {cs : List N} (h : At fm Q φ P cs) (op : Op) {i : Nat} {c : N} (hc : cs[i]? = some c) :
    At fm Q φ P (cs.set i (o.run op c).node) := by
  intro j d hp hd
  rw [List.getElem?_set] at hd
  split at hd
  · next e =>
    subst e
    split at hd
    · cases hd
      exact ⟨(hk.form op c).trans (h i c hp hc).1, hk.keep op c (h i c hp hc).2⟩
    · cases hd
  · exact h j d hp hd

theorem quiet_asked {L : Nat → Bool} {t : List Ev} (h : answers t = []) : asked L t = [] := by
  simp [asked, h]

/-- A loop without ticks in front of the rest of a hook. -/
theorem forAll_asked {o : Ops N} {L : Nat → Bool} {fm : N → Form} {Q : N → Prop} (hk : Kids o L fm Q) {φ : Nat → Form} {P : Nat → Prop}
    (op : Op) (hop : op ≠ .tick) (m : Mem) (k : Prog) (s : BTState) : ∀ (is : List Nat) (cs : List N), At fm Q φ P cs →
    (exec o (Prog.forAll op m is k) cs).res = .ok s →
    ∃ cs', At fm Q φ P cs' ∧ (exec o k cs').res = .ok s ∧
      asked L (exec o (Prog.forAll op m is k) cs).trace = asked L (exec o k cs').trace := by
  intro is
  induction is with
  | nil => intro cs h hr; exact ⟨cs, h, hr, rfl⟩
  | cons i is ih =>
    intro cs h hr
    simp only [Prog.forAll, exec] at hr ⊢
    split at hr
    · cases hr
    · next c hc =>
      cases hx : (o.run op c).res with
      | err => simp [hx] at hr
      | ok s' =>
        simp only [hx] at hr ⊢
        obtain ⟨cs', h1, h2, h3⟩ := ih _ (at_set hk h op hc) hr
        refine ⟨cs', h1, h2, ?_⟩
        rw [asked_append, quiet_asked (hk.quiet op c hop), List.nil_append, h3]

theorem seqLoop_reads {o : Ops N} {L : Nat → Bool} {fm : N → Form} {Q : N → Prop} (hk : Kids o L fm Q) {φ : Nat → Form}
    (m : Mem) (s : BTState) : ∀ (is : List Nat) (cs : List N), At fm Q φ (fun _ => True) cs →
    (exec o (Prog.seqLoop false m is) cs).res = .ok s →
    Reads (conj (is.map φ)) s (asked L (exec o (Prog.seqLoop false m is) cs).trace) := by
  intro is
  induction is with
  | nil => intro cs _ hr; cases hr; exact reads_const _
  | cons i is ih =>
    intro cs h hr
    simp only [Prog.seqLoop, exec] at hr ⊢
    split at hr
    · cases hr
    · next c hc =>
      cases hx : (o.run .tick c).res with
      | err => simp [hx] at hr
      | ok s' =>
        have hread := hk.tick c s' (h i c trivial hc).2 hx
        rw [(h i c trivial hc).1] at hread
        simp only [hx] at hr ⊢
        rw [asked_append]
        split at hr
        · next e =>
          rw [if_pos e]
          subst e
          exact reads_both hread (ih _ (at_set hk h .tick hc) hr)
        · next e =>
          split at hr
          · next e2 =>
            rw [if_neg e, if_pos e2]
            cases hr
            simp only [exec, asked_nil, List.append_nil]
            exact reads_both_stop hread e
          · next e2 =>
            obtain ⟨cs', _, h2, h3⟩ := forAll_asked hk .untick (by simp) m _ s is _ (at_set hk h .tick hc) hr
            cases h2
            rw [if_neg e, if_neg e2, h3]
            simp only [exec, asked_nil, List.append_nil]
            exact reads_both_stop hread e

theorem fbLoop_reads {o : Ops N} {L : Nat → Bool} {fm : N → Form} {Q : N → Prop} (hk : Kids o L fm Q) {φ : Nat → Form}
    (m : Mem) (s : BTState) : ∀ (is : List Nat) (cs : List N), At fm Q φ (fun _ => True) cs →
    (exec o (Prog.fbLoop false m is) cs).res = .ok s →
    Reads (disj (is.map φ)) s (asked L (exec o (Prog.fbLoop false m is) cs).trace) := by
  intro is
  induction is with
  | nil => intro cs _ hr; cases hr; exact reads_const _
  | cons i is ih =>
    intro cs h hr
    simp only [Prog.fbLoop, exec] at hr ⊢
    split at hr
    · cases hr
    · next c hc =>
      cases hx : (o.run .tick c).res with
      | err => simp [hx] at hr
      | ok s' =>
        have hread := hk.tick c s' (h i c trivial hc).2 hx
        rw [(h i c trivial hc).1] at hread
        simp only [hx] at hr ⊢
        rw [asked_append]
        split at hr
        · next e2 =>
          rw [if_pos e2]
          cases hr
          simp only [exec, asked_nil, List.append_nil]
          exact reads_either_stop hread (Or.inr e2)
        · next e2 =>
          split at hr
          · next e =>
            obtain ⟨cs', _, h2, h3⟩ := forAll_asked hk .untick (by simp) m _ s is _ (at_set hk h .tick hc) hr
            cases h2
            rw [if_neg e2, if_pos e, h3]
            simp only [exec, asked_nil, List.append_nil]
            exact reads_either_stop hread (Or.inl e)
          · next e =>
            rw [if_neg e2, if_neg e]
            exact reads_either hread (fun h => h.elim e e2) (ih _ (at_set hk h .tick hc) hr)

/-- The formulas of the children, by place. -/
def nth (l : List Form) (i : Nat) : Form := (l[i]?).getD (.const .idle)

theorem range_nth (l : List Form) : (List.range l.length).map (nth l) = l := by
  apply List.ext_getElem?
  intro i
  by_cases h : i < l.length
  · simp [nth, h]
  · simp [h]

theorem at_all {fm : N → Form} {Q : N → Prop} (cs : List N) (hQ : ∀ c ∈ cs, Q c) :
    At fm Q (nth (cs.map fm)) (fun _ => True) cs := by
  intro i c _ hc
  refine ⟨?_, hQ c (List.mem_of_getElem? hc)⟩
  simp [nth, hc]

theorem reset_reads {o : Ops N} {L : Nat → Bool} {fm : N → Form} {Q : N → Prop} (hk : Kids o L fm Q) {φ : Nat → Form} {P : Nat → Prop}
    (n : Nat) (st : BTState) (m : Mem) (k : Prog) (s : BTState) (R : Form) (cs : List N) (h : At fm Q φ P cs)
    (hkk : ∀ cs', At fm Q φ P cs' → (exec o k cs').res = .ok s → Reads R s (asked L (exec o k cs').trace))
    (hr : (exec o (Prog.resetIfFinished n st m k) cs).res = .ok s) :
    Reads R s (asked L (exec o (Prog.resetIfFinished n st m k) cs).trace) := by
  unfold Prog.resetIfFinished at hr ⊢
  split at hr
  · next e =>
    obtain ⟨cs', h1, h2, h3⟩ := forAll_asked hk .reset (by simp) m k s _ cs h hr
    rw [if_pos e, h3]
    exact hkk cs' h1 h2
  · next e =>
    rw [if_neg e]
    exact hkk cs h hr

/-- The first child is ticked, and the rest of the hook is without ticks. -/
theorem head_reads {o : Ops N} {L : Nat → Bool} {fm : N → Form} {Q : N → Prop} (hk : Kids o L fm Q) (f : BTState → BTState)
    (k : Res → Prog) (s : BTState) (c : N) (cs : List N) (hQ : Q c)
    (hq : ∀ r, (k r).TicksIn [])
    (hf : ∀ r cs', (exec o (k r) cs').res = .ok s → ∃ s', r = .ok s' ∧ f s' = s)
    (hr : (exec o (.call .tick 0 k) (c :: cs)).res = .ok s) :
    Reads (.relabel f (fm c)) s (asked L (exec o (.call .tick 0 k) (c :: cs)).trace) := by
  simp only [exec, List.getElem?_cons_zero] at hr ⊢
  obtain ⟨s', h1, h2⟩ := hf _ _ hr
  rw [asked_append, quiet_asked (exec_quiet o hk.quiet _ (hq _) _), List.append_nil, ← h2]
  exact reads_relabel (hk.tick c s' hQ h1)

theorem map_ok {r : Res} {f : BTState → BTState} {s : BTState} (h : r.map f = .ok s) : ∃ s', r = .ok s' ∧ f s' = s := by
  cases r with
  | err => cases h
  | ok s' => cases h; exact ⟨s', rfl, rfl⟩

theorem onHead_reads {o : Ops N} {L : Nat → Bool} {fm : N → Form} {Q : N → Prop} (hk : Kids o L fm Q) (f g : BTState → BTState) (hfg : f = g)
    (d : BTState) (m : Mem) (s : BTState) (c : N) (cs : List N) (hQ : Q c)
    (hr : (exec o (Prog.onHead (cs.length + 1) .tick m f d) (c :: cs)).res = .ok s) :
    Reads (.relabel g (fm c)) s (asked L (exec o (Prog.onHead (cs.length + 1) .tick m f d) (c :: cs)).trace) := by
  subst hfg
  simp only [Prog.onHead, Nat.add_eq_zero_iff, reduceCtorEq, and_false, if_false] at hr ⊢
  exact head_reads hk f _ s c cs hQ (fun _ => trivial) (fun r cs' h => map_ok h) hr

theorem tickResetOn_reads {o : Ops N} {L : Nat → Bool} {fm : N → Form} {Q : N → Prop} (hk : Kids o L fm Q) (f : BTState → BTState) (on : BTState)
    (hf : ∀ s, f s = if s = on then .running else s) (m : Mem) (s : BTState) (c : N) (cs : List N) (hQ : Q c)
    (hr : (exec o (Prog.tickResetOn (cs.length + 1) on m) (c :: cs)).res = .ok s) :
    Reads (.relabel f (fm c)) s (asked L (exec o (Prog.tickResetOn (cs.length + 1) on m) (c :: cs)).trace) := by
  simp only [Prog.tickResetOn, Nat.add_eq_zero_iff, reduceCtorEq, and_false, if_false] at hr ⊢
  refine head_reads hk f _ s c cs hQ ?_ ?_ hr
  · intro r
    cases r with
    | err => trivial
    | ok s' =>
      dsimp only
      split
      · simp [Prog.TicksIn]
      · trivial
  · intro r cs' h
    cases r with
    | err => cases h
    | ok s' =>
      refine ⟨s', rfl, ?_⟩
      rw [hf]
      dsimp only at h
      split at h
      · next e =>
        rw [if_pos e]
        simp only [exec] at h
        split at h
        · cases h
        · obtain ⟨_, _, e2⟩ := map_ok h
          exact e2
      · next e =>
        rw [if_neg e]
        cases h
        rfl

/-! ## One node -/

theorem node_reads {o : Ops N} {L : Nat → Bool} {fm : N → Form} {Q : N → Prop} (hk : Kids o L fm Q) (nd : Node N) (s : BTState) (φ : Form)
    (hφ : formOf nd.kind nd.id (nd.children.map fm) = φ)
    (hQ : (nd.kind = .sequence ∨ nd.kind = .fallback) → ∀ c ∈ nd.children, Q c)
    (hQ0 : renames nd.kind ≠ none → ∀ c, nd.children[0]? = some c → Q c)
    (hsk : nd.kind = .sequence ∨ nd.kind = .fallback ∨ renames nd.kind ≠ none) :
    (exec o (hookProg nd.kind .tick nd.state nd.mem (nd.env nd.ctr) (nd.children.map o.name)) nd.children).res = .ok s →
    Reads φ s (asked L (exec o (hookProg nd.kind .tick nd.state nd.mem (nd.env nd.ctr) (nd.children.map o.name)) nd.children).trace) := by
  intro hr
  obtain ⟨id, name, kind, state, mem, env, ctr, children⟩ := nd
  dsimp only at hφ hQ hQ0 hsk hr ⊢
  have hlen : (children.map o.name).length = (children.map fm).length := by simp
  by_cases hs : kind = .sequence
  · subst hs
    subst hφ
    simp only [hookProg, tickHook] at hr ⊢
    show Reads (conj (children.map fm)) s _
    split at hr
    · next e =>
      have : children = [] := by simpa using e
      subst this
      cases hr
      exact reads_const _
    · next e =>
      rw [if_neg e, ← range_nth (children.map fm), ← hlen]
      exact reset_reads hk (φ := nth (children.map fm)) (P := fun _ => True) _ _ _ _ s _ children (at_all children (hQ (Or.inl rfl)))
        (fun cs' h h' => seqLoop_reads hk mem s _ cs' h h') hr
  by_cases hf : kind = .fallback
  · subst hf
    subst hφ
    simp only [hookProg, tickHook] at hr ⊢
    show Reads (disj (children.map fm)) s _
    split at hr
    · next e =>
      have : children = [] := by simpa using e
      subst this
      cases hr
      exact reads_const _
    · next e =>
      rw [if_neg e, ← range_nth (children.map fm), ← hlen]
      exact reset_reads hk (φ := nth (children.map fm)) (P := fun _ => True) _ _ _ _ s _ children (at_all children (hQ (Or.inr rfl)))
        (fun cs' h h' => fbLoop_reads hk mem s _ cs' h h') hr
  have hren : renames kind ≠ none := by
    rcases hsk with h | h | h
    · exact absurd h hs
    · exact absurd h hf
    · exact h
  cases children with
  | nil =>
    cases kind <;> simp [renames] at hren <;> subst hφ <;>
      simp [hookProg, tickHook, Prog.onHead, Prog.tickResetOn] at hr ⊢ <;> subst hr <;> exact reads_const _
  | cons c cs =>
    have hc := hQ0 hren c rfl
    have hn : (List.map o.name (c :: cs)).length = cs.length + 1 := by simp
    cases kind with
    | inverter =>
      subst hφ
      simp only [hookProg, tickHook, hn] at hr ⊢
      exact onHead_reads hk _ _ (by funext x; cases x <;> rfl) _ mem s c cs hc hr
    | ignoreFailure =>
      subst hφ
      simp only [hookProg, tickHook, hn] at hr ⊢
      exact onHead_reads hk _ _ (by funext x; cases x <;> rfl) _ mem s c cs hc hr
    | ignoreSuccess =>
      subst hφ
      simp only [hookProg, tickHook, hn] at hr ⊢
      exact onHead_reads hk _ _ (by funext x; cases x <;> rfl) _ mem s c cs hc hr
    | untilSuccess =>
      subst hφ
      simp only [hookProg, tickHook, hn] at hr ⊢
      exact tickResetOn_reads hk _ .failed (fun x => by cases x <;> rfl) mem s c cs hc hr
    | repeatIfFail =>
      subst hφ
      simp only [hookProg, tickHook, hn] at hr ⊢
      exact tickResetOn_reads hk _ .failed (fun x => by cases x <;> rfl) mem s c cs hc hr
    | repeatUntilFail =>
      subst hφ
      simp only [hookProg, tickHook, hn] at hr ⊢
      exact tickResetOn_reads hk _ .succeeded (fun x => by cases x <;> rfl) mem s c cs hc hr
    | repeatAlways =>
      subst hφ
      simp only [hookProg, tickHook, hn, Nat.add_eq_zero_iff, reduceCtorEq, and_false, if_false] at hr ⊢
      refine head_reads hk (fun _ => .running) _ s c cs hc ?_ ?_ hr
      · intro r
        cases r with
        | err => trivial
        | ok s' =>
          dsimp only
          split
          · simp only [Prog.TicksIn, reduceCtorEq, if_false]
            intro r
            cases r <;> trivial
          · trivial
      · intro r cs' h
        cases r with
        | err => cases h
        | ok s' =>
          refine ⟨s', rfl, ?_⟩
          dsimp only at h
          split at h
          · simp only [exec] at h
            split at h
            · cases h
            · split at h
              · cases h
              · cases h; rfl
          · cases h; rfl
    | watch =>
      subst hφ
      have hid : ∀ r cs', (exec o (.done mem r) cs' : ExecOut N).res = .ok s → ∃ s', r = .ok s' ∧ _root_.id s' = s :=
        fun r cs' h => ⟨s, h, rfl⟩
      simp only [hookProg, tickHook, hn, Nat.add_eq_zero_iff, reduceCtorEq, and_false, if_false] at hr ⊢
      split at hr
      · split at hr
        · next e1 e2 =>
          rw [if_pos e1, if_pos e2]
          simp only [exec, List.getElem?_cons_zero] at hr
          rw [exec]
          simp only [List.getElem?_cons_zero, asked_append]
          rw [quiet_asked (hk.quiet .untick c (by simp)), List.nil_append]
          cases hx : (o.run .untick c).res with
          | err => simp [hx] at hr
          | ok s' =>
            simp only [hx, List.set_cons_zero] at hr ⊢
            have hc' := hk.keep .untick c hc
            have := head_reads hk _root_.id (fun r => .done mem r) s (o.run .untick c).node cs hc' (fun _ => trivial) hid (by simpa [exec] using hr)
            rw [hk.form] at this
            exact this
        · next e1 e2 =>
          rw [if_pos e1, if_neg e2]
          exact head_reads hk _root_.id (fun r => .done mem r) s c cs hc (fun _ => trivial) hid hr
      · cases hr
    | _ => exact absurd rfl hren

theorem marks_cases {L : Nat → Bool} {k : Kind} {id : Nat} {ps : List Prop} {below : List Nat} (h : marks L k id ps below) :
    ((k = .sequence ∨ k = .fallback) ∧ L id = false ∧ ∀ p ∈ ps, p) ∨
    (k ≠ .sequence ∧ k ≠ .fallback ∧ renames k ≠ none ∧ L id = false ∧ ∀ p, ps[0]? = some p → p) ∨
    (k ≠ .sequence ∧ k ≠ .fallback ∧ renames k = none ∧ L id = true ∧ ∀ j ∈ below, L j = false) := by
  cases k <;> simp [marks, renames] at h ⊢ <;> exact h

theorem formOf_atom {k : Kind} (id : Nat) (cs : List Form) (h1 : k ≠ .sequence) (h2 : k ≠ .fallback) (h3 : renames k = none) :
    formOf k id cs = .atom id := by
  cases k <;> simp_all [formOf, renames]

theorem asked_tick (L : Nat → Bool) (id : Nat) (r : Res) (t : List Ev) :
    asked L (.call .tick id :: (.hook .tick id :: t ++ [Ev.ret .tick id r])) = asked L t ++ if L id then [(id, r)] else [] := by
  cases h : L id <;> simp [asked, answers, h]

theorem tree_reads (L : Nat → Bool) (n : Nat) : ∀ (t : Tree n) (s : BTState), Marked L n t →
    ((ops n).run .tick t).res = .ok s → Reads (form n t) s (asked L ((ops n).run .tick t).trace) := by
  induction n with
  | zero => intro t; exact Empty.elim t
  | succ n ih =>
    intro t s hm hr
    have hk : Kids (ops n) L (form n) (Marked L n) :=
      ⟨fun op c => form_run n op c, fun op c h => by rw [marked_run]; exact h, fun op c h => tree_quiet n op c h,
        fun c s h h' => ih c s h h'⟩
    obtain ⟨tr, r, ht, hres, hc⟩ := tick_shape (ops n) t
    have hres : ((ops (n + 1)).run .tick t).res = r := hres
    rw [hr] at hres
    subst hres
    rcases hc with ⟨_, h⟩ | ⟨x, hx, rfl, hxr⟩
    · cases h
    · show Reads (form (n + 1) t) s (asked L (Node.run (ops n) .tick t).trace)
      rw [ht, asked_tick]
      have hxs := hxr s rfl
      subst hx
      rcases marks_cases hm with ⟨h1, h2, h3⟩ | ⟨h1, h2, h3, h4, h5⟩ | ⟨h1, h2, h3, h4, h5⟩
      · rw [h2]
        simp only [Bool.false_eq_true, if_false, List.append_nil]
        exact node_reads hk t s _ rfl (fun _ c hcm => h3 _ (List.mem_map.mpr ⟨c, hcm, rfl⟩))
          (fun h => absurd (by rcases h1 with e | e <;> rw [e] <;> rfl) h) (h1.elim Or.inl (fun h => Or.inr (Or.inl h))) hxs
      · rw [h4]
        simp only [Bool.false_eq_true, if_false, List.append_nil]
        exact node_reads hk t s _ rfl (fun h => absurd h (by simp [h1, h2]))
          (fun _ c hc => h5 _ (by rw [List.getElem?_map, hc]; rfl)) (Or.inr (Or.inr h3)) hxs
      · rw [h4, within_asked (exec_within (ops n) (nodeIds n) (fun op c => nodeIds_run n op c) (fun op c => tree_within n op c) _ _) h5]
        show Reads (formOf (Node.kind (N := Tree n) t) (Node.id (N := Tree n) t) _) s _
        rw [formOf_atom _ _ h1 h2 h3]
        intro rest
        simp [Form.eval]

/-! ## The atoms are nodes of the tree -/

theorem conj_atoms (l : List Form) : (conj l).atoms = l.flatMap Form.atoms := by
  induction l with
  | nil => rfl
  | cons a l ih => simp [conj, Form.atoms, ih]

theorem disj_atoms (l : List Form) : (disj l).atoms = l.flatMap Form.atoms := by
  induction l with
  | nil => rfl
  | cons a l ih => simp [disj, Form.atoms, ih]

theorem formOf_head {k : Kind} (id : Nat) (cs : List Form) (h1 : k ≠ .sequence) (h2 : k ≠ .fallback) (h3 : renames k ≠ none) :
    (formOf k id cs).atoms = (cs.take 1).flatMap Form.atoms := by
  cases k <;> simp [renames] at h1 h2 h3 <;> cases cs <;> simp [formOf, renames, Form.atoms]

theorem formOf_all {k : Kind} (id : Nat) (cs : List Form) (h : k = .sequence ∨ k = .fallback) :
    (formOf k id cs).atoms = cs.flatMap Form.atoms := by
  rcases h with rfl | rfl
  · exact conj_atoms cs
  · exact disj_atoms cs

theorem flatMap_sublist {α β : Type} {f g : α → List β} : ∀ l : List α, (∀ a ∈ l, (f a).Sublist (g a)) →
    (l.flatMap f).Sublist (l.flatMap g)
  | [], _ => List.Sublist.refl _
  | a :: l, h => by
    simp only [List.flatMap_cons]
    exact (h a List.mem_cons_self).append (flatMap_sublist l fun b hb => h b (List.mem_cons_of_mem _ hb))

theorem flatMap_take {α β : Type} (f : α → List β) (l : List α) : ((l.take 1).flatMap f).Sublist (l.flatMap f) := by
  cases l with
  | nil => exact List.Sublist.refl _
  | cons a l => simp

theorem atoms_sublist (n : Nat) : ∀ t : Tree n, (form n t).atoms.Sublist (nodeIds n t) := by
  induction n with
  | zero => intro t; exact Empty.elim t
  | succ n ih =>
    intro t
    rw [nodeIds_succ]
    show (formOf (Node.kind (N := Tree n) t) (Node.id (N := Tree n) t) _).atoms.Sublist _
    have hall : ((Node.children (N := Tree n) t).flatMap fun c => (form n c).atoms).Sublist
        ((Node.children (N := Tree n) t).flatMap (nodeIds n)) := flatMap_sublist _ fun c _ => ih c
    by_cases h1 : Node.kind (N := Tree n) t = .sequence ∨ Node.kind (N := Tree n) t = .fallback
    · rw [formOf_all _ _ h1, List.flatMap_map]
      exact hall.trans (List.sublist_cons_self _ _)
    · have h2 : Node.kind (N := Tree n) t ≠ .sequence := fun h => h1 (Or.inl h)
      have h3 : Node.kind (N := Tree n) t ≠ .fallback := fun h => h1 (Or.inr h)
      by_cases h4 : renames (Node.kind (N := Tree n) t) = none
      · rw [formOf_atom _ _ h2 h3 h4]
        simp [Form.atoms]
      · rw [formOf_head _ _ h2 h3 h4]
        refine (flatMap_take _ _).trans ?_
        rw [List.flatMap_map]
        exact hall.trans (List.sublist_cons_self _ _)

theorem flatMap_owner {α β : Type} {f : α → List β} : ∀ {l : List α}, (l.flatMap f).Nodup → ∀ {a b : α} {x : β},
    a ∈ l → b ∈ l → x ∈ f a → x ∈ f b → a = b
  | [], _, a, _, _, ha, _, _, _ => by cases ha
  | c :: l, h, a, b, x, ha, hb, hxa, hxb => by
    simp only [List.flatMap_cons, List.nodup_append] at h
    rcases List.mem_cons.mp ha with ea | ha' <;> rcases List.mem_cons.mp hb with eb | hb'
    · rw [ea, eb]
    · exact absurd rfl (h.2.2 x (ea ▸ hxa) x (List.mem_flatMap.mpr ⟨b, hb', hxb⟩))
    · exact absurd rfl (h.2.2 x (eb ▸ hxb) x (List.mem_flatMap.mpr ⟨a, ha', hxa⟩))
    · exact flatMap_owner h.2.1 ha' hb' hxa hxb

theorem flatMap_nodup {α β : Type} {f : α → List β} : ∀ {l : List α}, (l.flatMap f).Nodup → ∀ {a : α}, a ∈ l → (f a).Nodup
  | [], _, a, ha => by cases ha
  | c :: l, h, a, ha => by
    simp only [List.flatMap_cons, List.nodup_append] at h
    rcases List.mem_cons.mp ha with rfl | ha
    · exact h.1
    · exact flatMap_nodup h.2.1 ha

theorem marked_of (L : Nat → Bool) (n : Nat) : ∀ t : Tree n, (nodeIds n t).Nodup →
    (∀ i ∈ nodeIds n t, L i = true ↔ i ∈ (form n t).atoms) → Marked L n t := by
  induction n with
  | zero => intro t; exact Empty.elim t
  | succ n ih =>
    intro t hnd hL
    rw [nodeIds_succ] at hnd hL
    obtain ⟨hid, hnd⟩ := List.nodup_cons.mp hnd
    have hsub : ∀ c ∈ Node.children (N := Tree n) t, ∀ i ∈ (form n c).atoms, i ∈ nodeIds n c :=
      fun c _ i hi => (atoms_sublist n c).subset hi
    -- the atoms of the node are those of some of its children
    have key : ∀ ds : List (Tree n), ds.Sublist (Node.children (N := Tree n) t) →
        (form (n + 1) t).atoms = (ds.map (form n)).flatMap Form.atoms →
        L (Node.id (N := Tree n) t) = false ∧ ∀ d ∈ ds, Marked L n d := by
      intro ds hds he
      constructor
      · cases hl : L (Node.id (N := Tree n) t) with
        | false => rfl
        | true =>
          have := (hL _ List.mem_cons_self).mp hl
          rw [he, List.flatMap_map] at this
          obtain ⟨d, hd, hi⟩ := List.mem_flatMap.mp this
          exact absurd (List.mem_flatMap.mpr ⟨d, hds.subset hd, hsub d (hds.subset hd) _ hi⟩) hid
      · intro d hd
        refine ih d (flatMap_nodup hnd (hds.subset hd)) fun i hi => ?_
        rw [hL i (List.mem_cons_of_mem _ (List.mem_flatMap.mpr ⟨d, hds.subset hd, hi⟩)), he, List.flatMap_map]
        constructor
        · intro h
          obtain ⟨e, he', hie⟩ := List.mem_flatMap.mp h
          have := flatMap_owner hnd (hds.subset hd) (hds.subset he') hi (hsub e (hds.subset he') i hie)
          rw [this]
          exact hie
        · intro h
          exact List.mem_flatMap.mpr ⟨d, hd, h⟩
    show marks L _ _ _ _
    by_cases h1 : Node.kind (N := Tree n) t = .sequence ∨ Node.kind (N := Tree n) t = .fallback
    · obtain ⟨h2, h3⟩ := key _ (List.Sublist.refl _) (formOf_all _ _ h1)
      have h4 : ∀ p ∈ (Node.children (N := Tree n) t).map (Marked L n), p := by
        intro p hp
        obtain ⟨c, hc, rfl⟩ := List.mem_map.mp hp
        exact h3 c hc
      rcases h1 with e | e <;> rw [e] <;> exact ⟨h2, h4⟩
    · have h2 : Node.kind (N := Tree n) t ≠ .sequence := fun h => h1 (Or.inl h)
      have h3 : Node.kind (N := Tree n) t ≠ .fallback := fun h => h1 (Or.inr h)
      by_cases h4 : renames (Node.kind (N := Tree n) t) = none
      · have hf : form (n + 1) t = .atom (Node.id (N := Tree n) t) := formOf_atom _ _ h2 h3 h4
        have h5 : L (Node.id (N := Tree n) t) = true := (hL _ List.mem_cons_self).mpr (by rw [hf]; simp [Form.atoms])
        have h6 : ∀ j ∈ (Node.children (N := Tree n) t).flatMap (nodeIds n), L j = false := by
          intro j hj
          cases hl : L j with
          | false => rfl
          | true =>
            have := (hL j (List.mem_cons_of_mem _ hj)).mp hl
            rw [hf] at this
            simp only [Form.atoms, List.mem_singleton] at this
            rw [this] at hj
            exact absurd hj hid
        generalize Node.kind (N := Tree n) t = k at h2 h3 h4
        cases k <;> simp [renames] at h2 h3 h4 <;> exact ⟨h5, h6⟩
      · obtain ⟨h5, h6⟩ := key ((Node.children (N := Tree n) t).take 1) (List.take_sublist _ _)
          (by rw [List.map_take]; exact formOf_head _ _ h2 h3 h4)
        have h7 : ∀ p, ((Node.children (N := Tree n) t).map (Marked L n))[0]? = some p → p := by
          intro p hp
          rw [List.getElem?_map, Option.map_eq_some_iff] at hp
          obtain ⟨c, hc, rfl⟩ := hp
          refine h6 c ?_
          generalize Node.children (N := Tree n) t = cs at hc
          cases cs with
          | nil => cases hc
          | cons a l => cases hc; simp
        generalize Node.kind (N := Tree n) t = k at h2 h3 h4
        cases k <;> simp [renames] at h2 h3 h4 <;> exact ⟨h5, h7⟩

/-! ## The theorems -/

theorem lookup (l : List (Nat × BTState)) : (l.map (·.1)).Nodup → ∃ ρ : Nat → BTState, ∀ p ∈ l, ρ p.1 = p.2 := by
  induction l with
  | nil => intro _; exact ⟨fun _ => .idle, fun p hp => by cases hp⟩
  | cons q l ih =>
    intro h
    obtain ⟨h1, h2⟩ := List.nodup_cons.mp h
    obtain ⟨ρ, hρ⟩ := ih h2
    refine ⟨fun i => if i = q.1 then q.2 else ρ i, fun p hp => ?_⟩
    rcases List.mem_cons.mp hp with rfl | hp
    · simp
    · have : p.1 ≠ q.1 := fun e => h1 (List.mem_map.mpr ⟨p, hp, e⟩)
      simp [this, hρ p hp]

theorem nodeIds_runs (n : Nat) (h : List Op) : ∀ t : Tree n, nodeIds n (runs (ops n) h t).2 = nodeIds n t := by
  induction h with
  | nil => intro t; rfl
  | cons op h ih => intro t; exact (ih _).trans (nodeIds_run n op t)

theorem form_runs (n : Nat) (h : List Op) : ∀ t : Tree n, form n (runs (ops n) h t).2 = form n t := by
  induction h with
  | nil => intro t; rfl
  | cons op h ih => intro t; exact (ih _).trans (form_run n op t)

/-- The atoms of a formula. -/
def Form.isAtom (φ : Form) (i : Nat) : Bool := decide (i ∈ φ.atoms)

/-- **C135.** Whatever has been done with a tree before, a tick of it that ends without an error
answers the value of its formula for the answers that its atoms give in this tick. The atoms that
answer are exactly those that the formula needs, each one once, from left to right. -/
theorem c135_formula (n : Nat) (t : Tree n) (before : List Op) (s : BTState) (hids : (nodeIds n t).Nodup)
    (hr : ((ops n).run .tick (runs (ops n) before t).2).res = .ok s) :
    ∃ ρ : Nat → BTState,
      asked (form n t).isAtom ((ops n).run .tick (runs (ops n) before t).2).trace =
        ((form n t).needed ρ).map (fun i => (i, .ok (ρ i))) ∧
      s = (form n t).value ρ := by
  have hm : Marked (form n t).isAtom n (runs (ops n) before t).2 := by
    apply marked_of
    · rw [nodeIds_runs]; exact hids
    · intro i _
      rw [form_runs]
      simp [Form.isAtom]
  have := tree_reads _ n _ s hm hr []
  rw [List.append_nil, form_runs] at this
  obtain ⟨u, hu, hsub, hv⟩ := eval_used _ _ _ _ this
  obtain ⟨ρ, hρ⟩ := lookup u ((hsub.trans (atoms_sublist n t)).nodup hids)
  obtain ⟨h1, h2⟩ := hv ρ hρ
  refine ⟨ρ, ?_, h1.symm⟩
  rw [hu, List.append_nil, h2, List.map_map]
  apply List.map_congr_left
  intro p hp
  simp [hρ p hp]

/-- The atoms that are not needed do not matter. -/
theorem value_congr (φ : Form) (ρ ρ' : Nat → BTState) : (∀ i ∈ φ.needed ρ, ρ i = ρ' i) →
    φ.value ρ = φ.value ρ' ∧ φ.needed ρ = φ.needed ρ' := by
  induction φ with
  | atom i => intro h; exact ⟨h i List.mem_cons_self, rfl⟩
  | const s => intro _; exact ⟨rfl, rfl⟩
  | both a b iha ihb =>
    intro h
    simp only [Form.needed, List.mem_append] at h
    obtain ⟨h1, h2⟩ := iha fun i hi => h i (Or.inl hi)
    simp only [Form.value, Form.needed, ← h1, ← h2]
    split
    · next e =>
      obtain ⟨h3, h4⟩ := ihb fun i hi => h i (Or.inr (by rw [if_pos e]; exact hi))
      exact ⟨h3, by rw [h4]⟩
    · exact ⟨rfl, rfl⟩
  | either a b iha ihb =>
    intro h
    simp only [Form.needed, List.mem_append] at h
    obtain ⟨h1, h2⟩ := iha fun i hi => h i (Or.inl hi)
    simp only [Form.value, Form.needed, ← h1, ← h2]
    split
    · exact ⟨rfl, rfl⟩
    · next e =>
      obtain ⟨h3, h4⟩ := ihb fun i hi => h i (Or.inr (by rw [if_neg e]; exact hi))
      exact ⟨h3, by rw [h4]⟩
  | relabel f a ih =>
    intro h
    obtain ⟨h1, h2⟩ := ih h
    exact ⟨by simp only [Form.value, h1], h2⟩

/-! ## Conditions: ordinary logic -/

/-- Formulas made of and, or, not and the constants. -/
def Form.Logical : Form → Prop
  | .atom _ => True
  | .const s => s = .succeeded ∨ s = .failed
  | .both a b | .either a b => a.Logical ∧ b.Logical
  | .relabel f a => f .succeeded = .failed ∧ f .failed = .succeeded ∧ a.Logical

/-- Their truth value. -/
def Form.truth (v : Nat → Bool) : Form → Bool
  | .atom i => v i
  | .const s => s == .succeeded
  | .both a b => a.truth v && b.truth v
  | .either a b => a.truth v || b.truth v
  | .relabel _ a => !a.truth v

/-- The answer of a condition. -/
def verdict (b : Bool) : BTState := if b then .succeeded else .failed

theorem value_truth (φ : Form) (v : Nat → Bool) (hl : φ.Logical) : φ.value (fun i => verdict (v i)) = verdict (φ.truth v) := by
  induction φ with
  | atom i => rfl
  | const s => rcases hl with rfl | rfl <;> rfl
  | both a b iha ihb =>
    simp only [Form.value, iha hl.1, ihb hl.2, Form.truth]
    cases a.truth v <;> cases b.truth v <;> rfl
  | either a b iha ihb =>
    simp only [Form.value, iha hl.1, ihb hl.2, Form.truth]
    cases a.truth v <;> cases b.truth v <;> rfl
  | relabel f a ih =>
    simp only [Form.value, ih hl.2.2, Form.truth]
    cases a.truth v
    · exact hl.2.1
    · exact hl.1

/-- **C135.** A tree of Sequences, Fallbacks and Inverters over conditions is ordinary logic: if the
atoms that are ticked answer what `v` says, SUCCEEDED for true and FAILED for false, then the tree
answers the truth value of its formula. It does not matter what `v` says of the others. -/
theorem c135_boolean (n : Nat) (t : Tree n) (before : List Op) (s : BTState) (v : Nat → Bool) (hids : (nodeIds n t).Nodup)
    (hlog : (form n t).Logical)
    (hr : ((ops n).run .tick (runs (ops n) before t).2).res = .ok s)
    (hv : ∀ p ∈ asked (form n t).isAtom ((ops n).run .tick (runs (ops n) before t).2).trace, p.2 = .ok (verdict (v p.1))) :
    s = verdict ((form n t).truth v) := by
  obtain ⟨ρ, h1, h2⟩ := c135_formula n t before s hids hr
  rw [h2, ← value_truth _ v hlog]
  refine (value_congr _ _ _ fun i hi => ?_).1
  rw [h1] at hv
  have := hv (i, .ok (ρ i)) (List.mem_map.mpr ⟨i, hi, rfl⟩)
  simpa using this

/-! ## Examples -/

/-- A Sequence over a Fallback of two conditions and an Inverter. The second tick finds everything
finished. -/
def sample : Tree 3 :=
  mk 2 1 .sequence
    [mk 1 2 .fallback [mkLeaf 0 3 [.ok .idle, .ok .failed, .ok .idle, .ok .succeeded],
                       mkLeaf 0 4 [.ok .idle, .ok .succeeded, .ok .idle, .ok .idle]],
     mk 1 5 .inverter [mkLeaf 0 6 [.ok .idle, .ok .failed, .ok .idle, .ok .succeeded]]]

example : (nodeIds 3 sample).Nodup ∧ ((ops 3).run .tick (runs (ops 3) [.setup] sample).2).res = .ok .succeeded ∧
    asked (form 3 sample).isAtom ((ops 3).run .tick (runs (ops 3) [.setup] sample).2).trace =
      [(3, .ok .failed), (4, .ok .succeeded), (6, .ok .failed)] := by decide +kernel

example : ((ops 3).run .tick (runs (ops 3) [.setup, .tick] sample).2).res = .ok .failed ∧
    asked (form 3 sample).isAtom ((ops 3).run .tick (runs (ops 3) [.setup, .tick] sample).2).trace =
      [(3, .ok .succeeded), (6, .ok .succeeded)] := by decide +kernel

example : (form 3 sample).Logical ∧ (form 3 sample).truth (fun i => i == 4) = true ∧
    (form 3 sample).truth (fun i => i == 3 || i == 6) = false :=
  ⟨⟨⟨trivial, trivial, Or.inr rfl⟩, ⟨rfl, rfl, trivial⟩, Or.inl rfl⟩, rfl, rfl⟩

/-- A Parallel is an atom: the nodes below it are not. -/
example : form 3 samplePar = .atom 1 := rfl

end Verif.BT.Formula
