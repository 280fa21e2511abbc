import Verif.BT.Resume

/-!
# Refactoring a tree (C137)

Users rebuild trees: they put nodes into a Sequence within a Sequence, drop an Inverter of an
Inverter, or move an Inverter inwards (De Morgan). The rules below say which changes are safe: the
rebuilt tree answers the same and asks the same atoms in the same order, tick by tick for the nodes
without memory (C135), and over whole rounds for the nodes with memory (C136).
-/

set_option autoImplicit false

namespace Verif.BT.Refactor

open Verif.BT.Formula Verif.BT.Resume

/-! ## Specification: rules -/

/-- The answers that are meant for ticks. -/
def Plain (s : BTState) : Prop := s = .running ∨ s = .succeeded ∨ s = .failed

/-- Formulas that answer like this if their atoms do. -/
def Proper : Form → Prop
  | .atom _ => True
  | .const s => Plain s
  | .both a b | .either a b => Proper a ∧ Proper b
  | .relabel f a => (∀ s, Plain s → Plain (f s)) ∧ Proper a

/-- What an Inverter does. -/
def inv : BTState → BTState
  | .succeeded => .failed
  | .failed => .succeeded
  | s => s

/-- Safe changes. -/
inductive Rw : Form → Form → Prop
  | refl (a : Form) : Rw a a
  | symm {a b : Form} (h : Rw a b) : Rw b a
  | trans {a b c : Form} (h : Rw a b) (h' : Rw b c) : Rw a c
  | both {a a' b b' : Form} (h : Rw a a') (h' : Rw b b') : Rw (.both a b) (.both a' b')
  | either {a a' b b' : Form} (h : Rw a a') (h' : Rw b b') : Rw (.either a b) (.either a' b')
  | relabel {f g : BTState → BTState} {a a' : Form} (hp : Proper a) (hfg : ∀ s, Plain s → f s = g s) (h : Rw a a') :
    Rw (.relabel f a) (.relabel g a')
  | both_assoc (a b c : Form) : Rw (.both (.both a b) c) (.both a (.both b c))
  | both_left (a : Form) : Rw (.both (.const .succeeded) a) a
  | both_right (a : Form) : Rw (.both a (.const .succeeded)) a
  | either_assoc (a b c : Form) (hp : Proper a) : Rw (.either (.either a b) c) (.either a (.either b c))
  | either_left (a : Form) : Rw (.either (.const .failed) a) a
  | either_right (a : Form) (hp : Proper a) : Rw (.either a (.const .failed)) a
  /-- decorators one above the other -/
  | compose (f g : BTState → BTState) (a : Form) : Rw (.relabel f (.relabel g a)) (.relabel (fun s => f (g s)) a)
  /-- a decorator that changes nothing -/
  | drop (f : BTState → BTState) (a : Form) (hp : Proper a) (hf : ∀ s, Plain s → f s = s) : Rw (.relabel f a) a
  /-- De Morgan -/
  | inv_both (a b : Form) (hp : Proper a) : Rw (.relabel inv (.both a b)) (.either (.relabel inv a) (.relabel inv b))
  | inv_either (a b : Form) (hp : Proper a) : Rw (.relabel inv (.either a b)) (.both (.relabel inv a) (.relabel inv b))
  /-- a decorator below a constant -/
  | const (f : BTState → BTState) (s : BTState) : Rw (.relabel f (.const s)) (.const (f s))

/-! ## The rules are sound -/

theorem value_plain (ρ : Nat → BTState) (hρ : ∀ i, Plain (ρ i)) (φ : Form) : Proper φ → Plain (φ.value ρ) := by
  induction φ with
  | atom i => intro _; exact hρ i
  | const s => intro h; exact h
  | both a b iha ihb =>
    intro h
    simp only [Form.value]
    split
    · exact ihb h.2
    · exact iha h.1
  | either a b iha ihb =>
    intro h
    simp only [Form.value]
    split
    · exact iha h.1
    · exact ihb h.2
  | relabel f a ih => intro h; exact h.1 _ (ih h.2)

theorem rw_sound {φ ψ : Form} (h : Rw φ ψ) (ρ : Nat → BTState) (hρ : ∀ i, Plain (ρ i)) :
    φ.value ρ = ψ.value ρ ∧ φ.needed ρ = ψ.needed ρ := by
  induction h with
  | refl a => exact ⟨rfl, rfl⟩
  | symm _ ih => exact ⟨ih.1.symm, ih.2.symm⟩
  | trans _ _ ih ih' => exact ⟨ih.1.trans ih'.1, ih.2.trans ih'.2⟩
  | both _ _ ih ih' => simp only [Form.value, Form.needed, ih.1, ih.2, ih'.1, ih'.2, and_self]
  | either _ _ ih ih' => simp only [Form.value, Form.needed, ih.1, ih.2, ih'.1, ih'.2, and_self]
  | @relabel f g a a' hp hfg _ ih =>
    refine ⟨?_, ih.2⟩
    simp only [Form.value]
    rw [hfg _ (value_plain ρ hρ a hp), ih.1]
  | both_assoc a b c =>
    simp only [Form.value, Form.needed]
    by_cases ha : a.value ρ = .succeeded <;> by_cases hb : b.value ρ = .succeeded <;> simp [ha, hb]
  | both_left a => simp [Form.value, Form.needed]
  | both_right a =>
    simp only [Form.value, Form.needed]
    by_cases ha : a.value ρ = .succeeded <;> simp [ha]
  | either_assoc a b c hp =>
    simp only [Form.value, Form.needed]
    by_cases ha : a.value ρ = .succeeded ∨ a.value ρ = .running <;>
      by_cases hb : b.value ρ = .succeeded ∨ b.value ρ = .running <;> simp [ha, hb]
  | either_left a => simp [Form.value, Form.needed]
  | either_right a hp =>
    simp only [Form.value, Form.needed]
    rcases value_plain ρ hρ a hp with ha | ha | ha <;> simp [ha]
  | compose f g a => exact ⟨rfl, rfl⟩
  | drop f a hp hf => exact ⟨hf _ (value_plain ρ hρ a hp), rfl⟩
  | inv_both a b hp =>
    simp only [Form.value, Form.needed]
    rcases value_plain ρ hρ a hp with ha | ha | ha <;> simp [ha, inv]
  | inv_either a b hp =>
    simp only [Form.value, Form.needed]
    rcases value_plain ρ hρ a hp with ha | ha | ha <;> simp [ha, inv]
  | const f s => exact ⟨rfl, rfl⟩

/-! ## Rules for whole lists of children -/

theorem conj_append (l l' : List Form) : Rw (conj (l ++ l')) (.both (conj l) (conj l')) := by
  induction l with
  | nil => exact .symm (.both_left _)
  | cons a l ih => exact .trans (.both (.refl a) ih) (.symm (.both_assoc _ _ _))

theorem disj_append (l l' : List Form) (hp : ∀ a ∈ l, Proper a) : Rw (disj (l ++ l')) (.either (disj l) (disj l')) := by
  induction l with
  | nil => exact .symm (.either_left _)
  | cons a l ih =>
    exact .trans (.either (.refl a) (ih fun b hb => hp b (List.mem_cons_of_mem _ hb)))
      (.symm (.either_assoc _ _ _ (hp a List.mem_cons_self)))

/-- A Sequence within a Sequence may be dissolved. -/
theorem flatten_conj (l m r : List Form) : Rw (conj (l ++ conj m :: r)) (conj (l ++ m ++ r)) := by
  rw [List.append_assoc]
  refine .trans (conj_append _ _) (.trans (.both (.refl _) ?_) (.symm (conj_append _ _)))
  exact .symm (conj_append m r)

/-- A Fallback within a Fallback may be dissolved. -/
theorem flatten_disj (l m r : List Form) (hl : ∀ a ∈ l, Proper a) (hm : ∀ a ∈ m, Proper a) :
    Rw (disj (l ++ disj m :: r)) (disj (l ++ m ++ r)) := by
  rw [List.append_assoc]
  refine .trans (disj_append _ _ hl) (.trans (.either (.refl _) ?_) (.symm (disj_append _ _ hl)))
  exact .symm (disj_append m r hm)

/-- An Inverter above a Sequence may be moved below, which makes it a Fallback. -/
theorem de_morgan_conj (l : List Form) (hp : ∀ a ∈ l, Proper a) : Rw (.relabel inv (conj l)) (disj (l.map (.relabel inv))) := by
  induction l with
  | nil => exact .const inv .succeeded
  | cons a l ih =>
    exact .trans (.inv_both a _ (hp a List.mem_cons_self)) (.either (.refl _) (ih fun b hb => hp b (List.mem_cons_of_mem _ hb)))

/-- An Inverter above a Fallback may be moved below, which makes it a Sequence. -/
theorem de_morgan_disj (l : List Form) (hp : ∀ a ∈ l, Proper a) : Rw (.relabel inv (disj l)) (conj (l.map (.relabel inv))) := by
  induction l with
  | nil => exact .const inv .failed
  | cons a l ih =>
    exact .trans (.inv_either a _ (hp a List.mem_cons_self)) (.both (.refl _) (ih fun b hb => hp b (List.mem_cons_of_mem _ hb)))

/-- Two Inverters may be dropped. -/
theorem inv_inv (a : Form) (hp : Proper a) : Rw (.relabel inv (.relabel inv a)) a :=
  .trans (.compose inv inv a) (.drop _ a hp (by rintro s (rfl | rfl | rfl) <;> rfl))

/-! ## Trees are proper -/

theorem conj_proper : ∀ l : List Form, (∀ a ∈ l, Proper a) → Proper (conj l)
  | [], _ => Or.inr (Or.inl rfl)
  | a :: l, h => ⟨h a List.mem_cons_self, conj_proper l fun b hb => h b (List.mem_cons_of_mem _ hb)⟩

theorem disj_proper : ∀ l : List Form, (∀ a ∈ l, Proper a) → Proper (disj l)
  | [], _ => Or.inr (Or.inr rfl)
  | a :: l, h => ⟨h a List.mem_cons_self, disj_proper l fun b hb => h b (List.mem_cons_of_mem _ hb)⟩

theorem formOf_proper (k : Kind) (id : Nat) (cs : List Form) (h : ∀ a ∈ cs, Proper a) : Proper (formOf k id cs) := by
  cases k with
  | sequence => exact conj_proper cs h
  | fallback => exact disj_proper cs h
  | inverter | ignoreFailure | ignoreSuccess | untilSuccess | repeatIfFail | repeatUntilFail | repeatAlways | watch =>
    cases cs with
    | nil => simp [formOf, renames, Proper, Plain]
    | cons a l =>
      refine ⟨?_, h a List.mem_cons_self⟩
      rintro s (rfl | rfl | rfl) <;> simp [Plain]
  | _ => trivial

theorem form_proper (n : Nat) : ∀ t : Tree n, Proper (form n t) := by
  induction n with
  | zero => intro t; exact Empty.elim t
  | succ n ih =>
    intro t
    refine formOf_proper _ _ _ fun a ha => ?_
    obtain ⟨c, _, rfl⟩ := List.mem_map.mp ha
    exact ih c

theorem mformOf_proper (k : Kind) (id : Nat) (cs : List Form) (h : ∀ a ∈ cs, Proper a) : Proper (mformOf k id cs) := by
  cases k with
  | memSequence => exact conj_proper cs h
  | memFallback => exact disj_proper cs h
  | inverter | ignoreFailure | ignoreSuccess =>
    cases cs with
    | nil => simp [mformOf, role, Proper, Plain]
    | cons a l =>
      refine ⟨?_, h a List.mem_cons_self⟩
      rintro s (rfl | rfl | rfl) <;> simp [Plain]
  | _ => trivial

theorem mform_proper (n : Nat) : ∀ t : Tree n, Proper (mform n t) := by
  induction n with
  | zero => intro t; exact Empty.elim t
  | succ n ih =>
    intro t
    refine mformOf_proper _ _ _ fun a ha => ?_
    obtain ⟨c, _, rfl⟩ := List.mem_map.mp ha
    exact ih c

/-! ## The theorems -/

/-- **C137.** If one tree is rebuilt into another one by safe changes, then a tick of the one and a tick
of the other, each after any past, answer the same and ask the same atoms in the same order, as
long as the atoms that are asked answer the same (RUNNING, SUCCEEDED or FAILED). -/
theorem c137_refactor (n n' : Nat) (t : Tree n) (t' : Tree n') (before before' : List Op) (s s' : BTState)
    (hids : (nodeIds n t).Nodup) (hids' : (nodeIds n' t').Nodup) (hrw : Rw (form n t) (form n' t'))
    (hr : ((ops n).run .tick (runs (ops n) before t).2).res = .ok s)
    (hr' : ((ops n').run .tick (runs (ops n') before' t').2).res = .ok s')
    (w : Nat → BTState) (hw : ∀ i, Plain (w i))
    (ha : ∀ p ∈ asked (form n t).isAtom ((ops n).run .tick (runs (ops n) before t).2).trace, p.2 = .ok (w p.1))
    (ha' : ∀ p ∈ asked (form n' t').isAtom ((ops n').run .tick (runs (ops n') before' t').2).trace, p.2 = .ok (w p.1)) :
    s = s' ∧ asked (form n t).isAtom ((ops n).run .tick (runs (ops n) before t).2).trace =
      asked (form n' t').isAtom ((ops n').run .tick (runs (ops n') before' t').2).trace := by
  obtain ⟨ρ, h1, h2⟩ := c135_formula n t before s hids hr
  obtain ⟨ρ', h1', h2'⟩ := c135_formula n' t' before' s' hids' hr'
  rw [h1] at ha
  rw [h1'] at ha'
  have hρ : ∀ i ∈ (form n t).needed ρ, ρ i = w i := fun i hi => by
    have := ha (i, .ok (ρ i)) (List.mem_map.mpr ⟨i, hi, rfl⟩)
    simpa using this
  have hρ' : ∀ i ∈ (form n' t').needed ρ', ρ' i = w i := fun i hi => by
    have := ha' (i, .ok (ρ' i)) (List.mem_map.mpr ⟨i, hi, rfl⟩)
    simpa using this
  obtain ⟨e1, e2⟩ := value_congr _ _ _ hρ
  obtain ⟨e1', e2'⟩ := value_congr _ _ _ hρ'
  obtain ⟨e3, e4⟩ := rw_sound hrw w hw
  refine ⟨by rw [h2, h2', e1, e1', e3], ?_⟩
  rw [h1, h1']
  have k1 : ((form n t).needed ρ).map (fun i => (i, Res.ok (ρ i))) = ((form n t).needed w).map (fun i => (i, Res.ok (w i))) := by
    rw [← e2]
    exact List.map_congr_left fun i hi => by rw [hρ i hi]
  have k2 : ((form n' t').needed ρ').map (fun i => (i, Res.ok (ρ' i))) = ((form n' t').needed w).map (fun i => (i, Res.ok (w i))) := by
    rw [← e2']
    exact List.map_congr_left fun i hi => by rw [hρ' i hi]
  rw [k1, k2, e4]

/-! ### Nodes with memory -/

theorem needed_sublist (ρ : Nat → BTState) (φ : Form) : (φ.needed ρ).Sublist φ.atoms := by
  induction φ with
  | atom i => exact List.Sublist.refl _
  | const s => exact List.Sublist.refl _
  | both a b iha ihb =>
    simp only [Form.needed, Form.atoms]
    refine iha.append ?_
    split
    · exact ihb
    · exact List.nil_sublist _
  | either a b iha ihb =>
    simp only [Form.needed, Form.atoms]
    refine iha.append ?_
    split
    · exact List.nil_sublist _
    · exact ihb
  | relabel f a ih => exact ih

theorem until_prefix {i a b : Nat} {x y : BTState} (hx : x ≠ .running) (hy : y ≠ .running) :
    List.replicate a (i, Res.ok .running) ++ [(i, Res.ok x)] <+: List.replicate b (i, Res.ok .running) ++ [(i, Res.ok y)] → a = b ∧ x = y := by
  induction a generalizing b with
  | zero =>
    intro h
    cases b with
    | zero => simpa using h
    | succ b =>
      rw [List.replicate_succ, List.cons_append, List.replicate_zero, List.nil_append] at h
      have := (List.cons_prefix_cons.mp h).1
      simp only [Prod.mk.injEq, Res.ok.injEq, true_and] at this
      exact absurd this hx
  | succ a ih =>
    intro h
    cases b with
    | zero =>
      rw [List.replicate_succ, List.cons_append, List.replicate_zero, List.nil_append] at h
      have := (List.cons_prefix_cons.mp h).1
      simp only [Prod.mk.injEq, Res.ok.injEq, true_and] at this
      exact absurd this.symm hy
    | succ b =>
      rw [List.replicate_succ, List.replicate_succ, List.cons_append, List.cons_append] at h
      obtain ⟨h1, h2⟩ := ih (List.cons_prefix_cons.mp h).2
      exact ⟨by rw [h1], h2⟩

theorem filter_until (v : Nat → Nat) (ρ : Nat → BTState) (i : Nat) (l : List Nat) : l.Nodup → i ∈ l →
    (l.flatMap (untilDone v ρ)).filter (fun p => p.1 == i) = untilDone v ρ i := by
  have hself : (untilDone v ρ i).filter (fun p => p.1 == i) = untilDone v ρ i := by
    rw [List.filter_eq_self]
    intro p hp
    simp only [untilDone, List.mem_append, List.mem_replicate, List.mem_singleton] at hp
    rcases hp with ⟨_, rfl⟩ | rfl <;> simp
  have hother : ∀ j, j ≠ i → (untilDone v ρ j).filter (fun p => p.1 == i) = [] := by
    intro j hj
    rw [List.filter_eq_nil_iff]
    intro p hp
    simp only [untilDone, List.mem_append, List.mem_replicate, List.mem_singleton] at hp
    rcases hp with ⟨_, rfl⟩ | rfl <;> simpa using hj
  have hrest : ∀ l : List Nat, i ∉ l → (l.flatMap (untilDone v ρ)).filter (fun p => p.1 == i) = [] := by
    intro l
    induction l with
    | nil => intro _; rfl
    | cons j l ih =>
      intro h
      rw [List.flatMap_cons, List.filter_append, ih (fun hi => h (List.mem_cons_of_mem _ hi)),
        hother j (fun e => h (e ▸ List.mem_cons_self))]
      rfl
  induction l with
  | nil => intro _ h; cases h
  | cons j l ih =>
    intro hnd hi
    obtain ⟨h1, h2⟩ := List.nodup_cons.mp hnd
    rw [List.flatMap_cons, List.filter_append]
    by_cases e : i = j
    · subst e
      rw [hself, hrest l h1, List.append_nil]
    · rw [hother j (fun h => e h.symm), ih h2 ((List.mem_cons.mp hi).resolve_left e), List.nil_append]

/-- A round of ticks as in C136: after a successful setup or reset and earlier rounds, `k` times
RUNNING, then `s`; `l` are the answers of the atoms. -/
structure Round (n : Nat) (t : Tree n) (k : Nat) (s : BTState) (l : List (Nat × Res)) : Prop where
  ids : (nodeIds n t).Nodup
  final : s ≠ .running
  ran : ∃ (before : List Op) (op : Op) (s₀ : BTState) (a : Nat), (op = .setup ∨ op = .reset) ∧
    ((ops n).run op (runs (ops n) before t).2).res = .ok s₀ ∧
    let t₁ := ((ops n).run op (runs (ops n) before t).2).node
    (∀ out ∈ (runs (ops n) (List.replicate a .tick) t₁).1, out.res = .ok .running ∨ out.res = .ok .succeeded ∨ out.res = .ok .failed) ∧
    (∀ out, (runs (ops n) (List.replicate a .tick) t₁).1.getLast? = some out → out.res ≠ .ok .running) ∧
    let outs := (runs (ops n) (List.replicate (k + 1) .tick) (runs (ops n) (List.replicate a .tick) t₁).2).1
    outs.map (·.res) = List.replicate k (.ok .running) ++ [.ok s] ∧ l = asked (mform n t).isAtom (outs.flatMap (·.trace))

theorem round_value {n : Nat} {t : Tree n} {k : Nat} {s : BTState} {l : List (Nat × Res)} (h : Round n t k s l)
    (v : Nat → Nat) (w : Nat → BTState) (hw : ∀ i, w i = .succeeded ∨ w i = .failed)
    (hp : ∀ i, l.filter (fun p => p.1 == i) <+: untilDone v w i) :
    l = ((mform n t).needed w).flatMap (untilDone v w) ∧ s = (mform n t).value w ∧ (((mform n t).needed w).map v).foldr (· + ·) 0 = k := by
  obtain ⟨before, op, s₀, a, hop, hst, hall, hlast, hr, hl⟩ := h.ran
  obtain ⟨ρ, wt, h1, h2, h3, h4⟩ := c136_resume n t h.ids before op s₀ hop hst a _ rfl hall hlast k s h.final _ rfl hr
  rw [← hl] at h1
  have hnd : ((mform n t).needed ρ).Nodup := ((needed_sublist ρ _).trans (Resume.atoms_sublist n t)).nodup h.ids
  have key : ∀ i ∈ (mform n t).needed ρ, wt i = v i ∧ ρ i = w i := by
    intro i hi
    have := hp i
    rw [h1, filter_until wt ρ i _ hnd hi] at this
    exact until_prefix (h3 i hi) (by rcases hw i with e | e <;> rw [e] <;> simp) this
  obtain ⟨e1, e2⟩ := value_congr _ _ _ fun i hi => (key i hi).2
  refine ⟨?_, by rw [h2, e1], ?_⟩
  · rw [h1, ← e2, List.flatMap_def, List.flatMap_def]
    congr 1
    exact List.map_congr_left fun i hi => by simp only [untilDone, key i hi]
  · rw [← h4, ← e2]
    congr 1
    exact List.map_congr_left fun i hi => (key i hi).1.symm

/-- **C137.** The same with memory: in a round of ticks of each of two trees that are rebuilt into each
other by safe changes, both answer the same after the same number of ticks, and the same atoms are
ticked in the same order, as long as each atom takes the same number of ticks and then gives
the same answer. -/
theorem c137_memory (n n' : Nat) (t : Tree n) (t' : Tree n') (k k' : Nat) (s s' : BTState) (l l' : List (Nat × Res))
    (h : Round n t k s l) (h' : Round n' t' k' s' l') (hrw : Rw (mform n t) (mform n' t'))
    (v : Nat → Nat) (w : Nat → BTState) (hw : ∀ i, w i = .succeeded ∨ w i = .failed)
    (hp : ∀ i, l.filter (fun p => p.1 == i) <+: untilDone v w i)
    (hp' : ∀ i, l'.filter (fun p => p.1 == i) <+: untilDone v w i) :
    s = s' ∧ k = k' ∧ l = l' := by
  obtain ⟨h1, h2, h3⟩ := round_value h v w hw hp
  obtain ⟨h1', h2', h3'⟩ := round_value h' v w hw hp'
  obtain ⟨e1, e2⟩ := rw_sound hrw w fun i => Or.inr (hw i)
  exact ⟨by rw [h2, h2', e1], by rw [← h3, ← h3', e2], by rw [h1, h1', e2]⟩

/-! ## Examples -/

/-- Not (3 or 7), then 5. -/
def one : Tree 4 :=
  mk 3 1 .sequence
    [mk 2 2 .inverter [mk 1 6 .fallback [mkLeaf 0 3 [.ok .idle, .ok .failed], mkLeaf 0 7 [.ok .idle, .ok .failed]]],
     mkLeaf 2 5 [.ok .idle, .ok .succeeded]]

/-- Not 3, not 7, then 5. -/
def two : Tree 3 :=
  mk 2 1 .sequence
    [mk 1 2 .inverter [mkLeaf 0 3 [.ok .idle, .ok .failed]], mk 1 4 .inverter [mkLeaf 0 7 [.ok .idle, .ok .failed]],
     mkLeaf 1 5 [.ok .idle, .ok .succeeded]]

theorem one_two : Rw (form 4 one) (form 3 two) := by
  have h := de_morgan_disj [.atom 3, .atom 7] (by intro a ha; simp at ha; rcases ha with rfl | rfl <;> trivial)
  have hinv : (fun | .succeeded => .failed | .failed => .succeeded | s => s : BTState → BTState) = inv := by
    funext s
    cases s <;> rfl
  have e1 : form 4 one = .both (.relabel inv (disj [.atom 3, .atom 7])) (conj [.atom 5]) := by
    rw [← hinv]
    rfl
  have e2 : form 3 two = conj (([.atom 3, .atom 7] : List Form).map (.relabel inv) ++ [.atom 5]) := by
    rw [← hinv]
    rfl
  rw [e1, e2]
  exact .trans (.both h (.refl _)) (.symm (conj_append _ _))

/-- What the atoms of both trees answer. -/
def world : Nat → BTState := fun i => if i = 5 then .succeeded else .failed

example : (nodeIds 4 one).Nodup ∧ (nodeIds 3 two).Nodup ∧
    ((ops 4).run .tick (runs (ops 4) [.setup] one).2).res = .ok .succeeded ∧
    ((ops 3).run .tick (runs (ops 3) [.setup] two).2).res = .ok .succeeded ∧
    asked (form 4 one).isAtom ((ops 4).run .tick (runs (ops 4) [.setup] one).2).trace =
      [(3, .ok .failed), (7, .ok .failed), (5, .ok .succeeded)] ∧
    (∀ p ∈ asked (form 4 one).isAtom ((ops 4).run .tick (runs (ops 4) [.setup] one).2).trace, p.2 = .ok (world p.1)) ∧
    (∀ p ∈ asked (form 3 two).isAtom ((ops 3).run .tick (runs (ops 3) [.setup] two).2).trace, p.2 = .ok (world p.1)) := by
  decide +kernel

/-- A MemorySequence of 3 and a MemorySequence of 7 and 5, where 3 and 5 take some time. -/
def nested : Tree 3 :=
  mk 2 1 .memSequence
    [mkLeaf 1 3 [.ok .idle, .ok .running, .ok .succeeded],
     mk 1 2 .memSequence [mkLeaf 0 7 [.ok .idle, .ok .succeeded], mkLeaf 0 5 [.ok .idle, .ok .running, .ok .running, .ok .failed]]]

/-- The same without the inner MemorySequence. -/
def flat : Tree 2 :=
  mk 1 1 .memSequence
    [mkLeaf 0 3 [.ok .idle, .ok .running, .ok .succeeded], mkLeaf 0 7 [.ok .idle, .ok .succeeded],
     mkLeaf 0 5 [.ok .idle, .ok .running, .ok .running, .ok .failed]]

/-- The order of ticks in both. -/
def order : List (Nat × Res) :=
  [(3, .ok .running), (3, .ok .succeeded), (7, .ok .succeeded), (5, .ok .running), (5, .ok .running), (5, .ok .failed)]

/-- The hypotheses of `c137_memory` hold for these two trees. -/
theorem nested_flat : Round 3 nested 3 .failed order ∧ Round 2 flat 3 .failed order ∧ Rw (mform 3 nested) (mform 2 flat) ∧
    ∀ i, order.filter (fun p => p.1 == i) <+:
      untilDone (fun i => if i = 3 then 1 else if i = 5 then 2 else 0) (fun i => if i = 5 then .failed else .succeeded) i := by
  refine ⟨⟨by decide +kernel, by decide, [], .setup, .idle, 0, Or.inl rfl, by decide +kernel, ?_, ?_, ?_⟩,
    ⟨by decide +kernel, by decide, [], .setup, .idle, 0, Or.inl rfl, by decide +kernel, ?_, ?_, ?_⟩, ?_, ?_⟩
  · intro out h
    cases h
  · intro out h
    cases h
  · decide +kernel
  · intro out h
    cases h
  · intro out h
    cases h
  · decide +kernel
  · exact flatten_conj [.atom 3] [.atom 7, .atom 5] []
  · intro i
    by_cases h3 : i = 3
    · subst h3; decide +kernel
    by_cases h7 : i = 7
    · subst h7; decide +kernel
    by_cases h5 : i = 5
    · subst h5; decide +kernel
    have e : order.filter (fun p => p.1 == i) = [] := by
      rw [List.filter_eq_nil_iff]
      intro p hp
      simp only [order, List.mem_cons, List.not_mem_nil, or_false] at hp
      have h3' : ¬ 3 = i := fun h => h3 h.symm
      have h5' : ¬ 5 = i := fun h => h5 h.symm
      have h7' : ¬ 7 = i := fun h => h7 h.symm
      rcases hp with rfl | rfl | rfl | rfl | rfl | rfl <;> simp [h3', h5', h7']
    rw [e]
    exact List.nil_prefix

/-! ## What is not safe -/

/-- An Inverter above a Sequence whose child answers ASSIGNED, which a tick may do. -/
def outer : Tree 3 := mk 2 1 .inverter [mk 1 2 .sequence [mkLeaf 0 3 [.ok .idle, .ok .assigned]]]

/-- The Inverter moved below. -/
def inner : Tree 3 := mk 2 1 .fallback [mk 1 2 .inverter [mkLeaf 0 3 [.ok .idle, .ok .assigned]]]

/-- **C137.** De Morgan needs the answers RUNNING, SUCCEEDED and FAILED: a Sequence stops at a child that answers
ASSIGNED, and a Fallback goes on. -/
theorem c137_assigned : Rw (form 3 outer) (form 3 inner) ∧ (nodeIds 3 outer).Nodup ∧ (nodeIds 3 inner).Nodup ∧
    ((ops 3).run .tick (runs (ops 3) [.setup] outer).2).res = .ok .assigned ∧
    ((ops 3).run .tick (runs (ops 3) [.setup] inner).2).res = .ok .failed := by
  refine ⟨?_, by decide +kernel, by decide +kernel, by decide +kernel, by decide +kernel⟩
  have h := de_morgan_conj [.atom 3] (by intro a ha; simp at ha; subst ha; trivial)
  have hinv : (fun | .succeeded => .failed | .failed => .succeeded | s => s : BTState → BTState) = inv := by
    funext s
    cases s <;> rfl
  have e1 : form 3 outer = .relabel inv (conj [.atom 3]) := by
    rw [← hinv]
    rfl
  have e2 : form 3 inner = disj (([.atom 3] : List Form).map (.relabel inv)) := by
    rw [← hinv]
    rfl
  rw [e1, e2]
  exact h

/-- A Sequence within a MemorySequence: 3 runs while 2 has succeeded. -/
def mixed : Tree 3 :=
  mk 2 1 .memSequence [mk 1 4 .sequence [mkLeaf 0 2 [.ok .idle, .ok .succeeded, .ok .succeeded], mkLeaf 0 3 [.ok .idle, .ok .running, .ok .succeeded]]]

/-- The same without the inner Sequence. -/
def unmixed : Tree 2 :=
  mk 1 1 .memSequence [mkLeaf 0 2 [.ok .idle, .ok .succeeded, .ok .succeeded], mkLeaf 0 3 [.ok .idle, .ok .running, .ok .succeeded]]

/-- **C137.** A Sequence must not be dissolved in a MemorySequence: with it, the first child is ticked again in the
second tick, and without it not. -/
theorem c137_mixed :
    (runs (ops 3) [.setup, .tick, .tick] mixed).1.map (fun out => asked (fun i => i == 2 || i == 3) out.trace) =
      [[], [(2, .ok .succeeded), (3, .ok .running)], [(2, .ok .succeeded), (3, .ok .succeeded)]] ∧
    (runs (ops 2) [.setup, .tick, .tick] unmixed).1.map (fun out => asked (fun i => i == 2 || i == 3) out.trace) =
      [[], [(2, .ok .succeeded), (3, .ok .running)], [(3, .ok .succeeded)]] := by decide +kernel

end Verif.BT.Refactor
