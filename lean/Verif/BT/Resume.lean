import Verif.BT.Formula

/-!
# A tree with memory works through its formula (C136)

MemorySequence and MemoryFallback remember the child that is RUNNING. A tree of them is a formula as
in `Verif.BT.Formula`, but evaluated over several ticks: every atom that the formula needs is ticked
until it has finished, then the next one, and what has finished is not asked again.
-/

set_option autoImplicit false

namespace Verif.BT.Resume

open Verif.BT.Formula

variable {N : Type}

/-! ## Specification -/

/-- What a node does in the formula. -/
inductive Role where
  | all
  | any
  | rename (f : BTState → BTState) (d : BTState)
  | atom

/-- The nodes with memory and the decorators that only rename answers; everything else is an atom. -/
def role : Kind → Role
  | .memSequence => .all
  | .memFallback => .any
  | .inverter => .rename (fun | .succeeded => .failed | .failed => .succeeded | s => s) .succeeded
  | .ignoreFailure => .rename (fun | .failed => .succeeded | s => s) .succeeded
  | .ignoreSuccess => .rename (fun | .succeeded => .failed | s => s) .failed
  | _ => .atom

/-- The formula of a node with the formulas of its children. -/
def mformOf (k : Kind) (id : Nat) (cs : List Form) : Form :=
  match role k, cs with
  | .all, cs => conj cs
  | .any, cs => disj cs
  | .rename _ d, [] => .const d
  | .rename f _, c :: _ => .relabel f c
  | .atom, _ => .atom id

/-- The formula of a tree with memory. -/
def mform : (n : Nat) → Tree n → Form
  | 0, t => Empty.elim t
  | n + 1, t => mformOf (Node.kind (N := Tree n) t) (Node.id (N := Tree n) t) ((Node.children (N := Tree n) t).map (mform n))

/-- The answers that an atom gives until it has finished: RUNNING so many times, then the result. -/
def untilDone (waits : Nat → Nat) (ρ : Nat → BTState) (i : Nat) : List (Nat × Res) :=
  List.replicate (waits i) (i, .ok .running) ++ [(i, .ok (ρ i))]

/-! ## Formulas that wait -/

/-- Evaluate a formula up to the first atom that is RUNNING, and say what is left to do. -/
def _root_.Verif.BT.Formula.Form.resume : Form → List (Nat × Res) → Option (BTState × Form × List (Nat × Res))
  | .atom i, (j, .ok s) :: l => if i = j then some (s, .atom i, l) else none
  | .atom _, _ => none
  | .const s, l => some (s, .const s, l)
  | .both a b, l =>
    match a.resume l with
    | some (s, a', l') =>
      if s = .succeeded then b.resume l' else some (s, .both a' b, l')
    | none => none
  | .either a b, l =>
    match a.resume l with
    | some (s, a', l') =>
      if s = .running then some (s, .either a' b, l')
      else if s = .succeeded then some (s, .either a' b, l') else b.resume l'
    | none => none
  | .relabel f a, l => (a.resume l).map fun p => (f p.1, .relabel f p.2.1, p.2.2)

/-- Only atoms wait. -/
def _root_.Verif.BT.Formula.Form.Steady : Form → Prop
  | .atom _ => True
  | .const s => s ≠ .running
  | .both a b | .either a b => a.Steady ∧ b.Steady
  | .relabel f a => (∀ s, f s = .running ↔ s = .running) ∧ a.Steady

/-- Answers of finished atoms. -/
abbrev Done := List (Nat × BTState)

def Done.out (u : Done) : List (Nat × Res) := u.map fun p => (p.1, Res.ok p.2)

/-- What one tick uses: the answers of atoms that have finished and, if the formula waits, the
answer RUNNING of the atom that it waits for. -/
theorem resume_used (φ : Form) : ∀ (l : List (Nat × Res)) (s : BTState) (φ' : Form) (rest : List (Nat × Res)),
    φ.Steady → φ.resume l = some (s, φ', rest) → ∃ u : Done, (∀ p ∈ u, p.2 ≠ .running) ∧
      ((s ≠ .running ∧ l = u.out ++ rest ∧ (u.map (·.1)).Sublist φ.atoms ∧
          ∀ ρ : Nat → BTState, (∀ p ∈ u, ρ p.1 = p.2) → φ.value ρ = s ∧ φ.needed ρ = u.map (·.1)) ∨
       (s = .running ∧ φ'.Steady ∧ ∃ i, l = u.out ++ (i, .ok .running) :: rest ∧ (u.map (·.1) ++ φ'.atoms).Sublist φ.atoms ∧
          ∀ ρ : Nat → BTState, (∀ p ∈ u, ρ p.1 = p.2) →
            φ.value ρ = φ'.value ρ ∧ φ.needed ρ = u.map (·.1) ++ φ'.needed ρ ∧ (φ'.needed ρ).head? = some i)) := by
  induction φ with
  | atom i =>
    intro l s φ' rest _ h
    match l, h with
    | [], h => cases h
    | (j, .err) :: l, h => cases h
    | (j, .ok s') :: l, h =>
      simp only [Form.resume] at h
      split at h
      · next e =>
        cases h
        subst e
        by_cases hs : s = .running
        · subst hs
          exact ⟨[], (fun p hp => by cases hp), Or.inr ⟨rfl, trivial, i, rfl, List.Sublist.refl _, fun ρ _ => ⟨rfl, rfl, rfl⟩⟩⟩
        · refine ⟨[(i, s)], fun p hp => ?_, Or.inl ⟨hs, rfl, List.Sublist.refl _, fun ρ hρ => ⟨hρ _ List.mem_cons_self, rfl⟩⟩⟩
          rw [List.mem_singleton.mp hp]
          exact hs
      · cases h
  | const s' =>
    intro l s φ' rest hs h
    cases h
    exact ⟨[], (fun p hp => by cases hp), Or.inl ⟨hs, rfl, List.Sublist.refl _, fun ρ _ => ⟨rfl, rfl⟩⟩⟩
  | both a b iha ihb =>
    intro l s φ' rest hst h
    simp only [Form.resume] at h
    split at h
    · next s' a' l' ha =>
      obtain ⟨u, hu, hc⟩ := iha l s' a' l' hst.1 ha
      split at h
      · next hs =>
        subst hs
        rcases hc with ⟨_, h1, h2, h3⟩ | ⟨h0, _⟩
        · obtain ⟨u', hu', hc'⟩ := ihb l' s φ' rest hst.2 h
          refine ⟨u ++ u', fun p hp => (List.mem_append.mp hp).elim (hu p) (hu' p), ?_⟩
          rcases hc' with ⟨k0, k1, k2, k3⟩ | ⟨k0, k00, i, k1, k2, k3⟩
          · refine Or.inl ⟨k0, ?_, ?_, fun ρ hρ => ?_⟩
            · rw [h1, k1]; simp [Done.out]
            · rw [List.map_append]; exact h2.append k2
            · obtain ⟨e1, e2⟩ := h3 ρ (fun p hp => hρ p (List.mem_append_left _ hp))
              obtain ⟨e3, e4⟩ := k3 ρ (fun p hp => hρ p (List.mem_append_right _ hp))
              simp [Form.value, Form.needed, e1, e2, e3, e4]
          · refine Or.inr ⟨k0, k00, i, ?_, ?_, fun ρ hρ => ?_⟩
            · rw [h1, k1]; simp [Done.out]
            · rw [List.map_append, List.append_assoc]; exact h2.append k2
            · obtain ⟨e1, e2⟩ := h3 ρ (fun p hp => hρ p (List.mem_append_left _ hp))
              obtain ⟨e3, e4, e5⟩ := k3 ρ (fun p hp => hρ p (List.mem_append_right _ hp))
              simp [Form.value, Form.needed, e1, e2, e3, e4, e5]
        · cases h0
      · next hs =>
        cases h
        refine ⟨u, hu, ?_⟩
        rcases hc with ⟨h0, h1, h2, h3⟩ | ⟨h0, h00, i, h1, h2, h3⟩
        · refine Or.inl ⟨h0, h1, h2.trans (List.sublist_append_left _ _), fun ρ hρ => ?_⟩
          obtain ⟨e1, e2⟩ := h3 ρ hρ
          simp [Form.value, Form.needed, e1, e2, hs]
        · refine Or.inr ⟨h0, ⟨h00, hst.2⟩, i, h1, ?_, fun ρ hρ => ?_⟩
          · simp only [Form.atoms]
            rw [← List.append_assoc]
            exact h2.append (List.Sublist.refl _)
          · obtain ⟨e1, e2, e3⟩ := h3 ρ hρ
            refine ⟨?_, ?_, ?_⟩
            · simp only [Form.value, e1]
            · simp only [Form.needed, e1, e2, List.append_assoc]
            · simp [Form.needed, List.head?_append, e3]
    · cases h
  | either a b iha ihb =>
    intro l s φ' rest hst h
    simp only [Form.resume] at h
    split at h
    · next s' a' l' ha =>
      obtain ⟨u, hu, hc⟩ := iha l s' a' l' hst.1 ha
      split at h
      · next hs =>
        cases h
        refine ⟨u, hu, ?_⟩
        rcases hc with ⟨h0, _⟩ | ⟨h0, h00, i, h1, h2, h3⟩
        · exact absurd hs h0
        · refine Or.inr ⟨h0, ⟨h00, hst.2⟩, i, h1, ?_, fun ρ hρ => ?_⟩
          · simp only [Form.atoms]
            rw [← List.append_assoc]
            exact h2.append (List.Sublist.refl _)
          · obtain ⟨e1, e2, e3⟩ := h3 ρ hρ
            refine ⟨?_, ?_, ?_⟩
            · simp only [Form.value, e1]
            · simp only [Form.needed, e1, e2, List.append_assoc]
            · simp [Form.needed, List.head?_append, e3]
      · next hs =>
        rcases hc with ⟨h0, h1, h2, h3⟩ | ⟨h0, _⟩
        · split at h
          · next hs2 =>
            cases h
            refine ⟨u, hu, Or.inl ⟨h0, h1, h2.trans (List.sublist_append_left _ _), fun ρ hρ => ?_⟩⟩
            obtain ⟨e1, e2⟩ := h3 ρ hρ
            simp [Form.value, Form.needed, e1, e2, hs2]
          · next hs2 =>
            obtain ⟨u', hu', hc'⟩ := ihb l' s φ' rest hst.2 h
            refine ⟨u ++ u', fun p hp => (List.mem_append.mp hp).elim (hu p) (hu' p), ?_⟩
            rcases hc' with ⟨k0, k1, k2, k3⟩ | ⟨k0, k00, i, k1, k2, k3⟩
            · refine Or.inl ⟨k0, ?_, ?_, fun ρ hρ => ?_⟩
              · rw [h1, k1]; simp [Done.out]
              · rw [List.map_append]; exact h2.append k2
              · obtain ⟨e1, e2⟩ := h3 ρ (fun p hp => hρ p (List.mem_append_left _ hp))
                obtain ⟨e3, e4⟩ := k3 ρ (fun p hp => hρ p (List.mem_append_right _ hp))
                simp [Form.value, Form.needed, e1, e2, e3, e4, hs, hs2]
            · refine Or.inr ⟨k0, k00, i, ?_, ?_, fun ρ hρ => ?_⟩
              · rw [h1, k1]; simp [Done.out]
              · rw [List.map_append, List.append_assoc]; exact h2.append k2
              · obtain ⟨e1, e2⟩ := h3 ρ (fun p hp => hρ p (List.mem_append_left _ hp))
                obtain ⟨e3, e4, e5⟩ := k3 ρ (fun p hp => hρ p (List.mem_append_right _ hp))
                simp [Form.value, Form.needed, e1, e2, e3, e4, e5, hs, hs2]
        · exact absurd h0 hs
    · cases h
  | relabel f a ih =>
    intro l s φ' rest hst h
    simp only [Form.resume, Option.map_eq_some_iff] at h
    obtain ⟨⟨s', a', l'⟩, ha, he⟩ := h
    cases he
    obtain ⟨u, hu, hc⟩ := ih l s' a' l' hst.2 ha
    refine ⟨u, hu, ?_⟩
    rcases hc with ⟨h0, h1, h2, h3⟩ | ⟨h0, h00, i, h1, h2, h3⟩
    · refine Or.inl ⟨fun h => h0 ((hst.1 s').mp h), h1, h2, fun ρ hρ => ?_⟩
      obtain ⟨e1, e2⟩ := h3 ρ hρ
      exact ⟨by simp only [Form.value, e1], e2⟩
    · refine Or.inr ⟨(hst.1 s').mpr h0, ⟨hst.1, h00⟩, i, h1, h2, fun ρ hρ => ?_⟩
      obtain ⟨e1, e2, e3⟩ := h3 ρ hρ
      exact ⟨by simp only [Form.value, e1], e2, e3⟩

/-- The answers `l` of a tick make `s` of the formula, and `φ'` is left to do. -/
def Takes (φ : Form) (s : BTState) (φ' : Form) (l : List (Nat × Res)) : Prop :=
  ∀ rest, φ.resume (l ++ rest) = some (s, φ', rest)

/-- A series of ticks that all but the last one answer RUNNING. -/
inductive Series : Form → Nat → BTState → List (Nat × Res) → Prop
  | last {φ φ' : Form} {s : BTState} {l : List (Nat × Res)} (h : Takes φ s φ' l) (hs : s ≠ .running) : Series φ 0 s l
  | more {φ φ' : Form} {k : Nat} {s : BTState} {l l' : List (Nat × Res)} (h : Takes φ .running φ' l) (h' : Series φ' k s l') :
    Series φ (k + 1) s (l ++ l')

/-- An atom that has been asked until it has finished. -/
structure Asked where
  id : Nat
  waits : Nat
  final : BTState

def Asked.out (a : Asked) : List (Nat × Res) := List.replicate a.waits (a.id, .ok .running) ++ [(a.id, .ok a.final)]

def fresh (p : Nat × BTState) : Asked := ⟨p.1, 0, p.2⟩

theorem fresh_out (u : Done) : (u.map fresh).flatMap Asked.out = u.out := by
  induction u with
  | nil => rfl
  | cons p u ih => simp [Done.out, fresh, Asked.out] at ih ⊢; exact ih

theorem series_used {φ : Form} {k : Nat} {s : BTState} {l : List (Nat × Res)} (h : Series φ k s l) :
    φ.Steady → φ.atoms.Nodup → ∃ u : List Asked, l = u.flatMap Asked.out ∧ (u.map (·.id)).Sublist φ.atoms ∧
      (∀ a ∈ u, a.final ≠ .running) ∧ (u.map (·.waits)).foldr (· + ·) 0 = k ∧
      ∀ ρ : Nat → BTState, (∀ a ∈ u, ρ a.id = a.final) → φ.value ρ = s ∧ φ.needed ρ = u.map (·.id) := by
  induction h with
  | @last φ φ' s l h hs =>
    intro hst _
    have h := h []
    rw [List.append_nil] at h
    obtain ⟨u, hu, ⟨_, h1, h2, h3⟩ | ⟨h0, _⟩⟩ := resume_used φ _ _ _ _ hst h
    · refine ⟨u.map fresh, ?_, ?_, ?_, ?_, ?_⟩
      · rw [fresh_out, h1, List.append_nil]
      · simpa [fresh, Function.comp_def] using h2
      · intro a ha
        obtain ⟨p, hp, rfl⟩ := List.mem_map.mp ha
        exact hu p hp
      · clear h1 h2 h3 hu
        induction u with
        | nil => rfl
        | cons p u ih => simpa [fresh] using ih
      · intro ρ hρ
        obtain ⟨e1, e2⟩ := h3 ρ fun p hp => hρ (fresh p) (List.mem_map.mpr ⟨p, hp, rfl⟩)
        exact ⟨e1, by rw [e2]; simp [fresh, Function.comp_def]⟩
    · exact absurd h0 hs
  | @more φ φ' k s l l' h h' ih =>
    intro hst hnd
    have h := h []
    rw [List.append_nil] at h
    obtain ⟨u, hu, ⟨h0, _⟩ | ⟨_, h00, i, h1, h2, h3⟩⟩ := resume_used φ _ _ _ _ hst h
    · exact absurd rfl h0
    · have hnd' := h2.nodup hnd
      obtain ⟨v, k1, k2, k3, k4, k5⟩ := ih h00 (List.nodup_append.mp hnd').2.1
      have hsub : (u.map (·.1) ++ v.map (·.id)).Sublist φ.atoms := ((List.Sublist.refl _).append k2).trans h2
      -- the first one of the rest is the one that was waited for
      obtain ⟨ρ, hρ⟩ := lookup (u ++ v.map fun a => (a.id, a.final)) (by
        have := hsub.nodup hnd
        simpa [Function.comp_def] using this)
      have e1 := (h3 ρ fun p hp => hρ p (List.mem_append_left _ hp)).2.2
      have e2 := (k5 ρ fun a ha => hρ (a.id, a.final) (List.mem_append_right _ (List.mem_map.mpr ⟨a, ha, rfl⟩))).2
      rw [e2] at e1
      cases v with
      | nil => cases e1
      | cons a v =>
        have e1 : a.id = i := by simpa using e1
        subst e1
        refine ⟨u.map fresh ++ ⟨a.id, a.waits + 1, a.final⟩ :: v, ?_, ?_, ?_, ?_, ?_⟩
        · rw [h1, k1, List.flatMap_append, fresh_out]
          simp [Asked.out, List.replicate_succ]
        · simpa [fresh, Function.comp_def] using hsub
        · intro b hb
          rcases List.mem_append.mp hb with hb | hb
          · obtain ⟨p, hp, rfl⟩ := List.mem_map.mp hb
            exact hu p hp
          · rcases List.mem_cons.mp hb with rfl | hb
            · exact k3 a List.mem_cons_self
            · exact k3 b (List.mem_cons_of_mem _ hb)
        · clear h1 h2 h3 hu hρ hsub hnd'
          simp only [List.map_cons, List.foldr_cons] at k4
          induction u with
          | nil => simp only [List.map_nil, List.nil_append, List.map_cons, List.foldr_cons]; omega
          | cons p u ih => simpa [fresh] using ih
        · intro ρ hρ
          obtain ⟨f1, f2, _⟩ := h3 ρ fun p hp => hρ (fresh p) (List.mem_append_left _ (List.mem_map.mpr ⟨p, hp, rfl⟩))
          obtain ⟨f3, f4⟩ := k5 ρ fun b hb => by
            rcases List.mem_cons.mp hb with rfl | hb
            · exact hρ ⟨b.id, b.waits + 1, b.final⟩ (List.mem_append_right _ List.mem_cons_self)
            · exact hρ b (List.mem_append_right _ (List.mem_cons_of_mem _ hb))
          exact ⟨f1.trans f3, by rw [f2, f4]; simp [fresh, Function.comp_def]⟩

theorem takes_both {a a' b b' : Form} {s : BTState} {l l' : List (Nat × Res)}
    (ha : Takes a .succeeded a' l) (hb : Takes b s b' l') : Takes (.both a b) s b' (l ++ l') := by
  intro rest
  simp only [Form.resume, List.append_assoc]
  rw [ha (l' ++ rest)]
  exact hb rest

theorem takes_both_stop {a a' b : Form} {s : BTState} {l : List (Nat × Res)}
    (ha : Takes a s a' l) (hs : s ≠ .succeeded) : Takes (.both a b) s (.both a' b) l := by
  intro rest
  simp [Form.resume, ha rest, hs]

theorem takes_either {a a' b b' : Form} {s s' : BTState} {l l' : List (Nat × Res)}
    (ha : Takes a s' a' l) (h1 : s' ≠ .running) (h2 : s' ≠ .succeeded) (hb : Takes b s b' l') :
    Takes (.either a b) s b' (l ++ l') := by
  intro rest
  simp only [Form.resume, List.append_assoc]
  rw [ha (l' ++ rest)]
  simp only [h1, h2, if_false]
  exact hb rest

theorem takes_either_stop {a a' b : Form} {s : BTState} {l : List (Nat × Res)}
    (ha : Takes a s a' l) (hs : s = .running ∨ s = .succeeded) : Takes (.either a b) s (.either a' b) l := by
  intro rest
  rcases hs with rfl | rfl <;> simp [Form.resume, ha rest]

theorem takes_relabel {a a' : Form} {f : BTState → BTState} {s : BTState} {l : List (Nat × Res)}
    (ha : Takes a s a' l) : Takes (.relabel f a) (f s) (.relabel f a') l := by
  intro rest
  simp [Form.resume, ha rest]

theorem takes_const (s : BTState) : Takes (.const s) s (.const s) [] := fun _ => rfl

/-! ## The formula does not change -/

theorem mform_run (n : Nat) : ∀ (op : Op) (t : Tree n), mform n ((ops n).run op t).node = mform n t := by
  induction n with
  | zero => intro _ t; exact Empty.elim t
  | succ n ih =>
    intro op t
    have h1 := run_children_map (ops n) (mform n) (fun op c => ih op c) op t
    have h2 := run_static (ops n) op t
    show mformOf (Node.run (ops n) op t).node.kind (Node.run (ops n) op t).node.id ((Node.run (ops n) op t).node.children.map (mform n)) = _
    rw [h1, h2.1, h2.2.2.1]
    rfl

theorem mform_runs (n : Nat) (h : List Op) : ∀ t : Tree n, mform n (runs (ops n) h t).2 = mform n t := by
  induction h with
  | nil => intro t; rfl
  | cons op h ih => intro t; exact (ih _).trans (mform_run n op t)

theorem conj_steady : ∀ l : List Form, (∀ a ∈ l, a.Steady) → (conj l).Steady
  | [], _ => by simp [conj, Form.Steady]
  | a :: l, h => ⟨h a List.mem_cons_self, conj_steady l fun b hb => h b (List.mem_cons_of_mem _ hb)⟩

theorem disj_steady : ∀ l : List Form, (∀ a ∈ l, a.Steady) → (disj l).Steady
  | [], _ => by simp [disj, Form.Steady]
  | a :: l, h => ⟨h a List.mem_cons_self, disj_steady l fun b hb => h b (List.mem_cons_of_mem _ hb)⟩

theorem mform_steady (n : Nat) : ∀ t : Tree n, (mform n t).Steady := by
  induction n with
  | zero => intro t; exact Empty.elim t
  | succ n ih =>
    intro t
    show (mformOf (Node.kind (N := Tree n) t) (Node.id (N := Tree n) t) _).Steady
    have hall : ∀ a ∈ (Node.children (N := Tree n) t).map (mform n), a.Steady := by
      intro a ha
      obtain ⟨c, _, rfl⟩ := List.mem_map.mp ha
      exact ih c
    generalize (Node.children (N := Tree n) t).map (mform n) = cs at hall
    generalize Node.kind (N := Tree n) t = k
    cases k with
    | memSequence => exact conj_steady cs hall
    | memFallback => exact disj_steady cs hall
    | inverter =>
      cases cs with
      | nil => simp [mformOf, role, Form.Steady]
      | cons a l => exact ⟨fun s => by cases s <;> simp, hall a List.mem_cons_self⟩
    | ignoreFailure =>
      cases cs with
      | nil => simp [mformOf, role, Form.Steady]
      | cons a l => exact ⟨fun s => by cases s <;> simp, hall a List.mem_cons_self⟩
    | ignoreSuccess =>
      cases cs with
      | nil => simp [mformOf, role, Form.Steady]
      | cons a l => exact ⟨fun s => by cases s <;> simp, hall a List.mem_cons_self⟩
    | _ => trivial

/-! ## The atoms -/

/-- `L` selects the atoms of a tree, and none of the other nodes. -/
def marks (L : Nat → Bool) (k : Kind) (id : Nat) (ps : List Prop) (below : List Nat) : Prop :=
  match role k with
  | .all | .any => L id = false ∧ ∀ p ∈ ps, p
  | .rename _ _ => L id = false ∧ ∀ p, ps[0]? = some p → p
  | .atom => L id = true ∧ ∀ j ∈ below, L j = false

/-- See `marks`. -/
def Marked (L : Nat → Bool) : (n : Nat) → Tree n → Prop
  | 0, t => Empty.elim t
  | n + 1, t => marks L (Node.kind (N := Tree n) t) (Node.id (N := Tree n) t)
      ((Node.children (N := Tree n) t).map (Marked L n)) ((Node.children (N := Tree n) t).flatMap (nodeIds n))

theorem marked_run (L : Nat → Bool) (n : Nat) : ∀ (op : Op) (t : Tree n), Marked L n ((ops n).run op t).node = Marked L n t := by
  induction n with
  | zero => intro _ t; exact Empty.elim t
  | succ n ih =>
    intro op t
    have h1 := run_children_map (ops n) (Marked L n) (fun op c => ih op c) op t
    have h2 := run_static (ops n) op t
    have h3 := run_children_map (ops n) (nodeIds n) (fun op c => nodeIds_run n op c) op t
    have h4 : (Node.run (ops n) op t).node.children.flatMap (nodeIds n) = (Node.children (N := Tree n) t).flatMap (nodeIds n) := by
      rw [List.flatMap_def, List.flatMap_def, h3]
    show marks L (Node.run (ops n) op t).node.kind (Node.run (ops n) op t).node.id ((Node.run (ops n) op t).node.children.map (Marked L n))
      ((Node.run (ops n) op t).node.children.flatMap (nodeIds n)) = _
    rw [h1, h2.1, h2.2.2.1, h4]
    rfl

theorem mformOf_atoms (k : Kind) (id : Nat) (cs : List Form) : (mformOf k id cs).atoms =
    match role k with
    | .all | .any => cs.flatMap Form.atoms
    | .rename _ _ => (cs.take 1).flatMap Form.atoms
    | .atom => [id] := by
  unfold mformOf
  cases role k with
  | all => exact conj_atoms cs
  | any => exact disj_atoms cs
  | rename f d => cases cs <;> simp [Form.atoms]
  | atom => rfl

theorem atoms_sublist (n : Nat) : ∀ t : Tree n, (mform n t).atoms.Sublist (nodeIds n t) := by
  induction n with
  | zero => intro t; exact Empty.elim t
  | succ n ih =>
    intro t
    rw [nodeIds_succ]
    show (mformOf (Node.kind (N := Tree n) t) (Node.id (N := Tree n) t) _).atoms.Sublist _
    have hall : (((Node.children (N := Tree n) t).map (mform n)).flatMap Form.atoms).Sublist
        ((Node.children (N := Tree n) t).flatMap (nodeIds n)) := by
      rw [List.flatMap_map]
      exact flatMap_sublist _ fun c _ => ih c
    rw [mformOf_atoms]
    cases role (Node.kind (N := Tree n) t) with
    | all => exact hall.trans (List.sublist_cons_self _ _)
    | any => exact hall.trans (List.sublist_cons_self _ _)
    | rename f d => exact ((flatMap_take _ _).trans hall).trans (List.sublist_cons_self _ _)
    | atom => simp

theorem marked_of (L : Nat → Bool) (n : Nat) : ∀ t : Tree n, (nodeIds n t).Nodup →
    (∀ i ∈ nodeIds n t, L i = true ↔ i ∈ (mform n t).atoms) → Marked L n t := by
  induction n with
  | zero => intro t; exact Empty.elim t
  | succ n ih =>
    intro t hnd hL
    rw [nodeIds_succ] at hnd hL
    obtain ⟨hid, hnd⟩ := List.nodup_cons.mp hnd
    have hsub : ∀ c ∈ Node.children (N := Tree n) t, ∀ i ∈ (mform n c).atoms, i ∈ nodeIds n c :=
      fun c _ i hi => (atoms_sublist n c).subset hi
    -- the atoms of the node are those of some of its children
    have key : ∀ ds : List (Tree n), ds.Sublist (Node.children (N := Tree n) t) →
        (mform (n + 1) t).atoms = (ds.map (mform n)).flatMap Form.atoms →
        L (Node.id (N := Tree n) t) = false ∧ ∀ d ∈ ds, Marked L n d := by
      intro ds hds he
      constructor
      · cases hl : L (Node.id (N := Tree n) t) with
        | false => rfl
        | true =>
          have := (hL _ List.mem_cons_self).mp hl
          rw [he, List.flatMap_map] at this
          obtain ⟨d, hd, hi⟩ := List.mem_flatMap.mp this
          exact absurd (List.mem_flatMap.mpr ⟨d, hds.subset hd, hsub d (hds.subset hd) _ hi⟩) hid
      · intro d hd
        refine ih d (flatMap_nodup hnd (hds.subset hd)) fun i hi => ?_
        rw [hL i (List.mem_cons_of_mem _ (List.mem_flatMap.mpr ⟨d, hds.subset hd, hi⟩)), he, List.flatMap_map]
        constructor
        · intro h
          obtain ⟨e, he', hie⟩ := List.mem_flatMap.mp h
          have := flatMap_owner hnd (hds.subset hd) (hds.subset he') hi (hsub e (hds.subset he') i hie)
          rw [this]
          exact hie
        · intro h
          exact List.mem_flatMap.mpr ⟨d, hd, h⟩
    have hat := mformOf_atoms (Node.kind (N := Tree n) t) (Node.id (N := Tree n) t) ((Node.children (N := Tree n) t).map (mform n))
    have hall : ∀ ds : List (Tree n), (∀ d ∈ ds, Marked L n d) → ∀ p ∈ ds.map (Marked L n), p := by
      intro ds h p hp
      obtain ⟨c, hc, rfl⟩ := List.mem_map.mp hp
      exact h c hc
    show marks L _ _ _ _
    unfold marks
    cases hr : role (Node.kind (N := Tree n) t) with
    | all =>
      rw [hr] at hat
      obtain ⟨h2, h3⟩ := key _ (List.Sublist.refl _) hat
      exact ⟨h2, hall _ h3⟩
    | any =>
      rw [hr] at hat
      obtain ⟨h2, h3⟩ := key _ (List.Sublist.refl _) hat
      exact ⟨h2, hall _ h3⟩
    | rename f d =>
      rw [hr] at hat
      obtain ⟨h2, h3⟩ := key ((Node.children (N := Tree n) t).take 1) (List.take_sublist _ _) (by rw [List.map_take]; exact hat)
      refine ⟨h2, fun p hp => ?_⟩
      rw [List.getElem?_map, Option.map_eq_some_iff] at hp
      obtain ⟨c, hc, rfl⟩ := hp
      refine h3 c ?_
      generalize Node.children (N := Tree n) t = cs at hc
      cases cs with
      | nil => cases hc
      | cons a l => cases hc; simp
    | atom =>
      rw [hr] at hat
      have hat : (mform (n + 1) t).atoms = [Node.id (N := Tree n) t] := hat
      refine ⟨(hL _ List.mem_cons_self).mpr (by rw [hat]; simp), fun j hj => ?_⟩
      cases hl : L j with
      | false => rfl
      | true =>
        have := (hL j (List.mem_cons_of_mem _ hj)).mp hl
        rw [hat, List.mem_singleton] at this
        rw [this] at hj
        exact absurd hj hid

/-! ## What a tree is going to do next -/

/-- The children from place `j` on are going to do `ψs`. -/
def From (P : N → Form → Prop) (cs : List N) (j : Nat) (ψs : List Form) : Prop :=
  ψs.length = cs.length - j ∧ ∀ i ψ c, ψs[i]? = some ψ → cs[j + i]? = some c → P c ψ

/-- The next tick of the node evaluates the formula `ψ`. -/
def pendOf (nd : Node N) (fm : N → Form) (P : N → Form → Prop) (ψ : Form) : Prop :=
  match role nd.kind with
  | .all => ((nd.state = .succeeded ∨ nd.state = .failed) ∧ ψ = conj (nd.children.map fm)) ∨
      (¬ (nd.state = .succeeded ∨ nd.state = .failed) ∧ ∃ ψs, ψ = conj ψs ∧ From P nd.children nd.mem.lastRunning ψs)
  | .any => ((nd.state = .succeeded ∨ nd.state = .failed) ∧ ψ = disj (nd.children.map fm)) ∨
      (¬ (nd.state = .succeeded ∨ nd.state = .failed) ∧ ∃ ψs, ψ = disj ψs ∧ From P nd.children nd.mem.lastRunning ψs)
  | .rename f d => (nd.children = [] ∧ ψ = .const d) ∨ ∃ c cs φ, nd.children = c :: cs ∧ ψ = .relabel f φ ∧ P c φ
  | .atom => ψ = .atom nd.id

/-- See `pendOf`. -/
def Pend : (n : Nat) → Tree n → Form → Prop
  | 0, t, _ => Empty.elim t
  | n + 1, t, ψ => pendOf (N := Tree n) t (mform n) (Pend n) ψ

/-- What is known of the children. -/
structure Kids (o : Ops N) (L : Nat → Bool) (fm : N → Form) (Q : N → Prop) (P : N → Form → Prop) : Prop where
  form : ∀ op c, fm (o.run op c).node = fm c
  keep : ∀ op c, Q c → Q (o.run op c).node
  quiet : ∀ op c, op ≠ .tick → answers (o.run op c).trace = []
  start : ∀ op c s, op = .setup ∨ op = .reset → (o.run op c).res = .ok s → P (o.run op c).node (fm c)
  tick : ∀ c s ψ, Q c → P c ψ → (o.run .tick c).res = .ok s → ∃ ψ', Takes ψ s ψ' (asked L (o.run .tick c).trace) ∧
    (s = .running → P (o.run .tick c).node ψ') ∧ (s = .succeeded ∨ s = .failed → P (o.run .tick c).node (fm c))

/-- A loop of setups or resets: everything begins anew. -/
theorem forAll_start {o : Ops N} {L : Nat → Bool} {fm : N → Form} {Q : N → Prop} {P : N → Form → Prop} (hk : Kids o L fm Q P)
    (op : Op) (hop : op = .setup ∨ op = .reset) (m : Mem) (k : Prog) (s : BTState) : ∀ (is : List Nat) (cs : List N),
    (exec o (Prog.forAll op m is k) cs).res = .ok s →
    ∃ cs', (exec o k cs').res = .ok s ∧ cs'.map fm = cs.map fm ∧ ((∀ c ∈ cs, Q c) → ∀ c ∈ cs', Q c) ∧
      (∀ i ∈ is, ∀ c, cs'[i]? = some c → P c (fm c)) ∧
      (∀ i, i ∉ is → cs'[i]? = cs[i]?) ∧
      asked L (exec o (Prog.forAll op m is k) cs).trace = asked L (exec o k cs').trace ∧
      (exec o (Prog.forAll op m is k) cs).mem = (exec o k cs').mem ∧
      (exec o (Prog.forAll op m is k) cs).children = (exec o k cs').children := by
  intro is
  induction is with
  | nil =>
    intro cs hr
    exact ⟨cs, hr, rfl, id, (fun i hi => by cases hi), (fun _ _ => rfl), rfl, rfl, rfl⟩
  | cons i is ih =>
    intro cs hr
    simp only [Prog.forAll, exec] at hr ⊢
    split at hr
    · cases hr
    · next c hc =>
      cases hx : (o.run op c).res with
      | err => simp [hx] at hr
      | ok s' =>
        simp only [hx] at hr ⊢
        have hQ' : (∀ d ∈ cs, Q d) → ∀ d ∈ cs.set i (o.run op c).node, Q d := by
          intro hQ d hd
          rcases List.mem_or_eq_of_mem_set hd with hd | rfl
          · exact hQ d hd
          · exact hk.keep op c (hQ c (List.mem_of_getElem? hc))
        obtain ⟨cs', h1, h2, h3, h4, h5, h6, h7, h8⟩ := ih _ hr
        have hnt : op ≠ .tick := by rcases hop with rfl | rfl <;> simp
        refine ⟨cs', h1, ?_, fun hQ => h3 (hQ' hQ), ?_, ?_, ?_, h7, h8⟩
        · rw [h2, List.map_set, hk.form]
          apply List.ext_getElem?
          intro j
          rw [List.getElem?_set]
          split
          · next e =>
            subst e
            rw [List.getElem?_map, hc]
            split
            · rfl
            · next hlt => simp only [List.length_map] at hlt; rw [List.getElem?_eq_none (by omega)] at hc; cases hc
          · rfl
        · intro j hj d hd
          by_cases hjs : j ∈ is
          · exact h4 j hjs d hd
          · rcases List.mem_cons.mp hj with rfl | hj
            · rw [h5 j hjs, List.getElem?_set] at hd
              simp only [if_true] at hd
              split at hd
              · cases hd
                rw [hk.form]
                exact hk.start op c s' hop hx
              · cases hd
            · exact absurd hj hjs
        · intro j hj
          rw [h5 j (fun h => hj (List.mem_cons_of_mem _ h)), List.getElem?_set]
          split
          · next e => exact absurd (e ▸ List.mem_cons_self) hj
          · rfl
        · rw [asked_append, quiet_asked (hk.quiet op c hnt), List.nil_append, h6]

/-- A loop of unticks is silent. -/
theorem forAll_untick {o : Ops N} {L : Nat → Bool} {fm : N → Form} {Q : N → Prop} {P : N → Form → Prop} (hk : Kids o L fm Q P)
    (m : Mem) (r : Res) (s : BTState) : ∀ (is : List Nat) (cs : List N),
    (exec o (Prog.forAll .untick m is (.done m r)) cs).res = .ok s →
    r = .ok s ∧ asked L (exec o (Prog.forAll .untick m is (.done m r)) cs).trace = [] := by
  intro is
  induction is with
  | nil => intro cs hr; exact ⟨hr, rfl⟩
  | cons i is ih =>
    intro cs hr
    simp only [Prog.forAll, exec] at hr ⊢
    split at hr
    · cases hr
    · next c hc =>
      cases hx : (o.run .untick c).res with
      | err => simp [hx] at hr
      | ok s' =>
        simp only [hx] at hr ⊢
        obtain ⟨h1, h2⟩ := ih _ hr
        exact ⟨h1, by rw [asked_append, quiet_asked (hk.quiet .untick c (by simp)), h2]; rfl⟩

theorem from_next {P : N → Form → Prop} {cs : List N} {j : Nat} {ψ : Form} {ψs : List Form} (h : From P cs j (ψ :: ψs)) (c' : N) :
    From P (cs.set j c') (j + 1) ψs := by
  refine ⟨?_, fun i χ c hi hc => ?_⟩
  · have := h.1
    simp only [List.length_cons, List.length_set] at this ⊢
    omega
  · rw [List.getElem?_set, if_neg (by omega)] at hc
    exact h.2 (i + 1) χ c (by simpa using hi) (by rw [show j + (i + 1) = j + 1 + i by omega]; exact hc)

theorem from_here {P : N → Form → Prop} {cs : List N} {j : Nat} {ψ ψ' : Form} {ψs : List Form} (h : From P cs j (ψ :: ψs)) (c' : N)
    (hc' : P c' ψ') : From P (cs.set j c') j (ψ' :: ψs) := by
  refine ⟨?_, fun i χ c hi hc => ?_⟩
  · simpa using h.1
  · rw [List.getElem?_set] at hc
    cases i with
    | zero =>
      simp only [Nat.add_zero, if_true] at hc
      split at hc
      · cases hc
        simp only [List.getElem?_cons_zero, Option.some.injEq] at hi
        rw [← hi]
        exact hc'
      · cases hc
    | succ i =>
      rw [if_neg (by omega)] at hc
      exact h.2 (i + 1) χ c (by simpa using hi) hc

theorem set_all {Q : N → Prop} {cs : List N} (hQ : ∀ c ∈ cs, Q c) (j : Nat) {c' : N} (hc' : Q c') : ∀ c ∈ cs.set j c', Q c := by
  intro d hd
  rcases List.mem_or_eq_of_mem_set hd with hd | rfl
  · exact hQ d hd
  · exact hc'

/-- What the loops of the two nodes with memory do. -/
structure LoopOut (o : Ops N) (L : Nat → Bool) (P : N → Form → Prop) (mk : List Form → Form) (x : ExecOut N) (s : BTState) (ψs : List Form) : Prop where
  takes : ∃ φ', Takes (mk ψs) s φ' (asked L x.trace) ∧
    (s = .running → ∃ ψs', φ' = mk ψs' ∧ From P x.children x.mem.lastRunning ψs')

theorem seqLoop_takes {o : Ops N} {L : Nat → Bool} {fm : N → Form} {Q : N → Prop} {P : N → Form → Prop} (hk : Kids o L fm Q P)
    (m : Mem) (s : BTState) : ∀ (k j : Nat) (cs : List N) (ψs : List Form), k = cs.length - j → (∀ c ∈ cs, Q c) → From P cs j ψs →
    (exec o (Prog.seqLoop true m (List.range' j k)) cs).res = .ok s →
    LoopOut o L P conj (exec o (Prog.seqLoop true m (List.range' j k)) cs) s ψs := by
  intro k
  induction k with
  | zero =>
    intro j cs ψs hj _ hF hr
    have : ψs = [] := by
      apply List.eq_nil_of_length_eq_zero
      have := hF.1
      omega
    subst this
    simp only [List.range'_zero, Prog.seqLoop, exec] at hr ⊢
    cases hr
    exact ⟨⟨_, takes_const _, fun h => by cases h⟩⟩
  | succ k ih =>
    intro j cs ψs hj hQ hF hr
    cases ψs with
    | nil =>
      have := hF.1
      simp only [List.length_nil] at this
      omega
    | cons ψ ψs =>
      simp only [List.range'_succ, Prog.seqLoop, exec] at hr ⊢
      split at hr
      · cases hr
      · next c hc =>
        have hQc := hQ c (List.mem_of_getElem? hc)
        cases hx : (o.run .tick c).res with
        | err => simp [hx] at hr
        | ok s' =>
          obtain ⟨ψ', ht, hrun, _⟩ := hk.tick c s' ψ hQc (hF.2 0 ψ c rfl (by simpa using hc)) hx
          simp only [hx] at hr ⊢
          split at hr
          · next e =>
            rw [if_pos e]
            subst e
            obtain ⟨φ', h1, h2⟩ := (ih (j + 1) _ ψs (by simp; omega) (set_all hQ j (hk.keep .tick c hQc)) (from_next hF _) hr).takes
            refine ⟨⟨φ', ?_, h2⟩⟩
            rw [asked_append]
            exact takes_both ht h1
          · next e =>
            split at hr
            · next e2 =>
              rw [if_neg e, if_pos e2]
              cases hr
              refine ⟨⟨.both ψ' (conj ψs), ?_, fun _ => ⟨ψ' :: ψs, rfl, from_here hF _ (hrun e2)⟩⟩⟩
              simp only [exec, List.append_nil]
              exact takes_both_stop ht e
            · next e2 =>
              rw [if_neg e, if_neg e2]
              obtain ⟨h1, h2⟩ := forAll_untick hk m _ s _ _ hr
              cases h1
              refine ⟨⟨.both ψ' (conj ψs), ?_, fun h => absurd h e2⟩⟩
              rw [asked_append, h2, List.append_nil]
              exact takes_both_stop ht e

theorem fbLoop_takes {o : Ops N} {L : Nat → Bool} {fm : N → Form} {Q : N → Prop} {P : N → Form → Prop} (hk : Kids o L fm Q P)
    (m : Mem) (s : BTState) : ∀ (k j : Nat) (cs : List N) (ψs : List Form), k = cs.length - j → (∀ c ∈ cs, Q c) → From P cs j ψs →
    (exec o (Prog.fbLoop true m (List.range' j k)) cs).res = .ok s →
    LoopOut o L P disj (exec o (Prog.fbLoop true m (List.range' j k)) cs) s ψs := by
  intro k
  induction k with
  | zero =>
    intro j cs ψs hj _ hF hr
    have : ψs = [] := by
      apply List.eq_nil_of_length_eq_zero
      have := hF.1
      omega
    subst this
    simp only [List.range'_zero, Prog.fbLoop, exec] at hr ⊢
    cases hr
    exact ⟨⟨_, takes_const _, fun h => by cases h⟩⟩
  | succ k ih =>
    intro j cs ψs hj hQ hF hr
    cases ψs with
    | nil =>
      have := hF.1
      simp only [List.length_nil] at this
      omega
    | cons ψ ψs =>
      simp only [List.range'_succ, Prog.fbLoop, exec] at hr ⊢
      split at hr
      · cases hr
      · next c hc =>
        have hQc := hQ c (List.mem_of_getElem? hc)
        cases hx : (o.run .tick c).res with
        | err => simp [hx] at hr
        | ok s' =>
          obtain ⟨ψ', ht, hrun, _⟩ := hk.tick c s' ψ hQc (hF.2 0 ψ c rfl (by simpa using hc)) hx
          simp only [hx] at hr ⊢
          split at hr
          · next e2 =>
            rw [if_pos e2]
            cases hr
            refine ⟨⟨.either ψ' (disj ψs), ?_, fun _ => ⟨ψ' :: ψs, rfl, from_here hF _ (hrun e2)⟩⟩⟩
            simp only [exec, List.append_nil]
            exact takes_either_stop ht (Or.inl e2)
          · next e2 =>
            split at hr
            · next e =>
              rw [if_neg e2, if_pos e]
              obtain ⟨h1, h2⟩ := forAll_untick hk m _ s _ _ hr
              cases h1
              refine ⟨⟨.either ψ' (disj ψs), ?_, fun h => absurd h e2⟩⟩
              rw [asked_append, h2, List.append_nil]
              exact takes_either_stop ht (Or.inr e)
            · next e =>
              rw [if_neg e2, if_neg e]
              obtain ⟨φ', h1, h2⟩ := (ih (j + 1) _ ψs (by simp; omega) (set_all hQ j (hk.keep .tick c hQc)) (from_next hF _) hr).takes
              refine ⟨⟨φ', ?_, h2⟩⟩
              rw [asked_append]
              exact takes_either ht e2 e h1

theorem range_drop (n j : Nat) : (List.range n).drop j = List.range' j (n - j) := by
  rw [List.range_eq_range', List.drop_range']
  simp

/-- Everything begins anew. -/
theorem from_zero {fm : N → Form} {P : N → Form → Prop} {cs : List N} (h : ∀ i ∈ List.range cs.length, ∀ c, cs[i]? = some c → P c (fm c)) :
    From P cs 0 (cs.map fm) := by
  refine ⟨by simp, fun i ψ c hi hc => ?_⟩
  rw [Nat.zero_add] at hc
  rw [List.getElem?_map, hc] at hi
  cases hi
  exact h i (List.mem_range.mpr (List.getElem?_eq_some_iff.mp hc).1) c hc

/-! ## One node -/

/-- An operation that succeeds has run its hook. -/
theorem run_ok (o : Ops N) (op : Op) (hop : op ≠ .shutdown) (nd : Node N) (s : BTState) (hr : (nd.run o op).res = .ok s) :
    ∃ x, x = exec o (hookProg nd.kind op nd.state nd.mem (nd.env nd.ctr) (nd.children.map o.name)) nd.children ∧ x.res = .ok s ∧
      (nd.run o op).trace = .call op nd.id :: (.hook op nd.id :: x.trace ++ [Ev.ret op nd.id (.ok s)]) ∧
      (nd.run o op).node = { nd with ctr := nd.ctr + 1, mem := x.mem, children := x.children, state := s } := by
  revert hr
  apply run_cases o op nd (P := fun out => out.res = .ok s → ∃ x,
      x = exec o (hookProg nd.kind op nd.state nd.mem (nd.env nd.ctr) (nd.children.map o.name)) nd.children ∧ x.res = .ok s ∧
      out.trace = .call op nd.id :: (.hook op nd.id :: x.trace ++ [Ev.ret op nd.id (.ok s)]) ∧
      out.node = { nd with ctr := nd.ctr + 1, mem := x.mem, children := x.children, state := s })
  · intro _ h; cases h
  · intro _ _ _ h; cases h
  · intro x _ _ _ _ h; cases h
  · intro x s _ _ _ _ _ h; cases h
  · intro x s' _ hx _ _ hs _ h
    cases h
    exact ⟨x, hx, hs, rfl, rfl⟩
  · intro h; exact absurd h hop
  · intro x h; exact absurd h hop

theorem node_start {o : Ops N} {L : Nat → Bool} {fm : N → Form} {Q : N → Prop} {P : N → Form → Prop} (hk : Kids o L fm Q P)
    (op : Op) (hop : op = .setup ∨ op = .reset) (nd : Node N) (s : BTState) (hr : (nd.run o op).res = .ok s) :
    pendOf (nd.run o op).node fm P (mformOf nd.kind nd.id (nd.children.map fm)) := by
  obtain ⟨x, hx, hxr, _, hnode⟩ := run_ok o op (by rcases hop with rfl | rfl <;> simp) nd s hr
  rw [hnode]
  obtain ⟨id, name, kind, state, mem, env, ctr, children⟩ := nd
  dsimp only at hx ⊢
  have hmem : ∀ m : Mem, m.lastRunning = 0 → x = exec o (Prog.allThen (children.map o.name).length op m .idle) children →
      ¬ (s = .succeeded ∨ s = .failed) ∧ children.map fm = x.children.map fm ∧ From P x.children x.mem.lastRunning (x.children.map fm) := by
    intro m hm hx
    subst hx
    unfold Prog.allThen at hxr ⊢
    obtain ⟨cs', h1, h2, _, h4, _, _, h7, h8⟩ := forAll_start hk op hop m _ s _ _ hxr
    rw [h7, h8]
    simp only [exec] at h1 ⊢
    cases h1
    refine ⟨by simp, h2.symm, ?_⟩
    rw [hm]
    apply from_zero
    have : (children.map o.name).length = cs'.length := by
      have := congrArg List.length h2
      simpa using this.symm
    rw [← this]
    exact h4
  have hhead : ∀ f d, x = exec o (Prog.onHead (children.map o.name).length op mem _root_.id .idle) children →
      pendOf (N := N) ⟨id, name, kind, s, x.mem, env, ctr + 1, x.children⟩ fm P (mformOf kind id (children.map fm)) ∨ role kind ≠ .rename f d := by
    intro f d hx
    by_cases hrole : role kind = .rename f d
    · left
      unfold pendOf mformOf
      dsimp only
      rw [hrole]
      dsimp only
      subst hx
      cases children with
      | nil => exact Or.inl ⟨rfl, rfl⟩
      | cons c cs =>
        right
        simp only [Prog.onHead, List.map_cons, List.length_cons, Nat.add_eq_zero_iff, reduceCtorEq, and_false, if_false, exec,
          List.getElem?_cons_zero, List.set_cons_zero] at hxr ⊢
        obtain ⟨s', h1, _⟩ := map_ok hxr
        exact ⟨_, cs, fm c, rfl, rfl, hk.start op c s' hop h1⟩
    · exact Or.inr hrole
  cases kind with
  | memSequence =>
    obtain ⟨h1, h2, h3⟩ := hmem { mem with lastRunning := 0 } rfl (by rcases hop with rfl | rfl <;> exact hx)
    exact Or.inr ⟨h1, _, by rw [← h2]; rfl, h3⟩
  | memFallback =>
    obtain ⟨h1, h2, h3⟩ := hmem { mem with lastRunning := 0 } rfl (by rcases hop with rfl | rfl <;> exact hx)
    exact Or.inr ⟨h1, _, by rw [← h2]; rfl, h3⟩
  | inverter => exact (hhead _ _ (by rcases hop with rfl | rfl <;> exact hx)).resolve_right (fun h => h rfl)
  | ignoreFailure => exact (hhead _ _ (by rcases hop with rfl | rfl <;> exact hx)).resolve_right (fun h => h rfl)
  | ignoreSuccess => exact (hhead _ _ (by rcases hop with rfl | rfl <;> exact hx)).resolve_right (fun h => h rfl)
  | _ => exact rfl

theorem node_tick {o : Ops N} {L : Nat → Bool} {fm : N → Form} {Q : N → Prop} {P : N → Form → Prop} (hk : Kids o L fm Q P)
    (nd : Node N) (s : BTState) (ψ : Form) (hp : pendOf nd fm P ψ)
    (hQ : role nd.kind = .all ∨ role nd.kind = .any → ∀ c ∈ nd.children, Q c)
    (hQ0 : role nd.kind ≠ .atom → ∀ c, nd.children[0]? = some c → Q c)
    (hsk : role nd.kind ≠ .atom) (x : ExecOut N)
    (hx : x = exec o (hookProg nd.kind .tick nd.state nd.mem (nd.env nd.ctr) (nd.children.map o.name)) nd.children)
    (hxr : x.res = .ok s) (nd' : Node N)
    (hnd' : nd' = { nd with ctr := nd.ctr + 1, mem := x.mem, children := x.children, state := s }) :
    ∃ ψ', Takes ψ s ψ' (asked L x.trace) ∧ (s = .running → pendOf nd' fm P ψ') ∧
      (s = .succeeded ∨ s = .failed → pendOf nd' fm P (mformOf nd.kind nd.id (nd.children.map fm))) := by
  have hmap : x.children.map fm = nd.children.map fm := by
    subst hx
    exact exec_map o fm hk.form _ _
  obtain ⟨id, name, kind, state, mem, env, ctr, children⟩ := nd
  dsimp only at hQ hQ0 hsk hx hmap ⊢
  subst hnd'
  have hhead : ∀ f d, role kind = .rename f d → (∀ s, f s = .running ↔ s = .running) → (∀ s, f s = .succeeded ∨ f s = .failed → s = .succeeded ∨ s = .failed) →
      x = exec o (Prog.onHead (children.map o.name).length .tick mem f d) children →
      ∃ ψ', Takes ψ s ψ' (asked L x.trace) ∧ (s = .running → pendOf ⟨id, name, kind, s, x.mem, env, ctr + 1, x.children⟩ fm P ψ') ∧
      (s = .succeeded ∨ s = .failed → pendOf ⟨id, name, kind, s, x.mem, env, ctr + 1, x.children⟩ fm P (mformOf kind id (children.map fm))) := by
    intro f d hrole hf1 hf2 hx
    unfold pendOf at hp ⊢
    unfold mformOf
    dsimp only at hp ⊢
    rw [hrole] at hp ⊢
    dsimp only at hp ⊢
    rcases hp with ⟨h1, h2⟩ | ⟨c, cs, φ, h1, h2, h3⟩
    · subst h1
      subst h2
      subst hx
      simp only [Prog.onHead, List.map_nil, List.length_nil, if_true, exec] at hxr ⊢
      cases hxr
      exact ⟨_, takes_const _, fun _ => Or.inl ⟨trivial, rfl⟩, fun _ => Or.inl ⟨trivial, by trivial⟩⟩
    · subst h1
      subst h2
      subst hx
      simp only [Prog.onHead, List.map_cons, List.length_cons, Nat.add_eq_zero_iff, reduceCtorEq, and_false, if_false, exec,
        List.getElem?_cons_zero, List.set_cons_zero, List.append_nil] at hxr ⊢
      obtain ⟨s', h4, h5⟩ := map_ok hxr
      obtain ⟨ψ', k1, k2, k3⟩ := hk.tick c s' φ (hQ0 hsk c rfl) h3 h4
      subst h5
      exact ⟨_, takes_relabel k1, fun hs => Or.inr ⟨_, cs, ψ', rfl, rfl, k2 ((hf1 s').mp hs)⟩,
        fun hs => Or.inr ⟨_, cs, fm c, rfl, rfl, k3 (hf2 s' hs)⟩⟩
  cases kind with
  | memSequence =>
    have hQ := hQ (Or.inl rfl)
    have hfin : s = .succeeded ∨ s = .failed →
        pendOf ⟨id, name, .memSequence, s, x.mem, env, ctr + 1, x.children⟩ fm P (mformOf .memSequence id (children.map fm)) :=
      fun hs => Or.inl ⟨hs, by rw [hmap]; rfl⟩
    suffices h : ∃ ψs, ψ = conj ψs ∧ LoopOut o L P conj x s ψs by
      obtain ⟨ψs, h1, ⟨φ', h2, h3⟩⟩ := h
      subst h1
      refine ⟨φ', h2, fun hs => ?_, hfin⟩
      obtain ⟨ψs', h4, h5⟩ := h3 hs
      exact Or.inr ⟨by dsimp only; rw [hs]; simp, ψs', h4, h5⟩
    simp only [hookProg, tickHook] at hx
    rcases hp with ⟨h1, h2⟩ | ⟨h1, ψs, h2, h3⟩
    · dsimp only at h1 h2
      refine ⟨_, h2, ?_⟩
      simp only [h1, if_true, Prog.resetIfFinished, List.drop_zero] at hx
      split at hx
      · next e =>
        have : children = [] := by simpa using e
        subst this
        subst hx
        cases hxr
        exact ⟨⟨_, takes_const _, fun h => by cases h⟩⟩
      · next e =>
        subst hx
        obtain ⟨cs', k1, k2, k3, k4, _, k6, k7, k8⟩ := forAll_start hk .reset (Or.inr rfl) _ _ s _ _ hxr
        have hlen : (children.map o.name).length = cs'.length := by
          have := congrArg List.length k2
          simpa using this.symm
        rw [hlen] at k1 k4 k6 k7 k8 ⊢
        rw [List.range_eq_range'] at k1
        have := (seqLoop_takes hk _ s cs'.length 0 cs' (cs'.map fm) (by simp) (k3 hQ) (from_zero k4) k1).takes
        refine ⟨?_⟩
        rw [k6, k7, k8, ← k2, List.range_eq_range']
        exact this
    · dsimp only at h1 h3
      refine ⟨ψs, h2, ?_⟩
      simp only [h1, if_false, Prog.resetIfFinished] at hx
      split at hx
      · next e =>
        have : children = [] := by simpa using e
        subst this
        subst hx
        cases hxr
        have : ψs = [] := List.eq_nil_of_length_eq_zero (by have := h3.1; simpa using this)
        subst this
        exact ⟨⟨_, takes_const _, fun h => by cases h⟩⟩
      · next e =>
        rw [range_drop] at hx
        subst hx
        exact seqLoop_takes hk _ s _ _ children ψs (by simp) hQ h3 hxr
  | memFallback =>
    have hQ := hQ (Or.inr rfl)
    have hfin : s = .succeeded ∨ s = .failed →
        pendOf ⟨id, name, .memFallback, s, x.mem, env, ctr + 1, x.children⟩ fm P (mformOf .memFallback id (children.map fm)) :=
      fun hs => Or.inl ⟨hs, by rw [hmap]; rfl⟩
    suffices h : ∃ ψs, ψ = disj ψs ∧ LoopOut o L P disj x s ψs by
      obtain ⟨ψs, h1, ⟨φ', h2, h3⟩⟩ := h
      subst h1
      refine ⟨φ', h2, fun hs => ?_, hfin⟩
      obtain ⟨ψs', h4, h5⟩ := h3 hs
      exact Or.inr ⟨by dsimp only; rw [hs]; simp, ψs', h4, h5⟩
    simp only [hookProg, tickHook] at hx
    rcases hp with ⟨h1, h2⟩ | ⟨h1, ψs, h2, h3⟩
    · dsimp only at h1 h2
      refine ⟨_, h2, ?_⟩
      simp only [h1, if_true, Prog.resetIfFinished, List.drop_zero] at hx
      split at hx
      · next e =>
        have : children = [] := by simpa using e
        subst this
        subst hx
        cases hxr
        exact ⟨⟨_, takes_const _, fun h => by cases h⟩⟩
      · next e =>
        subst hx
        obtain ⟨cs', k1, k2, k3, k4, _, k6, k7, k8⟩ := forAll_start hk .reset (Or.inr rfl) _ _ s _ _ hxr
        have hlen : (children.map o.name).length = cs'.length := by
          have := congrArg List.length k2
          simpa using this.symm
        rw [hlen] at k1 k4 k6 k7 k8 ⊢
        rw [List.range_eq_range'] at k1
        have := (fbLoop_takes hk _ s cs'.length 0 cs' (cs'.map fm) (by simp) (k3 hQ) (from_zero k4) k1).takes
        refine ⟨?_⟩
        rw [k6, k7, k8, ← k2, List.range_eq_range']
        exact this
    · dsimp only at h1 h3
      refine ⟨ψs, h2, ?_⟩
      simp only [h1, if_false, Prog.resetIfFinished] at hx
      split at hx
      · next e =>
        have : children = [] := by simpa using e
        subst this
        subst hx
        cases hxr
        have : ψs = [] := List.eq_nil_of_length_eq_zero (by have := h3.1; simpa using this)
        subst this
        exact ⟨⟨_, takes_const _, fun h => by cases h⟩⟩
      · next e =>
        rw [range_drop] at hx
        subst hx
        exact fbLoop_takes hk _ s _ _ children ψs (by simp) hQ h3 hxr
  | inverter =>
    refine hhead _ _ rfl (fun s => by cases s <;> simp) (fun s => by cases s <;> simp) ?_
    rw [hx]
    simp only [hookProg, tickHook]
    congr 2
    funext r
    cases r <;> rfl
  | ignoreFailure =>
    refine hhead _ _ rfl (fun s => by cases s <;> simp) (fun s => by cases s <;> simp) ?_
    rw [hx]
    simp only [hookProg, tickHook]
    congr 2
    funext r
    cases r <;> rfl
  | ignoreSuccess =>
    refine hhead _ _ rfl (fun s => by cases s <;> simp) (fun s => by cases s <;> simp) ?_
    rw [hx]
    simp only [hookProg, tickHook]
    congr 2
    funext r
    cases r <;> rfl
  | _ => exact absurd rfl hsk

/-! ## Trees -/

theorem marks_all {L : Nat → Bool} {k : Kind} {id : Nat} {ps : List Prop} {below : List Nat} (h : marks L k id ps below) :
    (role k ≠ .atom → L id = false) ∧ (role k = .atom → L id = true ∧ ∀ j ∈ below, L j = false) ∧
    (role k = .all ∨ role k = .any → ∀ p ∈ ps, p) ∧ (role k ≠ .atom → ∀ p, ps[0]? = some p → p) := by
  unfold marks at h
  cases hr : role k with
  | all => rw [hr] at h; exact ⟨fun _ => h.1, (fun e => by cases e), fun _ => h.2, fun _ p hp => h.2 p (List.mem_of_getElem? hp)⟩
  | any => rw [hr] at h; exact ⟨fun _ => h.1, (fun e => by cases e), fun _ => h.2, fun _ p hp => h.2 p (List.mem_of_getElem? hp)⟩
  | rename f d => rw [hr] at h; exact ⟨fun _ => h.1, (fun e => by cases e), (fun e => by rcases e with e | e <;> cases e), fun _ => h.2⟩
  | atom => rw [hr] at h; exact ⟨fun e => absurd rfl e, fun _ => h, (fun e => by rcases e with e | e <;> cases e), fun e => absurd rfl e⟩

theorem pendOf_atom {nd : Node N} {fm : N → Form} {P : N → Form → Prop} {ψ : Form} (h : role nd.kind = .atom) :
    pendOf nd fm P ψ ↔ ψ = .atom nd.id := by
  unfold pendOf
  rw [h]

theorem mformOf_atom {k : Kind} (h : role k = .atom) (id : Nat) (cs : List Form) : mformOf k id cs = .atom id := by
  unfold mformOf
  rw [h]

theorem tree_kids (L : Nat → Bool) (n : Nat) : Kids (ops n) L (mform n) (Marked L n) (Pend n) := by
  induction n with
  | zero => exact ⟨fun _ t => Empty.elim t, fun _ t => Empty.elim t, fun _ t => Empty.elim t, fun _ t => Empty.elim t, fun t => Empty.elim t⟩
  | succ n ih =>
    refine ⟨fun op c => mform_run (n + 1) op c, fun op c h => by rw [marked_run]; exact h, fun op c h => tree_quiet (n + 1) op c h,
      fun op t s hop hr => node_start ih op hop t s hr, fun t s ψ hm hp hr => ?_⟩
    obtain ⟨x, hx, hxr, ht, hnode⟩ := run_ok (ops n) .tick (by simp) t s hr
    obtain ⟨m1, m2, m3, m4⟩ := marks_all hm
    show ∃ ψ', Takes ψ s ψ' (asked L (Node.run (ops n) .tick t).trace) ∧ (s = .running → pendOf (Node.run (ops n) .tick t).node (mform n) (Pend n) ψ') ∧
      (s = .succeeded ∨ s = .failed → pendOf (Node.run (ops n) .tick t).node (mform n) (Pend n)
        (mformOf (Node.kind (N := Tree n) t) (Node.id (N := Tree n) t) ((Node.children (N := Tree n) t).map (mform n))))
    rw [ht, asked_tick]
    by_cases hrole : role (Node.kind (N := Tree n) t) = .atom
    · have hp : ψ = .atom (Node.id (N := Tree n) t) := (pendOf_atom hrole).mp hp
      have hrole' : role (Node.run (ops n) .tick t).node.kind = .atom := by rw [hnode]; exact hrole
      have hid : (Node.run (ops n) .tick t).node.id = Node.id (N := Tree n) t := by rw [hnode]
      refine ⟨.atom (Node.id (N := Tree n) t), ?_, fun _ => ?_, fun _ => ?_⟩
      · rw [(m2 hrole).1]
        subst hx
        rw [within_asked (exec_within (ops n) (nodeIds n) (fun op c => nodeIds_run n op c) (fun op c => tree_within n op c) _ _) (m2 hrole).2, hp]
        intro rest
        simp [Form.resume]
      · rw [pendOf_atom hrole', hid]
      · rw [pendOf_atom hrole', hid, mformOf_atom hrole]
    · rw [m1 hrole]
      simp only [Bool.false_eq_true, if_false, List.append_nil]
      exact node_tick ih t s ψ hp (fun h c hc => m3 h _ (List.mem_map.mpr ⟨c, hc, rfl⟩))
        (fun h c hc => m4 h _ (by rw [List.getElem?_map, hc]; rfl)) hrole x hx hxr _ hnode

theorem marked_runs (L : Nat → Bool) (n : Nat) (h : List Op) : ∀ t : Tree n, Marked L n (runs (ops n) h t).2 = Marked L n t := by
  induction h with
  | nil => intro t; rfl
  | cons op h ih => intro t; exact (ih _).trans (marked_run L n op t)

/-- After ticks without errors that end with a result, everything begins anew. -/
theorem rounds_pend (L : Nat → Bool) (n : Nat) (a : Nat) : ∀ (t : Tree n) (ψ : Form), Marked L n t → Pend n t ψ → (a = 0 → ψ = mform n t) →
    (∀ out ∈ (runs (ops n) (List.replicate a .tick) t).1, out.res = .ok .running ∨ out.res = .ok .succeeded ∨ out.res = .ok .failed) →
    (∀ out, (runs (ops n) (List.replicate a .tick) t).1.getLast? = some out → out.res ≠ .ok .running) →
    Pend n (runs (ops n) (List.replicate a .tick) t).2 (mform n t) := by
  induction a with
  | zero => intro t ψ _ hp h0 _ _; rw [← h0 rfl]; exact hp
  | succ a ih =>
    intro t ψ hm hp _ hall hlast
    simp only [List.replicate_succ, runs] at hall hlast ⊢
    have hres := hall _ List.mem_cons_self
    have hgood : ∃ s, ((ops n).run .tick t).res = .ok s ∧ (s = .running ∨ s = .succeeded ∨ s = .failed) := by
      rcases hres with h | h | h
      · exact ⟨_, h, Or.inl rfl⟩
      · exact ⟨_, h, Or.inr (Or.inl rfl)⟩
      · exact ⟨_, h, Or.inr (Or.inr rfl)⟩
    obtain ⟨s, hs, hs3⟩ := hgood
    obtain ⟨ψ', _, h2, h3⟩ := (tree_kids L n).tick t s ψ hm hp hs
    have hm' : Marked L n ((ops n).run .tick t).node := by rw [marked_run]; exact hm
    have hall' := fun out ho => hall out (List.mem_cons_of_mem _ ho)
    have hlast' : ∀ out, (runs (ops n) (List.replicate a .tick) ((ops n).run .tick t).node).1.getLast? = some out → out.res ≠ .ok .running := by
      intro out ho
      apply hlast out
      rw [List.getLast?_cons, ho]
      rfl
    rw [← mform_run n .tick t]
    rcases hs3 with rfl | hs3
    · refine ih _ ψ' hm' (h2 rfl) ?_ hall' hlast'
      intro ha
      subst ha
      exact absurd hs (hlast _ rfl)
    · refine ih _ (mform n t) hm' (h3 hs3) ?_ hall' hlast'
      intro _
      rw [mform_run]

/-- A series of ticks evaluates the formula bit by bit. -/
theorem ticks_series (L : Nat → Bool) (n : Nat) (k : Nat) : ∀ (t : Tree n) (ψ : Form) (s : BTState), Marked L n t → Pend n t ψ → s ≠ .running →
    (runs (ops n) (List.replicate (k + 1) .tick) t).1.map (·.res) = List.replicate k (.ok .running) ++ [.ok s] →
    Series ψ k s (asked L ((runs (ops n) (List.replicate (k + 1) .tick) t).1.flatMap (·.trace))) := by
  induction k with
  | zero =>
    intro t ψ s hm hp hs hr
    simp only [List.replicate_succ, List.replicate_zero, runs, List.map_cons, List.map_nil, List.nil_append, List.cons.injEq, and_true,
      List.flatMap_cons, List.flatMap_nil, List.append_nil] at hr ⊢
    obtain ⟨ψ', h1, _⟩ := (tree_kids L n).tick t s ψ hm hp hr
    exact .last h1 hs
  | succ k ih =>
    intro t ψ s hm hp hs hr
    rw [List.replicate_succ] at hr ⊢
    simp only [runs, List.map_cons] at hr ⊢
    rw [show List.replicate (k + 1) (Res.ok .running) = .ok .running :: List.replicate k (.ok .running) from rfl, List.cons_append] at hr
    obtain ⟨hr1, hr2⟩ := List.cons.inj hr
    obtain ⟨ψ', h1, h2, _⟩ := (tree_kids L n).tick t .running ψ hm hp hr1
    rw [List.flatMap_cons, asked_append]
    exact .more h1 (ih _ ψ' s (by rw [marked_run]; exact hm) (h2 rfl) hs hr2)

/-- A function with the given values. -/
theorem lookup_nat (l : List Asked) : (l.map (·.id)).Nodup → ∃ (ρ : Nat → BTState) (w : Nat → Nat), ∀ a ∈ l, ρ a.id = a.final ∧ w a.id = a.waits := by
  induction l with
  | nil => intro _; exact ⟨fun _ => .idle, fun _ => 0, fun p hp => by cases hp⟩
  | cons q l ih =>
    intro h
    obtain ⟨h1, h2⟩ := List.nodup_cons.mp h
    obtain ⟨ρ, w, hρ⟩ := ih h2
    refine ⟨fun i => if i = q.id then q.final else ρ i, fun i => if i = q.id then q.waits else w i, fun p hp => ?_⟩
    rcases List.mem_cons.mp hp with rfl | hp
    · simp
    · have : p.id ≠ q.id := fun e => h1 (List.mem_map.mpr ⟨p, hp, e⟩)
      simp [this, hρ p hp]

/-- **C136.** Take any tree and any past, then a successful setup or reset and any number of rounds of
ticks without errors. In the next round the tree is ticked until it has finished: `k` times it answers
RUNNING, then `s`. Then `s` is the value of the formula for the final answers of the atoms. All that
is ticked in this round are the atoms that the formula needs, one after the other from left to right,
each one until it has finished and never again after that; the tree answers RUNNING once for each
time that an atom answers RUNNING. -/
theorem c136_resume (n : Nat) (t : Tree n) (hids : (nodeIds n t).Nodup) (before : List Op) (op : Op) (s₀ : BTState)
    (hop : op = .setup ∨ op = .reset) (hstart : ((ops n).run op (runs (ops n) before t).2).res = .ok s₀)
    (a : Nat) (t₁ : Tree n) (ht₁ : t₁ = ((ops n).run op (runs (ops n) before t).2).node)
    (hall : ∀ out ∈ (runs (ops n) (List.replicate a .tick) t₁).1, out.res = .ok .running ∨ out.res = .ok .succeeded ∨ out.res = .ok .failed)
    (hlast : ∀ out, (runs (ops n) (List.replicate a .tick) t₁).1.getLast? = some out → out.res ≠ .ok .running)
    (k : Nat) (s : BTState) (hs : s ≠ .running) (outs : List (Out (Tree n)))
    (houts : outs = (runs (ops n) (List.replicate (k + 1) .tick) (runs (ops n) (List.replicate a .tick) t₁).2).1)
    (hr : outs.map (·.res) = List.replicate k (.ok .running) ++ [.ok s]) :
    ∃ (ρ : Nat → BTState) (waits : Nat → Nat),
      asked (mform n t).isAtom (outs.flatMap (·.trace)) = ((mform n t).needed ρ).flatMap (untilDone waits ρ) ∧
      s = (mform n t).value ρ ∧
      (∀ i ∈ (mform n t).needed ρ, ρ i ≠ .running) ∧
      (((mform n t).needed ρ).map waits).foldr (· + ·) 0 = k := by
  have hf1 : mform n t₁ = mform n t := by rw [ht₁, mform_run, mform_runs]
  have hm1 : Marked (mform n t).isAtom n t₁ := by
    rw [ht₁, marked_run, marked_runs]
    apply marked_of _ _ _ hids
    intro i _
    simp [Form.isAtom]
  have hp1 : Pend n t₁ (mform n t₁) := by
    have := (tree_kids (mform n t).isAtom n).start op _ s₀ hop hstart
    rw [hf1, ht₁]
    rw [mform_runs] at this
    exact this
  have hp2 := rounds_pend _ n a t₁ _ hm1 hp1 (fun _ => rfl) hall hlast
  rw [hf1] at hp2
  subst houts
  have hser := ticks_series (mform n t).isAtom n k _ _ s (by rw [marked_runs]; exact hm1) hp2 hs hr
  have hnd := (atoms_sublist n t).nodup hids
  obtain ⟨u, h1, h2, h3, h4, h5⟩ := series_used hser (mform_steady n t) hnd
  obtain ⟨ρ, w, hρ⟩ := lookup_nat u (h2.nodup hnd)
  obtain ⟨e1, e2⟩ := h5 ρ fun b hb => (hρ b hb).1
  refine ⟨ρ, w, ?_, e1.symm, ?_, ?_⟩
  · rw [h1, e2, List.flatMap_map, List.flatMap_def, List.flatMap_def]
    congr 1
    apply List.map_congr_left
    intro b hb
    simp only [Asked.out, untilDone, hρ b hb]
  · intro i hi
    rw [e2] at hi
    obtain ⟨b, hb, rfl⟩ := List.mem_map.mp hi
    rw [(hρ b hb).1]
    exact h3 b hb
  · rw [e2, List.map_map, ← h4]
    congr 1
    apply List.map_congr_left
    intro b hb
    exact (hρ b hb).2

/-! ## Examples -/

/-- A MemorySequence over a MemoryFallback of two nodes that take some time, an Inverter and a
Sequence (which is an atom). -/
def sample : Tree 3 :=
  mk 2 1 .memSequence
    [mk 1 2 .memFallback [mkLeaf 0 3 [.ok .idle, .ok .running, .ok .failed],
                          mkLeaf 0 4 [.ok .idle, .ok .running, .ok .running, .ok .succeeded]],
     mk 1 5 .inverter [mkLeaf 0 6 [.ok .idle, .ok .failed]],
     mk 1 7 .sequence [mkLeaf 0 8 [.ok .idle, .ok .succeeded, .ok .succeeded],
                       mkLeaf 0 9 [.ok .idle, .ok .running, .ok .failed]]]

/-- It needs five ticks: 3, 4 and 4 run, then 7 runs, then it fails. -/
example : (nodeIds 3 sample).Nodup ∧ ((ops 3).run .setup sample).res = .ok .idle ∧
    (runs (ops 3) (List.replicate 5 .tick) ((ops 3).run .setup sample).node).1.map (·.res) =
      List.replicate 4 (.ok .running) ++ [.ok .failed] ∧
    asked (mform 3 sample).isAtom ((runs (ops 3) (List.replicate 5 .tick) ((ops 3).run .setup sample).node).1.flatMap (·.trace)) =
      [(3, .ok .running), (3, .ok .failed), (4, .ok .running), (4, .ok .running), (4, .ok .succeeded), (6, .ok .failed),
        (7, .ok .running), (7, .ok .failed)] := by decide +kernel

/-- Without the setup at the beginning this is not so: an untick does not clear the memory of a
MemoryFallback (see C14), and the next round does not ask the first child. -/
def leftover : Tree 2 :=
  mk 1 1 .memFallback [mkLeaf 0 2 [.ok .idle, .ok .failed, .ok .idle, .ok .succeeded],
                       mkLeaf 0 3 [.ok .idle, .ok .running, .ok .idle, .ok .failed]]

theorem c136_leftover : (nodeIds 2 leftover).Nodup ∧
    (runs (ops 2) [.setup, .tick, .untick, .tick] leftover).1.map (·.res) = [.ok .idle, .ok .running, .ok .idle, .ok .failed] ∧
    (runs (ops 2) [.setup, .tick, .untick, .tick] leftover).1.map (fun out => asked (mform 2 leftover).isAtom out.trace) =
      [[], [(2, .ok .failed), (3, .ok .running)], [], [(3, .ok .failed)]] := by decide +kernel

end Verif.BT.Resume
