import Verif.Whole.Program
import Verif.Data.Compat

/-! C128: well-typed programs do not go wrong. A tree of Sequences over nodes that compute (C127) whose nodes are able to compute whenever their inputs hold
values of the declared types, and whose wirings fit, SUCCEEDS in every tick, whatever has happened before. -/

set_option autoImplicit false

namespace Verif.Whole.Progress

open Verif.Data
open Verif.Whole.Values
open Verif.Whole.Program
open Verif.BT (BTState Res Op Mem Prog hookProg)

variable {M N S : Type}

/-! ### What is asked of the tree -/

/-- A node of such a tree. The untick and the reset of a leaf have nothing to do but answer IDLE (constant.py 72-80, maths.py 130-138, 218-226, 317-325, list.py 66-74, setters.py
74-82, format.py 102-110); those of a Sequence call all children (sequence.py 119-135 in `Verif/BT/Hooks.lean`). The node has been set up. -/
structure nodeSteady (F : Nat → Option Calc) (P : N → Prop) (nd : Node (Mem × S) N) : Prop where
  up : BT.accepts .tick nd.state = true
  leaf : ∀ g, F nd.id = some g → nd.children = [] ∧ (∀ c st m l, nd.hook .tick c st m l = compute g m) ∧
    ∀ a c st m l, a ≠ .tick → nd.hook a c st m l = .done m (.ok .idle)
  inner : F nd.id = none → ∀ a c st m l, nd.hook a c st m l = Refine.plain m.2 (hookProg .sequence a.op st m.1 {} l)
  below : ∀ c ∈ nd.children, P c

/-- All nodes are such. -/
def Steady (F : Nat → Option Calc) : (n : Nat) → Tree (Mem × S) n → Prop
  | 0, t => Empty.elim t
  | n + 1, t => nodeSteady F (Steady F n) t

/-- A value for each declared input, of its type. -/
def Given : Option Cont → Option Val → Prop
  | none, none => True
  | some c, some v => Fits true c.ty v
  | _, _ => False

/-- The program is well-typed. -/
structure Typed (F : Nat → Option Calc) (l : List Nat) (f : Flow) : Prop where
  /-- The nodes are known to the data flow manager; keys are those of a dict. -/
  known : ∀ i ∈ l, ∃ d xs, f.nodes.lookup i = some d ∧ (d.inputs.map (·.1)).Nodup ∧ f.conns.lookup i = some xs
  /-- From inputs of the declared types, a node computes outputs of the declared types. -/
  total : ∀ i ∈ l, ∀ g, F i = some g → ∀ vs, (∀ k, Given (f.input i k) (vs k)) →
    ∃ ws, g vs = .sets ws ∧ ∀ p ∈ ws, ∃ c, f.output i p.1 = some c ∧ Fits true c.ty p.2
  /-- Wirings lead from outputs to inputs that take all values of the output. -/
  wires : ∀ s ∈ l, ∀ xs x, f.conns.lookup s = some xs → x ∈ xs → ∃ c t, f.output s x.sourceKey = some c ∧ f.input x.target x.targetKey = some t ∧
    t.isStatic = false ∧ ∀ v, Fits true c.ty v → Fits true t.ty v
  /-- There is no surrounding tree. -/
  incoming : f.incoming = []
  outgoing : f.outgoing = []
  dynamic : DynamicOutputs f

/-- Inputs that are not wired are static and have a value; static values are of their type. -/
structure Filled (l : List Nat) (f : Flow) : Prop where
  free : ∀ i ∈ l, ∀ k c, f.input i k = some c → Free l f.conns i k → c.isStatic = true ∧ ∃ v, c.value = some v
  fits : ∀ i ∈ l, ∀ k c v, f.input i k = some c → c.isStatic = true → c.value = some v → Fits true c.ty v

/-! ### What happens to containers -/

/-- The container has kept its value, or got one of its type; or it has lost it, if that is allowed. -/
structure Kept (lose : Bool) (c c' : Cont) : Prop where
  ty : c'.ty = c.ty
  static : c'.isStatic = c.isStatic
  value : c'.value = c.value ∨ (lose = true ∧ c'.value = none) ∨ ∃ v, c'.value = some v ∧ Fits true c.ty v

/-- Both are missing, or related. -/
def Both (R : Cont → Cont → Prop) : Option Cont → Option Cont → Prop
  | none, none => True
  | some c, some c' => R c c'
  | _, _ => False

theorem Kept.refl (b : Bool) (c : Cont) : Kept b c c := ⟨rfl, rfl, .inl rfl⟩

theorem Kept.trans {b : Bool} {c c' c'' : Cont} (h : Kept b c c') (g : Kept b c' c'') : Kept b c c'' := by
  refine ⟨g.ty.trans h.ty, g.static.trans h.static, ?_⟩
  rcases g.value with e | e | ⟨v, e1, e2⟩
  · rw [e]; exact h.value
  · exact .inr (.inl e)
  · exact .inr (.inr ⟨v, e1, h.ty ▸ e2⟩)

theorem kept_set (b : Bool) (c : Cont) (v : Val) : Kept b c (c.set v).1 := by
  rcases set_cases c v with ⟨a, _, h⟩ | ⟨hc, h⟩ | ⟨_, w, _, _, h⟩ <;> rw [h]
  · exact Kept.refl _ _
  · exact ⟨rfl, rfl, .inr (.inr ⟨_, rfl, fits_clean ((check_ok _ _).1 hc)⟩)⟩
  · exact ⟨rfl, rfl, .inl rfl⟩

theorem set_marked (c : Cont) (v : Val) : (c.set v).1.value = c.value ∨ (c.set v).1.updated = true := by
  rcases set_cases c v with ⟨a, _, h⟩ | ⟨hc, h⟩ | ⟨_, w, _, _, h⟩ <;> rw [h]
  · exact .inl rfl
  · exact .inr rfl
  · exact .inl rfl

theorem both_refl {R : Cont → Cont → Prop} (h : ∀ c, R c c) : ∀ o, Both R o o
  | none => trivial
  | some c => h c

theorem both_trans {R : Cont → Cont → Prop} (h : ∀ a b c, R a b → R b c → R a c) : ∀ {x y z}, Both R x y → Both R y z → Both R x z
  | none, none, none, _, _ => trivial
  | some a, some b, some c, g, g' => h a b c g g'

theorem both_map {R : Cont → Cont → Prop} {g : Cont → Cont} (h : ∀ c, R c (g c)) : ∀ o : Option Cont, Both R o (o.map g)
  | none => trivial
  | some c => h c

theorem both_some {R : Cont → Cont → Prop} {o o' : Option Cont} {c : Cont} (h : Both R o o') (e : o = some c) : ∃ c', o' = some c' ∧ R c c' := by
  subst e
  cases o' with
  | none => cases h
  | some c' => exact ⟨c', rfl, h⟩

theorem both_back {R : Cont → Cont → Prop} {o o' : Option Cont} {c' : Cont} (h : Both R o o') (e : o' = some c') : ∃ c, o = some c ∧ R c c' := by
  subst e
  cases o with
  | none => cases h
  | some c => exact ⟨c, rfl, h⟩

/-! ### What happens to the data -/

/-- The inputs every node has. -/
def inputKeys (f : Flow) (i : Nat) : Option (List String) := (f.nodes.lookup i).map fun d => d.inputs.map (·.1)

/-- Containers are kept; inputs do not lose their values. -/
structure Tame (f f' : Flow) : Prop where
  keys : ∀ i, inputKeys f' i = inputKeys f i
  conns : f'.conns = f.conns
  incoming : f'.incoming = f.incoming
  outgoing : f'.outgoing = f.outgoing
  input : ∀ i k, Both (Kept false) (f.input i k) (f'.input i k)
  output : ∀ i k, Both (Kept true) (f.output i k) (f'.output i k)

theorem Tame.refl (f : Flow) : Tame f f :=
  ⟨fun _ => rfl, rfl, rfl, rfl, fun _ _ => both_refl (Kept.refl _) _, fun _ _ => both_refl (Kept.refl _) _⟩

theorem Tame.trans {f f' f'' : Flow} (h : Tame f f') (g : Tame f' f'') : Tame f f'' :=
  ⟨fun i => (g.keys i).trans (h.keys i), g.conns.trans h.conns, g.incoming.trans h.incoming, g.outgoing.trans h.outgoing,
    fun i k => both_trans (R := Kept false) (fun _ _ _ => Kept.trans) (h.input i k) (g.input i k),
    fun i k => both_trans (R := Kept true) (fun _ _ _ => Kept.trans) (h.output i k) (g.output i k)⟩

theorem keys_modify {V : Type} (k : String) (g : V → V) (d : List (String × V)) : (Data.modify k g d).map (·.1) = d.map (·.1) := by
  induction d with
  | nil => rfl
  | cons p d ih =>
    simp only [Data.modify]
    split
    · rfl
    · simp only [List.map_cons, ih]

theorem inputKeys_modify (f : Flow) (n : Nat) (g : NodeData → NodeData) (h : ∀ d, (g d).inputs.map (·.1) = d.inputs.map (·.1)) (i : Nat) :
    inputKeys { f with nodes := modify n g f.nodes } i = inputKeys f i := by
  unfold inputKeys
  dsimp only
  rw [lookup_modify]
  split
  · cases f.nodes.lookup i with
    | none => rfl
    | some d => simp only [Option.map_some, h]
  · rfl

theorem tame_setInput (f : Flow) {n : Nat} {k : String} {c c' : Cont} (hc : f.input n k = some c) (h : Kept false c c') : Tame f (f.setInput n k c') := by
  refine ⟨fun i => inputKeys_modify f n _ (fun d => keys_modify k _ d.inputs) i, rfl, rfl, rfl, fun i j => ?_, fun i j => ?_⟩
  · rw [input_setInput]
    split
    · rename_i e
      rw [e.1, e.2, hc]
      exact h
    · exact both_refl (Kept.refl _) _
  · rw [output_setInput]
    exact both_refl (Kept.refl _) _

theorem tame_setOutput (f : Flow) {n : Nat} {k : String} {c c' : Cont} (hc : f.output n k = some c) (h : Kept true c c') : Tame f (f.setOutput n k c') := by
  refine ⟨fun i => inputKeys_modify f n (fun d => { d with outputs := Data.modify k (fun _ => c') d.outputs }) (fun d => rfl) i, rfl, rfl, rfl, fun i j => ?_, fun i j => ?_⟩
  · rw [input_setOutput]
    exact both_refl (Kept.refl _) _
  · rw [output_setOutput]
    split
    · rename_i e
      rw [e.1, e.2, hc]
      exact h
    · exact both_refl (Kept.refl _) _

theorem tame_allInputs (f : Flow) (n : Nat) {g : Cont → Cont} (h : ∀ c, Kept false c (g c)) : Tame f (f.allInputs n g) := by
  refine ⟨fun i => inputKeys_modify f n _ (fun d => by simp [mapAll]) i, rfl, rfl, rfl, fun i j => ?_, fun i j => ?_⟩
  · rw [input_allInputs]
    split
    · exact both_map h _
    · exact both_refl (Kept.refl _) _
  · rw [output_allInputs]
    exact both_refl (Kept.refl _) _

theorem tame_allOutputs (f : Flow) (n : Nat) {g : Cont → Cont} (h : ∀ c, Kept true c (g c)) : Tame f (f.allOutputs n g) := by
  refine ⟨fun i => inputKeys_modify f n (fun d => { d with outputs := mapAll g d.outputs }) (fun d => rfl) i, rfl, rfl, rfl, fun i j => ?_, fun i j => ?_⟩
  · rw [input_allOutputs]
    exact both_refl (Kept.refl _) _
  · rw [output_allOutputs]
    split
    · exact both_map h _
    · exact both_refl (Kept.refl _) _

theorem tame_reset (f : Flow) (n : Nat) : Tame f (f.reset n) := by
  refine (tame_allInputs f n (g := Cont.flagUpdated) fun c => ⟨rfl, rfl, .inl rfl⟩).trans (tame_allOutputs _ n fun c => ?_)
  unfold Cont.resetValue
  split
  · exact ⟨rfl, rfl, .inl rfl⟩
  · exact ⟨rfl, rfl, .inr (.inl ⟨rfl, rfl⟩)⟩

theorem typed_tame {F : Nat → Option Calc} {l : List Nat} {f f' : Flow} (h : Typed F l f) (g : Tame f f') : Typed F l f' := by
  refine ⟨fun i hi => ?_, fun i hi c hc vs hv => ?_, fun s hs xs x h1 h2 => ?_, g.incoming.trans h.incoming, g.outgoing.trans h.outgoing, fun n k c hc => ?_⟩
  · obtain ⟨d, xs, e1, e2, e3⟩ := h.known i hi
    have := g.keys i
    unfold inputKeys at this
    rw [e1, Option.map_some, Option.map_eq_some_iff] at this
    obtain ⟨d', e4, e5⟩ := this
    exact ⟨d', xs, e4, by rw [e5]; exact e2, by rw [g.conns]; exact e3⟩
  · obtain ⟨ws, e1, e2⟩ := h.total i hi c hc vs (fun k => by
      have a := g.input i k
      have b := hv k
      cases e : f.input i k with
      | none =>
        rw [e] at a
        cases e' : f'.input i k with
        | none => rw [e'] at b; exact b
        | some c' => rw [e'] at a; cases a
      | some c =>
        obtain ⟨c', e', r⟩ := both_some a e
        rw [e'] at b
        cases e2 : vs k with
        | none => rw [e2] at b; cases b
        | some v =>
          rw [e2] at b
          have b : Fits true c'.ty v := b
          rw [r.ty] at b
          exact b)
    refine ⟨ws, e1, fun p hp => ?_⟩
    obtain ⟨c, c1, c2⟩ := e2 p hp
    obtain ⟨c', c3, c4⟩ := both_some (g.output i p.1) c1
    exact ⟨c', c3, by rw [c4.ty]; exact c2⟩
  · obtain ⟨c, t, e1, e2, e3, e4⟩ := h.wires s hs xs x (by rw [← g.conns]; exact h1) h2
    obtain ⟨c', c1, c2⟩ := both_some (g.output _ _) e1
    obtain ⟨t', t1, t2⟩ := both_some (g.input _ _) e2
    exact ⟨c', t', c1, t1, t2.static.trans e3, by rw [c2.ty, t2.ty]; exact e4⟩
  · obtain ⟨c0, e1, e2⟩ := both_back (g.output n k) hc
    exact e2.static.trans (h.dynamic n k c0 e1)

/-- All values are of their types. -/
structure Valid (l : List Nat) (f : Flow) : Prop where
  input : ∀ i ∈ l, ∀ k c v, f.input i k = some c → c.value = some v → Fits true c.ty v
  output : ∀ i ∈ l, ∀ k c v, f.output i k = some c → c.value = some v → Fits true c.ty v

theorem kept_fits {b : Bool} {c c' : Cont} (h : Kept b c c') (hc : ∀ v, c.value = some v → Fits true c.ty v) (v : Val) (hv : c'.value = some v) : Fits true c'.ty v := by
  rw [h.ty]
  rcases h.value with e | ⟨_, e⟩ | ⟨w, e1, e2⟩
  · exact hc v (e ▸ hv)
  · rw [e] at hv; cases hv
  · rw [e1] at hv; cases hv; exact e2

theorem valid_tame {l : List Nat} {f f' : Flow} (h : Valid l f) (g : Tame f f') : Valid l f' := by
  refine ⟨fun i hi k c v hc hv => ?_, fun i hi k c v hc hv => ?_⟩
  · obtain ⟨c0, e1, e2⟩ := both_back (g.input i k) hc
    exact kept_fits e2 (fun v hv => h.input i hi k c0 v e1 hv) v hv
  · obtain ⟨c0, e1, e2⟩ := both_back (g.output i k) hc
    exact kept_fits e2 (fun v hv => h.output i hi k c0 v e1 hv) v hv

/-- The input has a value. -/
def HasValue (f : Flow) (i : Nat) (k : String) : Prop := ∃ c v, f.input i k = some c ∧ c.value = some v

theorem hasValue_tame {f f' : Flow} (g : Tame f f') {i : Nat} {k : String} (h : HasValue f i k) : HasValue f' i k := by
  obtain ⟨c, v, e1, e2⟩ := h
  obtain ⟨c', e3, e4⟩ := both_some (g.input i k) e1
  rcases e4.value with e | ⟨e, _⟩ | ⟨w, e, _⟩
  · exact ⟨c', v, e3, e.trans e2⟩
  · cases e
  · exact ⟨c', w, e3, e⟩

/-- What has been set has been delivered. -/
def Fed (l : List Nat) (f : Flow) : Prop :=
  ∀ s ∈ l, ∀ xs x, f.conns.lookup s = some xs → x ∈ xs → ∀ c v, f.output s x.sourceKey = some c → c.value = some v → HasValue f x.target x.targetKey

/-- What holds all the time. -/
structure Inv (F : Nat → Option Calc) (l : List Nat) (f : Flow) : Prop where
  typed : Typed F l f
  valid : Valid l f
  fed : Fed l f

/-- Outputs have no values that they did not have. -/
def NoMore (f f' : Flow) : Prop := ∀ i k c' v, f'.output i k = some c' → c'.value = some v → ∃ c w, f.output i k = some c ∧ c.value = some w

theorem inv_tame {F : Nat → Option Calc} {l : List Nat} {f f' : Flow} (h : Inv F l f) (g : Tame f f') (e : NoMore f f') : Inv F l f' := by
  refine ⟨typed_tame h.typed g, valid_tame h.valid g, fun s hs xs x h1 h2 c v hc hv => ?_⟩
  obtain ⟨c0, w, e1, e2⟩ := e _ _ _ _ hc hv
  exact hasValue_tame g (h.fed s hs xs x (by rw [← g.conns]; exact h1) h2 c0 w e1 e2)

theorem noMore_allOutputs (f : Flow) (n : Nat) {g : Cont → Cont} (h : ∀ c v, (g c).value = some v → c.value = some v) : NoMore f (f.allOutputs n g) := by
  intro i k c' v hc hv
  rw [output_allOutputs] at hc
  split at hc
  · obtain ⟨c, e1, e2⟩ := Option.map_eq_some_iff.1 hc
    subst e2
    exact ⟨c, v, e1, h c v hv⟩
  · exact ⟨c', v, hc, hv⟩

theorem inv_untick {F : Nat → Option Calc} {l : List Nat} {f : Flow} (h : Inv F l f) (n : Nat) :
    Inv F l (f.allOutputs n Cont.resetUpdated) ∧ Tame f (f.allOutputs n Cont.resetUpdated) :=
  have t := tame_allOutputs f n (g := Cont.resetUpdated) fun _ => ⟨rfl, rfl, .inl rfl⟩
  ⟨inv_tame h t (noMore_allOutputs f n fun _ _ h => h), t⟩

theorem inv_reset {F : Nat → Option Calc} {l : List Nat} {f : Flow} (h : Inv F l f) (n : Nat) : Inv F l (f.reset n) ∧ Tame f (f.reset n) := by
  refine ⟨inv_tame h (tame_reset f n) fun i k c v hc hv => ?_, tame_reset f n⟩
  unfold Flow.reset at hc
  obtain ⟨c0, w, e1, e2⟩ := noMore_allOutputs _ n (g := fun c => c.resetValue.resetUpdated) (fun c v hv => by
    unfold Cont.resetValue at hv
    split at hv
    · exact hv
    · cases hv) i k c v hc hv
  rw [output_allInputs] at e1
  exact ⟨c0, w, e1, e2⟩

/-! ### Ticks of nodes -/

theorem begin_ok {F : Nat → Option Calc} {l : List Nat} {f : Flow} (h : Inv F l f) {i : Nat} (hi : i ∈ l) (hv : ∀ k c, f.input i k = some c → HasValue f i k) :
    f.begin i = (f.allOutputs i Cont.resetUpdated, .ok) := by
  obtain ⟨d, xs, e1, e2, _⟩ := h.typed.known i hi
  unfold Flow.begin
  rw [e1]
  dsimp only
  rw [if_pos]
  rw [List.all_eq_true]
  intro p hp
  have hl : ∀ (ds : List (String × Cont)), (ds.map (·.1)).Nodup → p ∈ ds → ds.lookup p.1 = some p.2 := by
    intro ds
    induction ds with
    | nil => exact fun _ h => by cases h
    | cons q ds ih =>
      intro hn hm
      rw [List.map_cons, List.nodup_cons] at hn
      rcases List.mem_cons.1 hm with rfl | hm
      · simp [List.lookup]
      · have : (p.1 == q.1) = false := by
          simp only [beq_eq_false_iff_ne]
          intro e
          exact hn.1 (e ▸ List.mem_map.2 ⟨p, hm, rfl⟩)
        simp only [List.lookup, this]
        exact ih hn.2 hm
  have e3 : f.input i p.1 = some p.2 := by
    unfold Flow.input
    rw [e1]
    exact hl _ e2 hp
  obtain ⟨c, v, c1, c2⟩ := hv _ _ e3
  rw [e3] at c1
  cases c1
  simp [c2]

theorem set_dynamic {c : Cont} {v : Val} (hs : c.isStatic = false) (hf : Fits true c.ty v) : (c.set v).2 = .ok := by
  unfold Cont.set
  rw [(check_ok _ _).2 hf]
  dsimp only
  unfold Cont.assign
  rw [hs]
  rfl

/-- Pushing along wirings that fit succeeds, and what is sent arrives. -/
theorem pushConns_ok {l : List Nat} {s : Nat} (hs : s ∈ l) : ∀ (xs : List Conn) (f : Flow), Valid l f →
    (∀ x ∈ xs, ∃ c t, f.output s x.sourceKey = some c ∧ f.input x.target x.targetKey = some t ∧ t.isStatic = false ∧ ∀ v, Fits true c.ty v → Fits true t.ty v) →
    ∃ f', pushConns s xs f = (f', .ok) ∧ Tame f f' ∧ (∀ n k, f'.output n k = f.output n k) ∧
      ∀ x ∈ xs, ∀ v, Sends f s x v → HasValue f' x.target x.targetKey
  | [], f, _, _ => ⟨f, rfl, Tame.refl f, fun _ _ => rfl, fun _ h => by cases h⟩
  | x :: xs, f, hv, hx => by
    obtain ⟨c, t, e1, e2, e3, e4⟩ := hx x List.mem_cons_self
    have skip : (∀ v, ¬ Sends f s x v) → pushConns s (x :: xs) f = pushConns s xs f → ∃ f', pushConns s (x :: xs) f = (f', .ok) ∧ Tame f f' ∧ (∀ n k, f'.output n k = f.output n k) ∧
        ∀ y ∈ x :: xs, ∀ v, Sends f s y v → HasValue f' y.target y.targetKey := by
      intro hn he
      obtain ⟨f', i1, i2, i3, i4⟩ := pushConns_ok hs xs f hv fun y hy => hx y (List.mem_cons_of_mem _ hy)
      refine ⟨f', he.trans i1, i2, i3, fun y hy v hsend => ?_⟩
      rcases List.mem_cons.1 hy with rfl | hy
      · exact absurd hsend (hn v)
      · exact i4 y hy v hsend
    cases hu : c.updated with
    | false =>
      refine skip (fun v ⟨c', g1, g2, _⟩ => ?_) ?_
      · rw [e1] at g1; cases g1; rw [hu] at g2; cases g2
      · simp only [pushConns, e1, hu]; rfl
    | true =>
      cases hval : c.value with
      | none =>
        refine skip (fun v ⟨c', g1, _, g3⟩ => ?_) ?_
        · rw [e1] at g1; cases g1; rw [hval] at g3; cases g3
        · simp only [pushConns, e1, hu, hval]; rfl
      | some v =>
        have hok := set_dynamic e3 (e4 v (hv.output s hs _ c v e1 hval))
        have hd : f.deliver x.target x.targetKey v = (f.setInput x.target x.targetKey (t.set v).1, .ok) := by
          unfold Flow.deliver
          rw [e2]
          dsimp only
          rw [hok]
        have tm := tame_setInput f e2 (kept_set false t v)
        have out : ∀ n k, (f.setInput x.target x.targetKey (t.set v).1).output n k = f.output n k := fun n k => output_setInput ..
        have here : HasValue (f.setInput x.target x.targetKey (t.set v).1) x.target x.targetKey := by
          obtain ⟨w, w1, _⟩ := set_ok hok
          refine ⟨(t.set v).1, w, ?_, w1⟩
          rw [input_setInput, if_pos ⟨rfl, rfl⟩, e2]
          rfl
        generalize f.setInput x.target x.targetKey (t.set v).1 = g at hd tm out here
        obtain ⟨f', i1, i2, i3, i4⟩ := pushConns_ok hs xs g (valid_tame hv tm) fun y hy => by
          obtain ⟨c', t', g1, g2, g3, g4⟩ := hx y (List.mem_cons_of_mem _ hy)
          obtain ⟨t2, k1, k2⟩ := both_some (tm.input _ _) g2
          exact ⟨c', t2, by rw [out]; exact g1, k1, k2.static.trans g3, by rw [k2.ty]; exact g4⟩
        refine ⟨f', ?_, tm.trans i2, fun n k => (i3 n k).trans (out n k), fun y hy w hsend => ?_⟩
        · simp only [pushConns, e1, hu, hval, hd, i1]; rfl
        · rcases List.mem_cons.1 hy with rfl | hy
          · exact hasValue_tame i2 here
          · refine i4 y hy w ?_
            obtain ⟨c', g1, g2, g3⟩ := hsend
            exact ⟨c', by rw [out]; exact g1, g2, g3⟩

theorem pushOutgoing_none (s : Nat) : ∀ (ds : List (String × Cont)) (f : Flow), f.outgoing = [] → pushOutgoing s ds f = (f, .ok)
  | [], _, _ => rfl
  | (k, c) :: ds, f, h => by
    simp only [pushOutgoing, h, List.lookup]
    split <;> exact pushOutgoing_none s ds f h

/-- The end of a tick: it succeeds, and what was sent has arrived. -/
theorem finish_ok {F : Nat → Option Calc} {l : List Nat} {f : Flow} (ht : Typed F l f) (hv : Valid l f) {s : Nat} (hs : s ∈ l) :
    ∃ f', f.finish s = (f', .ok) ∧ Tame f f' ∧ (∀ n k, f'.output n k = f.output n k) ∧
      ∀ xs x, f.conns.lookup s = some xs → x ∈ xs → ∀ v, Sends f s x v → HasValue f' x.target x.targetKey := by
  have tm := tame_allInputs f s (g := Cont.resetUpdated) fun _ => ⟨rfl, rfl, .inl rfl⟩
  have out : ∀ n k, (f.allInputs s Cont.resetUpdated).output n k = f.output n k := fun n k => output_allInputs ..
  unfold Flow.finish
  generalize f.allInputs s Cont.resetUpdated = g at tm out
  have htg := typed_tame ht tm
  obtain ⟨d, xs, e1, _, e3⟩ := htg.known s hs
  obtain ⟨f', i1, i2, i3, i4⟩ := pushConns_ok hs xs g (valid_tame hv tm) (fun x hx => htg.wires s hs xs x e3 hx)
  refine ⟨f', ?_, tm.trans i2, fun n k => (i3 n k).trans (out n k), fun ys x h1 h2 v hsend => ?_⟩
  · unfold Flow.pushOutputs
    rw [e1, e3]
    dsimp only
    rw [i1]
    exact pushOutgoing_none s _ f' (i2.outgoing.trans htg.outgoing)
  · rw [← tm.conns, e3] at h1
    cases h1
    obtain ⟨c', g1, g2, g3⟩ := hsend
    exact i4 x h2 v ⟨c', by rw [out]; exact g1, g2, g3⟩

/-- Setting outputs that exist, to values of their types. -/
theorem writes_ok (o : Ops N) (id : Nat) (m : M) (cs : List N) : ∀ (ws : List (String × Val)) (y : Sys), (ws.map (·.1)).Nodup → DynamicOutputs y.flow →
    (∀ p ∈ ws, ∃ c, y.flow.output id p.1 = some c ∧ Fits true c.ty p.2) →
    ∃ y', exec o id (writeAll m ws) cs y = ⟨cs, m, .ok .succeeded, y', []⟩ ∧ Tame y.flow y'.flow ∧ (∀ n k, n ≠ id → y'.flow.output n k = y.flow.output n k) ∧
      (∀ k, k ∉ ws.map (·.1) → y'.flow.output id k = y.flow.output id k) ∧
      ∀ k ∈ ws.map (·.1), ∃ c c' v, y.flow.output id k = some c ∧ y'.flow.output id k = some c' ∧ c'.value = some v ∧ (c'.value = c.value ∨ c'.updated = true)
  | [], y, _, _, _ => ⟨y, rfl, Tame.refl _, fun _ _ _ => rfl, fun _ _ => rfl, fun _ h => by cases h⟩
  | (k, v) :: ws, y, hn, hd, hw => by
    rw [List.map_cons, List.nodup_cons] at hn
    obtain ⟨c, e1, e2⟩ := hw (k, v) List.mem_cons_self
    dsimp only at e1 e2
    have hok := set_dynamic (hd _ _ _ e1) e2
    have hst : y.flow.step (.write id k v) = (y.flow.setOutput id k (c.set v).1, .ok) := by
      simp only [Flow.step, Flow.write, e1, hok]
    have tm := tame_setOutput y.flow e1 (kept_set true c v)
    have other : ∀ n j, ¬ (n = id ∧ j = k) → (y.flow.setOutput id k (c.set v).1).output n j = y.flow.output n j := fun n j h => by rw [output_setOutput, if_neg h]
    have here : (y.flow.setOutput id k (c.set v).1).output id k = some (c.set v).1 := by rw [output_setOutput, if_pos ⟨rfl, rfl⟩, e1]; rfl
    simp only [writeAll, exec, hst, if_true]
    generalize y.flow.setOutput id k (c.set v).1 = g at tm other here
    obtain ⟨y', i1, i2, i3, i4, i5⟩ := writes_ok o id m cs ws { y with flow := g } hn.2
      (fun n j c' hc' => by
        obtain ⟨c0, g1, g2⟩ := both_back (tm.output n j) hc'
        exact g2.static.trans (hd n j c0 g1))
      (fun p hp => by
        obtain ⟨c', g1, g2⟩ := hw p (List.mem_cons_of_mem _ hp)
        refine ⟨c', ?_, g2⟩
        show g.output id p.1 = _
        rw [other _ _ fun e => hn.1 (e.2 ▸ List.mem_map.2 ⟨p, hp, rfl⟩)]
        exact g1)
    refine ⟨y', i1, tm.trans i2, fun n j hne => (i3 n j hne).trans (other n j fun e => hne e.1), fun j hj => ?_, fun j hj => ?_⟩
    · rw [List.map_cons, List.mem_cons, not_or] at hj
      exact (i4 j hj.2).trans (other id j fun e => hj.1 e.2)
    · rw [List.map_cons, List.mem_cons] at hj
      rcases hj with rfl | hj
      · obtain ⟨w, w1, _⟩ := set_ok hok
        exact ⟨c, (c.set v).1, w, e1, (i4 _ hn.1).trans here, w1, set_marked c v⟩
      · obtain ⟨c0, c1, w, g1, g2⟩ := i5 j hj
        have hjk : j ≠ k := fun e => hn.1 (e ▸ hj)
        exact ⟨c0, c1, w, (other id j fun e => hjk e.2).symm.trans g1, g2⟩

/-- The targets of all wirings from nodes of `l` have values. -/
def Served (l : List Nat) (f : Flow) : Prop := ∀ s ∈ l, ∀ xs x, f.conns.lookup s = some xs → x ∈ xs → HasValue f x.target x.targetKey

/-- Inputs of nodes of `l` have values, unless they are wired to nodes of `l`. -/
def Need (l : List Nat) (f : Flow) : Prop := ∀ i ∈ l, ∀ k c, f.input i k = some c → Free l f.conns i k → HasValue f i k

theorem served_tame {l : List Nat} {f f' : Flow} (h : Served l f) (g : Tame f f') : Served l f' :=
  fun s hs xs x h1 h2 => hasValue_tame g (h s hs xs x (by rw [← g.conns]; exact h1) h2)

theorem need_tame {l : List Nat} {f f' : Flow} (h : Need l f) (g : Tame f f') : Need l f' := by
  intro i hi k c hc hf
  obtain ⟨c0, e1, _⟩ := both_back (g.input i k) hc
  exact hasValue_tame g (h i hi k c0 e1 (by rw [← g.conns]; exact hf))

/-- How a tick goes whose hook SUCCEEDS. -/
theorem tick_goes {o : Ops N} {nd : Node M N} {y z : Sys} {f1 f2 : Flow} {cs : List N} {m : M} {sn : List Snap} (ha : BT.accepts .tick nd.state = true)
    (hb : y.flow.begin nd.id = (f1, .ok)) (hx : exec o nd.id (nd.body o .tick) nd.children (Sys.enter { y with flow := f1 } nd.id .active) = ⟨cs, m, .ok .succeeded, z, sn⟩)
    (hf : z.flow.finish nd.id = (f2, .ok)) :
    ∃ sn', Node.tick o nd y = ⟨nd.after ⟨cs, m, .ok .succeeded, z, sn⟩ .succeeded, .ok .succeeded, Sys.enter { z with flow := f2 } nd.id .idle, sn'⟩ := by
  unfold Node.tick
  rw [if_pos ha]
  simp only [Flow.step, hb, if_true, hx, hf, show BT.allowedAfter .tick .succeeded = true from rfl]
  exact ⟨_, rfl⟩

theorem given_values {F : Nat → Option Calc} {l : List Nat} {f : Flow} (h : Inv F l f) {i : Nat} (hi : i ∈ l) (hv : ∀ k c, f.input i k = some c → HasValue f i k) (k : String) :
    Given (f.input i k) (values f i k) := by
  unfold values
  cases e : f.input i k with
  | none => trivial
  | some c =>
    obtain ⟨c', v, e1, e2⟩ := hv k c e
    rw [e] at e1
    cases e1
    simp only [Option.bind_some, e2]
    exact h.valid.input i hi k c v e e2

/-- What a tick leads to. -/
structure Went (F : Nat → Option Calc) (L : List Nat) (P : N → Prop) (l : List Nat) (y : Sys) (out : Out N) : Prop where
  res : out.res = .ok .succeeded
  keep : P out.node
  inv : Inv F L out.sys.flow
  tame : Tame y.flow out.sys.flow
  served : Served l out.sys.flow

theorem steady_after {F : Nat → Option Calc} {P : N → Prop} {nd : Node (Mem × S) N} (h : nodeSteady F P nd) (x : Done (Mem × S) N) (s : BTState) (hs : BT.accepts .tick s = true)
    (hl : x.children.length = nd.children.length) (hc : ∀ c ∈ x.children, P c) : nodeSteady F P (nd.after x s) :=
  ⟨hs, fun g hg => ⟨List.eq_nil_of_length_eq_zero (by show x.children.length = 0; rw [hl, (h.leaf g hg).1]; rfl), (h.leaf g hg).2⟩, h.inner, hc⟩

theorem leaf_tick {F : Nat → Option Calc} (hF : Once F) {L : List Nat} {P : N → Prop} {o : Ops N} {nd : Node (Mem × S) N} {g : Calc} (hs : nodeSteady F P nd) (hk : F nd.id = some g) {y : Sys}
    (inv : Inv F L y.flow) (hi : nd.id ∈ L) (hsup : Supplies F L y.flow.conns) (hv : ∀ k c, y.flow.input nd.id k = some c → HasValue y.flow nd.id k) :
    Went F L (nodeSteady F P) [nd.id] y (Node.tick o nd y) := by
  have hb := begin_ok inv hi hv
  obtain ⟨inv1, tm1⟩ := inv_untick inv nd.id
  have out1 : ∀ n k, (y.flow.allOutputs nd.id Cont.resetUpdated).output n k = if n = nd.id then (y.flow.output n k).map Cont.resetUpdated else y.flow.output n k :=
    fun n k => output_allOutputs ..
  generalize y.flow.allOutputs nd.id Cont.resetUpdated = f1 at hb inv1 tm1 out1
  have hv1 : ∀ k c, f1.input nd.id k = some c → HasValue f1 nd.id k := by
    intro k c hc
    obtain ⟨c0, e1, _⟩ := both_back (tm1.input nd.id k) hc
    exact hasValue_tame tm1 (hv k c0 e1)
  obtain ⟨ws, e1, e2⟩ := inv1.typed.total nd.id hi g hk (values f1 nd.id) (given_values inv1 hi hv1)
  obtain ⟨z, x1, x2, x3, x4, x5⟩ := writes_ok o nd.id nd.mem nd.children ws (Sys.enter { y with flow := f1 } nd.id .active) (hF nd.id g _ ws hk e1) inv1.typed.dynamic e2
  have x2 : Tame f1 z.flow := x2
  have x3 : ∀ n k, n ≠ nd.id → z.flow.output n k = f1.output n k := x3
  have x4 : ∀ k, k ∉ ws.map (·.1) → z.flow.output nd.id k = f1.output nd.id k := x4
  have x5 : ∀ k ∈ ws.map (·.1), ∃ c c' v, f1.output nd.id k = some c ∧ z.flow.output nd.id k = some c' ∧ c'.value = some v ∧ (c'.value = c.value ∨ c'.updated = true) := x5
  have hx : exec o nd.id (nd.body o .tick) nd.children (Sys.enter { y with flow := f1 } nd.id .active) = ⟨nd.children, nd.mem, .ok .succeeded, z, []⟩ := by
    have : nd.body o .tick = compute g nd.mem := (hs.leaf g hk).2.1 ..
    rw [this, ← x1]
    have hv : (fun k => (((f1.nodes.lookup nd.id).getD ⟨[], []⟩).inputs.lookup k).bind (·.value)) = values f1 nd.id := by
      funext k
      unfold values Flow.input
      cases f1.nodes.lookup nd.id <;> rfl
    show exec o nd.id (match g fun k => (((f1.nodes.lookup nd.id).getD ⟨[], []⟩).inputs.lookup k).bind (·.value) with
      | .fails => .done nd.mem (.ok .failed)
      | .raises => .done nd.mem .err
      | .sets ws => writeAll nd.mem ws) _ _ = _
    rw [hv, e1]
  have ty2 := typed_tame inv1.typed x2
  have va2 := valid_tame inv1.valid x2
  obtain ⟨f2, y1, y2, y3, y4⟩ := finish_ok ty2 va2 hi
  obtain ⟨sn, e⟩ := tick_goes hs.up hb hx y1
  rw [e]
  have tm := tm1.trans (x2.trans y2)
  -- an output of the own that has a value was delivered
  have mine : ∀ xs x, f2.conns.lookup nd.id = some xs → x ∈ xs → ∀ c v, f2.output nd.id x.sourceKey = some c → c.value = some v → HasValue f2 x.target x.targetKey := by
    intro xs x h1 h2 c v hc hval
    have h3 : y.flow.conns.lookup nd.id = some xs := by rw [← tm.conns]; exact h1
    rw [y3] at hc
    have old : ∀ c0, f1.output nd.id x.sourceKey = some c0 → c0.value = some v → HasValue f2 x.target x.targetKey := by
      intro c0 hc0 hv0
      exact hasValue_tame (x2.trans y2) (inv1.fed nd.id hi xs x (by rw [tm1.conns]; exact h3) h2 c0 v hc0 hv0)
    by_cases hm : x.sourceKey ∈ ws.map (·.1)
    · obtain ⟨c0, c', w, g1, g2, g3, g4⟩ := x5 _ hm
      rw [hc] at g2
      cases g2
      rcases g4 with g4 | g4
      · exact old c0 g1 (g4 ▸ hval)
      · exact y4 xs x (by rw [(tm1.trans x2).conns]; exact h3) h2 v ⟨c, hc, g4, hval⟩
    · rw [x4 _ hm] at hc
      exact old c hc hval
  refine ⟨rfl, steady_after hs _ _ rfl rfl hs.below, ⟨typed_tame inv.typed tm, valid_tame inv.valid tm, fun s hsL xs x h1 h2 c v hc hval => ?_⟩, tm, fun s hsl xs x h1 h2 => ?_⟩
  · by_cases hsn : s = nd.id
    · subst hsn
      exact mine xs x h1 h2 c v hc hval
    · have h1 : f2.conns.lookup s = some xs := h1
      have hc : f2.output s x.sourceKey = some c := hc
      rw [y3, x3 _ _ hsn] at hc
      exact hasValue_tame (x2.trans y2) (inv1.fed s hsL xs x (by rw [← (x2.trans y2).conns]; exact h1) h2 c v hc hval)
  · rw [List.mem_singleton.1 hsl] at h1
    have h1 : f2.conns.lookup nd.id = some xs := h1
    obtain ⟨c0, c', v, _, g2, g3, _⟩ := x5 _ (hsup nd.id hi g hk xs x (by rw [← tm.conns]; exact h1) h2 _ ws e1)
    exact mine xs x h1 h2 c' v (by rw [y3]; exact g2) g3

/-! ### Sequences -/

/-- What untick and reset lead to. -/
structure Rested (F : Nat → Option Calc) (L : List Nat) (P : N → Prop) (y : Sys) (out : Out N) : Prop where
  res : out.res = .ok .idle
  keep : P out.node
  inv : Inv F L out.sys.flow
  tame : Tame y.flow out.sys.flow

/-- All operations answer as they should. -/
structure Works (F : Nat → Option Calc) (L : List Nat) (o : Ops N) (nos : N → List Nat) (P : N → Prop) : Prop where
  rest : ∀ a c y, a ≠ .tick → P c → Inv F L y.flow → Rested F L P y (o.run a c y)
  tick : ∀ c y, P c → (∀ i ∈ nos c, i ∈ L) → Forward F (nos c) y.flow.conns → Supplies F L y.flow.conns → Inv F L y.flow → Need (nos c) y.flow →
    Went F L P (nos c) y (o.run .tick c y)

theorem forAll_ok {F : Nat → Option Calc} {L : List Nat} {o : Ops N} {nos : N → List Nat} {P : N → Prop} (ho : Contained o nos) (hw : Works F L o nos P) (id : Nat) (a : Act) (ha : a ≠ .tick)
    (s : S) (m : Mem) (k : Prog) : ∀ (is : List Nat) (cs : List N) (y : Sys), (∀ i ∈ is, i < cs.length) → (∀ c ∈ cs, P c) → Inv F L y.flow →
      ∃ cs' y' sn, exec o id (Refine.plain s (Prog.forAll a.op m is k)) cs y = { exec o id (Refine.plain s k) cs' y' with seen := sn } ∧ cs'.map nos = cs.map nos ∧
        (∀ c ∈ cs', P c) ∧ Inv F L y'.flow ∧ Tame y.flow y'.flow
  | [], cs, y, _, hP, hi => ⟨cs, y, _, rfl, rfl, hP, hi, Tame.refl _⟩
  | i :: is, cs, y, hl, hP, hi => by
    have e : ∀ q, Refine.plain s (Prog.call a.op i q) = .call a i fun r => Refine.plain s (q r) := by intro q; cases a <;> rfl
    have hlt := hl i List.mem_cons_self
    have hc : cs[i]? = some cs[i] := List.getElem?_eq_getElem hlt
    have hm := List.getElem_mem hlt
    generalize cs[i] = c at hc hm
    simp only [Prog.forAll, e, exec, hc]
    have r := hw.rest a c y ha (hP c hm) hi
    have hn := map_set_same hc (ho a c y).2
    generalize o.run a c y = out at r hn
    rw [r.res]
    dsimp only
    obtain ⟨cs', y', sn, i1, i2, i3, i4, i5⟩ := forAll_ok ho hw id a ha s m k is (cs.set i out.node) out.sys (fun j hj => by rw [List.length_set]; exact hl j (List.mem_cons_of_mem _ hj))
      (fun d hd => by
        rcases List.mem_or_eq_of_mem_set hd with g | g
        · exact hP d g
        · subst g; exact r.keep) r.inv
    exact ⟨cs', y', out.seen ++ sn, by rw [i1], i2.trans hn, i3, i4, r.tame.trans i5⟩

/-- The children before the `j`-th have been ticked: the next one has what it needs. -/
theorem need_child {F : Nat → Option Calc} {nos : N → List Nat} {cs : List N} {f : Flow} (hf : Forward F (cs.flatMap nos) f.conns) (hn : Need (cs.flatMap nos) f) {j : Nat} {c : N} (hc : cs[j]? = some c)
    (hs : ∀ i d, i < j → cs[i]? = some d → Served (nos d) f) : Need (nos c) f := by
  intro i hi k e he hfree
  have him : i ∈ cs.flatMap nos := List.mem_flatMap.2 ⟨c, List.mem_of_getElem? hc, hi⟩
  by_cases hk : Free (cs.flatMap nos) f.conns i k
  · exact hn i him k e he hk
  · simp only [Free, Classical.not_forall, Classical.not_not] at hk
    obtain ⟨s, hsl, xs, x, h1, h2, e1, e2⟩ := hk
    obtain ⟨d, hd, hsd⟩ := List.mem_flatMap.1 hsl
    obtain ⟨n, hn'⟩ := List.mem_iff_getElem?.1 hd
    rcases Nat.lt_trichotomy n j with g | g | g
    · have := hs n d g hn' s hsd xs x h1 h2
      rw [e1, e2] at this
      exact this
    · subst g
      rw [hc] at hn'
      cases hn'
      exact absurd ⟨e1, e2⟩ (hfree s hsd xs x h1 h2)
    · obtain ⟨l1, rfl⟩ := List.getElem?_eq_some_iff.1 hn'
      obtain ⟨l2, rfl⟩ := List.getElem?_eq_some_iff.1 hc
      exact absurd ⟨xs, x, h1, h2, e1⟩ (List.pairwise_iff_getElem.1 (List.pairwise_flatMap.1 hf.order).2 j n l2 l1 g i hi s hsd)

theorem loop_ok {F : Nat → Option Calc} {L : List Nat} {o : Ops N} {nos : N → List Nat} {P : N → Prop} (ho : Contained o nos) (hw : Works F L o nos P) (id : Nat) (s : S) (m : Mem) :
    ∀ (k j : Nat) (cs : List N) (y : Sys), j + k = cs.length → (∀ c ∈ cs, P c) → (∀ i ∈ cs.flatMap nos, i ∈ L) → Forward F (cs.flatMap nos) y.flow.conns → Supplies F L y.flow.conns →
      Inv F L y.flow → Need (cs.flatMap nos) y.flow → (∀ i d, i < j → cs[i]? = some d → Served (nos d) y.flow) →
      ∃ cs' y' sn, exec o id (Refine.plain s (Prog.seqLoop false m (List.range' j k))) cs y = ⟨cs', (m, s), .ok .succeeded, y', sn⟩ ∧ cs'.map nos = cs.map nos ∧ (∀ c ∈ cs', P c) ∧
        Inv F L y'.flow ∧ Tame y.flow y'.flow ∧ Served (cs.flatMap nos) y'.flow
  | 0, j, cs, y, hl, hP, _, _, _, hi, _, hs => by
    refine ⟨cs, y, [], rfl, rfl, hP, hi, Tame.refl _, fun i him => ?_⟩
    obtain ⟨c, hc, him⟩ := List.mem_flatMap.1 him
    obtain ⟨n, hn⟩ := List.mem_iff_getElem?.1 hc
    exact hs n c (by have := (List.getElem?_eq_some_iff.1 hn).1; omega) hn i him
  | k + 1, j, cs, y, hl, hP, hL, hf, hsup, hi, hn, hs => by
    have hj : j < cs.length := by omega
    have hc : cs[j]? = some cs[j] := List.getElem?_eq_getElem hj
    have hm := List.getElem_mem hj
    generalize cs[j] = c at hc hm
    simp only [List.range'_succ, Prog.seqLoop, Refine.plain, exec, hc]
    have r := hw.tick c y (hP c hm) (fun i h => hL i (List.mem_flatMap.2 ⟨c, hm, h⟩)) (forward_child hf hm) hsup hi (need_child hf hn hc hs)
    have hnos := map_set_same hc (ho .tick c y).2
    generalize o.run .tick c y = out at r hnos
    rw [r.res]
    simp only [if_true]
    have fm := flatMap_congr hnos
    obtain ⟨cs', y', sn, i1, i2, i3, i4, i5, i6⟩ := loop_ok ho hw id s m k (j + 1) (cs.set j out.node) out.sys (by rw [List.length_set]; omega)
      (fun d hd => by
        rcases List.mem_or_eq_of_mem_set hd with g | g
        · exact hP d g
        · subst g; exact r.keep)
      (by rw [fm]; exact hL) (by rw [fm, r.tame.conns]; exact hf) (by rw [r.tame.conns]; exact hsup) r.inv (by rw [fm]; exact need_tame hn r.tame)
      (fun i d hi hd => by
        have hd' : (cs.set j out.node)[i]?.map nos = cs[i]?.map nos := by
          have := congrArg (fun l => l[i]?) hnos
          simpa only [List.getElem?_map] using this
        rw [hd, Option.map_some] at hd'
        cases hci : cs[i]? with
        | none => rw [hci] at hd'; cases hd'
        | some d' =>
          rw [hci, Option.map_some] at hd'
          rw [Option.some.inj hd']
          by_cases hij : i = j
          · subst hij
            rw [hc] at hci
            cases hci
            exact r.served
          · exact served_tame (hs i d' (by omega) hci) r.tame)
    rw [fm] at i6
    exact ⟨cs', y', out.seen ++ sn, by rw [i1], i2.trans hnos, i3, i4, r.tame.trans i5, i6⟩

theorem inner_tick {F : Nat → Option Calc} {L : List Nat} {o : Ops N} {nos : N → List Nat} {P : N → Prop} (ho : Contained o nos) (hw : Works F L o nos P) {nd : Node (Mem × S) N}
    (hs : nodeSteady F P nd) (hk : F nd.id = none) {y : Sys} (hL : ∀ i ∈ nodeNos nos nd, i ∈ L) (hf : Forward F (nodeNos nos nd) y.flow.conns) (hsup : Supplies F L y.flow.conns)
    (inv : Inv F L y.flow) (hn : Need (nodeNos nos nd) y.flow) : Went F L (nodeSteady F P) (nodeNos nos nd) y (Node.tick o nd y) := by
  have hi := hL nd.id List.mem_cons_self
  have unwired : ∀ b, ¬ Wired y.flow.conns nd.id b := hf.inner nd.id List.mem_cons_self hk
  have hv : ∀ k c, y.flow.input nd.id k = some c → HasValue y.flow nd.id k := by
    intro k c hc
    refine hn nd.id List.mem_cons_self k c hc fun s hs' xs x h1 h2 e => ?_
    have w : Wired y.flow.conns s nd.id := ⟨xs, x, h1, h2, e.1⟩
    rcases List.mem_cons.1 hs' with rfl | hs'
    · exact unwired _ w
    · exact (List.pairwise_cons.1 hf.order).1 s hs' w
  have hb := begin_ok inv hi hv
  obtain ⟨inv1, tm1⟩ := inv_untick inv nd.id
  generalize y.flow.allOutputs nd.id Cont.resetUpdated = f1 at hb inv1 tm1
  have hf1 : Forward F (nd.children.flatMap nos) f1.conns := by
    rw [tm1.conns]
    exact ⟨(List.pairwise_cons.1 hf.order).2, fun a ha => hf.self a (List.mem_cons_of_mem _ ha), fun a ha => hf.inner a (List.mem_cons_of_mem _ ha)⟩
  have hn1 : Need (nd.children.flatMap nos) f1 := by
    intro i him k c hc hfree
    refine need_tame hn tm1 i (List.mem_cons_of_mem _ him) k c hc fun s hs' xs x h1 h2 e => ?_
    rcases List.mem_cons.1 hs' with rfl | hs'
    · exact unwired _ ⟨xs, x, by rw [← tm1.conns]; exact h1, h2, rfl⟩
    · exact hfree s hs' xs x h1 h2 e
  have body : nd.body o .tick = Refine.plain nd.mem.2 (if nd.children.length = 0 then .done nd.mem.1 (.ok .succeeded) else
      Prog.resetIfFinished nd.children.length nd.state nd.mem.1 (Prog.seqLoop false nd.mem.1 (List.range nd.children.length))) := by
    have : nd.body o .tick = Refine.plain nd.mem.2 (hookProg .sequence .tick nd.state nd.mem.1 {} (nd.children.map o.name)) := hs.inner hk .tick ..
    rw [this]
    simp only [hookProg, BT.tickHook, List.length_map]
  have run : ∃ cs' z sn, exec o nd.id (nd.body o .tick) nd.children (Sys.enter { y with flow := f1 } nd.id .active) = ⟨cs', nd.mem, .ok .succeeded, z, sn⟩ ∧
      cs'.map nos = nd.children.map nos ∧ (∀ c ∈ cs', P c) ∧ Inv F L z.flow ∧ Tame f1 z.flow ∧ Served (nd.children.flatMap nos) z.flow := by
    rw [body]
    split
    · rename_i h0
      have h0 := List.eq_nil_of_length_eq_zero h0
      exact ⟨nd.children, _, [], rfl, rfl, hs.below, inv1, Tame.refl _, by rw [h0]; exact fun i h => by cases h⟩
    · unfold Prog.resetIfFinished
      split
      · obtain ⟨cs', y', sn, i1, i2, i3, i4, i5⟩ := forAll_ok ho hw nd.id .reset (by simp) nd.mem.2 nd.mem.1 (Prog.seqLoop false nd.mem.1 (List.range nd.children.length))
          (List.range nd.children.length) nd.children (Sys.enter { y with flow := f1 } nd.id .active) (fun i h => List.mem_range.1 h) hs.below inv1
        have fm := flatMap_congr i2
        have i5 : Tame f1 y'.flow := i5
        obtain ⟨cs2, z, sn2, j1, j2, j3, j4, j5, j6⟩ := loop_ok ho hw nd.id nd.mem.2 nd.mem.1 nd.children.length 0 cs' y' (by rw [length_congr i2]; omega) i3
          (by rw [fm]; exact fun i h => hL i (List.mem_cons_of_mem _ h)) (by rw [fm, i5.conns]; exact hf1) (by rw [i5.conns, tm1.conns]; exact hsup) i4
          (by rw [fm]; exact need_tame hn1 i5) (fun i d h => absurd h (Nat.not_lt_zero _))
        rw [fm] at j6
        rw [show Op.reset = Act.op .reset from rfl, i1, List.range_eq_range', j1]
        exact ⟨cs2, z, sn, rfl, j2.trans i2, j3, j4, i5.trans j5, j6⟩
      · obtain ⟨cs2, z, sn2, j1, j2, j3, j4, j5, j6⟩ := loop_ok ho hw nd.id nd.mem.2 nd.mem.1 nd.children.length 0 nd.children (Sys.enter { y with flow := f1 } nd.id .active) (by omega) hs.below
          (fun i h => hL i (List.mem_cons_of_mem _ h)) hf1 (by show Supplies F L f1.conns; rw [tm1.conns]; exact hsup) inv1 hn1 (fun i d h => absurd h (Nat.not_lt_zero _))
        rw [List.range_eq_range', j1]
        exact ⟨cs2, z, sn2, rfl, j2, j3, j4, j5, j6⟩
  obtain ⟨cs', z, sn, x1, x2, x3, x4, x5, x6⟩ := run
  obtain ⟨f2, y1, y2, y3, _⟩ := finish_ok x4.typed x4.valid hi
  obtain ⟨sn', e⟩ := tick_goes hs.up hb x1 y1
  rw [e]
  have inv2 : Inv F L f2 := inv_tame x4 y2 fun i k c v hc hv => ⟨c, v, by rw [← y3]; exact hc, hv⟩
  refine ⟨rfl, steady_after hs _ _ rfl (length_congr x2) x3, inv2, tm1.trans (x5.trans y2), fun s hs' xs x h1 h2 => ?_⟩
  rcases List.mem_cons.1 hs' with rfl | hs'
  · have h1 : f2.conns.lookup nd.id = some xs := h1
    exact absurd ⟨xs, x, by rw [← (tm1.trans (x5.trans y2)).conns]; exact h1, h2, rfl⟩ (unwired x.target)
  · exact served_tame x6 y2 s hs' xs x h1 h2

theorem node_rest {F : Nat → Option Calc} {L : List Nat} {o : Ops N} {nos : N → List Nat} {P : N → Prop} (ho : Contained o nos) (hw : Works F L o nos P) {nd : Node (Mem × S) N}
    (hs : nodeSteady F P nd) {a : Act} (ha : a ≠ .tick) {y : Sys} (inv : Inv F L y.flow) : Rested F L (nodeSteady F P) y ((Node.ops o).run a nd y) := by
  have run : ∀ y : Sys, Inv F L y.flow → ∃ cs' z sn, exec o nd.id (nd.body o a) nd.children y = ⟨cs', nd.mem, .ok .idle, z, sn⟩ ∧ cs'.length = nd.children.length ∧
      (∀ c ∈ cs', P c) ∧ Inv F L z.flow ∧ Tame y.flow z.flow := by
    intro y inv
    cases hk : F nd.id with
    | some g =>
      have : nd.body o a = .done nd.mem (.ok .idle) := (hs.leaf g hk).2.2 a _ _ _ _ ha
      rw [this]
      exact ⟨nd.children, y, [], rfl, rfl, hs.below, inv, Tame.refl _⟩
    | none =>
      have : nd.body o a = Refine.plain nd.mem.2 (Prog.forAll a.op nd.mem.1 (List.range nd.children.length) (.done nd.mem.1 (.ok .idle))) := by
        have : nd.body o a = Refine.plain nd.mem.2 (hookProg .sequence a.op nd.state nd.mem.1 {} (nd.children.map o.name)) := hs.inner hk a ..
        rw [this]
        cases a with
        | tick => exact absurd rfl ha
        | untick => simp only [hookProg, Act.op, BT.untickHook, Prog.allThen, List.length_map]
        | reset => simp only [hookProg, Act.op, BT.resetHook, Prog.allThen, List.length_map]
      rw [this]
      obtain ⟨cs', y', sn, i1, i2, i3, i4, i5⟩ := forAll_ok ho hw nd.id a ha nd.mem.2 nd.mem.1 (.done nd.mem.1 (.ok .idle)) (List.range nd.children.length) nd.children y
        (fun i h => List.mem_range.1 h) hs.below inv
      exact ⟨cs', y', sn, i1, length_congr i2, i3, i4, i5⟩
  cases a with
  | tick => exact absurd rfl ha
  | untick =>
    obtain ⟨cs', z, sn, x1, x2, x3, x4, x5⟩ := run y inv
    show Rested F L _ y (Node.untick o nd y)
    unfold Node.untick
    rw [if_pos (show BT.accepts .untick nd.state = true from hs.up)]
    simp only [x1, show BT.allowedAfter .untick .idle = true from rfl, if_true]
    obtain ⟨i2, t2⟩ := inv_untick x4 nd.id
    exact ⟨rfl, steady_after hs _ _ rfl x2 x3, i2, x5.trans t2⟩
  | reset =>
    obtain ⟨i1, t1⟩ := inv_reset inv nd.id
    obtain ⟨cs', z, sn, x1, x2, x3, x4, x5⟩ := run { y with flow := (y.flow.step (.reset nd.id)).1 } i1
    show Rested F L _ y (Node.reset o nd y)
    unfold Node.reset
    rw [if_pos (show BT.accepts .reset nd.state = true from hs.up)]
    simp only [x1, show BT.allowedAfter .reset .idle = true from rfl, if_true]
    exact ⟨rfl, steady_after hs _ _ rfl x2 x3, x4, t1.trans x5⟩

theorem node_works {F : Nat → Option Calc} (hF : Once F) {L : List Nat} {o : Ops N} {nos : N → List Nat} {P : N → Prop} (ho : Contained o nos) (hw : Works F L o nos P) :
    Works F L (Node.ops (M := Mem × S) o) (nodeNos nos) (nodeSteady F P) := by
  refine ⟨fun a nd y ha hs inv => node_rest ho hw hs ha inv, fun nd y hs hL hf hsup inv hn => ?_⟩
  show Went F L _ _ y (Node.tick o nd y)
  cases hk : F nd.id with
  | none => exact inner_tick ho hw hs hk hL hf hsup inv hn
  | some g =>
    have e : nodeNos nos nd = [nd.id] := by simp only [nodeNos, (hs.leaf g hk).1, List.flatMap_nil]
    rw [e] at hL hf hn ⊢
    refine leaf_tick hF hs hk inv (hL _ List.mem_cons_self) hsup fun k c hc => hn nd.id List.mem_cons_self k c hc fun s hs' xs x h1 h2 e => ?_
    rw [List.mem_singleton.1 hs'] at h1
    exact hf.self nd.id List.mem_cons_self ⟨xs, x, h1, h2, e.1⟩

theorem tree_works {F : Nat → Option Calc} (hF : Once F) (L : List Nat) (n : Nat) : Works F L (ops (Mem × S) n) (ids n) (Steady F n) := by
  induction n with
  | zero => exact ⟨fun a t => Empty.elim t, fun t => Empty.elim t⟩
  | succ n ih => exact node_works hF (tree_contained n) ih

/-! ### Histories -/

/-- The answer of a move. -/
def answer : Move → Res
  | .act .tick => .ok .succeeded
  | _ => .ok .idle

/-- What holds between the moves. -/
structure Holding (F : Nat → Option Calc) (l : List Nat) (n : Nat) (t : Tree (Mem × S) n) (y : Sys) : Prop where
  steady : Steady F n t
  ids : ids n t = l
  forward : Forward F l y.flow.conns
  supplies : Supplies F l y.flow.conns
  inv : Inv F l y.flow
  need : Need l y.flow

theorem holding_step {F : Nat → Option Calc} (hF : Once F) {l : List Nat} {n : Nat} {t : Tree (Mem × S) n} {y : Sys} (h : Holding F l n t y) (m : Move) :
    (step n t y m).res = answer m ∧ Holding F l n (step n t y m).node (step n t y m).sys := by
  have go : ∀ f', Tame y.flow f' → Forward F l f'.conns ∧ Supplies F l f'.conns ∧ Need l f' := fun f' g =>
    ⟨by rw [g.conns]; exact h.forward, by rw [g.conns]; exact h.supplies, need_tame h.need g⟩
  cases m with
  | act a =>
    have hi := (tree_contained (M := Mem × S) n a t y).2.trans h.ids
    by_cases ha : a = .tick
    · subst ha
      have r := (tree_works hF l n).tick t y h.steady (by rw [h.ids]; exact fun _ h => h) (by rw [h.ids]; exact h.forward) h.supplies h.inv (by rw [h.ids]; exact h.need)
      obtain ⟨g1, g2, g3⟩ := go _ r.tame
      exact ⟨r.res, r.keep, hi, g1, g2, r.inv, g3⟩
    · have r := (tree_works hF l n).rest a t y ha h.steady h.inv
      obtain ⟨g1, g2, g3⟩ := go _ r.tame
      refine ⟨?_, r.keep, hi, g1, g2, r.inv, g3⟩
      cases a with
      | tick => exact absurd rfl ha
      | untick => exact r.res
      | reset => exact r.res
  | incoming =>
    have e : (y.flow.step .incoming).1 = y.flow := by simp only [Flow.step, h.inv.typed.incoming, pushIncoming]
    refine ⟨rfl, ?_⟩
    show Holding F l n t { y with flow := (y.flow.step .incoming).1 }
    rw [e]
    exact h
  | offer i k c =>
    have e : (y.flow.step (.offer i k c)).1 = y.flow := by
      have := h.inv.typed.incoming
      simp only [Flow.step, this, Data.modify]
      rw [← this]
    refine ⟨rfl, ?_⟩
    show Holding F l n t { y with flow := (y.flow.step (.offer i k c)).1 }
    rw [e]
    exact h

theorem holding_runs {F : Nat → Option Calc} (hF : Once F) {l : List Nat} {n : Nat} (ms : List Move) : ∀ {t : Tree (Mem × S) n} {y : Sys}, Holding F l n t y →
    Holding F l n (runs n ms t y).1 (runs n ms t y).2.1 := by
  induction ms with
  | nil => exact fun h => h
  | cons m ms ih => exact fun h => ih (holding_step hF h m).2

theorem typed_setup {F : Nat → Option Calc} {l : List Nat} {f : Flow} (h : Typed F l f) : Typed F l f.setup := by
  have rv : ∀ c : Cont, c.resetValue.ty = c.ty ∧ c.resetValue.isStatic = c.isStatic := by
    intro c
    unfold Cont.resetValue
    split <;> exact ⟨rfl, rfl⟩
  refine ⟨fun i hi => ?_, fun i hi g hg vs hv => ?_, fun s hs xs x h1 h2 => ?_, h.incoming, h.outgoing, fun n k c hc => ?_⟩
  · obtain ⟨d, xs, e1, e2, e3⟩ := h.known i hi
    refine ⟨{ inputs := mapAll (fun c => c.resetValue.flagUpdated) d.inputs, outputs := mapAll (fun c => c.resetValue.resetUpdated) d.outputs }, xs, ?_, ?_, e3⟩
    · simp only [Flow.setup, lookup_mapAll, e1, Option.map_some]
    · simpa [mapAll, Function.comp_def] using e2
  · obtain ⟨ws, e1, e2⟩ := h.total i hi g hg vs (fun k => by
      have := hv k
      rw [input_setup] at this
      cases e : f.input i k with
      | none => rw [e] at this; exact this
      | some c =>
        rw [e] at this
        cases e' : vs k with
        | none => rw [e'] at this; exact this
        | some v =>
          rw [e'] at this
          have this : Fits true c.resetValue.ty v := this
          rw [(rv c).1] at this
          exact this)
    refine ⟨ws, e1, fun p hp => ?_⟩
    obtain ⟨c, c1, c2⟩ := e2 p hp
    refine ⟨c.resetValue.resetUpdated, by rw [output_setup, c1]; rfl, ?_⟩
    show Fits true c.resetValue.ty p.2
    rw [(rv c).1]
    exact c2
  · obtain ⟨c, t, e1, e2, e3, e4⟩ := h.wires s hs xs x h1 h2
    refine ⟨c.resetValue.resetUpdated, t.resetValue.flagUpdated, by rw [output_setup, e1]; rfl, by rw [input_setup, e2]; rfl, (rv t).2.trans e3, fun v hv => ?_⟩
    show Fits true t.resetValue.ty v
    have hv : Fits true c.resetValue.ty v := hv
    rw [(rv c).1] at hv
    rw [(rv t).1]
    exact e4 v hv
  · rw [output_setup] at hc
    obtain ⟨c0, e1, e2⟩ := Option.map_eq_some_iff.1 hc
    subst e2
    exact (rv c0).2.trans (h.dynamic n k c0 e1)

theorem inv_setup {F : Nat → Option Calc} {l : List Nat} {f : Flow} (h : Typed F l f) (g : Filled l f) : Inv F l f.setup ∧ Need l f.setup := by
  have none : ∀ i k c v, f.setup.output i k = some c → c.value ≠ some v := by
    intro i k c v hc hv
    rw [output_setup] at hc
    obtain ⟨c0, e1, e2⟩ := Option.map_eq_some_iff.1 hc
    subst e2
    have hd := h.dynamic i k c0 e1
    have hv : c0.resetValue.value = some v := hv
    unfold Cont.resetValue at hv
    rw [hd] at hv
    cases hv
  refine ⟨⟨typed_setup h, ⟨fun i hi k c v hc hv => ?_, fun i _ k c v hc hv => absurd hv (none i k c v hc)⟩, fun s _ xs x _ _ c v hc hv => absurd hv (none _ _ c v hc)⟩, fun i hi k c hc hf => ?_⟩
  · rw [input_setup] at hc
    obtain ⟨c0, e1, e2⟩ := Option.map_eq_some_iff.1 hc
    subst e2
    have hv : c0.resetValue.value = some v := hv
    show Fits true c0.resetValue.ty v
    unfold Cont.resetValue at hv ⊢
    split at hv
    · rename_i hst
      rw [if_pos hst]
      exact g.fits i hi k c0 v e1 hst hv
    · cases hv
  · rw [input_setup] at hc
    obtain ⟨c0, e1, e2⟩ := Option.map_eq_some_iff.1 hc
    obtain ⟨hst, v, hv⟩ := g.free i hi k c0 e1 hf
    refine ⟨c0.resetValue.flagUpdated, v, by rw [input_setup, e1]; rfl, ?_⟩
    show c0.resetValue.value = some v
    unfold Cont.resetValue
    rw [if_pos hst]
    exact hv

/-- C128: in a well-typed program that has been set up, every operation succeeds, whatever has happened before: a tick answers SUCCEEDED, an untick and a reset
answer IDLE. -/
theorem c128_progress_partial {F : Nat → Option Calc} (hF : Once F) (n : Nat) (t : Tree (Mem × S) n) (f : Flow) (ht : Steady F n t) (hw : Forward F (ids n t) f.conns)
    (hs : Supplies F (ids n t) f.conns) (hty : Typed F (ids n t) f) (hfi : Filled (ids n t) f) (ms : List Move) (m : Move) :
    (step n (runs n ms t (started f)).1 (runs n ms t (started f)).2.1 m).res = answer m := by
  obtain ⟨h1, h2⟩ := inv_setup hty hfi
  have h0 : Holding F (ids n t) n t (started f) := ⟨ht, rfl, hw, hs, h1, h2⟩
  exact (holding_step hF (holding_runs hF ms h0) m).1

theorem steady_straight (F : Nat → Option Calc) (n : Nat) : ∀ t : Tree (Mem × S) n, Steady F n t → Straight F n t := by
  induction n with
  | zero => exact fun t => Empty.elim t
  | succ n ih =>
    have : ∀ t : Node (Mem × S) (Tree (Mem × S) n), nodeSteady F (Steady F n) t → nodeStraight F (Straight F n) t := fun t h =>
      ⟨fun g hg => ⟨(h.leaf g hg).1, (h.leaf g hg).2.1⟩, fun hg => h.inner hg .tick, fun c hc => ih c (h.below c hc)⟩
    exact this

/-- C128: so the program is correct: every tick SUCCEEDS, and then all outputs are what their nodes compute and all wired inputs hold the outputs they are wired
to. -/
theorem c128_correct_partial {F : Nat → Option Calc} (hF : Once F) (I : Mem × S → Prop) (n : Nat) (t : Tree (Mem × S) n) (f : Flow) (h : Ready I n t f) (ht : Steady F n t)
    (hw : Forward F (ids n t) f.conns) (hs : Supplies F (ids n t) f.conns) (hty : Typed F (ids n t) f) (hfi : Filled (ids n t) f) (ms : List Move) :
    let out := step n (runs n ms t (started f)).1 (runs n ms t (started f)).2.1 (.act .tick)
    out.res = .ok .succeeded ∧ Equations F (ids n t) out.sys.flow := by
  intro out
  have hr : out.res = .ok .succeeded := c128_progress_partial hF n t f ht hw hs hty hfi ms (.act .tick)
  exact ⟨hr, c127_equations_partial hF I n t f h (steady_straight F n t ht) hw ms hr⟩

/-! ### Where wirings that fit come from -/

/-- A wiring that the editor accepts fits, under the conditions of C49. -/
theorem c128_wire_partial (fresh : String → List (String × Val)) (source target : Cont) (hw : source.WellFormed) (hw' : target.WellFormed)
    (hs : source.ty.sane = true) (hs' : target.ty.sane = true) (he : source.ty.elemOk (!source.isStatic) = true)
    (he' : target.ty.elemOk (!target.isStatic) = true) (hd : source.isStatic = false) (hf : source.ty.shallow = true) (hf' : target.ty.shallow = true)
    (hn : Narrow (target.ty.flatten target.isStatic) (source.ty.flatten source.isStatic)) (ok : wiringOk fresh source target = true) :
    target.isStatic = false ∧ ∀ v, Fits true source.ty v → Fits true target.ty v := by
  refine ⟨c48_never_wired fresh source target hw hw' hs hs' he he' hd ok, fun v hv => ?_⟩
  have := c49_wiring_partial fresh source target hw hw' hs hs' he he' hd hf hf' hn ok v hv
  rw [← check_ok]
  unfold Cont.set at this
  cases h : check target.ty v with
  | ok => rfl
  | err => rw [h] at this; cases this
  | raise => rw [h] at this; cases this

/-! ### The classes of the project -/

/-- The nodes are leaves that compute, and Sequences. -/
def OfCalm (F : Nat → Option Calc) (u : Nat → Refine.Uses S) (n : Nat) (b : BT.Tree n) : Prop :=
  BT.AllNodes (fun nd => (∀ g, F nd.id = some g → nd.kind = .leaf ∧ nd.children.length = 0 ∧ (∀ c st s, (u nd.id).leaf .tick c st s = calcIo g s) ∧
      ∀ a c st s, a ≠ .tick → (u nd.id).leaf a c st s = .done (s, .ok .idle)) ∧
    (F nd.id = none → nd.kind = .sequence ∧ ∀ a c st m, (u nd.id).before a c st m = .done (m.2, {}))) n b

/-- The nodes have been set up and are not BROKEN. -/
def Up (n : Nat) (b : BT.Tree n) : Prop := BT.AllNodes (fun nd => BT.accepts .tick nd.state = true) n b

instance (n : Nat) (b : BT.Tree n) : Decidable (Up n b) := BT.decAllNodes _ (fun _ => inferInstance) n b

theorem steady_dress {F : Nat → Option Calc} {u : Nat → Refine.Uses S} (s : Nat → S) (n : Nat) : ∀ b : BT.Tree n, OfCalm F u n b → Up n b → Steady F n (Refine.dress u s n b) := by
  induction n with
  | zero => exact fun b => Empty.elim b
  | succ n ih =>
    intro b h hup
    have : ∀ b : BT.Node (BT.Tree n), BT.accepts .tick b.state = true → ((∀ g, F b.id = some g → b.kind = .leaf ∧ b.children.length = 0 ∧
          (∀ c st s, (u b.id).leaf .tick c st s = calcIo g s) ∧ ∀ a c st s, a ≠ .tick → (u b.id).leaf a c st s = .done (s, .ok .idle)) ∧
        (F b.id = none → b.kind = .sequence ∧ ∀ a c st m, (u b.id).before a c st m = .done (m.2, {}))) → (∀ c ∈ b.children, OfCalm F u n c) → (∀ c ∈ b.children, Up n c) →
        nodeSteady F (Steady F n) ⟨b.id, b.name, b.state, (b.mem, s b.id), b.ctr, Refine.hookOf (u b.id) b.kind, b.children.map (Refine.dress u s n)⟩ := by
      intro b h0 h1 h2 h3
      refine ⟨h0, fun g hg => ?_, fun hg => ?_, fun c hc => ?_⟩
      · obtain ⟨e1, e2, e3, e4⟩ := h1.1 g hg
        refine ⟨by rw [List.eq_nil_of_length_eq_zero e2]; rfl, fun c st m l => ?_, fun a c st m l ha => ?_⟩
        · show Refine.hookOf (u b.id) b.kind .tick c st m l = _
          rw [e1]
          simp only [Refine.hookOf, e3, calcIo_hook]
        · show Refine.hookOf (u b.id) b.kind a c st m l = _
          rw [e1]
          simp only [Refine.hookOf, e4 a _ _ _ ha, Refine.Io.andThen]
      · obtain ⟨e1, e2⟩ := h1.2 hg
        intro a c st m l
        show Refine.hookOf (u b.id) b.kind a c st m l = _
        rw [e1]
        simp only [Refine.hookOf, e2, Refine.Io.andThen]
      · obtain ⟨d, hd, rfl⟩ := List.mem_map.1 hc
        exact ih d (h2 d hd) (h3 d hd)
    exact this b hup.1 h.1 h.2 hup.2

theorem calm_runs {F : Nat → Option Calc} {u : Nat → Refine.Uses S} (n : Nat) (h : List Op) : ∀ b : BT.Tree n, OfCalm F u n b → OfCalm F u n (BT.runs (BT.ops n) h b).2 := by
  have one : ∀ n op (b : BT.Tree n), OfCalm F u n b → OfCalm F u n ((BT.ops n).run op b).node := by
    intro n
    induction n with
    | zero => exact fun _ b => Empty.elim b
    | succ n ih =>
      intro op b hb
      refine ⟨?_, BT.run_children (BT.ops n) _ (fun op c hc => ih op c hc) op b hb.2⟩
      obtain ⟨e1, _, e3, _, _, e6⟩ := BT.run_static (BT.ops n) op b
      show (∀ g, F (BT.Node.run (BT.ops n) op b).node.id = some g → _) ∧ (F (BT.Node.run (BT.ops n) op b).node.id = none → _)
      have := hb.1
      refine ⟨fun g hg => ?_, fun hg => ?_⟩
      · rw [e1] at hg
        obtain ⟨g1, g2, g3⟩ := this.1 g hg
        exact ⟨e3.trans g1, e6.trans g2, by rw [show ((BT.ops (n + 1)).run op b).node.id = b.id from e1]; exact g3⟩
      · rw [e1] at hg
        obtain ⟨g1, g2⟩ := this.2 hg
        exact ⟨e3.trans g1, by rw [show ((BT.ops (n + 1)).run op b).node.id = b.id from e1]; exact g2⟩
  induction h with
  | nil => exact fun b hb => hb
  | cons op h ih => exact fun b hb => ih _ (one n op b hb)

/-- C128 for trees of the classes of the project that have been set up. -/
theorem c128_classes_partial {F : Nat → Option Calc} (hF : Once F) (u : Nat → Refine.Uses S) (hu : ∀ i, (u i).Neat) (s : Nat → S) (n : Nat) (b : BT.Tree n) (hb : BT.Fresh n b)
    (hn : (BT.nodeIds n b).Nodup) (hp : OfCalm F u n b) (h : List Op) (hup : Up n (BT.runs (BT.ops n) h b).2) (f : Flow) (h1 : OneSource f.conns)
    (hw : Forward F (BT.nodeIds n b) f.conns) (hs : Supplies F (BT.nodeIds n b) f.conns) (hty : Typed F (BT.nodeIds n b) f) (hfi : Filled (BT.nodeIds n b) f) (ms : List Move) :
    let t := Refine.dress u s n (BT.runs (BT.ops n) h b).2
    let out := step n (runs n ms t (started f)).1 (runs n ms t (started f)).2.1 (.act .tick)
    out.res = .ok .succeeded ∧ Equations F (BT.nodeIds n b) out.sys.flow := by
  intro t
  have e : ids n t = BT.nodeIds n b := by
    rw [← ids_states, Refine.alike_states n _ _ (Refine.alike_dress u s n _)]
    exact Refine.ids_runs n h b
  have := c128_correct_partial hF (fun m : Mem × S => BT.CacheOk m.1) n t f
    ⟨Refine.fit_dress u hu s n _ (BT.caches_runs n h b (BT.caches_fresh n b hb)), by rw [ids_states, e]; exact hn, h1, fun _ _ _ _ _ => by rw [hty.incoming]; rfl, hty.dynamic⟩
    (steady_dress s n _ (calm_runs n h b hp) hup) (by rw [e]; exact hw) (by rw [e]; exact hs) (by rw [e]; exact hty) (by rw [e]; exact hfi) ms
  rw [e] at this
  exact this

/-! ### Example -/

/-- maths.py 206-216: Operation with a fixed operator, a function of the input `in`; True counts as 1. -/
def onNum (h : Int → Int) : Calc := fun vs =>
  match vs "in" with
  | some (.int i) => .sets [("out", .int (h i))]
  | some (.bool b) => .sets [("out", .int (h (if b then 1 else 0)))]
  | _ => .raises

/-- The number 0 is a Constant, 1 adds one, 2 doubles. -/
def typedF : Nat → Option Calc
  | 0 => some constant
  | 1 => some (onNum (· + 1))
  | 2 => some (onNum (2 * ·))
  | _ => none

/-- A number within limits. -/
def within (lo hi : Int) : Cont := ⟨.int lo hi, true, false, false, none, false⟩

/-- The limits fit the functions. -/
def typedFlow (i : Int) : Flow :=
  ⟨[(0, ⟨[("constant_value", { within 0 9 with isStatic := true, value := some (.int i) })], [("constant", within 0 9)]⟩), (1, ⟨[("in", within 0 9)], [("out", within 1 10)]⟩),
    (2, ⟨[("in", within 0 20)], [("out", within 0 40)]⟩), (3, ⟨[], []⟩), (4, ⟨[], []⟩)],
    [(0, [⟨"constant", 1, "in"⟩]), (1, [⟨"out", 2, "in"⟩]), (2, []), (3, []), (4, [])], [], []⟩

/-- The tree after its setup. -/
def typedTree : Tree (Mem × Unit) 3 := Refine.dress (usesOf typedF) (fun _ => ()) 3 (BT.runs (BT.ops 3) [.setup] sampleTree).2

/-- What a history leads to: the answer of the last tick and the output of the last node. -/
def typedOut (f : Flow) (ms : List Move) : Res × Option Int :=
  let r := runs 3 ms typedTree (started f)
  let out := step 3 r.1 r.2.1 (.act .tick)
  (out.res, (out.sys.flow.output 2 "out").bind fun c => match c.value with | some (.int i) => some i | _ => none)

example : typedOut (typedFlow 7) [] = (.ok .succeeded, some 16) ∧ typedOut (typedFlow 7) [.act .tick, .act .untick, .act .reset, .act .tick] = (.ok .succeeded, some 16) := by
  refine ⟨?_, ?_⟩ <;> decide +kernel

/-- Types matter: with a narrower output, the number that is too large is refused and the tick fails. -/
theorem c128_refused : typedOut { typedFlow 9 with nodes := (typedFlow 9).nodes.set 2 (2, ⟨[("in", within 0 20)], [("out", within 0 19)]⟩) } [] = (.err, none) := by decide +kernel

theorem typed_once : Once typedF := by
  intro i g vs ws h hw
  have one : ∀ h : Int → Int, onNum h vs = .sets ws → (ws.map (·.1)).Nodup := by
    intro h hw
    unfold onNum at hw
    split at hw
    · cases hw; exact (by simp)
    · cases hw; exact (by simp)
    · cases hw
  match i, h with
  | 0, h =>
    cases h
    unfold constant at hw
    split at hw
    · cases hw; exact (by simp)
    · cases hw
  | 1, h => cases h; exact one _ hw
  | 2, h => cases h; exact one _ hw
  | n + 3, h => cases h

theorem typed_nodes : BT.nodeIds 3 sampleTree = [4, 0, 3, 1, 2] := by decide

theorem onNum_total (h : Int → Int) {lo hi lo' hi' : Int} (hh : ∀ i, lo ≤ i → i ≤ hi → lo' ≤ h i ∧ h i ≤ hi') {vs : String → Option Val} (hv : Given (some (within lo hi)) (vs "in")) :
    ∃ ws, onNum h vs = .sets ws ∧ ∀ p ∈ ws, p.1 = "out" ∧ Fits true (.int lo' hi') p.2 := by
  unfold onNum
  cases e : vs "in" with
  | none => rw [e] at hv; cases hv
  | some v =>
    rw [e] at hv
    have hv : Fits true (.int lo hi) v := hv
    cases hv with
    | int hi h1 h2 =>
      cases hi with
      | int i => exact ⟨_, rfl, fun p hp => by rw [List.mem_singleton.1 hp]; exact ⟨rfl, .int (.int _) (hh _ h1 h2).1 (hh _ h1 h2).2⟩⟩
      | yes => exact ⟨_, rfl, fun p hp => by rw [List.mem_singleton.1 hp]; exact ⟨rfl, .int (.int _) (hh _ h1 h2).1 (hh _ h1 h2).2⟩⟩
      | no => exact ⟨_, rfl, fun p hp => by rw [List.mem_singleton.1 hp]; exact ⟨rfl, .int (.int _) (hh _ h1 h2).1 (hh _ h1 h2).2⟩⟩

theorem typed_typed (i : Int) : Typed typedF (BT.nodeIds 3 sampleTree) (typedFlow i) := by
  rw [typed_nodes]
  refine ⟨fun j hj => ?_, fun j _ g hg vs hv => ?_, fun s _ xs x h1 h2 => ?_, rfl, rfl, fun n k c h => ?_⟩
  · simp only [List.mem_cons, List.not_mem_nil, or_false] at hj
    rcases hj with rfl | rfl | rfl | rfl | rfl <;> exact ⟨_, _, rfl, by simp, rfl⟩
  · match j, hg with
    | 0, hg =>
      cases hg
      have h := hv "constant_value"
      unfold constant
      cases e : vs "constant_value" with
      | none => rw [e] at h; cases h
      | some v =>
        rw [e] at h
        exact ⟨_, rfl, fun p hp => by rw [List.mem_singleton.1 hp]; exact ⟨_, rfl, h⟩⟩
    | 1, hg =>
      cases hg
      obtain ⟨ws, e1, e2⟩ := onNum_total (· + 1) (lo := 0) (hi := 9) (lo' := 1) (hi' := 10) (fun i _ _ => ⟨by omega, by omega⟩) (hv "in")
      exact ⟨ws, e1, fun p hp => ⟨within 1 10, by rw [(e2 p hp).1]; rfl, (e2 p hp).2⟩⟩
    | 2, hg =>
      cases hg
      obtain ⟨ws, e1, e2⟩ := onNum_total (2 * ·) (lo := 0) (hi := 20) (lo' := 0) (hi' := 40) (fun i _ _ => ⟨by omega, by omega⟩) (hv "in")
      exact ⟨ws, e1, fun p hp => ⟨within 0 40, by rw [(e2 p hp).1]; rfl, (e2 p hp).2⟩⟩
    | n + 3, hg => cases hg
  · have h1 : (sampleFlow i).conns.lookup s = some xs := h1
    rcases sample_conns i s xs h1 with ⟨rfl, rfl⟩ | ⟨rfl, rfl⟩ | rfl
    · rw [List.mem_singleton.1 h2]
      exact ⟨within 0 9, within 0 9, rfl, rfl, rfl, fun _ h => h⟩
    · rw [List.mem_singleton.1 h2]
      refine ⟨within 1 10, within 0 20, rfl, rfl, rfl, fun v hv => ?_⟩
      have hv : Fits true (.int 1 10) v := hv
      cases hv with
      | int h1 h2 h3 => exact .int h1 (by omega) (by omega)
    · cases h2
  · have hb : ∀ (d : NodeData) j a b, d.outputs = [(j, within a b)] → d.outputs.lookup k = some c → c.isStatic = false := by
      intro d j a b hd h
      rw [hd] at h
      simp only [List.lookup] at h
      split at h
      · cases h; rfl
      · cases h
    match n, h with
    | 0, h => exact hb ⟨[("constant_value", { within 0 9 with isStatic := true, value := some (.int i) })], [("constant", within 0 9)]⟩ _ _ _ rfl h
    | 1, h => exact hb ⟨[("in", within 0 9)], [("out", within 1 10)]⟩ _ _ _ rfl h
    | 2, h => exact hb ⟨[("in", within 0 20)], [("out", within 0 40)]⟩ _ _ _ rfl h
    | 3, h => cases h
    | 4, h => cases h
    | n + 5, h => simp [typedFlow, Flow.output, List.lookup] at h

theorem typed_filled (i : Int) (h0 : 0 ≤ i) (h9 : i ≤ 9) : Filled (BT.nodeIds 3 sampleTree) (typedFlow i) := by
  rw [typed_nodes]
  have input : ∀ j k c, (typedFlow i).input j k = some c → (j = 0 ∧ k = "constant_value" ∧ c = { within 0 9 with isStatic := true, value := some (.int i) }) ∨
      (j = 1 ∧ k = "in" ∧ c = within 0 9) ∨ (j = 2 ∧ k = "in" ∧ c = within 0 20) := by
    intro j k c h
    have hb : ∀ (d : NodeData) j c', d.inputs = [(j, c')] → d.inputs.lookup k = some c → k = j ∧ c = c' := by
      intro d j c' hd h
      rw [hd] at h
      simp only [List.lookup] at h
      split at h
      · rename_i hk
        cases h
        exact ⟨by simpa using hk, rfl⟩
      · cases h
    match j, h with
    | 0, h => exact .inl ⟨rfl, hb ⟨[("constant_value", { within 0 9 with isStatic := true, value := some (.int i) })], [("constant", within 0 9)]⟩ _ _ rfl h⟩
    | 1, h => exact .inr (.inl ⟨rfl, hb ⟨[("in", within 0 9)], [("out", within 1 10)]⟩ _ _ rfl h⟩)
    | 2, h => exact .inr (.inr ⟨rfl, hb ⟨[("in", within 0 20)], [("out", within 0 40)]⟩ _ _ rfl h⟩)
    | 3, h => cases h
    | 4, h => cases h
    | n + 5, h => simp [typedFlow, Flow.input, List.lookup] at h
  refine ⟨fun j _ k c hc hf => ?_, fun j _ k c v hc hs hv => ?_⟩
  · rcases input j k c hc with ⟨rfl, rfl, rfl⟩ | ⟨rfl, rfl, rfl⟩ | ⟨rfl, rfl, rfl⟩
    · exact ⟨rfl, _, rfl⟩
    · exact absurd ⟨rfl, rfl⟩ (hf 0 (by simp) _ ⟨"constant", 1, "in"⟩ rfl List.mem_cons_self)
    · exact absurd ⟨rfl, rfl⟩ (hf 1 (by simp) _ ⟨"out", 2, "in"⟩ rfl List.mem_cons_self)
  · rcases input j k c hc with ⟨rfl, rfl, rfl⟩ | ⟨rfl, rfl, rfl⟩ | ⟨rfl, rfl, rfl⟩
    · cases hv
      exact .int (.int i) h0 h9
    · cases hs
    · cases hs

theorem typed_calm : OfCalm typedF (usesOf typedF) 3 sampleTree := by
  have l : ∀ m i, (typedF i).isSome → OfCalm typedF (usesOf typedF) (m + 1) (BT.mkLeaf m i [.ok .idle]) := by
    intro m i hi
    refine ⟨⟨fun g hg => ⟨rfl, rfl, fun c st s => ?_, fun a c st s ha => ?_⟩, fun hn => by rw [show typedF i = none from hn] at hi; cases hi⟩, fun c hc => by cases hc⟩
    · have hg : typedF i = some g := hg
      show (usesOf typedF i).leaf .tick c st s = _
      simp only [usesOf, hg]
    · show (usesOf typedF i).leaf a c st s = _
      cases a with
      | tick => exact absurd rfl ha
      | untick => rfl
      | reset => rfl
  refine ⟨⟨(fun g hg => by cases hg), fun _ => ⟨rfl, fun _ _ _ _ => rfl⟩⟩, fun c hc => ?_⟩
  rcases List.mem_cons.1 hc with rfl | hc
  · exact l 1 0 rfl
  · rw [List.mem_singleton.1 hc]
    refine ⟨⟨(fun g hg => by cases hg), fun _ => ⟨rfl, fun _ _ _ _ => rfl⟩⟩, fun c hc => ?_⟩
    rcases List.mem_cons.1 hc with rfl | hc
    · exact l 0 1 rfl
    · rw [List.mem_singleton.1 hc]; exact l 0 2 rfl

theorem typed_forward (i : Int) : Forward typedF (BT.nodeIds 3 sampleTree) (typedFlow i).conns := by
  have h := sample_forward i
  refine ⟨h.order, h.self, fun a ha hF b => h.inner a ha ?_ b⟩
  match a, hF with
  | n + 3, _ => rfl

theorem typed_supplies (i : Int) (l : List Nat) : Supplies typedF l (typedFlow i).conns := by
  intro s _ g hg xs x h1 h2 vs ws hw
  have h1 : (sampleFlow i).conns.lookup s = some xs := h1
  rcases sample_conns i s xs h1 with ⟨rfl, rfl⟩ | ⟨rfl, rfl⟩ | rfl
  · cases hg
    rw [List.mem_singleton.1 h2]
    unfold constant at hw
    split at hw
    · cases hw; exact List.mem_cons_self
    · cases hw
  · cases hg
    rw [List.mem_singleton.1 h2]
    unfold onNum at hw
    split at hw
    · cases hw; exact List.mem_cons_self
    · cases hw; exact List.mem_cons_self
    · cases hw
  · cases h2

/-- All that `c128_classes_partial` asks for. -/
example : Once typedF ∧ (∀ i, (usesOf typedF i).Neat) ∧ BT.Fresh 3 sampleTree ∧ (BT.nodeIds 3 sampleTree).Nodup ∧ OfCalm typedF (usesOf typedF) 3 sampleTree ∧
    Up 3 (BT.runs (BT.ops 3) [.setup] sampleTree).2 ∧ OneSource (typedFlow 7).conns ∧ Forward typedF (BT.nodeIds 3 sampleTree) (typedFlow 7).conns ∧
    Supplies typedF (BT.nodeIds 3 sampleTree) (typedFlow 7).conns ∧ Typed typedF (BT.nodeIds 3 sampleTree) (typedFlow 7) ∧ Filled (BT.nodeIds 3 sampleTree) (typedFlow 7) :=
  ⟨typed_once, usesOf_neat typed_once, by decide, by decide, typed_calm, by decide +kernel, (sample_fine 7).1, typed_forward 7, typed_supplies 7 _, typed_typed 7,
    typed_filled 7 (by decide) (by decide)⟩

/-- All that `c128_progress_partial` and `c128_correct_partial` ask for. -/
example : Steady typedF 3 typedTree ∧ ids 3 typedTree = BT.nodeIds 3 sampleTree := ⟨steady_dress _ 3 _ (calm_runs 3 _ _ typed_calm) (by decide +kernel), by decide +kernel⟩

/-- So this program answers for all numbers, after all histories. -/
theorem c128_sample (i : Int) (h0 : 0 ≤ i) (h9 : i ≤ 9) (ms : List Move) :
    (step 3 (runs 3 ms typedTree (started (typedFlow i))).1 (runs 3 ms typedTree (started (typedFlow i))).2.1 (.act .tick)).res = .ok .succeeded :=
  (c128_classes_partial typed_once (usesOf typedF) (usesOf_neat typed_once) (fun _ => ()) 3 sampleTree (by decide) (by decide) typed_calm [.setup] (by decide +kernel) (typedFlow i)
    (sample_fine i).1 (typed_forward i) (typed_supplies i _) (typed_typed i) (typed_filled i h0 h9) ms).1

end Verif.Whole.Progress
