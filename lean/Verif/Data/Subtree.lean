import Verif.Data.Updates
import Verif.Data.Compat

/-! C92: data goes into and out of a Subtree node (`ros_nodes/subtree.py`, `data_flow_manager.py`). The inputs and outputs of the Subtree
node are those of the IOInput and IOOutput nodes of its tree; the data flow of its tree has the dictionaries of the Subtree
node as incoming and outgoing data (subtree.py 107-110), so that they are the same objects. -/

set_option autoImplicit false

namespace Verif.Data

/-! ### The model -/

/-- How the ids of nodes are written: `str(uuid)` and `uuid.UUID(str)`, `none`: ValueError. -/
structure Ids where
  text : Nat → String
  read : String → Option Nat
  read_text : ∀ n, read (text n) = some n
  plain : ∀ n, '.' ∉ (text n).toList

/-- subtree.py 176, 195, data_flow_manager.py 146: `f"{node_id}.{key}"` -/
def Ids.key (I : Ids) (n : Nat) (k : String) : String := I.text n ++ "." ++ k

/-- data_flow_manager.py 170-174: `node_id, data_key = incoming_key.split(".")`, `uuid.UUID(node_id)`; `none`: ValueError. -/
def Ids.parse (I : Ids) (s : String) : Option (Nat × String) :=
  if s.toList.count '.' = 1 then
    (I.read (String.ofList (s.toList.takeWhile (· != '.')))).map fun n => (n, String.ofList (s.toList.dropWhile (· != '.')).tail)
  else none

/-- data_flow_manager.py 161-174: the inputs of the Subtree node as incoming data. -/
def incomingOf (I : Ids) (l : List (String × Cont)) : List ((Nat × String) × Cont) := l.filterMap fun p => (I.parse p.1).map fun q => (q, p.2)

/-- data_flow_manager.py 143-158: the outputs of the Subtree node as outgoing data. The code writes the key of every output as a string and looks for
it; this is the same, as keys have no dots that the ids do not have (`Ids.parse_key`). -/
def writeBack (I : Ids) (out : List ((Nat × String) × Cont)) (l : List (String × Cont)) : List (String × Cont) :=
  l.map fun p => (p.1, match I.parse p.1 with | none => p.2 | some q => (out.lookup q).getD p.2)

/-- A Subtree node: its own data, what happens to it, and its tree. -/
structure Sub where
  own : NodeData
  phase : Phase
  inner : Sys

/-- The nested tree with the data of the Subtree node. -/
def Sub.full (I : Ids) (x : Sub) : Sys :=
  { x.inner with flow := { x.inner.flow with incoming := incomingOf I x.own.inputs, outgoing := incomingOf I x.own.outputs } }

/-- The Subtree node after something has happened to its tree. -/
def Sub.back (I : Ids) (x : Sub) (y : Sys) : Sub :=
  { x with inner := y, own := { x.own with outputs := writeBack I y.flow.outgoing x.own.outputs } }

/-- What happens to a Subtree node. -/
inductive SubEv
  /-- data_flow_manager.py 131-142: the surrounding tree delivers a value. -/
  | deliver (k : String) (v : Val)
  /-- node.py 434-442, then subtree.py 223-227 -/
  | begin
  /-- Something happens to its tree during the tick. -/
  | inside (e : Ev)
  /-- node.py 456-482 -/
  | finish
  /-- node.py 445-447 -/
  | fail
  /-- node.py 519-559, subtree.py 239-247: the nodes `ns` of its tree are unticked. -/
  | untick (ns : List Nat)
  /-- node.py 603-609, subtree.py 249-257: the nodes `ns` of its tree are reset. -/
  | reset (ns : List Nat)
  /-- node.py 365-372, subtree.py 199-217 -/
  | setup

/-- Events of the nested tree in a tick. -/
def inTick : Ev → Bool
  | .setup | .incoming | .offer _ _ _ => false
  | _ => true

/-- What happens; `none`: it does not happen. The nested tree is unticked and reset when none of its nodes is being ticked. -/
def Sub.step (I : Ids) (x : Sub) : SubEv → Option Sub
  | .deliver k v =>
    if x.phase = .active then none
    else
      match x.own.inputs.lookup k with
      | none => none
      | some c => some { x with own := { x.own with inputs := modify k (fun _ => (c.set v).1) x.own.inputs } }
  | .begin =>
    if x.phase = .idle then
      if x.own.inputs.all (·.2.value.isSome) then
        let x : Sub := { x with own := { x.own with outputs := mapAll Cont.resetUpdated x.own.outputs } }
        let r := (x.full I).flow.step .incoming
        some { x.back I { x.inner with flow := r.1 } with phase := if r.2 = .ok then .active else .broken }
      else some { x with phase := .broken }
    else none
  | .inside e =>
    if x.phase = .active ∧ inTick e = true then ((x.full I).step e).map (x.back I) else none
  | .finish => if x.phase = .active then some { x with phase := .idle, own := { x.own with inputs := mapAll Cont.resetUpdated x.own.inputs } } else none
  | .fail => if x.phase = .active then some { x with phase := .broken } else none
  | .untick ns =>
    if x.phase = .idle ∧ (ns.all fun n => x.inner.phase n ≠ .active) = true then
      some { x with own := { x.own with outputs := mapAll Cont.resetUpdated x.own.outputs },
                    inner := { x.inner with flow := ns.foldl (fun f n => f.allOutputs n Cont.resetUpdated) x.inner.flow } }
    else none
  | .reset ns =>
    if x.phase = .idle ∧ (ns.all fun n => x.inner.phase n ≠ .active) = true then
      some { x with own := { inputs := mapAll Cont.flagUpdated x.own.inputs, outputs := mapAll (fun c => c.resetValue.resetUpdated) x.own.outputs },
                    inner := { x.inner with flow := ns.foldl (fun f n => f.reset n) x.inner.flow } }
    else none
  | .setup =>
    some { own := { inputs := mapAll (fun c => c.resetValue.flagUpdated) x.own.inputs,
                    outputs := mapAll (fun c => c.resetValue.resetUpdated) x.own.outputs },
           phase := .idle, inner := started x.inner.flow }

/-- A sequence of events. -/
def Sub.run (I : Ids) (x : Sub) : List SubEv → Option Sub
  | [] => some x
  | e :: es => match x.step I e with | some y => y.run I es | none => none

/-! ### Keys -/

theorem count_of_not_mem (l : List Char) (c : Char) (h : c ∉ l) : l.count c = 0 := List.count_eq_zero.mpr h

theorem Ids.parse_key (I : Ids) (n : Nat) (k : String) (h : '.' ∉ k.toList) : I.parse (I.key n k) = some (n, k) := by
  have e : (I.key n k).toList = (I.text n).toList ++ '.' :: k.toList := by
    simp [Ids.key]
  have hall : ∀ c ∈ (I.text n).toList, (c != '.') = true := by
    intro c hc
    simp only [bne_iff_ne, ne_eq]
    rintro rfl
    exact I.plain n hc
  have h1 : (I.key n k).toList.count '.' = 1 := by
    rw [e, List.count_append, List.count_cons_self, List.count_eq_zero.mpr (I.plain n), List.count_eq_zero.mpr h]
  rw [Ids.parse, if_pos h1, e, List.takeWhile_append_of_pos hall, List.dropWhile_append_of_pos hall]
  simp [I.read_text]

/-- The keys of the inputs and outputs of a Subtree node are those of its nodes, or no such keys. -/
def Keyed (I : Ids) (l : List (String × Cont)) : Prop := ∀ p ∈ l, ∀ q, I.parse p.1 = some q → p.1 = I.key q.1 q.2 ∧ '.' ∉ q.2.toList

theorem lookup_incomingOf (I : Ids) (l : List (String × Cont)) (h : Keyed I l) (n : Nat) (k : String) (hk : '.' ∉ k.toList) :
    (incomingOf I l).lookup (n, k) = l.lookup (I.key n k) := by
  induction l with
  | nil => rfl
  | cons p l ih =>
    obtain ⟨s, c⟩ := p
    have ih := ih fun p hp => h p (List.mem_cons_of_mem _ hp)
    unfold incomingOf at ih ⊢
    rw [List.filterMap_cons]
    by_cases he : I.key n k = s
    · subst he
      simp only [I.parse_key n k hk, Option.map_some, List.lookup_cons_self]
    · have hb : (I.key n k == s) = false := by simpa using he
      simp only [List.lookup, hb]
      cases hp : I.parse s with
      | none => exact ih
      | some q =>
        have hne : ((n, k) == q) = false := by
          cases hq : ((n, k) == q) with
          | false => rfl
          | true =>
            rw [beq_iff_eq] at hq
            subst hq
            exact absurd (h _ (List.mem_cons_self ..) _ hp).1.symm he
        simp only [Option.map_some, List.lookup, hne]
        exact ih

theorem lookup_writeBack (I : Ids) (out : List ((Nat × String) × Cont)) (l : List (String × Cont)) (n : Nat) (k : String) (hk : '.' ∉ k.toList) :
    (writeBack I out l).lookup (I.key n k) = (l.lookup (I.key n k)).map fun c => (out.lookup (n, k)).getD c := by
  induction l with
  | nil => rfl
  | cons p l ih =>
    obtain ⟨s, c⟩ := p
    unfold writeBack at ih ⊢
    rw [List.map_cons]
    by_cases he : I.key n k = s
    · subst he
      simp only [I.parse_key n k hk, List.lookup_cons_self, Option.map_some]
    · have hb : (I.key n k == s) = false := by simpa using he
      simp only [List.lookup, hb]
      exact ih

theorem keys_writeBack (I : Ids) (out : List ((Nat × String) × Cont)) (l : List (String × Cont)) : (writeBack I out l).map (·.1) = l.map (·.1) := by
  simp [writeBack, Function.comp_def]

theorem keyed_of_keys {I : Ids} {l l' : List (String × Cont)} (h : Keyed I l) (e : l'.map (·.1) = l.map (·.1)) : Keyed I l' := by
  intro p hp q hq
  have : p.1 ∈ l.map (·.1) := e ▸ List.mem_map.mpr ⟨p, hp, rfl⟩
  obtain ⟨p', hp', he⟩ := List.mem_map.mp this
  rw [← he] at hq ⊢
  exact h p' hp' q hq

/-! ### Pushing data in -/

/-- An input of the nested tree holds the value. -/
def HoldsAt (f : Flow) (n : Nat) (k : String) (v : Val) : Prop := ∃ t w, f.input n k = some t ∧ t.value = some w ∧ Same t.ty v w

theorem pushIncoming_hit : ∀ (l : List ((Nat × String) × Cont)) (f f' : Flow), pushIncoming l f = (f', .ok) → ∀ n k c v, l.lookup (n, k) = some c →
    (l.map (·.1)).Nodup → '.' ∉ k.toList → (f.input n k).isSome → c.updated = true → c.value = some v → HoldsAt f' n k v := by
  intro l
  induction l with
  | nil => intro f f' _ n k c v h; cases h
  | cons p l ih =>
    intro f f' h n k c v hl hn hk hi hu hv
    obtain ⟨⟨m, j⟩, c0⟩ := p
    simp only [List.map_cons, List.nodup_cons] at hn
    by_cases e : (n, k) = (m, j)
    · cases e
      simp only [List.lookup_cons_self, Option.some.injEq] at hl
      subst hl
      have hd : k.toList.contains '.' = false := by simpa using hk
      rw [pushIncoming, if_pos hu, hv] at h
      simp only [hd, Bool.false_eq_true, if_false] at h
      cases ht : f.input n k with
      | none => rw [ht] at hi; cases hi
      | some t =>
        simp only [ht, Option.isNone_some, Bool.false_eq_true, if_false] at h
        cases hdl : f.deliver n k v with
        | mk g b =>
          obtain ⟨_, _, _, _, _, d6⟩ := deliver_cases hdl
          rw [hdl] at h
          have hb : b = .ok := by
            cases b with
            | ok => rfl
            | err => cases h
            | raise => cases h
          subst hb
          rcases d6 with ⟨d, _, _⟩ | ⟨t', e1, e2, e3⟩
          · rw [ht] at d; cases d
          · obtain ⟨w, w1, w2, _, _⟩ := set_ok e2.symm
            have hkeep : f'.input n k = g.input n k := by
              refine (pushIncoming_frame l g f' .ok h).2.2.2 n k ?_
              rw [List.lookup_eq_none_iff]
              rintro ⟨a, b⟩ hp
              simp only [bne_iff_ne, ne_eq]
              rintro rfl
              exact hn.1 (List.mem_map.mpr ⟨_, hp, rfl⟩)
            exact ⟨(t'.set v).1, w, by rw [hkeep, e3], w1, by rw [(set_ty t' v).1]; exact w2⟩
    · have hb : ((n, k) == (m, j)) = false := by
        cases hq : ((n, k) == (m, j)) with
        | false => rfl
        | true => rw [beq_iff_eq] at hq; exact absurd hq e
      simp only [List.lookup, hb] at hl
      have go : ∀ g : Flow, (g.input n k).isSome → pushIncoming l g = (f', .ok) → HoldsAt f' n k v :=
        fun g hg h => ih g f' h n k c v hl hn.2 hk hg hu hv
      rw [pushIncoming] at h
      split at h
      · split at h
        · exact go f hi h
        · rename_i v' _
          split at h
          · exact go f hi h
          · split at h
            · exact go f hi h
            · cases hdl : f.deliver m j v' with
              | mk g b =>
                obtain ⟨_, _, _, _, d5, _⟩ := deliver_cases hdl
                rw [hdl] at h
                have hin : g.input n k = f.input n k := d5 n k fun h' => e (by rw [h'.1, h'.2])
                cases b with
                | ok => exact go g (by rw [hin]; exact hi) h
                | err => cases h
                | raise => cases h
      · exact go f hi h

theorem lookup_of_mem_nodup {K V : Type} [BEq K] [LawfulBEq K] {l : List (K × V)} (hn : (l.map (·.1)).Nodup) {p : K} {x : V} (h : (p, x) ∈ l) :
    l.lookup p = some x := by
  induction l with
  | nil => cases h
  | cons q l ih =>
    obtain ⟨q1, q2⟩ := q
    simp only [List.map_cons, List.nodup_cons] at hn
    rcases List.mem_cons.mp h with h | h
    · cases h; simp [List.lookup]
    · have : (p == q1) = false := by
        cases hb : (p == q1) with
        | false => rfl
        | true =>
          rw [beq_iff_eq] at hb
          exact absurd (List.mem_map.mpr ⟨_, h, hb⟩) hn.1
      simp only [List.lookup, this]
      exact ih hn.2 h

/-- What is not marked is not pushed. -/
theorem pushIncoming_miss (l : List ((Nat × String) × Cont)) (f f' : Flow) (a : Ans) (h : pushIncoming l f = (f', a)) (n : Nat) (k : String) (c : Cont)
    (hl : l.lookup (n, k) = some c) (hn : (l.map (·.1)).Nodup) (hu : c.updated = false) : f'.input n k = f.input n k := by
  rcases pushIncoming_at n k l f f' a h hn with g | ⟨v, t, ⟨x, g1, g2, g3⟩, g4, g5⟩
  · exact g
  · have := lookup_of_mem_nodup hn g1
    rw [hl] at this
    cases this
    rw [hu] at g2
    cases g2

theorem nodup_incomingOf (I : Ids) (l : List (String × Cont)) (h : Keyed I l) (hn : (l.map (·.1)).Nodup) : ((incomingOf I l).map (·.1)).Nodup := by
  induction l with
  | nil => exact List.nodup_nil
  | cons p l ih =>
    simp only [List.map_cons, List.nodup_cons] at hn
    have ih := ih (fun p hp => h p (List.mem_cons_of_mem _ hp)) hn.2
    unfold incomingOf at ih ⊢
    rw [List.filterMap_cons]
    cases hp : I.parse p.1 with
    | none => exact ih
    | some q =>
      simp only [Option.map_some, List.map_cons, List.nodup_cons]
      refine ⟨fun hm => ?_, ih⟩
      obtain ⟨r, hr, he⟩ := List.mem_map.mp hm
      obtain ⟨p', hp', hq⟩ := List.mem_filterMap.mp hr
      cases hpp : I.parse p'.1 with
      | none => rw [hpp] at hq; cases hq
      | some q' =>
        rw [hpp] at hq
        cases hq
        have h1 := (h p' (List.mem_cons_of_mem _ hp') q' hpp).1
        have h2 := (h p (List.mem_cons_self ..) q hp).1
        have he : q' = q := he
        exact hn.1 (List.mem_map.mpr ⟨p', hp', by rw [h1, h2, he]⟩)

/-- The inputs that no connection leads to keep their values. -/
theorem step_input (f : Flow) (e : Ev) (he : inTick e = true) (n : Nat) (k : String) (hc : ∀ s xs x, f.conns.lookup s = some xs → x ∈ xs → x.place ≠ (n, k)) :
    (f.step e).1.conns = f.conns ∧ ∀ t, f.input n k = some t → ∃ t', (f.step e).1.input n k = some t' ∧ t'.ty = t.ty ∧ t'.value = t.value := by
  have same : ∀ t, f.input n k = some t → ∃ t', f.input n k = some t' ∧ t'.ty = t.ty ∧ t'.value = t.value := fun t ht => ⟨t, ht, rfl, rfl⟩
  cases e with
  | setup => cases he
  | incoming => cases he
  | offer _ _ _ => cases he
  | begin m =>
    simp only [Flow.step, Flow.begin]
    split
    · exact ⟨rfl, same⟩
    · split
      · exact ⟨rfl, fun t ht => ⟨t, by rw [input_allOutputs]; exact ht, rfl, rfl⟩⟩
      · exact ⟨rfl, same⟩
  | write m j v =>
    simp only [Flow.step, Flow.write]
    split
    · exact ⟨rfl, same⟩
    · exact ⟨rfl, fun t ht => ⟨t, by rw [input_setOutput]; exact ht, rfl, rfl⟩⟩
  | fail m => exact ⟨rfl, same⟩
  | untick m => exact ⟨rfl, fun t ht => ⟨t, by simp only [Flow.step]; rw [input_allOutputs]; exact ht, rfl, rfl⟩⟩
  | reset m =>
    refine ⟨rfl, fun t ht => ?_⟩
    simp only [Flow.step, Flow.reset]
    rw [input_allOutputs, input_allInputs, ht]
    split
    · exact ⟨_, rfl, rfl, rfl⟩
    · exact ⟨t, rfl, rfl, rfl⟩
  | finish m =>
    cases hf : f.finish m with
    | mk f' a =>
      simp only [Flow.step, hf]
      have hin : ∀ t, f.input n k = some t → ∃ t', (f.allInputs m Cont.resetUpdated).input n k = some t' ∧ t'.ty = t.ty ∧ t'.value = t.value := by
        intro t ht
        rw [input_allInputs, ht]
        split
        · exact ⟨_, rfl, rfl, rfl⟩
        · exact ⟨t, rfl, rfl, rfl⟩
      rcases pushOutputs_cases hf with ⟨rfl, _⟩ | ⟨g, b, h1, hp, _, e1, _, _, e4⟩
      · exact ⟨rfl, hin⟩
      · obtain ⟨p1, _, _, _, p5⟩ := pushConns_frame _ _ _ _ _ hp
        refine ⟨e1.trans p1, fun t ht => ?_⟩
        rw [e4, p5]
        · exact hin t ht
        · intro hm
          obtain ⟨x, hx, hxp⟩ := List.mem_map.mp hm
          exact hc m _ x h1 hx hxp

theorem holdsAt_of {f f' : Flow} {n : Nat} {k : String} {v : Val} (h : HoldsAt f n k v)
    (hi : ∀ t, f.input n k = some t → ∃ t', f'.input n k = some t' ∧ t'.ty = t.ty ∧ t'.value = t.value) : HoldsAt f' n k v := by
  obtain ⟨t, w, h1, h2, h3⟩ := h
  obtain ⟨t', e1, e2, e3⟩ := hi t h1
  exact ⟨t', w, e1, e3.trans h2, by rw [e2]; exact h3⟩

/-! ### What is at the inputs of the Subtree node -/

/-- How the Subtree node and its tree belong together: the inputs of the Subtree node are inputs of its nodes that are not wired. -/
structure Fitting (I : Ids) (x : Sub) : Prop where
  nodup : (x.own.inputs.map (·.1)).Nodup
  keyed : Keyed I x.own.inputs
  there : ∀ n k, '.' ∉ k.toList → (x.own.inputs.lookup (I.key n k)).isSome → (x.inner.flow.input n k).isSome
  apart : ∀ n k, '.' ∉ k.toList → (x.own.inputs.lookup (I.key n k)).isSome → ∀ s xs c, x.inner.flow.conns.lookup s = some xs → c ∈ xs → c.place ≠ (n, k)

/-- A value that has not been taken in yet is not delivered again. -/
def FirstTime (x : Sub) : SubEv → Prop
  | .deliver k v => ∀ c, x.own.inputs.lookup k = some c → c.updated = true → ∀ old, c.value = some old → pyEq old (clean c.ty v) = false
  | _ => True

/-- No delivery of the execution repeats a value that has not been taken in. -/
def AllFirst (I : Ids) : Sub → List SubEv → Prop
  | _, [] => True
  | x, e :: es => FirstTime x e ∧ ∀ y, x.step I e = some y → AllFirst I y es

structure TakenIn (I : Ids) (x : Sub) : Prop extends Fitting I x where
  sync : ∀ n k c v, '.' ∉ k.toList → x.own.inputs.lookup (I.key n k) = some c → c.value = some v →
    x.phase ≠ .active ∧ c.updated = true ∨ HoldsAt x.inner.flow n k v

theorem keys_modify {K V : Type} [DecidableEq K] (k : K) (g : V → V) (l : List (K × V)) : (modify k g l).map (·.1) = l.map (·.1) := by
  induction l with
  | nil => rfl
  | cons p l ih => simp only [modify]; split <;> simp [ih]

theorem keys_mapAll {K V : Type} (g : V → V) (l : List (K × V)) : (mapAll g l).map (·.1) = l.map (·.1) := by
  simp [mapAll, Function.comp_def]

theorem isSome_of_keys {V : Type} {l l' : List (String × V)} (h : l'.map (·.1) = l.map (·.1)) (k : String) (hs : (l'.lookup k).isSome) : (l.lookup k).isSome := by
  induction l generalizing l' with
  | nil =>
    have : l' = [] := by simpa using h
    subst this
    cases hs
  | cons p l ih =>
    cases l' with
    | nil => cases hs
    | cons p' l' =>
      simp only [List.map_cons, List.cons.injEq] at h
      obtain ⟨a, b⟩ := p
      obtain ⟨a', b'⟩ := p'
      obtain ⟨h1, h2⟩ := h
      dsimp only at h1
      subst h1
      simp only [List.lookup] at hs ⊢
      cases hb : (k == a') with
      | true => rfl
      | false => rw [hb] at hs; exact ih h2 hs

/-- Steps that change neither keys nor connections, nor remove inputs. -/
theorem fitting_of {I : Ids} {x y : Sub} (h : Fitting I x) (hk : y.own.inputs.map (·.1) = x.own.inputs.map (·.1)) (hc : y.inner.flow.conns = x.inner.flow.conns)
    (hi : ∀ n k, (x.inner.flow.input n k).isSome → (y.inner.flow.input n k).isSome) : Fitting I y := by
  refine ⟨by rw [hk]; exact h.nodup, keyed_of_keys h.keyed hk, fun n k hd hs => ?_, fun n k hd hs => ?_⟩
  · exact hi n k (h.there n k hd (isSome_of_keys hk _ hs))
  · rw [hc]
    exact h.apart n k hd (isSome_of_keys hk _ hs)

theorem fold_allOutputs (g : Cont → Cont) (ns : List Nat) : ∀ f : Flow, (ns.foldl (fun f n => f.allOutputs n g) f).conns = f.conns ∧
    ∀ n k, (ns.foldl (fun f n => f.allOutputs n g) f).input n k = f.input n k := by
  induction ns with
  | nil => intro f; exact ⟨rfl, fun _ _ => rfl⟩
  | cons m ns ih =>
    intro f
    obtain ⟨h1, h2⟩ := ih (f.allOutputs m g)
    exact ⟨h1, fun n k => (h2 n k).trans (input_allOutputs ..)⟩

theorem fold_reset (ns : List Nat) : ∀ f : Flow, (ns.foldl (fun f n => f.reset n) f).conns = f.conns ∧
    ∀ n k t, f.input n k = some t → ∃ t', (ns.foldl (fun f n => f.reset n) f).input n k = some t' ∧ t'.ty = t.ty ∧ t'.value = t.value := by
  induction ns with
  | nil => intro f; exact ⟨rfl, fun _ _ t h => ⟨t, h, rfl, rfl⟩⟩
  | cons m ns ih =>
    intro f
    obtain ⟨h1, h2⟩ := ih (f.reset m)
    refine ⟨h1, fun n k t ht => ?_⟩
    have : ∃ t', (f.reset m).input n k = some t' ∧ t'.ty = t.ty ∧ t'.value = t.value := by
      simp only [Flow.reset]
      rw [input_allOutputs, input_allInputs, ht]
      split
      · exact ⟨_, rfl, rfl, rfl⟩
      · exact ⟨t, rfl, rfl, rfl⟩
    obtain ⟨t', e1, e2, e3⟩ := this
    obtain ⟨t'', g1, g2, g3⟩ := h2 n k t' e1
    exact ⟨t'', g1, g2.trans e2, g3.trans e3⟩

theorem sysStep_flow {y y' : Sys} {e : Ev} (he : inTick e = true) (h : y.step e = some y') : y'.flow = (y.flow.step e).1 := by
  cases e with
  | setup => cases he
  | incoming => cases he
  | offer _ _ _ => cases he
  | begin m => simp only [Sys.step] at h; split at h <;> cases h; rfl
  | write m j v => simp only [Sys.step] at h; split at h <;> cases h; rfl
  | fail m => simp only [Sys.step] at h; split at h <;> cases h; rfl
  | untick m => simp only [Sys.step] at h; split at h <;> cases h; rfl
  | reset m => simp only [Sys.step] at h; split at h <;> cases h; rfl
  | finish m => simp only [Sys.step] at h; split at h <;> cases h; rfl

theorem takenIn_step {I : Ids} {x y : Sub} (e : SubEv) (h : TakenIn I x) (hf : FirstTime x e) (hs : x.step I e = some y) : TakenIn I y := by
  cases e with
  | deliver k v =>
    simp only [Sub.step] at hs
    split at hs
    · cases hs
    · rename_i hph
      split at hs
      · cases hs
      · rename_i c hc
        cases hs
        refine ⟨fitting_of h.toFitting (keys_modify ..) rfl (fun _ _ h => h), fun n j c' v' hd hl hv => ?_⟩
        dsimp only at hl ⊢
        rw [lookup_modify] at hl
        split at hl
        · rename_i hkey
          rw [hkey, hc] at hl
          cases hl
          by_cases ha : (c.set v).2 = .ok
          · obtain ⟨w, w1, _, w3, w4⟩ := set_ok ha
            by_cases hold : ∃ old, c.value = some old ∧ pyEq old (clean c.ty v) = true
            · obtain ⟨old, o1, o2⟩ := hold
              obtain ⟨_, u2⟩ := w3 old o1 o2
              rw [w1] at hv
              cases hv
              rcases h.sync n j c old hd (by rw [hkey]; exact hc) o1 with g | g
              · have := hf c hc g.2 old o1
                rw [o2] at this; cases this
              · exact .inr (u2 ▸ g)
            · refine .inl ⟨hph, (w4 fun old ho' => ?_).1⟩
              cases hp' : pyEq old (clean c.ty v) with
              | false => rfl
              | true => exact absurd ⟨old, ho', hp'⟩ hold
          · rw [set_refused c v ha] at hv ⊢
            exact h.sync n j c v' hd (by rw [hkey]; exact hc) hv
        · exact h.sync n j c' v' hd hl hv
  | begin =>
    simp only [Sub.step] at hs
    split at hs
    · rename_i hph
      split at hs
      · cases hs
        generalize hx1 : ({ x with own := { x.own with outputs := mapAll Cont.resetUpdated x.own.outputs } } : Sub) = x1
        have hin1 : x1.own.inputs = x.own.inputs := by rw [← hx1]
        have hfl1 : x1.inner = x.inner := by rw [← hx1]
        cases hp : pushIncoming (incomingOf I x1.own.inputs) (x1.full I).flow with
        | mk g a =>
          have hstep : (x1.full I).flow.step .incoming = (g, a) := hp
          rw [hstep]
          have hn := nodup_incomingOf I _ h.keyed h.nodup
          rw [hin1] at hp
          obtain ⟨f1, f2, f3, f4⟩ := pushIncoming_frame _ _ _ _ hp
          have finp : ∀ n k, (x1.full I).flow.input n k = x.inner.flow.input n k := by
            intro n k
            show x1.inner.flow.input n k = _
            rw [hfl1]
          have hsome : ∀ n k, (x.inner.flow.input n k).isSome → (g.input n k).isSome := by
            intro n k hi
            rcases pushIncoming_at n k _ _ _ _ hp hn with e | ⟨_, _, _, _, e⟩
            · rw [e, finp]; exact hi
            · rw [e]; rfl
          refine ⟨fitting_of h.toFitting (by show x1.own.inputs.map _ = _; rw [hin1]) ?_ hsome, fun n j c v hd hl hv => ?_⟩
          · show g.conns = _
            rw [f1]
            show x1.inner.flow.conns = _
            rw [hfl1]
          · replace hl : x1.own.inputs.lookup (I.key n j) = some c := hl
            rw [hin1] at hl
            have hlk : (incomingOf I x.own.inputs).lookup (n, j) = some c := by rw [lookup_incomingOf I _ h.keyed n j hd]; exact hl
            show (if a = Ans.ok then Phase.active else Phase.broken) ≠ .active ∧ c.updated = true ∨ HoldsAt g n j v
            cases hu : c.updated with
            | true =>
              by_cases ha : a = .ok
              · subst ha
                exact .inr (pushIncoming_hit _ _ _ hp n j c v hlk hn hd (by rw [finp]; exact h.there n j hd (by rw [hl]; rfl)) hu hv)
              · exact .inl ⟨by rw [if_neg ha]; simp, rfl⟩
            | false =>
              rcases h.sync n j c v hd hl hv with q | q
              · rw [hu] at q; cases q.2
              · refine .inr (holdsAt_of q fun t ht => ⟨t, ?_, rfl, rfl⟩)
                rw [pushIncoming_miss _ _ _ _ hp n j c hlk hn hu, finp]
                exact ht
      · cases hs
        refine ⟨fitting_of h.toFitting rfl rfl (fun _ _ h => h), fun n j c v hd hl hv => ?_⟩
        rcases h.sync n j c v hd hl hv with q | q
        · exact .inl ⟨by simp, q.2⟩
        · exact .inr q
    · cases hs
  | inside e =>
    simp only [Sub.step] at hs
    split at hs
    · rename_i hc
      cases hst : (x.full I).step e with
      | none => rw [hst] at hs; cases hs
      | some y' =>
        rw [hst] at hs
        cases hs
        have hfl := sysStep_flow hc.2 hst
        have key : ∀ n k, '.' ∉ k.toList → (x.own.inputs.lookup (I.key n k)).isSome → y'.flow.conns = x.inner.flow.conns ∧
            ∀ t, x.inner.flow.input n k = some t → ∃ t', y'.flow.input n k = some t' ∧ t'.ty = t.ty ∧ t'.value = t.value := by
          intro n k hd hs
          rw [hfl]
          exact step_input (x.full I).flow e hc.2 n k (h.apart n k hd hs)
        refine ⟨⟨h.nodup, h.keyed, fun n k hd hs => ?_, fun n k hd hs => ?_⟩, fun n j c v hd hl hv => ?_⟩
        · have hi := h.there n k hd hs
          cases ht : x.inner.flow.input n k with
          | none => rw [ht] at hi; cases hi
          | some t =>
            obtain ⟨t', e1, _⟩ := (key n k hd hs).2 t ht
            show (y'.flow.input n k).isSome
            rw [e1]; rfl
        · intro s xs c hl
          have hl : y'.flow.conns.lookup s = some xs := hl
          rw [(key n k hd hs).1] at hl
          exact h.apart n k hd hs s xs c hl
        · have hl : x.own.inputs.lookup (I.key n j) = some c := hl
          rcases h.sync n j c v hd hl hv with q | q
          · exact absurd hc.1 q.1
          · exact .inr (holdsAt_of q (key n j hd (by rw [hl]; rfl)).2)
    · cases hs
  | finish =>
    simp only [Sub.step] at hs
    split at hs
    · rename_i hph
      cases hs
      refine ⟨fitting_of h.toFitting (keys_mapAll ..) rfl (fun _ _ h => h), fun n j c v hd hl hv => ?_⟩
      dsimp only at hl
      rw [lookup_mapAll] at hl
      cases hc : x.own.inputs.lookup (I.key n j) with
      | none => rw [hc] at hl; cases hl
      | some c0 =>
        rw [hc] at hl
        cases hl
        rcases h.sync n j c0 v hd hc hv with q | q
        · exact absurd hph q.1
        · exact .inr q
    · cases hs
  | fail =>
    simp only [Sub.step] at hs
    split at hs
    · rename_i hph
      cases hs
      refine ⟨fitting_of h.toFitting rfl rfl (fun _ _ h => h), fun n j c v hd hl hv => ?_⟩
      rcases h.sync n j c v hd hl hv with q | q
      · exact absurd hph q.1
      · exact .inr q
    · cases hs
  | untick ns =>
    simp only [Sub.step] at hs
    split at hs
    · cases hs
      obtain ⟨f1, f2⟩ := fold_allOutputs Cont.resetUpdated ns x.inner.flow
      refine ⟨fitting_of h.toFitting rfl f1 (fun n k h => by dsimp only; rw [f2]; exact h), fun n j c v hd hl hv => ?_⟩
      rcases h.sync n j c v hd hl hv with q | q
      · exact .inl q
      · exact .inr (holdsAt_of q fun t ht => ⟨t, by dsimp only; rw [f2]; exact ht, rfl, rfl⟩)
    · cases hs
  | reset ns =>
    simp only [Sub.step] at hs
    split at hs
    · rename_i hph
      cases hs
      obtain ⟨f1, f2⟩ := fold_reset ns x.inner.flow
      refine ⟨fitting_of h.toFitting (keys_mapAll ..) f1 (fun n k hi => ?_), fun n j c v hd hl hv => ?_⟩
      · cases ht : x.inner.flow.input n k with
        | none => rw [ht] at hi; cases hi
        | some t => obtain ⟨t', e1, _⟩ := f2 n k t ht; dsimp only; rw [e1]; rfl
      · dsimp only at hl
        rw [lookup_mapAll] at hl
        cases hc : x.own.inputs.lookup (I.key n j) with
        | none => rw [hc] at hl; cases hl
        | some c0 => rw [hc] at hl; cases hl; exact .inl ⟨by rw [hph.1]; simp, rfl⟩
    · cases hs
  | setup =>
    cases hs
    refine ⟨fitting_of h.toFitting (keys_mapAll (fun c : Cont => c.resetValue.flagUpdated) x.own.inputs) rfl (fun n k hi => ?_), fun n j c v hd hl hv => ?_⟩
    · show (x.inner.flow.setup.input n k).isSome
      rw [input_setup]
      cases ht : x.inner.flow.input n k with
      | none => rw [ht] at hi; cases hi
      | some t => rfl
    · dsimp only at hl
      rw [lookup_mapAll] at hl
      cases hc : x.own.inputs.lookup (I.key n j) with
      | none => rw [hc] at hl; cases hl
      | some c0 => rw [hc] at hl; cases hl; exact .inl ⟨by simp, rfl⟩

/-- The Subtree node has just been set up. -/
def Sub.started (x : Sub) : Sub :=
  { own := { inputs := mapAll (fun c => c.resetValue.flagUpdated) x.own.inputs, outputs := mapAll (fun c => c.resetValue.resetUpdated) x.own.outputs },
    phase := .idle, inner := Data.started x.inner.flow }

theorem takenIn_started {I : Ids} {x : Sub} (h : Fitting I x) : TakenIn I x.started := by
  refine ⟨fitting_of h (keys_mapAll (fun c : Cont => c.resetValue.flagUpdated) x.own.inputs) rfl (fun n k hi => ?_), fun n j c v hd hl hv => ?_⟩
  · show (x.inner.flow.setup.input n k).isSome
    rw [input_setup]
    cases ht : x.inner.flow.input n k with
    | none => rw [ht] at hi; cases hi
    | some t => rfl
  · simp only [Sub.started] at hl
    rw [lookup_mapAll] at hl
    cases hc : x.own.inputs.lookup (I.key n j) with
    | none => rw [hc] at hl; cases hl
    | some c0 => rw [hc] at hl; cases hl; exact .inl ⟨by simp [Sub.started], rfl⟩

/-- C92: from setup on, whenever the Subtree node is being ticked, every value at one of its inputs is at the input of the node of its tree. -/
theorem c92_in_partial (I : Ids) (x : Sub) (h : Fitting I x) (es : List SubEv) (hf : AllFirst I x.started es) (y : Sub)
    (hr : x.started.run I es = some y) (ha : y.phase = .active) :
    ∀ n k c v, '.' ∉ k.toList → y.own.inputs.lookup (I.key n k) = some c → c.value = some v → HoldsAt y.inner.flow n k v := by
  have h0 := takenIn_started h
  generalize x.started = x0 at h0 hf hr
  have hy : TakenIn I y := by
    induction es generalizing x0 with
    | nil => cases hr; exact h0
    | cons e es ih =>
      simp only [Sub.run] at hr
      split at hr
      · rename_i x1 hs
        exact ih x1 (takenIn_step e h0 hf.1 hs) (hf.2 x1 hs) hr
      · cases hr
  intro n k c v hd hl hv
  rcases hy.sync n k c v hd hl hv with q | q
  · exact absurd ha q.1
  · exact q

/-! ### What is at the outputs of the Subtree node -/

/-- The outputs every node has. -/
def Flow.sig (f : Flow) : List (Nat × List String) := f.nodes.map fun p => (p.1, p.2.outputs.map (·.1))

theorem sig_modify (f : Flow) (n : Nat) (g : NodeData → NodeData) (h : ∀ d, (g d).outputs.map (·.1) = d.outputs.map (·.1)) :
    ({ f with nodes := modify n g f.nodes } : Flow).sig = f.sig := by
  simp only [Flow.sig]
  generalize f.nodes = l
  induction l with
  | nil => rfl
  | cons p l ih =>
    simp only [modify]
    split
    · simp [h]
    · simp [ih]

theorem sig_allInputs (f : Flow) (n : Nat) (g : Cont → Cont) : (f.allInputs n g).sig = f.sig := sig_modify f n _ fun _ => rfl

theorem sig_allOutputs (f : Flow) (n : Nat) (g : Cont → Cont) : (f.allOutputs n g).sig = f.sig := sig_modify f n _ fun d => keys_mapAll g d.outputs

theorem sig_reset (f : Flow) (n : Nat) : (f.reset n).sig = f.sig := (sig_allOutputs ..).trans (sig_allInputs ..)

theorem sig_setup (f : Flow) : f.setup.sig = f.sig := by
  simp only [Flow.setup, Flow.sig, mapAll, List.map_map]
  refine List.map_congr_left fun p _ => ?_
  simp [Function.comp_def]

theorem sig_deliver (f : Flow) (n : Nat) (k : String) (v : Val) : (f.deliver n k v).1.sig = f.sig := by
  unfold Flow.deliver
  split
  · rfl
  · exact sig_modify f n _ fun _ => rfl

theorem sig_pushConns (s : Nat) : ∀ (xs : List Conn) (f : Flow), (pushConns s xs f).1.sig = f.sig := by
  intro xs
  induction xs with
  | nil => intro f; rfl
  | cons x xs ih =>
    intro f
    simp only [pushConns]
    split
    · rfl
    · split
      · split
        · exact ih f
        · rename_i v _
          have hd := sig_deliver f x.target x.targetKey v
          split
          · rename_i g hg
            rw [hg] at hd
            exact (ih g).trans hd
          · exact hd
      · exact ih f

theorem sig_pushOutgoing (s : Nat) : ∀ (ds : List (String × Cont)) (f : Flow), (pushOutgoing s ds f).1.sig = f.sig := by
  intro ds
  induction ds with
  | nil => intro f; rfl
  | cons p ds ih =>
    intro f
    obtain ⟨k, c⟩ := p
    simp only [pushOutgoing]
    split
    · split
      · split
        · exact ih _
        · rfl
      · exact ih f
    · exact ih f

theorem sig_pushOutputs (f : Flow) (s : Nat) : (f.pushOutputs s).1.sig = f.sig := by
  unfold Flow.pushOutputs
  split
  · rename_i d cs _ _
    have h := sig_pushConns s cs f
    split
    · rename_i g hg
      rw [hg] at h
      exact (sig_pushOutgoing s _ g).trans h
    · exact h
  · rfl

theorem sig_pushIncoming : ∀ (l : List ((Nat × String) × Cont)) (f : Flow), (pushIncoming l f).1.sig = f.sig ∧ (pushIncoming l f).1.outgoing = f.outgoing := by
  intro l
  induction l with
  | nil => intro f; exact ⟨rfl, rfl⟩
  | cons p l ih =>
    intro f
    obtain ⟨⟨m, j⟩, c⟩ := p
    simp only [pushIncoming]
    split
    · split
      · exact ih f
      · rename_i v _
        split
        · exact ih f
        · split
          · exact ih f
          · have hd := sig_deliver f m j v
            cases hg : f.deliver m j v with
            | mk g b =>
              rw [hg] at hd
              obtain ⟨_, _, d3, _⟩ := deliver_cases hg
              cases b with
              | ok => exact ⟨(ih g).1.trans hd, (ih g).2.trans d3⟩
              | err => exact ⟨hd, d3⟩
              | raise => exact ⟨hd, d3⟩
    · exact ih f

theorem sig_step (f : Flow) (e : Ev) (he : inTick e = true) : (f.step e).1.sig = f.sig := by
  cases e with
  | setup => cases he
  | incoming => cases he
  | offer _ _ _ => cases he
  | begin m =>
    simp only [Flow.step, Flow.begin]
    split
    · rfl
    · split
      · exact sig_allOutputs ..
      · rfl
  | write m j v =>
    simp only [Flow.step, Flow.write]
    split
    · rfl
    · exact sig_modify f m _ fun d => keys_modify ..
  | fail m => rfl
  | untick m => exact sig_allOutputs ..
  | reset m => exact sig_reset ..
  | finish m => exact (sig_pushOutputs _ _).trans (sig_allInputs ..)

theorem sig_fold_allOutputs (g : Cont → Cont) (ns : List Nat) : ∀ f : Flow, (ns.foldl (fun f n => f.allOutputs n g) f).sig = f.sig := by
  induction ns with
  | nil => intro f; rfl
  | cons m ns ih => intro f; exact (ih _).trans (sig_allOutputs ..)

theorem sig_fold_reset (ns : List Nat) : ∀ f : Flow, (ns.foldl (fun f n => f.reset n) f).sig = f.sig := by
  induction ns with
  | nil => intro f; rfl
  | cons m ns ih => intro f; exact (ih _).trans (sig_reset ..)

theorem lookup_pair_mem {K V : Type} [BEq K] [LawfulBEq K] {l : List (K × V)} {k : K} {v : V} (h : l.lookup k = some v) : (k, v) ∈ l := by
  induction l with
  | nil => cases h
  | cons p l ih =>
    obtain ⟨a, b⟩ := p
    simp only [List.lookup] at h
    split at h
    · rename_i hb
      cases h
      rw [beq_iff_eq] at hb
      rw [hb]
      exact List.mem_cons_self ..
    · exact List.mem_cons_of_mem _ (ih h)

/-- What becomes of the outgoing data when the outputs of a node are pushed. -/
theorem pushOutgoing_at (s : Nat) : ∀ (ds : List (String × Cont)) (f f' : Flow) (a : Ans), pushOutgoing s ds f = (f', a) → (ds.map (·.1)).Nodup →
    ∀ n k o, f.outgoing.lookup (n, k) = some o → ∃ o', f'.outgoing.lookup (n, k) = some o' ∧
      (o' = o ∨ n = s ∧ ∃ c v, ds.lookup k = some c ∧ c.updated = true ∧ c.value = some v ∧ o' = (o.set v).1) ∧
      (a = .ok → n = s → ∀ c v, ds.lookup k = some c → c.updated = true → c.value = some v → o' = (o.set v).1 ∧ (o.set v).2 = .ok) := by
  intro ds
  induction ds with
  | nil =>
    intro f f' a h _ n k o ho
    cases h
    exact ⟨o, ho, .inl rfl, fun _ _ c v h => by cases h⟩
  | cons p ds ih =>
    intro f f' a h hn n k o ho
    obtain ⟨j, c⟩ := p
    simp only [List.map_cons, List.nodup_cons] at hn
    -- the first output is not sent, or does not concern the entry
    have skip : ∀ g : Flow, pushOutgoing s ds g = (f', a) → g.outgoing.lookup (n, k) = some o →
        (n = s → k = j → ∀ v, c.updated = true → c.value = some v → False) → ∃ o', f'.outgoing.lookup (n, k) = some o' ∧
        (o' = o ∨ n = s ∧ ∃ c' v, ((j, c) :: ds).lookup k = some c' ∧ c'.updated = true ∧ c'.value = some v ∧ o' = (o.set v).1) ∧
        (a = .ok → n = s → ∀ c' v, ((j, c) :: ds).lookup k = some c' → c'.updated = true → c'.value = some v → o' = (o.set v).1 ∧ (o.set v).2 = .ok) := by
      intro g hg hgo hno
      obtain ⟨o', h1, h2, h3⟩ := ih g f' a hg hn.2 n k o hgo
      by_cases hk : k = j
      · subst hk
        have hnone : ds.lookup k = none := by
          rw [List.lookup_eq_none_iff]
          rintro ⟨x, y⟩ hp
          simp only [bne_iff_ne, ne_eq]
          rintro rfl
          exact hn.1 (List.mem_map.mpr ⟨_, hp, rfl⟩)
        refine ⟨o', h1, ?_, fun _ hns c' v hl hu hv => ?_⟩
        · rcases h2 with h2 | ⟨_, _, _, h2, _⟩
          · exact .inl h2
          · rw [hnone] at h2; cases h2
        · simp only [List.lookup_cons_self, Option.some.injEq] at hl
          subst hl
          exact absurd (hno hns rfl v hu hv) id
      · have hb : (k == j) = false := by simpa using hk
        simp only [List.lookup, hb]
        exact ⟨o', h1, h2, h3⟩
    simp only [pushOutgoing] at h
    split at h
    · rename_i hu
      split at h
      · rename_i o0 v0 hl0 hv0
        by_cases hk : n = s ∧ k = j
        · obtain ⟨rfl, rfl⟩ := hk
          rw [hl0] at ho
          cases ho
          have hset : ({ f with outgoing := modify (n, k) (fun _ => (o.set v0).1) f.outgoing } : Flow).outgoing.lookup (n, k) = some (o.set v0).1 := by
            dsimp only
            rw [lookup_modify, if_pos rfl, hl0]; rfl
          split at h
          · rename_i hok
            have hnone : ds.lookup k = none := by
              rw [List.lookup_eq_none_iff]
              rintro ⟨x, y⟩ hp
              simp only [bne_iff_ne, ne_eq]
              rintro rfl
              exact hn.1 (List.mem_map.mpr ⟨_, hp, rfl⟩)
            obtain ⟨o', h1, h2, h3⟩ := ih _ f' a h hn.2 n k _ hset
            rcases h2 with h2 | ⟨_, _, _, h2, _⟩
            · refine ⟨o', h1, .inr ⟨rfl, c, v0, List.lookup_cons_self, hu, hv0, h2⟩, fun _ _ c' v hl _ hv => ?_⟩
              simp only [List.lookup_cons_self, Option.some.injEq] at hl
              subst hl
              rw [hv0] at hv
              cases hv
              exact ⟨h2, hok⟩
            · rw [hnone] at h2; cases h2
          · rename_i hok
            cases h
            exact ⟨_, hset, .inr ⟨rfl, c, v0, List.lookup_cons_self, hu, hv0, rfl⟩, fun h => absurd h hok⟩
        · have hne : (n, k) ≠ (s, j) := fun e => hk ⟨by cases e; rfl, by cases e; rfl⟩
          have hset : ({ f with outgoing := modify (s, j) (fun _ => (o0.set v0).1) f.outgoing } : Flow).outgoing.lookup (n, k) = some o := by
            dsimp only
            rw [lookup_modify, if_neg hne]; exact ho
          split at h
          · exact skip _ h hset fun h1 h2 => absurd ⟨h1, h2⟩ hk
          · rename_i hok
            cases h
            refine ⟨o, hset, .inl rfl, fun h => absurd h hok⟩
      · rename_i hno
        refine skip f h ho fun h1 h2 v _ hv => ?_
        subst h1 h2
        exact hno o v ho hv
    · rename_i hu
      exact skip f h ho fun _ _ _ h => absurd h hu

theorem finish_outgoing {f f' : Flow} {s : Nat} {a : Ans} (h : f.finish s = (f', a)) (hn : ∀ p ∈ f.sig, p.2.Nodup) :
    ∀ n k o, f.outgoing.lookup (n, k) = some o → ∃ o', f'.outgoing.lookup (n, k) = some o' ∧
      (o' = o ∨ n = s ∧ ∃ c v, f.output s k = some c ∧ c.updated = true ∧ c.value = some v ∧ o' = (o.set v).1) ∧
      (a = .ok → n = s → ∀ c v, f.output s k = some c → c.updated = true → c.value = some v → o' = (o.set v).1 ∧ (o.set v).2 = .ok) := by
  intro n k o ho
  have hs : (f.allInputs s Cont.resetUpdated).sig = f.sig := sig_allInputs ..
  have hout : (f.allInputs s Cont.resetUpdated).output s k = f.output s k := output_allInputs ..
  have hog : (f.allInputs s Cont.resetUpdated).outgoing = f.outgoing := rfl
  unfold Flow.finish at h
  generalize f.allInputs s Cont.resetUpdated = f1 at h hs hout hog
  rw [← hout]
  unfold Flow.pushOutputs at h
  split at h
  · rename_i d cs hd hcs
    have hnd : (d.outputs.map (·.1)).Nodup := by
      refine hn (s, d.outputs.map (·.1)) ?_
      rw [← hs]
      exact List.mem_map.mpr ⟨(s, d), lookup_pair_mem hd, rfl⟩
    have hlk : f1.output s k = d.outputs.lookup k := by simp [Flow.output, hd]
    cases hp : pushConns s cs f1 with
    | mk g b =>
      obtain ⟨_, _, p3, _, _⟩ := pushConns_frame _ _ _ _ _ hp
      rw [hp] at h
      cases b with
      | ok =>
        rw [hlk]
        exact pushOutgoing_at s _ g f' a h hnd n k o (by rw [p3, hog]; exact ho)
      | err => cases h; exact ⟨o, by rw [p3, hog]; exact ho, .inl rfl, by simp⟩
      | raise => cases h; exact ⟨o, by rw [p3, hog]; exact ho, .inl rfl, by simp⟩
  · cases h
    exact ⟨o, by rw [hog]; exact ho, .inl rfl, by simp⟩

theorem step_outgoing (f : Flow) (e : Ev) (he : inTick e = true) (hf : ∀ n, e ≠ .finish n) : (f.step e).1.outgoing = f.outgoing := by
  cases e with
  | setup => cases he
  | incoming => cases he
  | offer _ _ _ => cases he
  | begin m =>
    simp only [Flow.step, Flow.begin]
    split
    · rfl
    · split <;> rfl
  | write m j v =>
    simp only [Flow.step, Flow.write]
    split <;> rfl
  | fail m => rfl
  | untick m => rfl
  | reset m => rfl
  | finish m => exact absurd rfl (hf m)

/-- An output of the Subtree node holds the value. -/
def Shown (o : Cont) (v : Val) : Prop := ∃ w, o.value = some w ∧ Same o.ty v w

structure PassedOn (I : Ids) (x : Sub) : Prop where
  keyed : Keyed I x.own.outputs
  nodup : ∀ p ∈ x.inner.flow.sig, p.2.Nodup
  dynamic : DynamicOutputs x.inner.flow
  sync : ∀ n k o, '.' ∉ k.toList → x.own.outputs.lookup (I.key n k) = some o → x.inner.phase n ≠ .broken →
    ∀ c v, x.inner.flow.output n k = some c → c.value = some v → x.inner.phase n = .active ∧ c.updated = true ∨ Shown o v

/-- What an event of the nested tree that is not the end of a tick does to outputs. -/
theorem quiet_out {y y' : Sys} (e : Ev) (he : inTick e = true) (hf : ∀ n, e ≠ .finish n) (hd : DynamicOutputs y.flow) (hn : NoEcho y e) (hs : y.step e = some y') :
    DynamicOutputs y'.flow ∧ ∀ s, y'.phase s ≠ .broken → ∀ k c' v, y'.flow.output s k = some c' → c'.value = some v →
      y'.phase s = .active ∧ c'.updated = true ∨
      ∃ c, y.flow.output s k = some c ∧ c.value = some v ∧ y.phase s ≠ .broken ∧ (y.phase s = .active ∧ c.updated = true → y'.phase s = .active ∧ c'.updated = true) := by
  cases e with
  | setup => cases he
  | incoming => cases he
  | offer _ _ _ => cases he
  | finish m => exact absurd rfl (hf m)
  | fail n =>
    simp only [Sys.step] at hs
    split at hs
    · cases hs
      refine ⟨hd, fun s hp k c' v h1 h2 => ?_⟩
      simp only [Sys.enter] at hp ⊢
      split at hp
      · exact absurd rfl hp
      · rename_i hsn
        exact .inr ⟨c', h1, h2, hp, fun g => by rw [if_neg hsn]; exact g⟩
    · cases hs
  | untick n =>
    simp only [Sys.step] at hs
    split at hs
    · rename_i hph
      cases hs
      have ho := fun n' k => output_allOutputs y.flow n n' k Cont.resetUpdated
      refine ⟨fun m k c hc => ?_, fun s hp k c' v h1 h2 => ?_⟩
      · rcases mapped ho hc with ⟨_, g⟩ | ⟨_, c0, g, rfl⟩
        · exact hd _ _ _ g
        · exact (hd _ _ _ g : c0.isStatic = false)
      · rcases mapped ho h1 with ⟨_, g⟩ | ⟨rfl, c0, g, rfl⟩
        · exact .inr ⟨c', g, h2, hp, fun g => g⟩
        · exact .inr ⟨c0, g, h2, hp, fun g => by rw [hph] at g; cases g.1⟩
    · cases hs
  | reset n =>
    simp only [Sys.step] at hs
    split at hs
    · rename_i hph
      cases hs
      have ho : ∀ n' k, (y.flow.step (.reset n)).1.output n' k =
          if n' = n then (y.flow.output n' k).map (fun c => c.resetValue.resetUpdated) else y.flow.output n' k := by
        intro n' k
        show ((y.flow.allInputs n Cont.flagUpdated).allOutputs n _).output n' k = _
        rw [output_allOutputs, output_allInputs]
      refine ⟨fun m k c hc => ?_, fun s hp k c' v h1 h2 => ?_⟩
      · rcases mapped ho hc with ⟨_, g⟩ | ⟨_, c0, g, rfl⟩
        · exact hd _ _ _ g
        · exact (resetValue_static c0).trans (hd _ _ _ g)
      · rcases mapped ho h1 with ⟨_, g⟩ | ⟨rfl, c0, g, rfl⟩
        · exact .inr ⟨c', g, h2, hp, fun g => g⟩
        · have := resetValue_dyn (hd _ _ _ g)
          have h2' : c0.resetValue.value = some v := h2
          rw [this] at h2'; cases h2'
    · cases hs
  | begin n =>
    simp only [Sys.step] at hs
    split at hs
    · rename_i hph
      cases hs
      have hb : (y.flow.step (.begin n) = (y.flow.allOutputs n Cont.resetUpdated, .ok)) ∨ ((y.flow.step (.begin n)) = (y.flow, .err)) := by
        simp only [Flow.step, Flow.begin]
        split
        · exact .inr rfl
        · split
          · exact .inl rfl
          · exact .inr rfl
      rcases hb with hb | hb
      · rw [hb]
        have ho := fun n' k => output_allOutputs y.flow n n' k Cont.resetUpdated
        refine ⟨fun m k c hc => ?_, fun s hp k c' v h1 h2 => ?_⟩
        · rcases mapped ho hc with ⟨_, g⟩ | ⟨_, c0, g, rfl⟩
          · exact hd _ _ _ g
          · exact (hd _ _ _ g : c0.isStatic = false)
        · simp only [Sys.enter] at hp ⊢
          rcases mapped ho h1 with ⟨hsn, g⟩ | ⟨rfl, c0, g, rfl⟩
          · rw [if_neg hsn] at hp ⊢
            exact .inr ⟨c', g, h2, hp, fun g => g⟩
          · exact .inr ⟨c0, g, h2, by rw [hph]; simp, fun g => by rw [hph] at g; cases g.1⟩
      · rw [hb]
        refine ⟨hd, fun s hp k c' v h1 h2 => ?_⟩
        simp only [Sys.enter] at hp ⊢
        split at hp
        · exact absurd rfl hp
        · rename_i hsn
          exact .inr ⟨c', h1, h2, hp, fun g => by rw [if_neg hsn]; exact g⟩
    · cases hs
  | write n k v =>
    simp only [Sys.step] at hs
    split at hs
    · rename_i hph
      cases hs
      simp only [Flow.step, Flow.write]
      cases hc : y.flow.output n k with
      | none => exact ⟨hd, fun s hp k c' v h1 h2 => .inr ⟨c', h1, h2, hp, fun g => g⟩⟩
      | some c =>
        dsimp only
        have ho : ∀ n' k', (y.flow.setOutput n k (c.set v).1).output n' k' =
            if n' = n ∧ k' = k then some (c.set v).1 else y.flow.output n' k' := by
          intro n' k'
          rw [output_setOutput]
          split
          · rename_i e; rw [e.1, e.2, hc]; rfl
          · rfl
        refine ⟨fun m j c' hc' => ?_, fun s hp j c' w h1 h2 => ?_⟩
        · rw [ho] at hc'
          split at hc'
          · cases hc'; rw [(set_ty c v).2.1]; exact hd _ _ _ hc
          · exact hd _ _ _ hc'
        · rw [ho] at h1
          split at h1
          · rename_i e
            cases h1
            rw [e.1, e.2]
            by_cases hans : (c.set v).2 = .ok
            · obtain ⟨w', w1, w2, w3, w4⟩ := set_ok hans
              rw [w1] at h2; cases h2
              by_cases hold : ∃ old, c.value = some old ∧ pyEq old (clean c.ty v) = true
              · obtain ⟨old, o1, o2⟩ := hold
                obtain ⟨u1, u2⟩ := w3 old o1 o2
                right
                refine ⟨c, hc, by rw [o1, u2], by rw [hph]; simp, fun g => ?_⟩
                have := hn c hc g.2 old o1
                rw [o2] at this; cases this
              · left
                refine ⟨hph, (w4 (fun old ho' => ?_)).1⟩
                cases hp' : pyEq old (clean c.ty v) with
                | false => rfl
                | true => exact absurd ⟨old, ho', hp'⟩ hold
            · have e1 := set_refused c v hans
              rw [e1] at h2 ⊢
              exact .inr ⟨c, hc, h2, by rw [hph]; simp, fun g => g⟩
          · exact .inr ⟨c', h1, h2, hp, fun g => g⟩
    · cases hs

/-- Hooks of nodes of the nested tree do not write an equal value twice in a tick; a reset of the Subtree node reaches every node that has an output
which is an output of the Subtree node. -/
def Thorough (I : Ids) (x : Sub) : SubEv → Prop
  | .inside e => NoEcho x.inner e
  | .reset ns => ∀ n k, '.' ∉ k.toList → (x.own.outputs.lookup (I.key n k)).isSome → n ∈ ns
  | _ => True

/-- Every event of the execution is like that. -/
def AllThorough (I : Ids) : Sub → List SubEv → Prop
  | _, [] => True
  | x, e :: es => Thorough I x e ∧ ∀ y, x.step I e = some y → AllThorough I y es

/-- The outputs of the Subtree node after something has happened to its tree. -/
theorem back_lookup {I : Ids} {x : Sub} (y : Sys) {n : Nat} {k : String} (hd : '.' ∉ k.toList) {o' : Cont}
    (h : (x.back I y).own.outputs.lookup (I.key n k) = some o') :
    ∃ o, x.own.outputs.lookup (I.key n k) = some o ∧ o' = (y.flow.outgoing.lookup (n, k)).getD o := by
  have h : (writeBack I y.flow.outgoing x.own.outputs).lookup (I.key n k) = some o' := h
  rw [lookup_writeBack I _ _ n k hd] at h
  cases ho : x.own.outputs.lookup (I.key n k) with
  | none => rw [ho] at h; cases h
  | some o => rw [ho] at h; cases h; exact ⟨o, rfl, rfl⟩

theorem fold_output (g : Flow → Nat → Flow) (w : Cont → Cont) (hg : ∀ f m n k, (g f m).output n k = if n = m then (f.output n k).map w else f.output n k)
    (ns : List Nat) : ∀ f : Flow, ∀ n k c', (ns.foldl g f).output n k = some c' → ∃ c, f.output n k = some c ∧
      (c' = c ∧ n ∉ ns ∨ n ∈ ns ∧ ∃ i, c' = w (Nat.repeat w i c)) := by
  induction ns with
  | nil => intro f n k c' h; exact ⟨c', h, .inl ⟨rfl, by simp⟩⟩
  | cons m ns ih =>
    intro f n k c' h
    obtain ⟨c1, h1, h2⟩ := ih (g f m) n k c' h
    rw [hg] at h1
    split at h1
    · rename_i e
      subst e
      cases hc : f.output n k with
      | none => rw [hc] at h1; cases h1
      | some c =>
        rw [hc] at h1
        cases h1
        refine ⟨c, rfl, .inr ⟨List.mem_cons_self .., ?_⟩⟩
        rcases h2 with ⟨h2, _⟩ | ⟨_, i, h2⟩
        · exact ⟨0, h2⟩
        · refine ⟨i + 1, ?_⟩
          rw [h2]
          congr 1
          clear h2 hc
          induction i with
          | zero => rfl
          | succ i ih => exact congrArg w ih
    · rename_i e
      refine ⟨c1, h1, ?_⟩
      rcases h2 with ⟨h2, h3⟩ | ⟨h3, h2⟩
      · exact .inl ⟨h2, by simp [e, h3]⟩
      · exact .inr ⟨List.mem_cons_of_mem _ h3, h2⟩

theorem repeat_static (w : Cont → Cont) (hw : ∀ c : Cont, (w c).isStatic = c.isStatic) (i : Nat) (c : Cont) : (Nat.repeat w i c).isStatic = c.isStatic := by
  induction i with
  | zero => rfl
  | succ i ih => exact (hw _).trans ih

theorem repeat_value (w : Cont → Cont) (hw : ∀ c : Cont, (w c).value = c.value) (i : Nat) (c : Cont) : (Nat.repeat w i c).value = c.value := by
  induction i with
  | zero => rfl
  | succ i ih => exact (hw _).trans ih

theorem passedOn_started {I : Ids} {x : Sub} (h1 : Keyed I x.own.outputs) (h2 : ∀ p ∈ x.inner.flow.sig, p.2.Nodup) (h3 : DynamicOutputs x.inner.flow) :
    PassedOn I x.started := by
  have ho : ∀ n k c, x.inner.flow.setup.output n k = some c → c.value = none ∧ c.isStatic = false := by
    intro n k c h
    rw [output_setup] at h
    cases hc : x.inner.flow.output n k with
    | none => rw [hc] at h; cases h
    | some c0 =>
      rw [hc] at h
      cases h
      have hd := h3 _ _ _ hc
      exact ⟨resetValue_dyn hd, (resetValue_static c0).trans hd⟩
  refine ⟨keyed_of_keys h1 (keys_mapAll (fun c : Cont => c.resetValue.resetUpdated) x.own.outputs), ?_, fun n k c h => (ho n k c h).2,
    fun n k o _ _ _ c v hc hv => ?_⟩
  · show ∀ p ∈ x.inner.flow.setup.sig, p.2.Nodup
    rw [sig_setup]; exact h2
  · rw [(ho _ _ _ hc).1] at hv
    cases hv

theorem passedOn_step {I : Ids} {x y : Sub} (e : SubEv) (h : PassedOn I x) (ht : Thorough I x e) (hs : x.step I e = some y) : PassedOn I y := by
  cases e with
  | deliver k v =>
    simp only [Sub.step] at hs
    split at hs
    · cases hs
    · split at hs
      · cases hs
      · cases hs; exact ⟨h.keyed, h.nodup, h.dynamic, h.sync⟩
  | begin =>
    simp only [Sub.step] at hs
    split at hs
    · split at hs
      · cases hs
        generalize hx1 : ({ x with own := { x.own with outputs := mapAll Cont.resetUpdated x.own.outputs } } : Sub) = x1
        have hout1 : x1.own.outputs = mapAll Cont.resetUpdated x.own.outputs := by rw [← hx1]
        have hfl1 : x1.inner = x.inner := by rw [← hx1]
        have hk1 : Keyed I x1.own.outputs := by rw [hout1]; exact keyed_of_keys h.keyed (keys_mapAll ..)
        cases hp : pushIncoming (incomingOf I x1.own.inputs) (x1.full I).flow with
        | mk g a =>
          have hstep : (x1.full I).flow.step .incoming = (g, a) := hp
          rw [hstep]
          obtain ⟨f1, f2, f3, f4⟩ := pushIncoming_frame _ _ _ _ hp
          obtain ⟨s1, s2⟩ := sig_pushIncoming (incomingOf I x1.own.inputs) (x1.full I).flow
          rw [hp] at s1 s2
          have fout : ∀ n k, g.output n k = x.inner.flow.output n k := by
            intro n k
            rw [f3]
            show x1.inner.flow.output n k = _
            rw [hfl1]
          refine ⟨keyed_of_keys hk1 (keys_writeBack ..), ?_, fun n k c hc => ?_, fun n k o hd ho hph c v hc hv => ?_⟩
          · show ∀ p ∈ g.sig, p.2.Nodup
            rw [s1]
            show ∀ p ∈ x1.inner.flow.sig, p.2.Nodup
            rw [hfl1]
            exact h.nodup
          · have hc : g.output n k = some c := hc
            rw [fout] at hc
            exact h.dynamic n k c hc
          · obtain ⟨o1, ho1, rfl⟩ := back_lookup _ hd ho
            have hph : x.inner.phase n ≠ .broken := hph
            have hc : g.output n k = some c := hc
            rw [fout] at hc
            have hog : g.outgoing.lookup (n, k) = some o1 := by
              rw [s2]
              show (incomingOf I x1.own.outputs).lookup (n, k) = _
              rw [lookup_incomingOf I _ hk1 n k hd]; exact ho1
            show x.inner.phase n = .active ∧ c.updated = true ∨ Shown ((g.outgoing.lookup (n, k)).getD o1) v
            rw [hog]
            rw [hout1, lookup_mapAll] at ho1
            cases hx : x.own.outputs.lookup (I.key n k) with
            | none => rw [hx] at ho1; cases ho1
            | some o =>
              rw [hx] at ho1
              cases ho1
              exact h.sync n k o hd hx hph c v hc hv
      · cases hs; exact ⟨h.keyed, h.nodup, h.dynamic, h.sync⟩
    · cases hs
  | inside e =>
    simp only [Sub.step] at hs
    split at hs
    · rename_i hc
      cases hst : (x.full I).step e with
      | none => rw [hst] at hs; cases hs
      | some y' =>
        rw [hst] at hs
        cases hs
        have hfl := sysStep_flow hc.2 hst
        have hsig : ∀ p ∈ y'.flow.sig, p.2.Nodup := by rw [hfl, sig_step _ _ hc.2]; exact h.nodup
        have hlk : ∀ n k o, '.' ∉ k.toList → x.own.outputs.lookup (I.key n k) = some o → (x.full I).flow.outgoing.lookup (n, k) = some o := by
          intro n k o hd ho
          show (incomingOf I x.own.outputs).lookup (n, k) = _
          rw [lookup_incomingOf I _ h.keyed n k hd]; exact ho
        by_cases hfin : ∃ m, e = .finish m
        · obtain ⟨m, rfl⟩ := hfin
          simp only [Sys.step] at hst
          split at hst
          · rename_i hph
            cases hf : (x.full I).flow.finish m with
            | mk f' a =>
              have hst' : (x.full I).flow.step (.finish m) = (f', a) := hf
              rw [hst'] at hst
              have hout : ∀ n k, f'.output n k = x.inner.flow.output n k := by
                intro n k
                have h1 : ((x.full I).flow.allInputs m Cont.resetUpdated).output n k = x.inner.flow.output n k := output_allInputs ..
                rcases pushOutputs_cases hf with ⟨e, _⟩ | ⟨g, b, _, hp, _, _, _, e3, _⟩
                · rw [e]; exact h1
                · rw [e3, (pushConns_frame _ _ _ _ _ hp).2.2.2.1 n k]; exact h1
              have hfo := finish_outgoing hf h.nodup
              cases hst
              refine ⟨keyed_of_keys h.keyed (keys_writeBack ..), hsig, fun n k c hc => ?_, fun n k o' hd ho hph' c v hc hv => ?_⟩
              · have hc : f'.output n k = some c := hc
                rw [hout] at hc
                exact h.dynamic n k c hc
              · obtain ⟨o, ho1, rfl⟩ := back_lookup _ hd ho
                have hc2 : f'.output n k = some c := hc
                rw [hout] at hc2
                clear hc
                obtain ⟨o1, g1, g2, g3⟩ := hfo n k o (hlk n k o hd ho1)
                have g1' : ((Sys.enter { (x.full I) with flow := f' } m (if a = .ok then .idle else .broken)).flow.outgoing.lookup (n, k)).getD o = o1 := by
                  show (f'.outgoing.lookup (n, k)).getD o = o1
                  rw [g1]; rfl
                rw [g1']
                have hph' : (if n = m then (if a = .ok then Phase.idle else .broken) else x.inner.phase n) ≠ .broken := hph'
                show (if n = m then (if a = .ok then Phase.idle else .broken) else x.inner.phase n) = .active ∧ c.updated = true ∨ _
                by_cases hnm : n = m
                · subst hnm
                  rw [if_pos rfl] at hph'
                  have ha : a = .ok := by
                    by_cases e : a = .ok
                    · exact e
                    · rw [if_neg e] at hph'; exact absurd rfl hph'
                  right
                  cases hu : c.updated with
                  | true =>
                    obtain ⟨r1, r2⟩ := g3 ha rfl c v hc2 hu hv
                    obtain ⟨w, w1, w2, _⟩ := set_ok r2
                    exact ⟨w, by rw [r1]; exact w1, by rw [r1, (set_ty o v).1]; exact w2⟩
                  | false =>
                    rcases g2 with g2 | ⟨_, c', v', q1, q2, _⟩
                    · have hph : x.inner.phase n = .active := hph
                      rcases h.sync n k o hd ho1 (by rw [hph]; simp) c v hc2 hv with q | q
                      · rw [hu] at q; cases q.2
                      · rw [g2]; exact q
                    · have q1 : x.inner.flow.output n k = some c' := q1
                      rw [hc2] at q1
                      cases q1
                      rw [hu] at q2; cases q2
                · rw [if_neg hnm] at hph' ⊢
                  rcases g2 with g2 | ⟨q, _⟩
                  · rw [g2]; exact h.sync n k o hd ho1 hph' c v hc2 hv
                  · exact absurd q hnm
          · cases hst
        · have hfin : ∀ m, e ≠ .finish m := fun m em => hfin ⟨m, em⟩
          have hne : NoEcho (x.full I) e := by
            cases e with
            | write n k v => exact ht
            | _ => trivial
          obtain ⟨q1, q2⟩ := quiet_out (y := x.full I) e hc.2 hfin h.dynamic hne hst
          refine ⟨keyed_of_keys h.keyed (keys_writeBack ..), hsig, q1, fun n k o' hd ho hph c' v hc' hv => ?_⟩
          obtain ⟨o, ho1, rfl⟩ := back_lookup _ hd ho
          have hog : y'.flow.outgoing.lookup (n, k) = some o := by
            rw [hfl, step_outgoing _ _ hc.2 hfin]
            exact hlk n k o hd ho1
          rw [hog]
          rcases q2 n hph k c' v hc' hv with g | ⟨c, g1, g2, g3, g4⟩
          · exact .inl g
          · rcases h.sync n k o hd ho1 g3 c v g1 g2 with r | r
            · exact .inl (g4 r)
            · exact .inr r
    · cases hs
  | finish =>
    simp only [Sub.step] at hs
    split at hs
    · cases hs; exact ⟨h.keyed, h.nodup, h.dynamic, h.sync⟩
    · cases hs
  | fail =>
    simp only [Sub.step] at hs
    split at hs
    · cases hs; exact ⟨h.keyed, h.nodup, h.dynamic, h.sync⟩
    · cases hs
  | untick ns =>
    simp only [Sub.step] at hs
    split at hs
    · rename_i hid
      cases hs
      have hfold := fold_output (fun f n => f.allOutputs n Cont.resetUpdated) Cont.resetUpdated (fun f m n k => output_allOutputs ..) ns x.inner.flow
      refine ⟨keyed_of_keys h.keyed (keys_mapAll ..), ?_, fun n k c' hc => ?_, fun n k o' hd ho hph c' v hc hv => ?_⟩
      · dsimp only; rw [sig_fold_allOutputs]; exact h.nodup
      · obtain ⟨c, c1, c2⟩ := hfold n k c' hc
        rcases c2 with ⟨rfl, _⟩ | ⟨_, i, rfl⟩
        · exact h.dynamic _ _ _ c1
        · exact (repeat_static Cont.resetUpdated (fun _ => rfl) i c).trans (h.dynamic _ _ _ c1)
      · obtain ⟨c, c1, c2⟩ := hfold n k c' hc
        dsimp only at ho
        rw [lookup_mapAll] at ho
        cases hx : x.own.outputs.lookup (I.key n k) with
        | none => rw [hx] at ho; cases ho
        | some o =>
          rw [hx] at ho
          cases ho
          rcases c2 with ⟨rfl, _⟩ | ⟨hm, i, rfl⟩
          · exact h.sync n k o hd hx hph _ v c1 hv
          · have hv : (Nat.repeat Cont.resetUpdated i c).value = some v := hv
            rw [repeat_value Cont.resetUpdated (fun _ => rfl)] at hv
            rcases h.sync n k o hd hx hph c v c1 hv with q | q
            · have := List.all_eq_true.mp hid.2 n hm
              exact absurd q.1 (of_decide_eq_true this)
            · exact .inr q
    · cases hs
  | reset ns =>
    simp only [Sub.step] at hs
    split at hs
    · rename_i hph
      cases hs
      have hfold := fold_output (fun f n => f.reset n) (fun c => c.resetValue.resetUpdated)
        (fun f m n k => by simp only [Flow.reset]; rw [output_allOutputs, output_allInputs]) ns x.inner.flow
      have hst : ∀ i (c : Cont), (Nat.repeat (fun c : Cont => c.resetValue.resetUpdated) i c).isStatic = c.isStatic :=
        repeat_static _ fun c => resetValue_static c
      refine ⟨keyed_of_keys h.keyed (keys_mapAll (fun c : Cont => c.resetValue.resetUpdated) x.own.outputs), ?_, fun n k c' hc => ?_, fun n k o' hd ho hph c' v hc hv => ?_⟩
      · dsimp only; rw [sig_fold_reset]; exact h.nodup
      · obtain ⟨c, c1, c2⟩ := hfold n k c' hc
        rcases c2 with ⟨rfl, _⟩ | ⟨_, i, rfl⟩
        · exact h.dynamic _ _ _ c1
        · exact (resetValue_static _).trans ((hst i c).trans (h.dynamic _ _ _ c1))
      · obtain ⟨c, c1, c2⟩ := hfold n k c' hc
        dsimp only at ho
        rw [lookup_mapAll] at ho
        have hmem : n ∈ ns := by
          refine ht n k hd ?_
          cases hx : x.own.outputs.lookup (I.key n k) with
          | none => rw [hx] at ho; cases ho
          | some o => rfl
        rcases c2 with ⟨_, q⟩ | ⟨_, i, rfl⟩
        · exact absurd hmem q
        · have : (Nat.repeat (fun c : Cont => c.resetValue.resetUpdated) i c).resetValue.value = none :=
            resetValue_dyn ((hst i c).trans (h.dynamic _ _ _ c1))
          have hv : (Nat.repeat (fun c : Cont => c.resetValue.resetUpdated) i c).resetValue.value = some v := hv
          rw [this] at hv
          cases hv
    · cases hs
  | setup =>
    cases hs
    exact passedOn_started h.keyed h.nodup h.dynamic

/-- C92: from setup on, whenever a node of the nested tree is not being ticked and not broken, the value of its output is at the output of the Subtree node. -/
theorem c92_out_partial (I : Ids) (x : Sub) (h1 : Keyed I x.own.outputs) (h2 : ∀ p ∈ x.inner.flow.sig, p.2.Nodup) (h3 : DynamicOutputs x.inner.flow)
    (es : List SubEv) (ht : AllThorough I x.started es) (y : Sub) (hr : x.started.run I es = some y) :
    ∀ n k o, '.' ∉ k.toList → y.own.outputs.lookup (I.key n k) = some o → y.inner.phase n = .idle →
      ∀ c v, y.inner.flow.output n k = some c → c.value = some v → Shown o v := by
  have h0 := passedOn_started h1 h2 h3
  generalize x.started = x0 at h0 ht hr
  have hy : PassedOn I y := by
    induction es generalizing x0 with
    | nil => cases hr; exact h0
    | cons e es ih =>
      simp only [Sub.run] at hr
      split at hr
      · rename_i x1 hs
        exact ih x1 (passedOn_step e h0 ht.1 hs) (ht.2 x1 hs) hr
      · cases hr
  intro n k o hd ho hph c v hc hv
  rcases hy.sync n k o hd ho (by rw [hph]; simp) c v hc hv with q | q
  · rw [hph] at q; cases q.1
  · exact q

/-- A node ends a tick. -/
def isFinish (n : Nat) : Ev → Bool
  | .finish m => m == n
  | _ => false

/-- How often a node of the nested tree ends a tick. -/
def finishes (n : Nat) (es : List Ev) : Nat := (es.filter (isFinish n)).length

/-- What an event of the nested tree does to an output of the Subtree node. -/
theorem inside_own {I : Ids} {x y : Sub} {e : Ev} (hk : Keyed I x.own.outputs) (hn : ∀ p ∈ x.inner.flow.sig, p.2.Nodup)
    (hs : x.step I (.inside e) = some y) : Keyed I y.own.outputs ∧ (∀ p ∈ y.inner.flow.sig, p.2.Nodup) ∧
    ∀ n k, '.' ∉ k.toList → ∀ o, x.own.outputs.lookup (I.key n k) = some o → ∃ o', y.own.outputs.lookup (I.key n k) = some o' ∧
      (o' = o ∨ e = .finish n ∧ ∃ v, o' = (o.set v).1) := by
  simp only [Sub.step] at hs
  split at hs
  · rename_i hc
    cases hst : (x.full I).step e with
    | none => rw [hst] at hs; cases hs
    | some y' =>
      rw [hst] at hs
      cases hs
      have hfl := sysStep_flow hc.2 hst
      refine ⟨keyed_of_keys hk (keys_writeBack ..), ?_, fun n k hd o ho => ?_⟩
      · show ∀ p ∈ y'.flow.sig, p.2.Nodup
        rw [hfl, sig_step _ _ hc.2]; exact hn
      · have hlk : (x.full I).flow.outgoing.lookup (n, k) = some o := by
          show (incomingOf I x.own.outputs).lookup (n, k) = _
          rw [lookup_incomingOf I _ hk n k hd]; exact ho
        have hb : ∀ o', y'.flow.outgoing.lookup (n, k) = some o' → (x.back I y').own.outputs.lookup (I.key n k) = some o' := by
          intro o' h'
          show (writeBack I y'.flow.outgoing x.own.outputs).lookup (I.key n k) = _
          rw [lookup_writeBack I _ _ n k hd, ho, h']; rfl
        by_cases hfin : ∃ m, e = .finish m
        · obtain ⟨m, rfl⟩ := hfin
          cases hf : (x.full I).flow.finish m with
          | mk f' a =>
            have hfl' : y'.flow = f' := by
              rw [hfl]
              show ((x.full I).flow.finish m).1 = f'
              rw [hf]
            obtain ⟨o', g1, g2, _⟩ := finish_outgoing hf hn n k o hlk
            refine ⟨o', hb o' (by rw [hfl']; exact g1), ?_⟩
            rcases g2 with g2 | ⟨g2, c, v, _, _, _, g3⟩
            · exact .inl g2
            · exact .inr ⟨by rw [g2], v, g3⟩
        · refine ⟨o, hb o ?_, .inl rfl⟩
          rw [hfl, step_outgoing _ _ hc.2 fun m em => hfin ⟨m, em⟩]
          exact hlk
  · cases hs

theorem set_marks (o : Cont) (v : Val) : (o.set v).1.value = o.value ∨ (o.set v).1.updated = true := by
  by_cases h : (o.set v).2 = .ok
  · obtain ⟨w, w1, _, w3, w4⟩ := set_ok h
    by_cases hold : ∃ old, o.value = some old ∧ pyEq old (clean o.ty v) = true
    · obtain ⟨old, o1, o2⟩ := hold
      exact .inl (by rw [w1, o1, (w3 old o1 o2).2])
    · refine .inr (w4 fun old ho => ?_).1
      cases hp : pyEq old (clean o.ty v) with
      | false => rfl
      | true => exact absurd ⟨old, ho, hp⟩ hold
  · exact .inl (by rw [set_refused o v h])

theorem marked_run {I : Ids} (es : List Ev) : ∀ x z : Sub, Keyed I x.own.outputs → (∀ p ∈ x.inner.flow.sig, p.2.Nodup) → x.run I (es.map .inside) = some z →
    ∀ n k, '.' ∉ k.toList → ∀ o, x.own.outputs.lookup (I.key n k) = some o → ∃ o', z.own.outputs.lookup (I.key n k) = some o' ∧
      (finishes n es = 0 → o' = o) ∧ (finishes n es = 1 → o' = o ∨ ∃ v, o' = (o.set v).1) := by
  induction es with
  | nil => intro x z _ _ h n k _ o ho; cases h; exact ⟨o, ho, fun _ => rfl, fun _ => .inl rfl⟩
  | cons e es ih =>
    intro x z hk hn h n k hd o ho
    simp only [List.map_cons, Sub.run] at h
    split at h
    · rename_i y hs
      obtain ⟨k1, n1, q⟩ := inside_own hk hn hs
      obtain ⟨o1, h1, h2⟩ := q n k hd o ho
      obtain ⟨o', g1, g2, g3⟩ := ih y z k1 n1 h n k hd o1 h1
      refine ⟨o', g1, ?_⟩
      by_cases he : e = .finish n
      · have hc : finishes n (e :: es) = finishes n es + 1 := by simp [finishes, isFinish, he]
        rw [hc]
        refine ⟨fun h => by simp at h, fun h => ?_⟩
        rw [g2 (by omega)]
        rcases h2 with h2 | ⟨_, h2⟩
        · exact .inl h2
        · exact .inr h2
      · have hc : finishes n (e :: es) = finishes n es := by
          have : isFinish n e = false := by
            cases e with
            | finish m =>
              simp only [isFinish]
              cases hm : (m == n) with
              | false => rfl
              | true => rw [beq_iff_eq] at hm; exact absurd (by rw [hm]) he
            | _ => rfl
          unfold finishes
          rw [List.filter_cons_of_neg (by rw [this]; simp)]
        rw [hc]
        rcases h2 with h2 | ⟨h2, _⟩
        · rw [← h2]; exact ⟨g2, g3⟩
        · exact absurd h2 he
    · cases h

/-- C92: in a tick of the Subtree node in which a node of its tree ends at most one tick, an output of the Subtree node that has got another value is
marked updated, so that the surrounding tree is sent the value (`c51_tick_partial`). -/
theorem c92_marked (I : Ids) (x : Sub) (h1 : Keyed I x.own.outputs) (h2 : ∀ p ∈ x.inner.flow.sig, p.2.Nodup) (es : List Ev) (z : Sub)
    (hr : x.run I (.begin :: es.map .inside) = some z) (n : Nat) (hone : finishes n es ≤ 1) (k : String) (hd : '.' ∉ k.toList) (o : Cont)
    (ho : x.own.outputs.lookup (I.key n k) = some o) :
    ∃ o', z.own.outputs.lookup (I.key n k) = some o' ∧ (o'.value = o.value ∨ o'.updated = true) := by
  simp only [Sub.run] at hr
  split at hr
  · rename_i y hs
    have hy : Keyed I y.own.outputs ∧ (∀ p ∈ y.inner.flow.sig, p.2.Nodup) ∧ ∃ o1, y.own.outputs.lookup (I.key n k) = some o1 ∧ o1.value = o.value := by
      simp only [Sub.step] at hs
      split at hs
      · split at hs
        · cases hs
          generalize hx1 : ({ x with own := { x.own with outputs := mapAll Cont.resetUpdated x.own.outputs } } : Sub) = x1
          have hout1 : x1.own.outputs = mapAll Cont.resetUpdated x.own.outputs := by rw [← hx1]
          have hfl1 : x1.inner = x.inner := by rw [← hx1]
          have hk1 : Keyed I x1.own.outputs := by rw [hout1]; exact keyed_of_keys h1 (keys_mapAll ..)
          obtain ⟨s1, s2⟩ := sig_pushIncoming (incomingOf I x1.own.inputs) (x1.full I).flow
          refine ⟨keyed_of_keys hk1 (keys_writeBack ..), ?_, o.resetUpdated, ?_, rfl⟩
          · show ∀ p ∈ (pushIncoming (incomingOf I x1.own.inputs) (x1.full I).flow).1.sig, p.2.Nodup
            rw [s1]
            show ∀ p ∈ x1.inner.flow.sig, p.2.Nodup
            rw [hfl1]; exact h2
          · show (writeBack I (pushIncoming (incomingOf I x1.own.inputs) (x1.full I).flow).1.outgoing x1.own.outputs).lookup (I.key n k) = _
            have e : x1.own.outputs.lookup (I.key n k) = some o.resetUpdated := by rw [hout1, lookup_mapAll, ho]; rfl
            rw [lookup_writeBack I _ _ n k hd, e, s2]
            show some (((incomingOf I x1.own.outputs).lookup (n, k)).getD _) = _
            rw [lookup_incomingOf I _ hk1 n k hd, e]; rfl
        · cases hs; exact ⟨h1, h2, o, ho, rfl⟩
      · cases hs
    obtain ⟨k1, n1, o1, ho1, hv1⟩ := hy
    obtain ⟨o', g1, g2, g3⟩ := marked_run es y z k1 n1 hr n k hd o1 ho1
    refine ⟨o', g1, ?_⟩
    rcases Nat.le_one_iff_eq_zero_or_eq_one.mp hone with h | h
    · rw [g2 h]; exact .inl hv1
    · rcases g3 h with g | ⟨v, g⟩
      · rw [g]; exact .inl hv1
      · rw [g, ← hv1]; exact set_marks o1 v
  · cases hr

/-! ### Which inputs and outputs a Subtree node has -/

/-- Classes of nodes, as far as they matter. -/
inductive NodeKind | ioInput | ioOutput | other
  deriving DecidableEq

/-- subtree.py 162-177, 179-194: `add_extra_inputs` and `add_extra_outputs`. -/
def extra (I : Ids) (fresh : String → List (String × Val)) (kind : NodeKind) (k : String) (pick : NodeData → List (String × Cont)) :
    List (Nat × NodeKind × NodeData) → List (String × Cont)
  | [] => []
  | (n, q, d) :: r =>
    if q = kind then
      match (pick d).lookup k with
      | some c => (I.key n k, c.runtimeType fresh) :: extra I fresh kind k pick r
      | none => extra I fresh kind k pick r
    else extra I fresh kind k pick r

/-- The inputs and outputs of a Subtree node (node.py 196-228): `subtree_path` and those of the nodes of its tree. -/
def ownData (I : Ids) (fresh : String → List (String × Val)) (path : Cont) (nodes : List (Nat × NodeKind × NodeData)) : NodeData :=
  { inputs := ("subtree_path", path) :: extra I fresh .ioInput "in" (·.inputs) nodes,
    outputs := extra I fresh .ioOutput "out" (·.outputs) nodes }

theorem extra_mem {I : Ids} {fresh : String → List (String × Val)} {kind : NodeKind} {k : String} {pick : NodeData → List (String × Cont)} :
    ∀ {nodes : List (Nat × NodeKind × NodeData)} {s : String} {c : Cont}, (s, c) ∈ extra I fresh kind k pick nodes ↔
      ∃ n d c0, (n, kind, d) ∈ nodes ∧ (pick d).lookup k = some c0 ∧ s = I.key n k ∧ c = c0.runtimeType fresh := by
  intro nodes
  induction nodes with
  | nil => intro s c; simp [extra]
  | cons p nodes ih =>
    intro s c
    obtain ⟨n, q, d⟩ := p
    have other : q ≠ kind ∨ (pick d).lookup k = none → ((∃ n' d' c0, (n', kind, d') ∈ nodes ∧ (pick d').lookup k = some c0 ∧ s = I.key n' k ∧ c = c0.runtimeType fresh) ↔
        ∃ n' d' c0, (n', kind, d') ∈ (n, q, d) :: nodes ∧ (pick d').lookup k = some c0 ∧ s = I.key n' k ∧ c = c0.runtimeType fresh) := by
      intro ho
      refine ⟨fun ⟨n', d', c0, h, r⟩ => ⟨n', d', c0, List.mem_cons_of_mem _ h, r⟩, fun ⟨n', d', c0, h, r⟩ => ?_⟩
      rcases List.mem_cons.mp h with h | h
      · cases h
        rcases ho with ho | ho
        · exact absurd rfl ho
        · rw [ho] at r; cases r.1
      · exact ⟨n', d', c0, h, r⟩
    rw [extra]
    split
    · rename_i hq
      subst hq
      split
      · rename_i c1 hc1
        rw [List.mem_cons, ih]
        refine ⟨fun h => ?_, fun ⟨n', d', c0, h, r1, r2, r3⟩ => ?_⟩
        · rcases h with h | ⟨n', d', c0, h, r⟩
          · cases h; exact ⟨n, d, c1, List.mem_cons_self .., hc1, rfl, rfl⟩
          · exact ⟨n', d', c0, List.mem_cons_of_mem _ h, r⟩
        · rcases List.mem_cons.mp h with h | h
          · cases h
            rw [hc1] at r1
            cases r1
            exact .inl (by rw [r2, r3])
          · exact .inr ⟨n', d', c0, h, r1, r2, r3⟩
      · rename_i hc1
        rw [ih]
        exact other (.inr hc1)
    · rename_i hq
      rw [ih]
      exact other (.inl hq)

theorem key_inj {I : Ids} {n n' : Nat} {k k' : String} (h : '.' ∉ k.toList) (h' : '.' ∉ k'.toList) (e : I.key n k = I.key n' k') : n = n' ∧ k = k' := by
  have := I.parse_key n k h
  rw [e, I.parse_key n' k' h'] at this
  cases this
  exact ⟨rfl, rfl⟩

theorem extra_nodup {I : Ids} {fresh : String → List (String × Val)} {kind : NodeKind} {k : String} {pick : NodeData → List (String × Cont)} (hd : '.' ∉ k.toList) :
    ∀ {nodes : List (Nat × NodeKind × NodeData)}, (nodes.map (·.1)).Nodup → ((extra I fresh kind k pick nodes).map (·.1)).Nodup := by
  intro nodes
  induction nodes with
  | nil => intro _; exact List.nodup_nil
  | cons p nodes ih =>
    intro hn
    obtain ⟨n, q, d⟩ := p
    simp only [List.map_cons, List.nodup_cons] at hn
    rw [extra]
    split
    · split
      · simp only [List.map_cons, List.nodup_cons]
        refine ⟨fun hm => ?_, ih hn.2⟩
        obtain ⟨⟨s, c⟩, hs, he⟩ := List.mem_map.mp hm
        obtain ⟨n', d', c0, h1, _, h3, _⟩ := extra_mem.mp hs
        have he : s = I.key n k := he
        rw [h3] at he
        obtain ⟨rfl, _⟩ := key_inj hd hd he
        exact hn.1 (List.mem_map.mpr ⟨_, h1, rfl⟩)
      · exact ih hn.2
    · exact ih hn.2

/-- C92: beside `subtree_path` the inputs of a Subtree node are the `in`s of the IOInput nodes of its tree, and its outputs the `out`s of the
IOOutput nodes; no two have the same name. A container of the Subtree node admits the values that the one of the node admits, if that is not a list
of lists or the like. -/
theorem c92_interface (I : Ids) (fresh : String → List (String × Val)) (path : Cont) (nodes : List (Nat × NodeKind × NodeData)) (hn : (nodes.map (·.1)).Nodup) :
    (∀ s, (s ∈ (ownData I fresh path nodes).inputs.map (·.1) ↔ s = "subtree_path" ∨ ∃ n d, (n, NodeKind.ioInput, d) ∈ nodes ∧ "in" ∈ d.inputs.map (·.1) ∧ s = I.key n "in") ∧
      (s ∈ (ownData I fresh path nodes).outputs.map (·.1) ↔ ∃ n d, (n, NodeKind.ioOutput, d) ∈ nodes ∧ "out" ∈ d.outputs.map (·.1) ∧ s = I.key n "out")) ∧
    ((ownData I fresh path nodes).inputs.map (·.1)).Nodup ∧ ((ownData I fresh path nodes).outputs.map (·.1)).Nodup ∧
    Keyed I (ownData I fresh path nodes).inputs ∧ Keyed I (ownData I fresh path nodes).outputs ∧
    (∀ n k c, '.' ∉ k.toList → ((ownData I fresh path nodes).inputs.lookup (I.key n k) = some c ∨ (ownData I fresh path nodes).outputs.lookup (I.key n k) = some c) →
      ∃ q d c0, (n, q, d) ∈ nodes ∧ (d.inputs.lookup k = some c0 ∨ d.outputs.lookup k = some c0) ∧
        (c0.WellFormed → c0.ty.sane = true → c0.ty.elemOk (!c0.isStatic) = true → c0.ty.shallow = true → ∀ v, check c.ty v = check c0.ty v)) := by
  have hin : '.' ∉ "in".toList := by decide
  have hout : '.' ∉ "out".toList := by decide
  have hpath : I.parse "subtree_path" = none := by
    rw [Ids.parse, if_neg (by decide)]
  have hsub : ∀ n k, I.key n k ≠ "subtree_path" := by
    intro n k h
    have : '.' ∈ (I.key n k).toList := by simp [Ids.key]
    rw [h] at this
    exact absurd this (by decide)
  have mem : ∀ kind k pick s, s ∈ (extra I fresh kind k pick nodes).map (·.1) ↔ ∃ n d, (n, kind, d) ∈ nodes ∧ k ∈ (pick d).map (·.1) ∧ s = I.key n k := by
    intro kind k pick s
    rw [List.mem_map]
    refine ⟨fun ⟨⟨s', c⟩, h, e⟩ => ?_, fun ⟨n, d, h1, h2, h3⟩ => ?_⟩
    · obtain ⟨n, d, c0, h1, h2, h3, _⟩ := extra_mem.mp h
      refine ⟨n, d, h1, List.mem_map.mpr ⟨(k, c0), lookup_pair_mem h2, rfl⟩, ?_⟩
      rw [← h3]; exact e.symm
    · cases hl : (pick d).lookup k with
      | some c0 => exact ⟨(s, c0.runtimeType fresh), extra_mem.mpr ⟨n, d, c0, h1, hl, h3, rfl⟩, rfl⟩
      | none =>
        obtain ⟨⟨a, b⟩, ha, hb⟩ := List.mem_map.mp h2
        have := List.lookup_eq_none_iff.mp hl _ ha
        have hb : a = k := hb
        simp [hb] at this
  have keyed : ∀ kind k pick, '.' ∉ k.toList → Keyed I (extra I fresh kind k pick nodes) := by
    intro kind k pick hd p hp q hq
    obtain ⟨n, d, c0, _, _, h3, _⟩ := extra_mem.mp (show (p.1, p.2) ∈ _ from hp)
    rw [h3, I.parse_key n k hd] at hq
    cases hq
    exact ⟨h3, hd⟩
  refine ⟨fun s => ⟨?_, mem .ioOutput "out" (·.outputs) s⟩, ?_, extra_nodup hout hn, ?_, keyed _ _ _ hout, fun n k c hd h => ?_⟩
  · simp only [ownData, List.map_cons, List.mem_cons]
    rw [mem .ioInput "in" (·.inputs) s]
  · simp only [ownData, List.map_cons, List.nodup_cons]
    refine ⟨fun hm => ?_, extra_nodup hin hn⟩
    obtain ⟨n, d, _, _, h3⟩ := (mem .ioInput "in" (·.inputs) _).mp hm
    exact hsub n "in" h3.symm
  · intro p hp q hq
    rcases List.mem_cons.mp hp with rfl | hp
    · rw [hpath] at hq; cases hq
    · exact keyed _ _ _ hin p hp q hq
  · have ty : ∀ c0 : Cont, c0.WellFormed → c0.ty.sane = true → c0.ty.elemOk (!c0.isStatic) = true → c0.ty.shallow = true →
        ∀ v, check (c0.runtimeType fresh).ty v = check c0.ty v := by
      intro c0 hw hs he hsh v
      rw [(runtimeType_fields fresh c0 hw hs he).1]
      exact check_flatten _ hsh v
    have go : ∀ kind j pick, '.' ∉ j.toList → (I.key n k, c) ∈ extra I fresh kind j pick nodes → ∃ d c0, (n, kind, d) ∈ nodes ∧ (pick d).lookup k = some c0 ∧
        c = c0.runtimeType fresh := by
      intro kind j pick hj hm
      obtain ⟨n', d, c0, h1, h2, h3, h4⟩ := extra_mem.mp hm
      obtain ⟨rfl, rfl⟩ := key_inj hd hj h3
      exact ⟨d, c0, h1, h2, h4⟩
    rcases h with h | h
    · rcases List.mem_cons.mp (lookup_pair_mem h) with h | h
      · exact absurd (congrArg Prod.fst h) (hsub n k)
      · obtain ⟨d, c0, h1, h2, rfl⟩ := go .ioInput "in" (·.inputs) hin h
        exact ⟨.ioInput, d, c0, h1, .inl h2, ty c0⟩
    · obtain ⟨d, c0, h1, h2, rfl⟩ := go .ioOutput "out" (·.outputs) hout (lookup_pair_mem h)
      exact ⟨.ioOutput, d, c0, h1, .inr h2, ty c0⟩

/-! ### What goes wrong, and examples -/

/-- Ids written as so many `1`s. -/
def ones : Ids where
  text n := String.ofList (List.replicate n '1')
  read s := some s.toList.length
  read_text n := by simp
  plain n := by
    intro h
    rw [String.toList_ofList] at h
    have := List.eq_of_mem_replicate h
    exact absurd this (by decide)

/-- A Subtree node whose tree has an IOInput node (number 1) that is wired to an IOOutput node (number 2). -/
def through : Sub :=
  { own := ⟨[("1.in", num)], [("11.out", num)]⟩, phase := .idle,
    inner := ⟨⟨[(1, ⟨[("in", num)], [("out", num)]⟩), (2, ⟨[("in", num)], [("out", num)]⟩)], [(1, [⟨"out", 2, "in"⟩]), (2, [])], [], []⟩, fun _ => .idle⟩ }

/-- What is at the inputs of the IOInput node, and at the output of the Subtree node. -/
def Sub.look (x : Option Sub) : List Phase × List (Option Int × Bool) :=
  match x with
  | none => ([], [])
  | some x => ([x.phase], (Flow.look (x.inner.flow.input 1 "in")).toList ++ (Flow.look (x.own.outputs.lookup "11.out")).toList)

/-- A tick of the nested tree in which `v` is passed from the IOInput to the IOOutput node. -/
def passing (v : Int) : List SubEv :=
  [.begin, .inside (.begin 1), .inside (.write 1 "out" (.int v)), .inside (.finish 1), .inside (.begin 2), .inside (.write 2 "out" (.int v)), .inside (.finish 2), .finish]

/-- A value goes in and comes out, twice. -/
example : Sub.look (through.started.run ones (.deliver "1.in" (.int 5) :: passing 5)) = ([.idle], [(some 5, false), (some 5, true)]) ∧
    Sub.look (through.started.run ones (.deliver "1.in" (.int 5) :: passing 5 ++ .deliver "1.in" (.int 6) :: passing 6)) =
      ([.idle], [(some 6, false), (some 6, true)]) := by decide +kernel

/-- The code violates C92: a value is delivered, the node that it comes from is reset and delivers it once more (as under a Repeat node), and the Subtree node is ticked
for the first time only then. The second delivery takes back the mark, and the nodes inside do not get the value. -/
theorem c92_repeated :
    Sub.look (through.started.run ones [.deliver "1.in" (.int 5), .begin]) = ([.active], [(some 5, true), (none, false)]) ∧
    Sub.look (through.started.run ones [.deliver "1.in" (.int 5), .deliver "1.in" (.int 5), .begin]) = ([.active], [(none, true), (none, false)]) := by decide +kernel

/-- The code violates C92, and here the nodes inside go on with an old value: after a tick with 5 the Subtree node is given 6 twice, and is ticked with 5 inside. -/
theorem c92_stale :
    Sub.look (through.started.run ones (.deliver "1.in" (.int 5) :: passing 5 ++ [.deliver "1.in" (.int 6), .deliver "1.in" (.int 6), .begin])) =
      ([.active], [(some 5, false), (some 5, false)]) ∧
    (through.started.run ones (.deliver "1.in" (.int 5) :: passing 5 ++ [.deliver "1.in" (.int 6), .deliver "1.in" (.int 6), .begin])).toList.flatMap (fun y => (Flow.look (y.own.inputs.lookup "1.in")).toList) =
      [(some 6, false)] := by decide +kernel

/-- The code violates C92: when the Subtree node is reset and its root does not pass the reset on to the IOOutput node, the output of the Subtree node
stays empty although that node has a value, and writes it again. -/
theorem c92_not_reset :
    Sub.look (through.started.run ones (.deliver "1.in" (.int 5) :: passing 5 ++ .reset [] :: passing 5)) = ([.idle], [(some 5, false), (none, false)]) ∧
    Sub.look (through.started.run ones (.deliver "1.in" (.int 5) :: passing 5 ++ .reset [1, 2] :: passing 5)) = ([.idle], [(some 5, false), (some 5, true)]) := by decide +kernel

/-- The same with an input of the IOInput node that is static, and so is that of the Subtree node. -/
def fixed (outside inside : Int) : Sub :=
  { through with
    own := ⟨[("1.in", ⟨.int 0 99, false, true, true, some (.int outside), false⟩)], [("11.out", num)]⟩,
    inner := ⟨⟨[(1, ⟨[("in", ⟨.int 0 99, true, true, true, some (.int inside), false⟩)], [("out", num)]⟩), (2, ⟨[("in", num)], [("out", num)]⟩)],
      [(1, [⟨"out", 2, "in"⟩]), (2, [])], [], []⟩, fun _ => .idle⟩ }

/-- The code violates C92: a Subtree node whose tree has an IOInput node with a static input fails in its first tick, even if the values are the same. -/
theorem c92_static : Sub.look ((fixed 5 5).started.run ones [.begin]) = ([.broken], [(some 5, true), (none, false)]) ∧
    Sub.look ((fixed 5 6).started.run ones [.begin]) = ([.broken], [(some 6, true), (none, false)]) := by decide +kernel

theorem ones_key (n : Nat) (k : String) : (ones.key n k).toList = List.replicate n '1' ++ '.' :: k.toList := by
  simp [Ids.key, ones]

theorem keyed_one (s : String) (c : Cont) (n : Nat) (k : String) (h : ones.key n k = s) (hd : '.' ∉ k.toList) : Keyed ones [(s, c)] := by
  intro p hp q hq
  obtain rfl := List.mem_singleton.mp hp
  rw [← h, ones.parse_key n k hd] at hq
  cases hq
  exact ⟨h.symm, hd⟩

theorem only_key {s : String} {c c' : Cont} {n m : Nat} {k j : String} (h : ones.key m j = s) (hj : '.' ∉ j.toList) (hd : '.' ∉ k.toList)
    (hl : List.lookup (ones.key n k) [(s, c)] = some c') : n = m ∧ k = j := by
  have := List.mem_singleton.mp (lookup_pair_mem hl)
  exact key_inj hd hj ((congrArg Prod.fst this).trans h.symm)

theorem through_fitting : Fitting ones through := by
  refine ⟨by decide, keyed_one _ _ 1 "in" (by decide) (by decide), fun n k hd hs => ?_, fun n k hd hs => ?_⟩
  · obtain ⟨c, hc⟩ := Option.isSome_iff_exists.mp hs
    obtain ⟨rfl, rfl⟩ := only_key (m := 1) (j := "in") (by decide) (by decide) hd hc
    rfl
  · obtain ⟨c, hc⟩ := Option.isSome_iff_exists.mp hs
    obtain ⟨rfl, rfl⟩ := only_key (m := 1) (j := "in") (by decide) (by decide) hd hc
    intro s xs c hl hx
    have := List.mem_cons.mp (lookup_pair_mem hl)
    rcases this with h | h
    · cases h
      obtain rfl := List.mem_singleton.mp hx
      decide
    · obtain h := List.mem_singleton.mp h
      cases h
      cases hx

/-- A value differs from what a container that is marked holds. -/
def differs (c : Option Cont) (v : Val) : Bool :=
  match c with
  | none => true
  | some c => !c.updated || match c.value with | none => true | some old => !pyEq old (clean c.ty v)

theorem differs_spec {c : Option Cont} {v : Val} (h : differs c v = true) :
    ∀ c', c = some c' → c'.updated = true → ∀ old, c'.value = some old → pyEq old (clean c'.ty v) = false := by
  intro c' hc hu old ho
  subst hc
  simpa [differs, hu, ho] using h

/-- Whether an event is as the theorems demand. -/
def Sub.orderly (I : Ids) (x : Sub) : SubEv → Bool
  | .deliver k v => differs (x.own.inputs.lookup k) v
  | .inside (.write n k v) => differs (x.inner.flow.output n k) v
  | .reset ns => x.own.outputs.all fun p => match I.parse p.1 with | none => true | some q => ns.contains q.1
  | _ => true

/-- Whether an execution is as the theorems demand. -/
def Sub.tidy (I : Ids) (x : Sub) : List SubEv → Bool
  | [] => true
  | e :: es => x.orderly I e && match x.step I e with | none => true | some y => y.tidy I es

theorem tidy_spec (I : Ids) (es : List SubEv) : ∀ x : Sub, x.tidy I es = true → AllFirst I x es ∧ AllThorough I x es := by
  induction es with
  | nil => intro x _; exact ⟨trivial, trivial⟩
  | cons e es ih =>
    intro x h
    rw [Sub.tidy, Bool.and_eq_true] at h
    obtain ⟨h1, h2⟩ := h
    have next : ∀ y, x.step I e = some y → AllFirst I y es ∧ AllThorough I y es := by
      intro y hy
      rw [hy] at h2
      exact ih y h2
    refine ⟨⟨?_, fun y hy => (next y hy).1⟩, ⟨?_, fun y hy => (next y hy).2⟩⟩
    · cases e with
      | deliver k v => exact differs_spec h1
      | _ => trivial
    · cases e with
      | inside e =>
        cases e with
        | write n k v => exact differs_spec h1
        | _ => trivial
      | reset ns =>
        intro n k hd hs
        obtain ⟨c, hc⟩ := Option.isSome_iff_exists.mp hs
        have := List.all_eq_true.mp h1 _ (lookup_pair_mem hc)
        simp only [I.parse_key n k hd] at this
        exact List.contains_iff_mem.mp this
      | _ => trivial

/-- An execution: a tick with 5, one with 6, a reset, a tick with 6. -/
def journey : List SubEv :=
  .deliver "1.in" (.int 5) :: passing 5 ++ .deliver "1.in" (.int 6) :: passing 6 ++ .reset [1, 2] :: passing 6 ++ [.untick [1, 2]]

example : ∃ y, through.started.run ones (journey ++ [.begin]) = some y ∧ y.phase = .active ∧ HoldsAt y.inner.flow 1 "in" (.int 6) := by
  have hs : Sub.look (through.started.run ones (journey ++ [.begin])) = ([.active], [(some 6, false), (some 6, false)]) := by decide +kernel
  have hv : ((through.started.run ones (journey ++ [.begin])).bind fun y => (y.own.inputs.lookup "1.in").bind fun c => Flow.look (some c)) = some (some 6, true) ∨
      ((through.started.run ones (journey ++ [.begin])).bind fun y => (y.own.inputs.lookup "1.in").bind fun c => Flow.look (some c)) = some (some 6, false) := by decide +kernel
  cases hy : through.started.run ones (journey ++ [.begin]) with
  | none => rw [hy] at hs; cases hs
  | some y =>
    rw [hy] at hs hv
    have hph : y.phase = .active := List.head_eq_of_cons_eq (congrArg Prod.fst hs)
    refine ⟨y, rfl, hph, ?_⟩
    cases hc : y.own.inputs.lookup "1.in" with
    | none => rw [Option.bind_some, hc] at hv; rcases hv with h | h <;> cases h
    | some c =>
      rw [Option.bind_some, hc, Option.bind_some] at hv
      have hval : c.value = some (.int 6) := by
        simp only [Flow.look, Option.map_some, Option.some.injEq, Prod.mk.injEq] at hv
        have : (match c.value with | some (.int i) => some i | _ => none) = some 6 := by rcases hv with h | h <;> exact h.1
        split at this
        · rename_i i hi; cases this; exact hi
        · cases this
      exact c92_in_partial ones through through_fitting _ (tidy_spec ones _ _ (by decide +kernel)).1 y hy hph 1 "in" c _ (by decide) (by exact hc) hval

example : AllThorough ones through.started journey ∧ Keyed ones through.own.outputs ∧ (∀ p ∈ through.inner.flow.sig, p.2.Nodup) ∧
    DynamicOutputs through.inner.flow ∧ Sub.look (through.started.run ones journey) = ([.idle], [(some 6, false), (some 6, false)]) := by
  refine ⟨(tidy_spec ones _ _ (by decide +kernel)).2, keyed_one _ _ 2 "out" (by decide) (by decide), by decide, fun n k c hc => ?_, by decide +kernel⟩
  have : through.inner.flow.nodes.all fun p => p.2.outputs.all fun q => !q.2.isStatic := by decide
  cases hl : through.inner.flow.nodes.lookup n with
  | none => simp [Flow.output, hl] at hc
  | some d =>
    simp only [Flow.output, hl, Option.bind_some] at hc
    have := List.all_eq_true.mp (List.all_eq_true.mp this _ (lookup_pair_mem hl)) _ (lookup_pair_mem hc)
    simpa using this

/-- In a tick of a Subtree node, its output gets the value and is marked. -/
example : (through.started.run ones (.deliver "1.in" (.int 5) :: (passing 5).dropLast)).isSome = true ∧
    finishes 2 [.begin 1, .write 1 "out" (.int 5), .finish 1, .begin 2, .write 2 "out" (.int 5), .finish 2] = 1 := by decide +kernel

/-- The inputs and outputs of the Subtree node above. -/
example (fresh : String → List (String × Val)) (path : Cont) :
    (ownData ones fresh path [(1, .ioInput, ⟨[("in", num)], [("out", num)]⟩), (2, .ioOutput, ⟨[("in", num)], [("out", num)]⟩), (3, .other, ⟨[], []⟩)]).inputs.map (·.1) =
      ["subtree_path", "1.in"] ∧
    (ownData ones fresh path [(1, .ioInput, ⟨[("in", num)], [("out", num)]⟩), (2, .ioOutput, ⟨[("in", num)], [("out", num)]⟩), (3, .other, ⟨[], []⟩)]).outputs.map (·.1) =
      ["11.out"] := by
  constructor <;> simp [ownData, extra, List.lookup] <;> decide

end Verif.Data
