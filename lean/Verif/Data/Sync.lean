import Verif.Data.Deliver

/-! C51 over a whole execution: what is wired stays in step. -/

set_option autoImplicit false

namespace Verif.Data

/-! ### Executions -/

/-- Where a node is: it is being ticked, its tick has failed (BROKEN), or neither. -/
inductive Phase | idle | active | broken
  deriving DecidableEq

/-- Data and phases of all nodes. -/
structure Sys where
  flow : Flow
  phase : Nat → Phase

/-- One node is in another phase. -/
def Sys.enter (y : Sys) (n : Nat) (p : Phase) : Sys := { y with phase := fun m => if m = n then p else y.phase m }

/-- The order in which things happen to a node (node.py 406-484, 519-559, 578-626, 334-390); `none`: it does not happen. Outputs are written in
ticks only; a broken node answers every operation with an error until it is set up again. -/
def Sys.step (y : Sys) (e : Ev) : Option Sys :=
  let r := y.flow.step e
  let y' : Sys := { y with flow := r.1 }
  match e with
  | .begin n => if y.phase n = .idle then some (y'.enter n (if r.2 = .ok then .active else .broken)) else none
  | .write n _ _ => if y.phase n = .active then some y' else none
  | .finish n => if y.phase n = .active then some (y'.enter n (if r.2 = .ok then .idle else .broken)) else none
  | .fail n => if y.phase n = .active then some (y'.enter n .broken) else none
  | .untick n => if y.phase n = .idle then some y' else none
  | .reset n => if y.phase n = .idle then some y' else none
  | .setup => some { y' with phase := fun _ => .idle }
  | .incoming => some y'
  | .offer _ _ _ => some y'

/-- A sequence of events. -/
def Sys.run (y : Sys) : List Ev → Option Sys
  | [] => some y
  | e :: es => match y.step e with | some y' => y'.run es | none => none

/-- The tree has just been set up. -/
def started (f : Flow) : Sys := ⟨f.setup, fun _ => .idle⟩

/-- A hook that has written an output does not write an equal value to it again in the same tick. -/
def NoEcho (y : Sys) : Ev → Prop
  | .write n k v => ∀ c, y.flow.output n k = some c → c.updated = true → ∀ old, c.value = some old → pyEq old (clean c.ty v) = false
  | _ => True

/-- Every write of the execution is like that. -/
def Careful : Sys → List Ev → Prop
  | _, [] => True
  | y, e :: es => NoEcho y e ∧ ∀ y', y.step e = some y' → Careful y' es

/-- Outputs are never static: node_config.py 173-180. -/
def DynamicOutputs (f : Flow) : Prop := ∀ n k c, f.output n k = some c → c.isStatic = false

/-! ### The invariant -/

structure InStep (y : Sys) : Prop where
  one : OneSource y.flow.conns
  apart : IncomingApart y.flow
  dynamic : DynamicOutputs y.flow
  sync : ∀ s xs x, y.flow.conns.lookup s = some xs → x ∈ xs → y.phase s ≠ .broken → ∀ c v, y.flow.output s x.sourceKey = some c → c.value = some v →
    y.phase s = .active ∧ c.updated = true ∨ Holds y.flow x v

theorem pushIncoming_frame : ∀ (l : List ((Nat × String) × Cont)) (f f' : Flow) (a : Ans), pushIncoming l f = (f', a) →
    f'.conns = f.conns ∧ f'.incoming = f.incoming ∧ (∀ n k, f'.output n k = f.output n k) ∧
    ∀ n k, l.lookup (n, k) = none → f'.input n k = f.input n k := by
  intro l
  induction l with
  | nil => intro f f' a h; cases h; exact ⟨rfl, rfl, fun _ _ => rfl, fun _ _ _ => rfl⟩
  | cons p l ih =>
    intro f f' a h
    obtain ⟨⟨m, j⟩, c⟩ := p
    have key : ∀ n k, (((m, j), c) :: l).lookup (n, k) = none → l.lookup (n, k) = none ∧ ¬ (n = m ∧ k = j) := by
      intro n k hl
      by_cases e : n = m ∧ k = j
      · rw [e.1, e.2] at hl; simp [List.lookup] at hl
      · have : ((n, k) == (m, j)) = false := by
          cases hb : ((n, k) == (m, j)) with
          | false => rfl
          | true => rw [beq_iff_eq] at hb; cases hb; exact absurd ⟨rfl, rfl⟩ e
        simp only [List.lookup, this] at hl
        exact ⟨hl, e⟩
    have skip : pushIncoming l f = (f', a) → f'.conns = f.conns ∧ f'.incoming = f.incoming ∧ (∀ n k, f'.output n k = f.output n k) ∧
        ∀ n k, (((m, j), c) :: l).lookup (n, k) = none → f'.input n k = f.input n k := by
      intro h
      obtain ⟨h1, h2, h3, h4⟩ := ih f f' a h
      exact ⟨h1, h2, h3, fun n k hl => h4 n k (key n k hl).1⟩
    simp only [pushIncoming] at h
    split at h
    · split at h
      · exact skip h
      · rename_i v _
        split at h
        · exact skip h
        · split at h
          · exact skip h
          · cases hd : f.deliver m j v with
            | mk g b =>
              obtain ⟨d1, d2, d3, d4, d5, _⟩ := deliver_cases hd
              rw [hd] at h
              cases b with
              | ok =>
                obtain ⟨h1, h2, h3, h4⟩ := ih g f' a h
                exact ⟨h1.trans d1, h2.trans d2, fun n k => (h3 n k).trans (d4 n k),
                  fun n k hl => (h4 n k (key n k hl).1).trans (d5 n k (key n k hl).2)⟩
              | err => cases h; exact ⟨d1, d2, d4, fun n k hl => d5 n k (key n k hl).2⟩
              | raise => cases h; exact ⟨d1, d2, d4, fun n k hl => d5 n k (key n k hl).2⟩
    · exact skip h

/-- An input that holds a value still does so if type and value are as before. -/
theorem holds_of {f f' : Flow} {x : Conn} {v : Val} (h : Holds f x v)
    (hi : ∀ t, f.input x.target x.targetKey = some t → ∃ t', f'.input x.target x.targetKey = some t' ∧ t'.ty = t.ty ∧ t'.value = t.value) : Holds f' x v := by
  obtain ⟨t, w, h1, h2, h3⟩ := h
  obtain ⟨t', e1, e2, e3⟩ := hi t h1
  exact ⟨t', w, e1, e3.trans h2, by rw [e2]; exact h3⟩

/-- Events that change neither the wiring, nor the value of an input. -/
theorem inStep_quiet {y y' : Sys} (h : InStep y) (hc : y'.flow.conns = y.flow.conns)
    (hinc : ∀ p, y.flow.incoming.lookup p = none → y'.flow.incoming.lookup p = none)
    (hin : ∀ s xs x, y.flow.conns.lookup s = some xs → x ∈ xs → ∀ t, y.flow.input x.target x.targetKey = some t →
      ∃ t', y'.flow.input x.target x.targetKey = some t' ∧ t'.ty = t.ty ∧ t'.value = t.value)
    (hdyn : DynamicOutputs y'.flow)
    (hout : ∀ s, y'.phase s ≠ .broken → ∀ k c' v, y'.flow.output s k = some c' → c'.value = some v →
      y'.phase s = .active ∧ c'.updated = true ∨
      ∃ c, y.flow.output s k = some c ∧ c.value = some v ∧ y.phase s ≠ .broken ∧ (y.phase s = .active ∧ c.updated = true → y'.phase s = .active ∧ c'.updated = true)) :
    InStep y' := by
  refine ⟨by rw [hc]; exact h.one, ?_, hdyn, ?_⟩
  · intro s xs x h1 h2
    rw [hc] at h1
    exact hinc _ (h.apart s xs x h1 h2)
  · intro s xs x h1 h2 hp c' v hc' hv
    rw [hc] at h1
    rcases hout s hp x.sourceKey c' v hc' hv with g | ⟨c, g1, g2, g3, g4⟩
    · exact .inl g
    · rcases h.sync s xs x h1 h2 g3 c v g1 g2 with g | g
      · exact .inl (g4 g)
      · exact .inr (holds_of g (hin s xs x h1 h2))

theorem mapped {f f' : Flow} {g : Cont → Cont} {n : Nat} (ho : ∀ n' k, f'.output n' k = if n' = n then (f.output n' k).map g else f.output n' k)
    {s : Nat} {k : String} {c' : Cont} (h : f'.output s k = some c') :
    (s ≠ n ∧ f.output s k = some c') ∨ s = n ∧ ∃ c, f.output s k = some c ∧ c' = g c := by
  rw [ho] at h
  split at h
  · rename_i e
    cases hc : f.output s k with
    | none => rw [hc] at h; cases h
    | some c => rw [hc] at h; cases h; exact .inr ⟨e, c, rfl, rfl⟩
  · rename_i e; exact .inl ⟨e, h⟩

theorem resetValue_dyn {c : Cont} (h : c.isStatic = false) : c.resetValue.value = none := by simp [Cont.resetValue, h]

theorem resetValue_static (c : Cont) : c.resetValue.isStatic = c.isStatic := by
  unfold Cont.resetValue; split <;> rfl

theorem inStep_started {f : Flow} (h1 : OneSource f.conns) (h2 : IncomingApart f) (h3 : DynamicOutputs f) : InStep (started f) := by
  have ho : ∀ n k c, f.setup.output n k = some c → c.value = none ∧ c.isStatic = false := by
    intro n k c h
    rw [output_setup] at h
    cases hc : f.output n k with
    | none => rw [hc] at h; cases h
    | some c0 =>
      rw [hc] at h
      cases h
      have hd := h3 _ _ _ hc
      exact ⟨resetValue_dyn hd, (resetValue_static c0).trans hd⟩
  refine ⟨h1, h2, fun n k c h => (ho n k c h).2, fun s xs x _ _ _ c v hc hv => ?_⟩
  rw [(ho _ _ _ hc).1] at hv
  cases hv

theorem place_inj {xs : List Conn} (h : (xs.map Conn.place).Nodup) {x x' : Conn} (hx : x ∈ xs) (hx' : x' ∈ xs) (e : x.place = x'.place) : x = x' := by
  induction xs with
  | nil => cases hx
  | cons a xs ih =>
    simp only [List.map_cons, List.nodup_cons] at h
    rcases List.mem_cons.mp hx with rfl | h1 <;> rcases List.mem_cons.mp hx' with rfl | h2
    · rfl
    · exact absurd (List.mem_map.mpr ⟨x', h2, e.symm⟩) h.1
    · exact absurd (List.mem_map.mpr ⟨x, h1, e⟩) h.1
    · exact ih h.2 h1 h2

theorem set_refused (c : Cont) (v : Val) (h : (c.set v).2 ≠ .ok) : (c.set v).1 = c := by
  unfold Cont.set at h ⊢
  split at h
  · unfold Cont.assign at h ⊢
    split at h
    · rename_i e; rw [if_pos e]
    · exact absurd rfl h
  · rfl

theorem inStep_step {y y' : Sys} (e : Ev) (h : InStep y) (hn : NoEcho y e) (hs : y.step e = some y') : InStep y' := by
  cases e with
  | offer n k c =>
    cases hs
    refine inStep_quiet h rfl (fun p hp => ?_) (fun _ _ _ _ _ t ht => ⟨t, ht, rfl, rfl⟩) h.dynamic (fun s hp k c' v h1 h2 => .inr ⟨c', h1, h2, hp, fun g => g⟩)
    simp only [Flow.step]
    rw [lookup_modify]
    split
    · rw [hp]; rfl
    · exact hp
  | fail n =>
    simp only [Sys.step] at hs
    split at hs
    · cases hs
      refine inStep_quiet h rfl (fun p hp => hp) (fun _ _ _ _ _ t ht => ⟨t, ht, rfl, rfl⟩) h.dynamic (fun s hp k c' v h1 h2 => ?_)
      simp only [Sys.enter] at hp ⊢
      split at hp
      · exact absurd rfl hp
      · rename_i hsn
        exact .inr ⟨c', h1, h2, hp, fun g => by rw [if_neg hsn]; exact g⟩
    · cases hs
  | untick n =>
    simp only [Sys.step] at hs
    split at hs
    · rename_i hph
      cases hs
      have ho := fun n' k => output_allOutputs y.flow n n' k Cont.resetUpdated
      refine inStep_quiet h rfl (fun p hp => hp) (fun _ _ _ _ _ t ht => ⟨t, by simp only [Flow.step]; rw [input_allOutputs]; exact ht, rfl, rfl⟩)
        (fun m k c hc => ?_) (fun s hp k c' v h1 h2 => ?_)
      · rcases mapped ho hc with ⟨_, g⟩ | ⟨_, c0, g, rfl⟩
        · exact h.dynamic _ _ _ g
        · exact (h.dynamic _ _ _ g : c0.isStatic = false)
      · rcases mapped ho h1 with ⟨_, g⟩ | ⟨rfl, c0, g, rfl⟩
        · exact .inr ⟨c', g, h2, hp, fun g => g⟩
        · exact .inr ⟨c0, g, h2, hp, fun g => by rw [hph] at g; cases g.1⟩
    · cases hs
  | reset n =>
    simp only [Sys.step] at hs
    split at hs
    · rename_i hph
      cases hs
      have ho : ∀ n' k, (y.flow.step (.reset n)).1.output n' k =
          if n' = n then (y.flow.output n' k).map (fun c => c.resetValue.resetUpdated) else y.flow.output n' k := by
        intro n' k
        show ((y.flow.allInputs n Cont.flagUpdated).allOutputs n _).output n' k = _
        rw [output_allOutputs, output_allInputs]
      refine inStep_quiet h rfl (fun p hp => hp) (fun _ _ x _ _ t ht => ?_) (fun m k c hc => ?_) (fun s hp k c' v h1 h2 => ?_)
      · show ∃ t', ((y.flow.allInputs n Cont.flagUpdated).allOutputs n _).input x.target x.targetKey = some t' ∧ _
        rw [input_allOutputs, input_allInputs, ht]
        split
        · exact ⟨_, rfl, rfl, rfl⟩
        · exact ⟨t, rfl, rfl, rfl⟩
      · rcases mapped ho hc with ⟨_, g⟩ | ⟨_, c0, g, rfl⟩
        · exact h.dynamic _ _ _ g
        · exact (resetValue_static c0).trans (h.dynamic _ _ _ g)
      · rcases mapped ho h1 with ⟨_, g⟩ | ⟨rfl, c0, g, rfl⟩
        · exact .inr ⟨c', g, h2, hp, fun g => g⟩
        · have := resetValue_dyn (h.dynamic _ _ _ g)
          have h2' : c0.resetValue.value = some v := h2
          rw [this] at h2'; cases h2'
    · cases hs
  | setup => cases hs; exact inStep_started h.one h.apart h.dynamic
  | incoming =>
    cases hs
    cases hp : pushIncoming y.flow.incoming y.flow with
    | mk g a =>
      obtain ⟨f1, f2, f3, f4⟩ := pushIncoming_frame _ _ _ _ hp
      simp only [Flow.step, hp]
      refine inStep_quiet h f1 (fun p hp => by dsimp only; rw [f2]; exact hp) (fun s xs x h1 h2 t ht => ⟨t, ?_, rfl, rfl⟩) (fun m k c hc => ?_)
        (fun s hp k c' v h1 h2 => .inr ⟨c', by dsimp only at h1; rw [f3] at h1; exact h1, h2, hp, fun g => g⟩)
      · dsimp only
        rw [f4 _ _ (h.apart s xs x h1 h2)]
        exact ht
      · dsimp only at hc
        rw [f3] at hc
        exact h.dynamic _ _ _ hc
  | begin n =>
    simp only [Sys.step] at hs
    split at hs
    · rename_i hph
      cases hs
      have hb : (y.flow.step (.begin n) = (y.flow.allOutputs n Cont.resetUpdated, .ok)) ∨ ((y.flow.step (.begin n)) = (y.flow, .err)) := by
        simp only [Flow.step, Flow.begin]
        split
        · exact .inr rfl
        · split
          · exact .inl rfl
          · exact .inr rfl
      rcases hb with hb | hb
      · rw [hb]
        have ho := fun n' k => output_allOutputs y.flow n n' k Cont.resetUpdated
        refine inStep_quiet h rfl (fun p hp => hp) (fun _ _ _ _ _ t ht => ⟨t, ?_, rfl, rfl⟩) (fun m k c hc => ?_) (fun s hp k c' v h1 h2 => ?_)
        · simp only [Sys.enter]; rw [input_allOutputs]; exact ht
        · rcases mapped ho hc with ⟨_, g⟩ | ⟨_, c0, g, rfl⟩
          · exact h.dynamic _ _ _ g
          · exact (h.dynamic _ _ _ g : c0.isStatic = false)
        · simp only [Sys.enter] at hp ⊢
          rcases mapped ho h1 with ⟨hsn, g⟩ | ⟨rfl, c0, g, rfl⟩
          · rw [if_neg hsn] at hp ⊢
            exact .inr ⟨c', g, h2, hp, fun g => g⟩
          · exact .inr ⟨c0, g, h2, by rw [hph]; simp, fun g => by rw [hph] at g; cases g.1⟩
      · rw [hb]
        refine inStep_quiet h rfl (fun p hp => hp) (fun _ _ _ _ _ t ht => ⟨t, ht, rfl, rfl⟩) h.dynamic (fun s hp k c' v h1 h2 => ?_)
        simp only [Sys.enter] at hp ⊢
        split at hp
        · exact absurd rfl hp
        · rename_i hsn
          exact .inr ⟨c', h1, h2, hp, fun g => by rw [if_neg hsn]; exact g⟩
    · cases hs
  | write n k v =>
    simp only [Sys.step] at hs
    split at hs
    · rename_i hph
      cases hs
      simp only [Flow.step, Flow.write]
      cases hc : y.flow.output n k with
      | none => exact h
      | some c =>
        dsimp only
        have ho : ∀ n' k', (y.flow.setOutput n k (c.set v).1).output n' k' =
            if n' = n ∧ k' = k then some (c.set v).1 else y.flow.output n' k' := by
          intro n' k'
          rw [output_setOutput]
          split
          · rename_i e; rw [e.1, e.2, hc]; rfl
          · rfl
        refine inStep_quiet h rfl (fun p hp => hp) (fun _ _ _ _ _ t ht => ⟨t, ?_, rfl, rfl⟩) (fun m j c' hc' => ?_) (fun s hp j c' w h1 h2 => ?_)
        · dsimp only; rw [input_setOutput]; exact ht
        · dsimp only at hc'
          rw [ho] at hc'
          split at hc'
          · cases hc'; rw [(set_ty c v).2.1]; exact h.dynamic _ _ _ hc
          · exact h.dynamic _ _ _ hc'
        · dsimp only at h1 hp ⊢
          rw [ho] at h1
          split at h1
          · rename_i e
            cases h1
            rw [e.1, e.2]
            cases hans : (c.set v).2 with
            | ok =>
              obtain ⟨w', w1, w2, w3, w4⟩ := set_ok hans
              rw [w1] at h2; cases h2
              by_cases hold : ∃ old, c.value = some old ∧ pyEq old (clean c.ty v) = true
              · obtain ⟨old, o1, o2⟩ := hold
                obtain ⟨u1, u2⟩ := w3 old o1 o2
                right
                refine ⟨c, hc, by rw [o1, u2], by rw [hph]; simp, fun g => ?_⟩
                have := hn c hc g.2 old o1
                rw [o2] at this; cases this
              · left
                refine ⟨hph, (w4 (fun old ho' => ?_)).1⟩
                cases hp' : pyEq old (clean c.ty v) with
                | false => rfl
                | true => exact absurd ⟨old, ho', hp'⟩ hold
            | err =>
              have e1 := set_refused c v (by rw [hans]; simp)
              rw [e1] at h2 ⊢
              exact .inr ⟨c, hc, h2, by rw [hph]; simp, fun g => g⟩
            | raise =>
              have e1 := set_refused c v (by rw [hans]; simp)
              rw [e1] at h2 ⊢
              exact .inr ⟨c, hc, h2, by rw [hph]; simp, fun g => g⟩
          · exact .inr ⟨c', h1, h2, hp, fun g => g⟩
    · cases hs
  | finish n =>
    simp only [Sys.step] at hs
    split at hs
    · rename_i hph
      cases hs
      cases hf : y.flow.finish n with
      | mk f' a =>
        simp only [Flow.step, hf]
        -- what changes at all
        have hf0 := hf
        unfold Flow.finish at hf
        have hin0 : ∀ m k, (y.flow.allInputs n Cont.resetUpdated).input m k = if m = n then (y.flow.input m k).map Cont.resetUpdated else y.flow.input m k :=
          fun m k => input_allInputs ..
        have hout0 : ∀ m k, (y.flow.allInputs n Cont.resetUpdated).output m k = y.flow.output m k := fun m k => output_allInputs ..
        have hcon0 : (y.flow.allInputs n Cont.resetUpdated).conns = y.flow.conns := rfl
        have hinc0 : (y.flow.allInputs n Cont.resetUpdated).incoming = y.flow.incoming := rfl
        generalize y.flow.allInputs n Cont.resetUpdated = f1 at hf hin0 hout0 hcon0 hinc0
        have frame : f'.conns = y.flow.conns ∧ f'.incoming = y.flow.incoming ∧ (∀ m k, f'.output m k = y.flow.output m k) ∧
            ∀ m k, (m, k) ∉ (y.flow.connsOf n).map Conn.place → f'.input m k = f1.input m k := by
          rcases pushOutputs_cases hf with ⟨rfl, _⟩ | ⟨g, b, _, hp, _, e1, e2, e3, e4⟩
          · exact ⟨hcon0, hinc0, hout0, fun _ _ _ => rfl⟩
          · obtain ⟨p1, p2, _, p4, p5⟩ := pushConns_frame _ _ _ _ _ hp
            refine ⟨e1.trans (p1.trans hcon0), e2.trans (p2.trans hinc0), fun m k => (e3 m k).trans ((p4 m k).trans (hout0 m k)), fun m k hm => ?_⟩
            rw [e4, p5]
            unfold Flow.connsOf at hm ⊢
            rw [hcon0]; exact hm
        obtain ⟨c1, c2, c3, c4⟩ := frame
        have keep : ∀ s xs x, y.flow.conns.lookup s = some xs → x ∈ xs → s ≠ n → ∀ t, y.flow.input x.target x.targetKey = some t →
            ∃ t', f'.input x.target x.targetKey = some t' ∧ t'.ty = t.ty ∧ t'.value = t.value := by
          intro s xs x h1 h2 hsn t ht
          have hm : (x.target, x.targetKey) ∉ (y.flow.connsOf n).map Conn.place := by
            intro hm
            obtain ⟨x', hx', hxp⟩ := List.mem_map.mp hm
            unfold Flow.connsOf at hx'
            cases hl : y.flow.conns.lookup n with
            | none => rw [hl] at hx'; cases hx'
            | some xs' =>
              rw [hl] at hx'
              exact hsn (h.one.2 s n xs xs' x x' h1 hl h2 hx' hxp.symm)
          rw [c4 _ _ hm, hin0, ht]
          split
          · exact ⟨_, rfl, rfl, rfl⟩
          · exact ⟨t, rfl, rfl, rfl⟩
        refine ⟨by simp only [Sys.enter]; rw [c1]; exact h.one, ?_, ?_, ?_⟩
        · intro s xs x h1 h2
          simp only [Sys.enter] at h1 ⊢
          rw [c1] at h1; rw [c2]
          exact h.apart s xs x h1 h2
        · intro m k c hc
          simp only [Sys.enter] at hc
          rw [c3] at hc
          exact h.dynamic _ _ _ hc
        · intro s xs x h1 h2 hp c v hc hv
          simp only [Sys.enter] at h1 hp hc ⊢
          rw [c1] at h1
          rw [c3] at hc
          by_cases hsn : s = n
          · subst hsn
            rw [if_pos rfl] at hp
            have ha : a = .ok := by
              by_cases e : a = .ok
              · exact e
              · rw [if_neg e] at hp; exact absurd rfl hp
            subst ha
            have hx : x ∈ y.flow.connsOf s := by simp [Flow.connsOf, h1, h2]
            have hnd : ((y.flow.connsOf s).map Conn.place).Nodup := by simp only [Flow.connsOf, h1, Option.getD_some]; exact h.one.1 s xs h1
            obtain ⟨t1, t2, _⟩ := c51_tick_partial y.flow f' s hf0 hnd
            right
            by_cases hu : c.updated = true
            · obtain ⟨t, w, g1, g2, g3⟩ := (t1 x hx v ⟨c, hc, hu, hv⟩).1
              exact ⟨t, w, g1, g2, g3⟩
            · have hold : Holds y.flow x v := by
                rcases h.sync s xs x h1 h2 (by rw [hph]; simp) c v hc hv with g | g
                · exact absurd g.2 hu
                · exact g
              refine holds_of hold (fun t ht => ?_)
              have := t2 x.target x.targetKey (fun x' hx' hxp w ⟨c', g1, g2, g3⟩ => ?_)
              · rw [ht] at this
                rw [this]
                split
                · exact ⟨_, rfl, rfl, rfl⟩
                · exact ⟨t, rfl, rfl, rfl⟩
              · have : x' = x := place_inj hnd hx' hx hxp
                subst this
                rw [hc] at g1; cases g1; exact hu g2
          · rw [if_neg hsn] at hp
            rcases h.sync s xs x h1 h2 hp c v hc hv with g | g
            · rw [if_neg hsn]; exact .inl g
            · exact .inr (holds_of g (keep s xs x h1 h2 hsn))
    · cases hs

/-- C51 over an execution: from setup on, whatever happens, every node that is not being ticked and is not broken has all its values at the
inputs they are wired to. -/
theorem c51_in_sync_partial (f : Flow) (h1 : OneSource f.conns) (h2 : IncomingApart f) (h3 : DynamicOutputs f) (es : List Ev)
    (hc : Careful (started f) es) (y : Sys) (hr : (started f).run es = some y) :
    ∀ s xs x, y.flow.conns.lookup s = some xs → x ∈ xs → y.phase s = .idle →
      ∀ c v, y.flow.output s x.sourceKey = some c → c.value = some v → Holds y.flow x v := by
  have h0 := inStep_started h1 h2 h3
  generalize started f = y0 at h0 hc hr
  have hy : InStep y := by
    induction es generalizing y0 with
    | nil => cases hr; exact h0
    | cons e es ih =>
      simp only [Sys.run] at hr
      split at hr
      · rename_i y1 hs
        exact ih y1 (inStep_step e h0 hc.1 hs) (hc.2 y1 hs) hr
      · cases hr
  intro s xs x e1 e2 e3 c v e4 e5
  rcases hy.sync s xs x e1 e2 (by rw [e3]; simp) c v e4 e5 with g | g
  · rw [e3] at g; cases g.1
  · exact g

end Verif.Data
