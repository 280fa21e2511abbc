import Verif.Data.Sync

/-! C52: what becomes of update flags; executions in which C51 or C52 fails. -/

set_option autoImplicit false

namespace Verif.Data

/-! ### A flag stays until the node is ticked -/

/-- The event brings the value `v` to an input. -/
inductive Brings (f : Flow) (n : Nat) (k : String) : Ev → Val → Prop
  | push {s : Nat} {x : Conn} {v : Val} : x ∈ f.connsOf s → x.place = (n, k) → Sends f s x v → Brings f n k (.finish s) v
  | incoming {c : Cont} {v : Val} : ((n, k), c) ∈ f.incoming → c.updated = true → c.value = some v → Brings f n k .incoming v

/-- An input is as it was, or one value was set. -/
def SetOnce (f f' : Flow) (n : Nat) (k : String) (P : Val → Prop) : Prop :=
  f'.input n k = f.input n k ∨ ∃ v c, P v ∧ f.input n k = some c ∧ f'.input n k = some (c.set v).1

theorem pushConns_at (s n : Nat) (k : String) : ∀ (xs : List Conn) (f f' : Flow) (a : Ans), pushConns s xs f = (f', a) → (xs.map Conn.place).Nodup →
    SetOnce f f' n k (fun v => ∃ x, x ∈ xs ∧ x.place = (n, k) ∧ Sends f s x v) := by
  intro xs
  induction xs with
  | nil => intro f f' a h _; cases h; exact .inl rfl
  | cons y xs ih =>
    intro f f' a h hn
    simp only [List.map_cons, List.nodup_cons] at hn
    have skip : pushConns s xs f = (f', a) → SetOnce f f' n k (fun v => ∃ x, x ∈ y :: xs ∧ x.place = (n, k) ∧ Sends f s x v) := by
      intro h
      rcases ih f f' a h hn.2 with g | ⟨v, c, ⟨x, g1, g2, g3⟩, g4, g5⟩
      · exact .inl g
      · exact .inr ⟨v, c, ⟨x, by simp [g1], g2, g3⟩, g4, g5⟩
    simp only [pushConns] at h
    split at h
    · cases h; exact .inl rfl
    · rename_i o ho
      split at h
      · rename_i ou
        split at h
        · exact skip h
        · rename_i v ov
          cases hd : f.deliver y.target y.targetKey v with
          | mk g b =>
            obtain ⟨d1, d2, d3, d4, d5, d6⟩ := deliver_cases hd
            have hg : ∀ x w, Sends g s x w ↔ Sends f s x w := by intro x w; unfold Sends; rw [d4]
            rw [hd] at h
            by_cases e : n = y.target ∧ k = y.targetKey
            · obtain ⟨rfl, rfl⟩ := e
              have here : SetOnce f g y.target y.targetKey (fun v => ∃ x, x ∈ y :: xs ∧ x.place = (y.target, y.targetKey) ∧ Sends f s x v) := by
                rcases d6 with ⟨_, _, e⟩ | ⟨t, e1, _, e3⟩
                · exact .inl (by rw [e])
                · exact .inr ⟨v, t, ⟨y, by simp, rfl, o, ho, ou, ov⟩, e1, e3⟩
              cases b with
              | err => cases h; exact here
              | raise => cases h; exact here
              | ok =>
                have := (pushConns_frame s xs g f' a h).2.2.2.2 y.target y.targetKey hn.1
                unfold SetOnce at here ⊢
                rw [this]
                exact here
            · have hin := d5 n k e
              cases b with
              | err => cases h; exact .inl hin
              | raise => cases h; exact .inl hin
              | ok =>
                rcases ih g f' a h hn.2 with p | ⟨w, c, ⟨x, p1, p2, p3⟩, p4, p5⟩
                · exact .inl (p.trans hin)
                · exact .inr ⟨w, c, ⟨x, by simp [p1], p2, (hg x w).mp p3⟩, by rw [← hin]; exact p4, p5⟩
      · exact skip h

theorem pushIncoming_at (n : Nat) (k : String) : ∀ (l : List ((Nat × String) × Cont)) (f f' : Flow) (a : Ans), pushIncoming l f = (f', a) →
    (l.map (·.1)).Nodup → SetOnce f f' n k (fun v => ∃ c, ((n, k), c) ∈ l ∧ c.updated = true ∧ c.value = some v) := by
  intro l
  induction l with
  | nil => intro f f' a h _; cases h; exact .inl rfl
  | cons p l ih =>
    intro f f' a h hn
    obtain ⟨⟨m, j⟩, c⟩ := p
    simp only [List.map_cons, List.nodup_cons] at hn
    have skip : pushIncoming l f = (f', a) → SetOnce f f' n k (fun v => ∃ c', ((n, k), c') ∈ ((m, j), c) :: l ∧ c'.updated = true ∧ c'.value = some v) := by
      intro h
      rcases ih f f' a h hn.2 with g | ⟨v, t, ⟨x, g1, g2, g3⟩, g4, g5⟩
      · exact .inl g
      · exact .inr ⟨v, t, ⟨x, by simp [g1], g2, g3⟩, g4, g5⟩
    simp only [pushIncoming] at h
    split at h
    · rename_i cu
      split at h
      · exact skip h
      · rename_i v cv
        split at h
        · exact skip h
        · split at h
          · exact skip h
          · cases hd : f.deliver m j v with
            | mk g b =>
              obtain ⟨d1, d2, d3, d4, d5, d6⟩ := deliver_cases hd
              rw [hd] at h
              by_cases e : n = m ∧ k = j
              · obtain ⟨rfl, rfl⟩ := e
                have here : SetOnce f g n k (fun v => ∃ c', ((n, k), c') ∈ ((n, k), c) :: l ∧ c'.updated = true ∧ c'.value = some v) := by
                  rcases d6 with ⟨_, _, e⟩ | ⟨t, e1, _, e3⟩
                  · exact .inl (by rw [e])
                  · exact .inr ⟨v, t, ⟨c, by simp, cu, cv⟩, e1, e3⟩
                cases b with
                | err => cases h; exact here
                | raise => cases h; exact here
                | ok =>
                  have hl : l.lookup (n, k) = none := by
                    rw [List.lookup_eq_none_iff]
                    intro q hq
                    have : q.1 ≠ (n, k) := fun e => hn.1 (by rw [← e]; exact List.mem_map.mpr ⟨q, hq, rfl⟩)
                    simpa using fun e => this e.symm
                  have := (pushIncoming_frame l g f' a h).2.2.2 n k hl
                  unfold SetOnce at here ⊢
                  rw [this]
                  exact here
              · have hin := d5 n k e
                cases b with
                | err => cases h; exact .inl hin
                | raise => cases h; exact .inl hin
                | ok =>
                  rcases ih g f' a h hn.2 with p | ⟨w, t, ⟨x, p1, p2, p3⟩, p4, p5⟩
                  · exact .inl (p.trans hin)
                  · exact .inr ⟨w, t, ⟨x, by simp [p1], p2, p3⟩, by rw [← hin]; exact p4, p5⟩
    · exact skip h

/-- An input that has been set once is still marked if it was, unless the value is equal to the one it held. -/
theorem setOnce_flag {f f' : Flow} {n : Nat} {k : String} {P : Val → Prop} (h : SetOnce f f' n k P) {c : Cont} (hc : f.input n k = some c)
    (hu : c.updated = true) : ∃ c', f'.input n k = some c' ∧
      (c'.updated = true ∨ ∃ v w, P v ∧ c.value = some w ∧ pyEq w (clean c.ty v) = true) := by
  rcases h with h | ⟨v, t, h1, h2, h3⟩
  · exact ⟨c, h.trans hc, .inl hu⟩
  · rw [hc] at h2; cases h2
    refine ⟨_, h3, ?_⟩
    by_cases ha : (c.set v).2 = .ok
    · obtain ⟨w, w1, w2, w3, w4⟩ := set_ok ha
      by_cases hold : ∃ old, c.value = some old ∧ pyEq old (clean c.ty v) = true
      · obtain ⟨old, o1, o2⟩ := hold
        exact .inr ⟨v, old, h1, o1, o2⟩
      · refine .inl (w4 (fun old ho' => ?_)).1
        cases hp' : pyEq old (clean c.ty v) with
        | false => rfl
        | true => exact absurd ⟨old, ho', hp'⟩ hold
    · rw [set_refused c v ha]
      exact .inl hu

/-- Conditions on the wiring that do not change during an execution. -/
structure Neat (f : Flow) : Prop where
  one : ∀ s, ((f.connsOf s).map Conn.place).Nodup
  keys : (f.incoming.map (·.1)).Nodup

theorem neat_step {f : Flow} (h : Neat f) (e : Ev) : Neat (f.step e).1 := by
  have same : ∀ f' : Flow, f'.conns = f.conns → f'.incoming = f.incoming → Neat f' := by
    intro f' h1 h2
    exact ⟨fun s => by unfold Flow.connsOf; rw [h1]; exact h.one s, by rw [h2]; exact h.keys⟩
  cases e with
  | begin n =>
    simp only [Flow.step, Flow.begin]
    split
    · exact h
    · split
      · exact same _ rfl rfl
      · exact h
  | write n k v => simp only [Flow.step, Flow.write]; split <;> exact same _ rfl rfl
  | finish n =>
    cases hf : f.finish n with
    | mk f' a =>
      simp only [Flow.step, hf]
      rcases pushOutputs_cases hf with ⟨rfl, _⟩ | ⟨g, b, _, hp, _, e1, e2, _, _⟩
      · exact same _ rfl rfl
      · obtain ⟨p1, p2, _, _, _⟩ := pushConns_frame _ _ _ _ _ hp
        exact same _ (e1.trans p1) (e2.trans p2)
  | fail n => exact h
  | untick n => exact same _ rfl rfl
  | reset n => exact same _ rfl rfl
  | setup => exact same _ rfl rfl
  | incoming =>
    cases hp : pushIncoming f.incoming f with
    | mk g a =>
      obtain ⟨f1, f2, _, _⟩ := pushIncoming_frame _ _ _ _ hp
      simp only [Flow.step, hp]
      exact same _ f1 f2
  | offer n k c =>
    refine ⟨h.one, ?_⟩
    simp only [Flow.step]
    have : ∀ l : List ((Nat × String) × Cont), (modify (n, k) (fun _ => c) l).map (·.1) = l.map (·.1) := by
      intro l
      induction l with
      | nil => rfl
      | cons p l ih => simp only [modify]; split <;> simp [ih]
    rw [this]
    exact h.keys

/-- C52, one event: an update of an input stays marked unless the node's own tick ends, or an equal value is brought. -/
theorem c52_step_partial (f : Flow) (hf : Neat f) (e : Ev) (n : Nat) (k : String) (c : Cont) (hc : f.input n k = some c) (hu : c.updated = true)
    (he : ∀ s, e = .finish s → s ≠ n) :
    ∃ c', (f.step e).1.input n k = some c' ∧
      (c'.updated = true ∨ ∃ v w, Brings f n k e v ∧ c.value = some w ∧ pyEq w (clean c.ty v) = true) := by
  cases e with
  | begin m =>
    refine ⟨c, ?_, .inl hu⟩
    simp only [Flow.step, Flow.begin]
    split
    · exact hc
    · split
      · rw [input_allOutputs]; exact hc
      · exact hc
  | write m j v =>
    refine ⟨c, ?_, .inl hu⟩
    simp only [Flow.step, Flow.write]
    split
    · exact hc
    · rw [input_setOutput]; exact hc
  | finish s =>
    have hs := he s rfl
    cases hfin : f.finish s with
    | mk f' a =>
      simp only [Flow.step, hfin]
      have hin0 : (f.allInputs s Cont.resetUpdated).input n k = f.input n k := by rw [input_allInputs, if_neg (fun e => hs e.symm)]
      have once : SetOnce f f' n k (fun v => ∃ x, x ∈ f.connsOf s ∧ x.place = (n, k) ∧ Sends f s x v) := by
        rcases pushOutputs_cases hfin with ⟨rfl, _⟩ | ⟨g, b, _, hp, _, _, _, _, e4⟩
        · exact .inl hin0
        · have := pushConns_at s n k _ _ _ _ hp (hf.one s)
          unfold SetOnce at this ⊢
          rw [e4, ← hin0]
          rcases this with h | ⟨v, t, ⟨x, h1, h2, h3⟩, h4, h5⟩
          · exact .inl h
          · refine .inr ⟨v, t, ⟨x, h1, h2, ?_⟩, h4, h5⟩
            unfold Sends at h3 ⊢
            rw [output_allInputs] at h3
            exact h3
      obtain ⟨c', g1, g2⟩ := setOnce_flag once hc hu
      refine ⟨c', g1, ?_⟩
      rcases g2 with g2 | ⟨v, w, ⟨x, p1, p2, p3⟩, p4, p5⟩
      · exact .inl g2
      · exact .inr ⟨v, w, .push p1 p2 p3, p4, p5⟩
  | fail m => exact ⟨c, hc, .inl hu⟩
  | untick m => exact ⟨c, by simp only [Flow.step]; rw [input_allOutputs]; exact hc, .inl hu⟩
  | reset m =>
    simp only [Flow.step, Flow.reset]
    rw [input_allOutputs, input_allInputs, hc]
    split
    · exact ⟨_, rfl, .inl rfl⟩
    · exact ⟨c, rfl, .inl hu⟩
  | setup =>
    simp only [Flow.step]
    rw [input_setup, hc]
    exact ⟨_, rfl, .inl rfl⟩
  | incoming =>
    cases hp : pushIncoming f.incoming f with
    | mk g a =>
      simp only [Flow.step, hp]
      obtain ⟨c', g1, g2⟩ := setOnce_flag (pushIncoming_at n k _ _ _ _ hp hf.keys) hc hu
      refine ⟨c', g1, ?_⟩
      rcases g2 with g2 | ⟨v, w, ⟨x, p1, p2, p3⟩, p4, p5⟩
      · exact .inl g2
      · exact .inr ⟨v, w, .incoming p1 p2 p3, p4, p5⟩
  | offer m j d => exact ⟨c, hc, .inl hu⟩

/-- C52 over any sequence of events in which no tick of the node ends: if an update is no longer marked at the end, some event has brought a value equal
to the one the input held. -/
theorem c52_stays_partial (f : Flow) (hf : Neat f) (es : List Ev) (n : Nat) (k : String) (c : Cont) (hc : f.input n k = some c) (hu : c.updated = true)
    (he : Ev.finish n ∉ es) (hlost : ∀ c', (f.run es).input n k = some c' → c'.updated = false) :
    ∃ before e after, es = before ++ e :: after ∧ ∃ t v w, (f.run before).input n k = some t ∧ t.value = some w ∧
      Brings (f.run before) n k e v ∧ pyEq w (clean t.ty v) = true := by
  induction es generalizing f c with
  | nil => have := hlost c hc; rw [hu] at this; cases this
  | cons e es ih =>
    obtain ⟨c', h1, h2⟩ := c52_step_partial f hf e n k c hc hu (fun s e' hs => he (by rw [e', hs]; simp))
    rcases h2 with h2 | ⟨v, w, g1, g2, g3⟩
    · obtain ⟨before, e', after, p1, p2⟩ := ih (f.step e).1 (neat_step hf e) c' h1 h2 (fun hm => he (List.mem_cons_of_mem _ hm)) hlost
      exact ⟨e :: before, e', after, by rw [p1]; rfl, p2⟩
    · exact ⟨[], e, es, rfl, c, v, w, hc, g2, g1, g3⟩

/-! ### What goes wrong -/

/-- A number as an input or output. -/
def num : Cont := ⟨.int 0 99, true, false, false, none, false⟩

/-- What an input or output holds, and whether it is marked updated. -/
def Flow.look (c : Option Cont) : Option (Option Int × Bool) :=
  c.map fun c => ((match c.value with | some (.int i) => some i | _ => none), c.updated)

/-- A (number 0) has the output `out`, B (number 1) the input `in` and the output `out`; A.out is wired to B.in. -/
def pair : Flow := ⟨[(0, ⟨[], [("out", num)]⟩), (1, ⟨[("in", num)], [("out", num)]⟩)], [(0, [⟨"out", 1, "in"⟩]), (1, [])], [], []⟩

/-- The code violates C52: A is ticked and B's input is marked updated. Before B is ticked, A is reset and ticked again with the same value. The
mark is gone although B has never been ticked. -/
theorem c52_lost_by_reset :
    Flow.look ((pair.setup.run [.begin 0, .write 0 "out" (.int 5), .finish 0]).input 1 "in") = some (some 5, true) ∧
    Flow.look ((pair.setup.run [.begin 0, .write 0 "out" (.int 5), .finish 0, .reset 0, .begin 0, .write 0 "out" (.int 5), .finish 0]).input 1 "in") =
      some (some 5, false) := by decide

/-- A parent (number 0) with an input that is wired to the output of its child (number 1). -/
def nested : Flow := ⟨[(0, ⟨[("in", { num with value := some (.int 1) })], []⟩), (1, ⟨[], [("out", num)]⟩)], [(0, []), (1, [⟨"out", 0, "in"⟩])], [], []⟩

/-- The code violates C52: what a child delivers to its parent during the parent's tick is no longer marked when that tick has ended, so that
the next tick of the parent does not see it. (The input is static or was set before; here it holds 1.) -/
theorem c52_lost_in_tick :
    Flow.look ((nested.run [.begin 0, .begin 1, .write 1 "out" (.int 5), .finish 1]).input 0 "in") = some (some 5, true) ∧
    Flow.look ((nested.run [.begin 0, .begin 1, .write 1 "out" (.int 5), .finish 1, .finish 0]).input 0 "in") = some (some 5, false) := by decide

/-- A subtree whose node 0 reads the input `in` of the surrounding Subtree node. -/
def inner : Flow := ⟨[(0, ⟨[("in", num)], []⟩)], [(0, [])], [((0, "in"), { num with value := some (.int 5), updated := true })], []⟩

/-- The code violates C52: resetting a Subtree node marks the inputs of its nodes and its own inputs as updated (node.py 604-605). In its next tick its own
inputs are pushed inside, where they are equal, and the marks vanish before the nodes inside are ticked. -/
theorem c52_lost_in_subtree :
    Flow.look ((inner.setup.run [.incoming, .begin 0, .finish 0, .reset 0]).input 0 "in") = some (some 5, true) ∧
    Flow.look ((inner.setup.run [.incoming, .begin 0, .finish 0, .reset 0, .incoming]).input 0 "in") = some (some 5, false) := by decide

/-- The code violates C51: a hook that writes a new value twice in one tick. The second write finds nothing changed and takes back the mark, so the value
is not delivered in this tick and, as it does not change, in no later one. -/
theorem c51_echo (n : Nat) :
    let tick : List Ev := [.begin 0, .write 0 "out" (.int 5), .write 0 "out" (.int 5), .finish 0]
    Flow.look ((pair.setup.run ((List.replicate (n + 1) tick).flatten)).output 0 "out") = some (some 5, false) ∧
    Flow.look ((pair.setup.run ((List.replicate (n + 1) tick).flatten)).input 1 "in") = some (none, true) := by
  have key : ∀ n, pair.setup.run ((List.replicate (n + 1) [Ev.begin 0, .write 0 "out" (.int 5), .write 0 "out" (.int 5), .finish 0]).flatten) =
      pair.setup.run [Ev.begin 0, .write 0 "out" (.int 5), .write 0 "out" (.int 5), .finish 0] := by
    intro n
    induction n with
    | zero => rfl
    | succ n ih =>
      rw [List.replicate_succ', List.flatten_append]
      unfold Flow.run at ih ⊢
      rw [List.foldl_append, ih]
      rfl
  dsimp only
  rw [key]
  decide

/-- Two outputs of one node wired to one input: `wire_data` accepts that. -/
def merged : Flow := ⟨[(0, ⟨[], [("a", num), ("b", num)]⟩), (1, ⟨[("in", num)], []⟩)], [(0, [⟨"a", 1, "in"⟩, ⟨"b", 1, "in"⟩]), (1, [])], [], []⟩

/-- The code violates C51: after a successful tick an input that is wired twice holds the value of one of the outputs only. -/
theorem c51_two_sources :
    let f := merged.setup.run [.begin 0, .write 0 "a" (.int 5), .write 0 "b" (.int 6)]
    (f.finish 0).2 = .ok ∧ Flow.look ((f.finish 0).1.output 0 "a") = some (some 5, true) ∧
    Flow.look ((f.finish 0).1.input 1 "in") = some (some 6, true) := by decide

/-! ### Examples -/

/-- A tick of A, a tick of B. -/
def lively : List Ev := [.begin 0, .write 0 "out" (.int 5), .finish 0, .begin 1, .write 1 "out" (.int 7), .finish 1, .untick 0, .begin 0, .finish 0]

example : OneSource pair.conns ∧ IncomingApart pair ∧ DynamicOutputs pair ∧ Neat pair := by
  have hl : ∀ s xs, pair.conns.lookup s = some xs → s = 0 ∧ xs = [⟨"out", 1, "in"⟩] ∨ s = 1 ∧ xs = [] := by
    intro s xs h
    match s, h with
    | 0, h => cases h; exact .inl ⟨rfl, rfl⟩
    | 1, h => cases h; exact .inr ⟨rfl, rfl⟩
    | n + 2, h => simp [pair, List.lookup] at h
  refine ⟨⟨fun s xs h => ?_, fun s s' xs xs' x x' h h' hx hx' _ => ?_⟩, fun s xs x _ _ => rfl, fun n k c h => ?_, ⟨fun s => ?_, by decide⟩⟩
  · rcases hl s xs h with ⟨_, rfl⟩ | ⟨_, rfl⟩ <;> decide
  · rcases hl s xs h with ⟨rfl, rfl⟩ | ⟨_, rfl⟩
    · rcases hl s' xs' h' with ⟨rfl, _⟩ | ⟨_, rfl⟩
      · rfl
      · cases hx'
    · cases hx
  · have hb : ∀ d : NodeData, d.outputs = [("out", num)] → d.outputs.lookup k = some c → c.isStatic = false := by
      intro d hd h
      rw [hd] at h
      simp only [List.lookup] at h
      split at h
      · cases h; rfl
      · cases h
    match n, h with
    | 0, h => exact hb ⟨[], [("out", num)]⟩ rfl h
    | 1, h => exact hb ⟨[("in", num)], [("out", num)]⟩ rfl h
    | n + 2, h => simp [pair, Flow.output, List.lookup] at h
  · unfold Flow.connsOf
    cases h : pair.conns.lookup s with
    | none => simp
    | some xs => rcases hl s xs h with ⟨_, rfl⟩ | ⟨_, rfl⟩ <;> decide

example : ∃ y, (started pair).run lively = some y ∧ y.phase 0 = .idle ∧ Flow.look (y.flow.output 0 "out") = some (some 5, false) ∧
    Flow.look (y.flow.input 1 "in") = some (some 5, false) := ⟨_, rfl, by decide, by decide, by decide⟩

example : Careful (started pair) lively := by
  refine ⟨trivial, fun y1 h1 => ⟨?_, fun y2 h2 => ⟨trivial, fun y3 h3 => ⟨trivial, fun y4 h4 => ⟨?_, fun y5 h5 => ⟨trivial, fun y6 h6 =>
    ⟨trivial, fun y7 h7 => ⟨trivial, fun y8 h8 => ⟨trivial, fun y9 h9 => trivial⟩⟩⟩⟩⟩⟩⟩⟩⟩
  · cases h1; intro c hc hu; cases hc; cases hu
  · cases h1; cases h2; cases h3; cases h4; intro c hc hu; cases hc; cases hu

end Verif.Data
