import Verif.BT.Hooks
import Verif.Data.Updates
import Verif.Nodes.Model

/-! C123: the child of an IterateList works on the items of the list.

C24 says how an IterateList counts, C51 when values travel along wirings. Here the two models run together: the hook is that of
`Verif/BT/Hooks.lean`, fed with the data of `Verif/Data/Flow.lean`. -/

set_option autoImplicit false

namespace Verif.Nodes.Iterate

open Verif.Data
open Verif.BT (Mem Res BTState Prog hookProg)

/-! ### The model -/

/-- An IterateList with one child in a tree: the data of all nodes, the attributes of the IterateList (list.py 179-187), what is left of its hook
while the child is being ticked, and the answer of its last tick. -/
structure It where
  sys : Sys
  mem : Mem
  child : Option (Res → Prog) := none
  answer : Option Res := none

/-- What happens. -/
inductive Move
  /-- The IterateList `n` is ticked: up to the tick of the child, or to the end. -/
  | start
  /-- The child has answered its tick. -/
  | answer (r : Res)
  /-- The IterateList is reset, the child has answered `r`. -/
  | reset (r : Res)
  /-- The tree is set up. -/
  | setup
  /-- Anything that happens to the data of other nodes. -/
  | other (e : Ev)

/-- Events that are not the IterateList's own; it may be unticked. -/
def foreign (n : Nat) : Ev → Bool
  | .begin m | .write m _ _ | .finish m | .fail m | .reset m => m ≠ n
  | .untick _ | .incoming | .offer _ _ _ => true
  | .setup => false

/-- node.py 444-484: the hook goes on with `p`. It ends, or ticks the child. -/
def carryOn (n : Nat) (it : It) (y : Sys) : Prog → Option It
  | .done m (.ok s) => (y.step (.finish n)).map fun y' => ⟨y', m, none, some (if y'.phase n = .broken then .err else .ok s)⟩
  | .done m .err => (y.step (.fail n)).map fun y' => ⟨y', m, none, some .err⟩
  | .call .tick 0 k => some { it with sys := y, child := some k }
  | _ => none

/-- list.py 201-212: the list is `l`, read from an input that is marked as updated or not; the item the counter is at is put on the output. Then the hook
goes on. -/
def work (n : Nat) (it : It) (y : Sys) (updated : Bool) (l : List Val) : Option It :=
  match l[if updated then 0 else it.mem.counter]? with
  | none => carryOn n it y (hookProg .iterateList .tick .idle it.mem { flag := updated, listLen := l.length } [0])
  | some v =>
    match y.step (.write n "list_item" v) with
    | none => none
    | some y' => carryOn n it y' (hookProg .iterateList .tick .idle it.mem
        { flag := updated, listLen := l.length, outOk := (y.flow.write n "list_item" v).2 = .ok } [0])

/-- node.py 423-444 with list.py 189-204: a tick of the IterateList. (An exception counts as `Err`.) -/
def start (n : Nat) (it : It) : Option It :=
  match it.child, it.sys.step (.begin n) with
  | none, some y =>
    if y.phase n = .broken then some { it with sys := y, answer := some .err }
    else
      match y.flow.input n "list" with
      | none => carryOn n it y (.done it.mem .err)
      | some c =>
        match c.value.bind asList with
        | none => carryOn n it y (.done it.mem .err)
        | some l => work n it y c.updated l
  | _, _ => none

/-- The attributes after `reset_counter` (list.py 185-187, called in 180 and 254). -/
def rewound (m : Mem) : Mem := { m with outChanged := true, counter := 0, item := none }

/-- One move; `none`: it does not happen. A reset: node.py 603-626 with list.py 253-257; a setup: node.py 365-390 with list.py 179-183 (for all nodes). -/
def step (n : Nat) (it : It) : Move → Option It
  | .start => start n it
  | .answer r => match it.child with | none => none | some k => carryOn n it it.sys (k r)
  | .reset r =>
    match it.child, it.sys.step (.reset n) with
    | none, some y => some { it with sys := if r = .err then y.enter n .broken else y, mem := rewound it.mem }
    | _, _ => none
  | .setup =>
    match it.child, it.sys.step .setup with
    | none, some y => some { it with sys := y, mem := rewound it.mem }
    | _, _ => none
  | .other e => if foreign n e then (it.sys.step e).map fun y => { it with sys := y } else none

/-! ### What is observed -/

/-- The value of an input as it is seen. -/
def at_ (y : Sys) (p : Nat × String) : Option Cont := y.flow.input p.1 p.2

/-- What the child has worked on: the output `list_item` and the input `p` at its last tick, the same for all its ticks with SUCCEEDED in the
round, and whether the round has ended. -/
structure Seen where
  last : Option Cont × Option Cont := (none, none)
  done : List (Option Cont × Option Cont) := []
  over : Bool := false

/-- Is the input `list` marked as updated? -/
def marked (n : Nat) (it : It) : Bool := (it.sys.flow.input n "list").any (·.updated)

/-- An observer writes down what the child works on. A round begins with a tick that finds a new list, after a setup, a reset, and when the round before has
ended with SUCCEEDED. -/
def watch (n : Nat) (p : Nat × String) (it : It) (m : Move) (it' : It) (σ : Seen) : Seen :=
  match m with
  | .start =>
    let σ := if marked n it || σ.over then {} else σ
    if it'.child.isSome then { σ with last := (it'.sys.flow.output n "list_item", at_ it'.sys p) }
    else { σ with over := it'.answer = some (.ok .succeeded) }
  | .answer r =>
    { last := σ.last, done := if r = .ok .succeeded then σ.done ++ [σ.last] else σ.done, over := it'.answer = some (.ok .succeeded) }
  | .reset _ | .setup => {}
  | .other _ => σ

/-- A run with its observer. -/
def run (n : Nat) (p : Nat × String) : It × Seen → List Move → Option (It × Seen)
  | s, [] => some s
  | s, m :: ms => match step n s.1 m with | none => none | some it => run n p (it, watch n p s.1 m it s.2) ms

/-- The tree has just been set up. -/
def fresh (f : Flow) (m : Mem) : It × Seen := (⟨started f, rewound m, none, none⟩, {})

/-- The output and the input hold the item: as their types store it, or something that is equal in Python. -/
def Gets (item : Val) (s : Option Cont × Option Cont) : Prop :=
  ∃ o w t v, s = (some o, some t) ∧ o.value = some w ∧ Same o.ty item w ∧ t.value = some v ∧ Same t.ty w v

/-- What is asked of other nodes: no hook writes the same new value twice in a tick (C51); no list arrives while the child is being ticked, nor one that is equal
to a list which is still waiting to be noticed. -/
def Fine (n : Nat) (it : It) (m : Move) : Prop :=
  ∀ e, m = .other e → NoEcho it.sys e ∧ ∀ v, Brings it.sys.flow n "list" e v → it.child = none ∧
    ∀ c old, it.sys.flow.input n "list" = some c → c.updated = true → c.value = some old → pyEq old (clean c.ty v) = false

/-- All moves are like that. -/
def AllFine (n : Nat) : It → List Move → Prop
  | _, [] => True
  | it, m :: ms => Fine n it m ∧ ∀ it', step n it m = some it' → AllFine n it' ms

/-! ### The data of the IterateList -/

theorem finish_output (f : Flow) (s n : Nat) (k : String) : (f.finish s).1.output n k = f.output n k := by
  cases hf : f.finish s with
  | mk f' a =>
    unfold Flow.finish at hf
    rcases pushOutputs_cases hf with ⟨e, _⟩ | ⟨g, b, _, hp, _, _, _, e3, _⟩
    · show f'.output n k = _
      rw [e, output_allInputs]
    · show f'.output n k = _
      rw [e3, (pushConns_frame _ _ _ _ _ hp).2.2.2.1, output_allInputs]

/-- The end of a successful tick either leaves the value of an input of the node as it was or marks the input. -/
theorem finish_input {f f' : Flow} {n : Nat} {k : String} (h : f.finish n = (f', .ok)) (hone : ((f.connsOf n).map Conn.place).Nodup) :
    ∀ c', f'.input n k = some c' → ∃ c, f.input n k = some c ∧ (c'.updated = true ∨ c'.value = c.value) := by
  intro c' hc'
  obtain ⟨h1, h2, _⟩ := c51_tick_partial f f' n h hone
  by_cases hx : ∃ x ∈ f.connsOf n, x.place = (n, k) ∧ ∃ v, Sends f n x v
  · obtain ⟨x, hx, hp, v, hv⟩ := hx
    have hp1 : x.target = n := congrArg Prod.fst hp
    have hp2 : x.targetKey = k := congrArg Prod.snd hp
    obtain ⟨_, t, t', g1, g2, g3, g4⟩ := h1 x hx v hv
    rw [hp1, hp2] at g1 g2
    rw [hc'] at g2
    cases g2
    refine ⟨t, g1, ?_⟩
    by_cases hold : ∃ old, t.value = some old ∧ pyEq old (clean t.ty v) = true
    · obtain ⟨old, o1, o2⟩ := hold
      rw [g4 old o1 o2]
      exact .inr rfl
    · refine .inl (g3 fun old ho => ?_)
      cases hq : pyEq old (clean t.ty v) with
      | false => rfl
      | true => exact absurd ⟨old, ho, hq⟩ hold
  · have := h2 n k (fun x hx' hp v hv => hx ⟨x, hx', hp, v, hv⟩)
    rw [if_pos rfl, hc'] at this
    cases hc : f.input n k with
    | none => rw [hc] at this; cases this
    | some c =>
      rw [hc] at this
      cases this
      exact ⟨c, rfl, .inr rfl⟩

/-- What the events of other nodes leave of an output of `n`. -/
theorem output_other {n : Nat} {y y' : Sys} {e : Ev} (he : foreign n e = true) (h : y.step e = some y') (k : String) :
    y'.phase n = y.phase n ∧ ∀ o, y.flow.output n k = some o → ∃ o', y'.flow.output n k = some o' ∧ o'.ty = o.ty ∧ o'.value = o.value := by
  cases e with
  | begin m =>
    have hm : n ≠ m := fun e => by simp [foreign, e] at he
    simp only [Sys.step] at h
    split at h
    · cases h
      refine ⟨by simp [Sys.enter, hm], fun o ho => ⟨o, ?_, rfl, rfl⟩⟩
      simp only [Sys.enter, Flow.step, Flow.begin]
      split
      · exact ho
      · split
        · dsimp only; rw [output_allOutputs, if_neg hm]; exact ho
        · exact ho
    · cases h
  | write m j v =>
    have hm : n ≠ m := fun e => by simp [foreign, e] at he
    simp only [Sys.step] at h
    split at h
    · cases h
      refine ⟨rfl, fun o ho => ⟨o, ?_, rfl, rfl⟩⟩
      simp only [Flow.step, Flow.write]
      split
      · exact ho
      · dsimp only; rw [output_setOutput, if_neg (fun e => hm e.1)]; exact ho
    · cases h
  | finish m =>
    have hm : n ≠ m := fun e => by simp [foreign, e] at he
    simp only [Sys.step] at h
    split at h
    · cases h
      refine ⟨by simp [Sys.enter, hm], fun o ho => ⟨o, ?_, rfl, rfl⟩⟩
      simp only [Sys.enter, Flow.step]
      rw [finish_output]
      exact ho
    · cases h
  | fail m =>
    have hm : n ≠ m := fun e => by simp [foreign, e] at he
    simp only [Sys.step] at h
    split at h
    · cases h
      exact ⟨by simp [Sys.enter, hm], fun o ho => ⟨o, ho, rfl, rfl⟩⟩
    · cases h
  | untick m =>
    simp only [Sys.step] at h
    split at h
    · cases h
      refine ⟨rfl, fun o ho => ?_⟩
      simp only [Flow.step]
      rw [output_allOutputs]
      split
      · rw [ho]; exact ⟨_, rfl, rfl, rfl⟩
      · exact ⟨o, ho, rfl, rfl⟩
    · cases h
  | reset m =>
    have hm : n ≠ m := fun e => by simp [foreign, e] at he
    simp only [Sys.step] at h
    split at h
    · cases h
      refine ⟨rfl, fun o ho => ⟨o, ?_, rfl, rfl⟩⟩
      simp only [Flow.step, Flow.reset]
      rw [output_allOutputs, if_neg hm, output_allInputs]
      exact ho
    · cases h
  | setup => cases he
  | incoming =>
    cases h
    refine ⟨rfl, fun o ho => ⟨o, ?_, rfl, rfl⟩⟩
    simp only [Flow.step]
    rw [(pushIncoming_frame _ _ _ _ rfl).2.2.1]
    exact ho
  | offer m j c => cases h; exact ⟨rfl, fun o ho => ⟨o, ho, rfl, rfl⟩⟩

/-- The IterateList notices when the list changes: no event takes the mark off the input, and its value changes only with the mark and not within a
tick. -/
def Noticed (n : Nat) (it it' : It) : Prop :=
  ∃ c c', it.sys.flow.input n "list" = some c ∧ it'.sys.flow.input n "list" = some c' ∧
    (c'.value = c.value ∨ c'.updated = true ∧ it.child = none) ∧ (c.updated = true → c'.updated = true)

/-- What an event does to the list: one value may be brought to it. -/
theorem list_event {n : Nat} {y y' : Sys} {e : Ev} (hn : Neat y.flow) (hs : y.step e = some y') :
    (foreign n e = true → SetOnce y.flow y'.flow n "list" (Brings y.flow n "list" e)) ∧
      ((y.flow.input n "list").isSome = true → (y'.flow.input n "list").isSome = true) := by
  have same : y'.flow.input n "list" = y.flow.input n "list" → (foreign n e = true → SetOnce y.flow y'.flow n "list" (Brings y.flow n "list" e)) ∧
      ((y.flow.input n "list").isSome = true → (y'.flow.input n "list").isSome = true) := fun h => ⟨fun _ => .inl h, fun g => by rw [h]; exact g⟩
  cases e with
  | begin m =>
    simp only [Sys.step] at hs
    split at hs
    · cases hs
      refine same ?_
      simp only [Sys.enter, Flow.step, Flow.begin]
      split
      · rfl
      · split
        · exact input_allOutputs ..
        · rfl
    · cases hs
  | write m k v =>
    simp only [Sys.step] at hs
    split at hs
    · cases hs
      refine same ?_
      simp only [Flow.step, Flow.write]
      split
      · rfl
      · exact input_setOutput ..
    · cases hs
  | finish m =>
    simp only [Sys.step] at hs
    split at hs
    · cases hs
      cases hf : y.flow.finish m with
      | mk f' a =>
        simp only [Sys.enter, Flow.step, hf] at same ⊢
        unfold Flow.finish at hf
        have hi : (y.flow.allInputs m Cont.resetUpdated).input n "list" = if n = m then (y.flow.input n "list").map Cont.resetUpdated else y.flow.input n "list" :=
          input_allInputs ..
        have once : SetOnce (y.flow.allInputs m Cont.resetUpdated) f' n "list" (Brings y.flow n "list" (.finish m)) := by
          rcases pushOutputs_cases hf with ⟨e1, _⟩ | ⟨g, b, hl, hp, _, _, _, _, e4⟩
          · subst e1; exact .inl rfl
          · have := pushConns_at m n "list" _ _ _ _ hp (hn.one m)
            unfold SetOnce at this ⊢
            rw [e4]
            rcases this with h | ⟨v, c, ⟨x, x1, x2, x3⟩, h2, h3⟩
            · exact .inl h
            · refine .inr ⟨v, c, .push x1 x2 ?_, h2, h3⟩
              obtain ⟨o, o1, o2⟩ := x3
              rw [output_allInputs] at o1
              exact ⟨o, o1, o2⟩
        refine ⟨fun he => ?_, fun hsome => ?_⟩
        · rw [if_neg (fun e => by simp [foreign, e] at he)] at hi
          unfold SetOnce at once ⊢
          rw [hi] at once
          exact once
        · have : ((y.flow.allInputs m Cont.resetUpdated).input n "list").isSome = true := by
            rw [hi]
            split
            · rw [Option.isSome_map]; exact hsome
            · exact hsome
          rcases once with h | ⟨_, _, _, _, h⟩
          · rw [h]; exact this
          · rw [h]; rfl
    · cases hs
  | fail m =>
    simp only [Sys.step] at hs
    split at hs
    · cases hs; exact same rfl
    · cases hs
  | untick m =>
    simp only [Sys.step] at hs
    split at hs
    · cases hs; exact same (input_allOutputs ..)
    · cases hs
  | reset m =>
    simp only [Sys.step] at hs
    split at hs
    · cases hs
      have hi : (y.flow.reset m).input n "list" = if n = m then (y.flow.input n "list").map Cont.flagUpdated else y.flow.input n "list" := by
        unfold Flow.reset
        rw [input_allOutputs, input_allInputs]
      split at hi
      · rename_i e
        refine ⟨fun he => by simp [foreign, e] at he, fun g => ?_⟩
        simp only [Flow.step]
        rw [hi, Option.isSome_map]; exact g
      · exact same hi
    · cases hs
  | setup =>
    cases hs
    refine ⟨(fun he => by cases he), fun g => ?_⟩
    simp only [Flow.step]
    rw [input_setup, Option.isSome_map]; exact g
  | incoming =>
    cases hs
    simp only [Flow.step]
    have once := pushIncoming_at n "list" y.flow.incoming y.flow _ _ rfl hn.keys
    refine ⟨fun _ => ?_, fun g => ?_⟩
    · rcases once with h | ⟨v, c, ⟨o, h1, h2, h3⟩, h4, h5⟩
      · exact .inl h
      · exact .inr ⟨v, c, .incoming h1 h2 h3, h4, h5⟩
    · rcases once with h | ⟨_, _, _, _, h⟩
      · rw [h]; exact g
      · rw [h]; rfl
  | offer m k c => cases hs; exact same rfl

theorem noticed_of {n : Nat} {it it' : It} {e : Ev} (hn : Neat it.sys.flow) (hsome : (it.sys.flow.input n "list").isSome = true) (hf : Fine n it (.other e))
    (he : foreign n e = true) (hs : it.sys.step e = some it'.sys) : Noticed n it it' := by
  obtain ⟨c, hc⟩ := Option.isSome_iff_exists.1 hsome
  rcases (list_event hn hs).1 he with h | ⟨v, c0, h1, h2, h3⟩
  · exact ⟨c, c, hc, h.trans hc, .inl rfl, fun g => g⟩
  · rw [hc] at h2
    cases h2
    obtain ⟨f1, f2⟩ := (hf e rfl).2 v h1
    refine ⟨c, _, hc, h3, ?_⟩
    by_cases ha : (c.set v).2 = .ok
    · obtain ⟨w, w1, _, w3, w4⟩ := set_ok ha
      by_cases hold : ∃ old, c.value = some old ∧ pyEq old (clean c.ty v) = true
      · obtain ⟨old, o1, o2⟩ := hold
        refine ⟨.inl (by rw [w1, o1, (w3 old o1 o2).2]), fun hu => ?_⟩
        rw [f2 c old hc hu o1] at o2; cases o2
      · have := (w4 (fun old ho => by
          cases hq : pyEq old (clean c.ty v) with
          | false => rfl
          | true => exact absurd ⟨old, ho, hq⟩ hold)).1
        exact ⟨.inr ⟨this, f1⟩, fun _ => this⟩
    · rw [set_refused c v ha]
      exact ⟨.inl rfl, fun g => g⟩

/-! ### The invariant -/

/-- The rest of the hook after the child's answer: list.py 225-242. -/
def rest (m : Mem) (len : Nat) : Res → Prog
  | .err => .done m .err
  | .ok s =>
    if s = .succeeded then
      if m.counter + 1 = len then .done { m with outChanged := true, counter := 0 } (.ok .succeeded)
      else .done { m with outChanged := true, counter := m.counter + 1 } (.ok .running)
    else if s = .failed then .done m (.ok .failed)
    else .done m (.ok .running)

/-- The output `list_item` holds the item. -/
def Shows (n : Nat) (f : Flow) (item : Val) : Prop := ∃ o w, f.output n "list_item" = some o ∧ o.value = some w ∧ Same o.ty item w

/-- What has been seen are the items of a list. -/
def Items : List (Option Cont × Option Cont) → List Val → Prop
  | [], [] => True
  | s :: ss, v :: vs => Gets v s ∧ Items ss vs
  | _, _ => False

theorem items_append : ∀ {ss ss' : List (Option Cont × Option Cont)} {vs vs' : List Val}, Items ss vs → Items ss' vs' → Items (ss ++ ss') (vs ++ vs')
  | [], _, [], _, _, h => h
  | _ :: _, _, _ :: _, _, h1, h2 => ⟨h1.1, items_append h1.2 h2⟩

/-- Where the round is. -/
def Round (c : Cont) (counter : Nat) (σ : Seen) : Prop :=
  (σ.over = true ∨ σ.done = []) ∧ counter = 0 ∨
  σ.over = false ∧ ∃ l, c.value = some (.list l) ∧ counter < l.length ∧ Items σ.done (l.take counter)

/-- Between two ticks. -/
def Idle (n : Nat) (f : Flow) (m : Mem) (σ : Seen) : Prop :=
  ∀ c, f.input n "list" = some c → c.updated = false →
    (m.outChanged = false → ∃ l item, c.value = some (.list l) ∧ l[m.counter]? = some item ∧ Shows n f item) ∧ Round c m.counter σ

/-- While the child is being ticked. -/
def Busy (n : Nat) (f : Flow) (k : Res → Prog) (σ : Seen) : Prop :=
  ∃ m l item, m.outChanged = false ∧ k = rest m l.length ∧ l[m.counter]? = some item ∧ Shows n f item ∧ Gets item σ.last ∧ σ.over = false ∧
    Items σ.done (l.take m.counter) ∧ ∃ c, f.input n "list" = some c ∧ c.value = some (.list l)

structure Inv (n : Nat) (it : It) (σ : Seen) : Prop where
  sync : InStep it.sys
  idle : it.child = none → it.sys.phase n = .idle → Idle n it.sys.flow it.mem σ
  busy : ∀ k, it.child = some k → Busy n it.sys.flow k σ

theorem enter_broken {y : Sys} (h : InStep y) (n : Nat) : InStep (y.enter n .broken) := by
  refine ⟨h.one, h.apart, h.dynamic, fun s xs x h1 h2 hp c v hc hv => ?_⟩
  simp only [Sys.enter] at hp ⊢
  split at hp
  · exact absurd rfl hp
  · rename_i hs
    rw [if_neg hs]
    exact h.sync s xs x h1 h2 hp c v hc hv

/-- The hook ends. -/
theorem inv_done {n : Nat} {it it' : It} {y : Sys} {m : Mem} {r : Res} {σ : Seen} (hy : InStep y) (h : carryOn n it y (.done m r) = some it')
    (hi : ∀ s f, r = .ok s → y.flow.finish n = (f, .ok) → it'.answer = some (.ok s) → Idle n f m σ) : Inv n it' σ := by
  cases r with
  | err =>
    simp only [carryOn, Sys.step] at h
    split at h
    · cases h
      exact ⟨inStep_step (.fail n) hy trivial (by simp only [Sys.step]; rw [if_pos (by assumption)]),
        fun _ hp => by simp [Sys.enter] at hp, fun k hk => by cases hk⟩
    · cases h
  | ok s =>
    simp only [carryOn] at h
    cases hs : y.step (.finish n) with
    | none => rw [hs] at h; cases h
    | some y' =>
      rw [hs] at h
      simp only [Option.map_some, Option.some.injEq] at h
      subst h
      refine ⟨inStep_step (.finish n) hy trivial hs, fun _ hp => ?_, fun k hk => by cases hk⟩
      simp only [Sys.step] at hs
      split at hs
      · cases hf : y.flow.finish n with
        | mk f a =>
          rw [show y.flow.step (.finish n) = (f, a) from hf] at hs
          cases hs
          dsimp only at hp ⊢
          have ha : a = .ok := by
            by_cases e : a = .ok
            · exact e
            · simp [Sys.enter, e] at hp
          subst ha
          refine hi s f rfl hf ?_
          simp only [Sys.enter, if_true, reduceCtorEq, if_false]
      · cases hs

theorem nodup_conns {y : Sys} (h : InStep y) (n : Nat) : ((y.flow.connsOf n).map Conn.place).Nodup := by
  unfold Flow.connsOf
  cases hl : y.flow.conns.lookup n with
  | none => exact List.nodup_nil
  | some xs => exact h.one.1 n xs hl

/-- The end of a tick of the IterateList leaves what it shows. -/
theorem shows_finish {n : Nat} {f f' : Flow} {a : Ans} {item : Val} (h : f.finish n = (f', a)) (hs : Shows n f item) : Shows n f' item := by
  obtain ⟨o, w, h1, h2, h3⟩ := hs
  have := finish_output f n n "list_item"
  rw [h] at this
  exact ⟨o, w, this.trans h1, h2, h3⟩

/-- The child has answered. -/
theorem inv_answer {n : Nat} {p : Nat × String} {it it' : It} {r : Res} {σ : Seen} (h : Inv n it σ) (hs : step n it (.answer r) = some it') :
    Inv n it' (watch n p it (.answer r) it' σ) := by
  simp only [step] at hs
  cases hk : it.child with
  | none => rw [hk] at hs; cases hs
  | some k =>
    rw [hk] at hs
    dsimp only at hs
    obtain ⟨m, l, item, b1, b2, b3, b4, b5, b6, b7, c8, d8, b8⟩ := h.busy k hk
    subst b2
    have hlt : m.counter < l.length := by
      rcases Nat.lt_or_ge m.counter l.length with g | g
      · exact g
      · rw [List.getElem?_eq_none g] at b3; cases b3
    -- the list after the end of the tick
    have hlist : ∀ f c, it.sys.flow.finish n = (f, .ok) → f.input n "list" = some c → c.updated = false → c.value = some (.list l) := by
      intro f c hf hc hu
      obtain ⟨c0, g1, g2⟩ := finish_input hf (nodup_conns h.sync n) c hc
      rcases g2 with g2 | g2
      · rw [hu] at g2; cases g2
      · rw [d8] at g1
        cases g1
        rw [g2, b8]
    cases r with
    | err => exact inv_done h.sync hs (fun s f hr => by cases hr)
    | ok a =>
      simp only [rest] at hs
      split at hs
      · rename_i ha
        subst ha
        split at hs
        · refine inv_done h.sync hs (fun s f hr hf han c hc hu => ⟨(fun g => by cases g), ?_⟩)
          cases hr
          refine .inl ⟨.inl ?_, rfl⟩
          simp [watch, han]
        · rename_i hlast
          refine inv_done h.sync hs (fun s f hr hf han c hc hu => ⟨(fun g => by cases g), ?_⟩)
          cases hr
          refine .inr ⟨by simp [watch, han], l, hlist f c hf hc hu, by show m.counter + 1 < _; omega, ?_⟩
          simp only [watch, if_true]
          rw [List.take_add_one, b3]
          exact items_append b7 ⟨b5, trivial⟩
      · rename_i ha
        have hr' : ¬ ((Res.ok a) = .ok .succeeded) := fun e => ha (by cases e; rfl)
        have key : ∀ s, s ≠ .succeeded → ∀ f, it.sys.flow.finish n = (f, .ok) → it'.answer = some (.ok s) →
            Idle n f m (watch n p it (.answer (.ok a)) it' σ) := by
          intro s hne f hf han c hc hu
          refine ⟨fun _ => ⟨l, item, hlist f c hf hc hu, b3, shows_finish hf b4⟩, .inr ⟨?_, l, hlist f c hf hc hu, hlt, ?_⟩⟩
          · simp only [watch, han]
            simpa using hne
          · simp only [watch, if_neg hr']
            exact b7
        split at hs
        · exact inv_done h.sync hs (fun s f hr hf han => by cases hr; exact key _ (by simp) f hf han)
        · exact inv_done h.sync hs (fun s f hr hf han => by cases hr; exact key _ (by simp) f hf han)

/-- The items of the list arrive at the input `p`. -/
def Wired (n : Nat) (p : Nat × String) (f : Flow) : Prop := ∃ xs x, f.conns.lookup n = some xs ∧ x ∈ xs ∧ x.sourceKey = "list_item" ∧ x.place = p

theorem begin_cases {n : Nat} {y y' : Sys} (h : y.step (.begin n) = some y') :
    y.phase n = .idle ∧ (y'.phase n = .broken ∨ y'.phase n = .active ∧ y'.flow = y.flow.allOutputs n Cont.resetUpdated) := by
  simp only [Sys.step] at h
  split at h
  · rename_i hp
    refine ⟨hp, ?_⟩
    cases hb : y.flow.begin n with
    | mk f a =>
      rw [show y.flow.step (.begin n) = (f, a) from hb] at h
      cases h
      by_cases ha : a = .ok
      · subst ha
        right
        refine ⟨by simp [Sys.enter], ?_⟩
        simp only [Sys.enter]
        unfold Flow.begin at hb
        split at hb
        · cases hb
        · split at hb
          · cases hb; rfl
          · cases hb
      · left
        simp [Sys.enter, ha]
  · cases h

/-- The item has been put on the output. -/
theorem write_cases {n : Nat} {y y' : Sys} {v : Val} (h : y.step (.write n "list_item" v) = some y') (hok : (y.flow.write n "list_item" v).2 = .ok) :
    (∀ m k, y'.flow.input m k = y.flow.input m k) ∧ ∃ o w, y.flow.output n "list_item" = some o ∧ y'.flow.output n "list_item" = some (o.set v).1 ∧
      (o.set v).1.value = some w ∧ Same (o.set v).1.ty v w ∧ ∀ old, o.value = some old → Same o.ty v old → w = old := by
  simp only [Sys.step] at h
  split at h
  · cases h
    simp only [Flow.step]
    unfold Flow.write at hok ⊢
    split at hok
    · cases hok
    · rename_i o ho
      dsimp only at hok ⊢
      obtain ⟨w, w1, w2, w3, w4⟩ := set_ok hok
      refine ⟨fun m k => by rw [input_setOutput], o, w, ho, ?_, w1, by rw [(set_ty o v).1]; exact w2, fun old hold hsame => ?_⟩
      · rw [output_setOutput, if_pos ⟨rfl, rfl⟩, ho]; rfl
      · cases hq : pyEq old (clean o.ty v) with
        | true => exact (w3 old hold hq).2
        | false =>
          have := (w4 (fun old' ho' => by rw [hold] at ho'; cases ho'; exact hq)).2
          rcases hsame with e | e
          · rw [this, e]
          · rw [hq] at e; cases e
  · cases h

theorem carryOn_done {n : Nat} {it it' : It} {y : Sys} {m : Mem} {r : Res} (h : carryOn n it y (.done m r) = some it') : it'.child = none := by
  cases r with
  | err =>
    simp only [carryOn] at h
    cases hq : y.step (.fail n) with
    | none => rw [hq] at h; cases h
    | some y' => rw [hq] at h; cases h; rfl
  | ok s =>
    simp only [carryOn] at h
    cases hq : y.step (.finish n) with
    | none => rw [hq] at h; cases h
    | some y' => rw [hq] at h; cases h; rfl

/-- A tick of the IterateList begins. -/
theorem inv_start {n : Nat} {p : Nat × String} {it it' : It} {σ : Seen} (h : Inv n it σ) (hw : Wired n p it.sys.flow) (hs : step n it .start = some it') :
    Inv n it' (watch n p it .start it' σ) := by
  simp only [step, start] at hs
  split at hs
  · rename_i y hchild hy
    obtain ⟨hidle, hphase⟩ := begin_cases hy
    have sy := inStep_step (.begin n) h.sync trivial hy
    have J := h.idle hchild hidle
    rcases hphase with hb | ⟨ha, hflow⟩
    · rw [if_pos hb] at hs
      cases hs
      exact ⟨sy, (fun _ hp => by rw [hb] at hp; cases hp), (fun k hk => by rw [hchild] at hk; cases hk)⟩
    · rw [if_neg (by rw [ha]; simp)] at hs
      have hin : ∀ m k, y.flow.input m k = it.sys.flow.input m k := fun m k => by rw [hflow, input_allOutputs]
      have hfail : ∀ m, carryOn n it y (.done m .err) = some it' → Inv n it' (watch n p it .start it' σ) :=
        fun m hs => inv_done sy hs (fun s f hr => by cases hr)
      split at hs
      · exact hfail _ hs
      · rename_i c hc
        split at hs
        · exact hfail _ hs
        · rename_i l hl
          have hval : c.value = some (.list l) := by
            cases hv : c.value with
            | none => rw [hv] at hl; cases hl
            | some v =>
              rw [hv] at hl
              cases v <;> cases hl
              rfl
          rw [hin] at hc
          have hmark : marked n it = c.updated := by simp [marked, hc]
          have J := J c hc
          -- the list after the end of the tick
          have hlist : ∀ y' : Sys, InStep y' → (∀ m k, y'.flow.input m k = y.flow.input m k) → ∀ f c', y'.flow.finish n = (f, .ok) →
              f.input n "list" = some c' → c'.updated = false → c'.value = some (.list l) := by
            intro y' hy' hin' f c' hf hc' hu
            obtain ⟨c0, g1, g2⟩ := finish_input hf (nodup_conns hy' n) c' hc'
            rw [hin', hin, hc] at g1
            cases g1
            rcases g2 with g2 | g2
            · rw [hu] at g2; cases g2
            · rw [g2, hval]
          unfold work at hs
          split at hs
          · -- there is no such item
            rename_i hnone
            simp only [hookProg, BT.tickHook, if_true, BT.iterateTick] at hs
            split at hs
            · rename_i hlen
              have hl0 : l = [] := List.eq_nil_of_length_eq_zero hlen
              refine inv_done sy hs (fun s f hr hf han c' hc' hu => ?_)
              cases hr
              have hchild' := carryOn_done hs
              cases hu' : c.updated with
              | true =>
                simp only [if_true]
                refine ⟨(fun g => by cases g), .inl ⟨.inl ?_, rfl⟩⟩
                simp [watch, hchild', han]
              | false =>
                simp only [Bool.false_eq_true, if_false]
                refine ⟨fun g => ?_, .inl ⟨.inl (by simp [watch, hchild', han]), ?_⟩⟩
                · obtain ⟨l', item, g1, g2, _⟩ := (J hu').1 g
                  rw [hval] at g1; cases g1
                  rw [hl0] at g2; cases g2
                · rcases (J hu').2 with g | ⟨_, l', g1, g2, _⟩
                  · exact g.2
                  · rw [hval] at g1; cases g1
                    rw [hl0] at g2; cases g2
            · rename_i hlen
              rw [if_pos] at hs
              · exact hfail _ hs
              · cases hu' : c.updated with
                | true =>
                  rw [hu'] at hnone
                  simp only [if_true] at hnone ⊢
                  rw [List.getElem?_eq_none_iff] at hnone
                  exact hnone
                | false =>
                  rw [hu'] at hnone
                  simp only [Bool.false_eq_true, if_false] at hnone ⊢
                  exact List.getElem?_eq_none_iff.1 hnone
          · rename_i v hv
            split at hs
            · cases hs
            · rename_i y' hy'
              have sy' := inStep_step (.write n "list_item" v) sy (fun o ho hu => by
                rw [hflow, output_allOutputs, if_pos rfl] at ho
                cases hq : it.sys.flow.output n "list_item" with
                | none => rw [hq] at ho; cases ho
                | some o0 => rw [hq] at ho; cases ho; cases hu) hy'
              have hfail' : ∀ m, carryOn n it y' (.done m .err) = some it' → Inv n it' (watch n p it .start it' σ) :=
                fun m hs => inv_done sy' hs (fun s f hr => by cases hr)
              have hlt : (if c.updated then 0 else it.mem.counter) < l.length := by
                rcases Nat.lt_or_ge (if c.updated then 0 else it.mem.counter) l.length with g | g
                · exact g
                · rw [List.getElem?_eq_none g] at hv; cases hv
              have hne : ¬ l.length = 0 := by omega
              by_cases hok : (y.flow.write n "list_item" v).2 = .ok
              · obtain ⟨hin', o, w, o1, o2, o3, o4, o5⟩ := write_cases hy' hok
                have hshow : Shows n y'.flow v := ⟨_, w, o2, o3, o4⟩
                simp only [hookProg, BT.tickHook, if_true, BT.iterateTick, List.length_singleton, if_neg hne, hok, decide_true] at hs
                cases hu' : c.updated with
                | true =>
                  rw [hu'] at hs hv
                  simp only [if_true] at hs hv
                  rw [if_neg (by omega), if_neg (by omega)] at hs
                  refine inv_done sy' hs (fun s f hr hf han c' hc' hu => ?_)
                  cases hr
                  have hchild' := carryOn_done hs
                  refine ⟨fun _ => ⟨l, v, hlist y' sy' hin' f c' hf hc' hu, hv, shows_finish hf hshow⟩, .inl ⟨.inr ?_, rfl⟩⟩
                  simp [watch, hchild', hmark, hu']
                | false =>
                  rw [hu'] at hs hv hlt
                  simp only [Bool.false_eq_true, if_false] at hs hv hlt
                  rw [if_neg (by omega), if_neg (by omega)] at hs
                  obtain ⟨J1, J2⟩ := J hu'
                  have hdone : Items (if σ.over then ({} : Seen) else σ).done (l.take it.mem.counter) := by
                    rcases J2 with ⟨g1, g2⟩ | ⟨g1, l', g2, _, g3⟩
                    · rw [g2]
                      cases hov : σ.over with
                      | true => trivial
                      | false =>
                        rcases g1 with g1 | g1
                        · rw [hov] at g1; cases g1
                        · show Items σ.done _
                          rw [g1]; trivial
                    · rw [hval] at g2; cases g2
                      rw [g1]; exact g3
                  have hover : (if σ.over then ({} : Seen) else σ).over = false := by
                    cases hov : σ.over with
                    | true => rfl
                    | false => exact hov
                  split at hs
                  · refine inv_done sy' hs (fun s f hr hf han c' hc' hu => ?_)
                    cases hr
                    have hchild' := carryOn_done hs
                    refine ⟨fun _ => ⟨l, v, hlist y' sy' hin' f c' hf hc' hu, hv, shows_finish hf hshow⟩,
                      .inr ⟨by simp [watch, hchild', han], l, hlist y' sy' hin' f c' hf hc' hu, hlt, ?_⟩⟩
                    simp only [watch, hchild', hmark, hu', Bool.false_or, Option.isSome_none, Bool.false_eq_true, if_false]
                    exact hdone
                  · rename_i hch
                    have hch : it.mem.outChanged = false := by simpa using hch
                    cases hs
                    refine ⟨sy', (fun hk _ => by cases hk), fun k hk => ?_⟩
                    cases hk
                    obtain ⟨l', item, g1, g2, od, wd, q1, q2, q3⟩ := J1 hch
                    rw [hval] at g1; cases g1
                    rw [hv] at g2; cases g2
                    -- the input holds what the output has held since the last tick
                    obtain ⟨xs, x, x1, x2, x3, x4⟩ := hw
                    have hold : Holds it.sys.flow x wd := by
                      rcases h.sync.sync n xs x x1 x2 (by rw [hidle]; simp) od wd (by rw [x3]; exact q1) q2 with g | g
                      · rw [hidle] at g; cases g.1
                      · exact g
                    obtain ⟨t, win, t1, t2, t3⟩ := hold
                    have ho : o = od.resetUpdated := by
                      rw [hflow, output_allOutputs, if_pos rfl, q1] at o1
                      cases o1; rfl
                    have hwd : w = wd := o5 wd (by rw [ho]; exact q2) (by rw [ho]; exact q3)
                    have hp1 : p = (x.target, x.targetKey) := x4.symm
                    refine ⟨{ it.mem with item := some it.mem.counter }, l, v, hch, rfl, hv, hshow, ?_, ?_, ?_, c, ?_, hval⟩
                    · simp only [watch, Option.isSome_some, if_true]
                      refine ⟨_, w, t, win, ?_, o3, o4, t2, by rw [hwd]; exact t3⟩
                      rw [o2, hp1]
                      simp only [at_]
                      rw [hin', hin, t1]
                    · simp only [watch, hmark, hu', Bool.false_or, Option.isSome_some, if_true]
                      exact hover
                    · simp only [watch, hmark, hu', Bool.false_or, Option.isSome_some, if_true]
                      exact hdone
                    · rw [hin', hin, hc]
              · simp only [hookProg, BT.tickHook, if_true, BT.iterateTick, if_neg hne, hok, decide_false, Bool.false_eq_true, if_false] at hs
                split at hs
                · split at hs <;> exact hfail' _ hs
                · split at hs <;> exact hfail' _ hs
  · cases hs

/-- Conditions on the wiring that do not change; there is an input `list`. -/
def Given (n : Nat) (y : Sys) : Prop := Neat y.flow ∧ (y.flow.input n "list").isSome = true

/-- An event of another node. -/
theorem inv_other {n : Nat} {p : Nat × String} {it it' : It} {e : Ev} {σ : Seen} (h : Inv n it σ) (hg : Given n it.sys) (hf : Fine n it (.other e))
    (hs : step n it (.other e) = some it') : Inv n it' (watch n p it (.other e) it' σ) := by
  simp only [step] at hs
  split at hs
  · rename_i he
    cases hy : it.sys.step e with
    | none => rw [hy] at hs; cases hs
    | some y =>
      rw [hy] at hs
      cases hs
      have f1 := (hf e rfl).1
      have f2 : Noticed n it { it with sys := y } := noticed_of hg.1 hg.2 hf he hy
      obtain ⟨g1, g2⟩ := output_other he hy "list_item"
      have hshow : ∀ item, Shows n it.sys.flow item → Shows n y.flow item := by
        intro item ⟨o, w, h1, h2, h3⟩
        obtain ⟨o', e1, e2, e3⟩ := g2 o h1
        exact ⟨o', w, e1, e3.trans h2, by rw [e2]; exact h3⟩
      refine ⟨inStep_step e h.sync f1 hy, fun hc hp c' hc' hu => ?_, fun k hk => ?_⟩
      · obtain ⟨c, c'', c1, d1, c2, c3⟩ := f2
        rw [hc'] at d1
        cases d1
        have hu0 : c.updated = false := by
          cases hq : c.updated with
          | false => rfl
          | true => rw [c3 hq] at hu; cases hu
        have hv : c'.value = c.value := by
          rcases c2 with c2 | c2
          · exact c2
          · rw [hu] at c2; cases c2.1
        obtain ⟨j1, j2⟩ := h.idle hc (by rw [← g1]; exact hp) c c1 hu0
        refine ⟨fun ho => ?_, ?_⟩
        · obtain ⟨l, item, q1, q2, q3⟩ := j1 ho
          exact ⟨l, item, hv.trans q1, q2, hshow item q3⟩
        · rcases j2 with q | ⟨q1, l, q2, q3⟩
          · exact .inl q
          · exact .inr ⟨q1, l, hv.trans q2, q3⟩
      · obtain ⟨m, l, item, b1, b2, b3, b4, b5, b6, b7, c8, d8, b8⟩ := h.busy k hk
        obtain ⟨c, c', c1, d1, c2, _⟩ := f2
        rw [d8] at c1
        cases c1
        refine ⟨m, l, item, b1, b2, b3, hshow item b4, b5, b6, b7, c', d1, ?_⟩
        rcases c2 with c2 | ⟨_, c2⟩
        · rw [c2]; exact b8
        · rw [c2] at hk; cases hk
  · cases hs

/-- A reset or a setup: the list is marked afterwards. -/
theorem inv_again {n : Nat} {it : It} {y : Sys} {m : Mem} {σ : Seen} (hy : InStep y) (hc : it.child = none)
    (hu : ∀ c, y.flow.input n "list" = some c → c.updated = true) : Inv n { it with sys := y, mem := m } σ :=
  ⟨hy, (fun _ _ c h1 h2 => by rw [hu c h1] at h2; cases h2), (fun k hk => by rw [show it.child = some k from hk] at hc; cases hc)⟩

theorem inv_step {n : Nat} {p : Nat × String} {it it' : It} {m : Move} {σ : Seen} (h : Inv n it σ) (hw : Wired n p it.sys.flow) (hg : Given n it.sys)
    (hf : Fine n it m) (hs : step n it m = some it') : Inv n it' (watch n p it m it' σ) := by
  cases m with
  | start => exact inv_start h hw hs
  | answer r => exact inv_answer h hs
  | other e => exact inv_other h hg hf hs
  | reset r =>
    simp only [step] at hs
    split at hs
    · rename_i y hc hy
      have sy := inStep_step (.reset n) h.sync trivial hy
      have hu : ∀ c, y.flow.input n "list" = some c → c.updated = true := by
        intro c hi
        simp only [Sys.step] at hy
        split at hy
        · cases hy
          simp only [Flow.step, Flow.reset] at hi
          rw [input_allOutputs, input_allInputs, if_pos rfl] at hi
          cases hq : it.sys.flow.input n "list" with
          | none => rw [hq] at hi; cases hi
          | some c0 => rw [hq] at hi; cases hi; rfl
        · cases hy
      cases hs
      split
      · exact inv_again (enter_broken sy n) hc (fun c hi => hu c hi)
      · exact inv_again sy hc hu
    · cases hs
  | setup =>
    simp only [step] at hs
    split at hs
    · rename_i y hc hy
      have sy := inStep_step .setup h.sync trivial hy
      cases hs
      refine inv_again sy hc (fun c hi => ?_)
      cases hy
      simp only [Flow.step] at hi
      rw [input_setup] at hi
      cases hq : it.sys.flow.input n "list" with
      | none => rw [hq] at hi; cases hi
      | some c0 => rw [hq] at hi; cases hi; rfl
    · cases hs

/-! ### The wirings stay -/

theorem flow_conns (f : Flow) (e : Ev) : (f.step e).1.conns = f.conns := by
  cases e with
  | begin n =>
    simp only [Flow.step, Flow.begin]
    split
    · rfl
    · split <;> rfl
  | write n k v =>
    simp only [Flow.step, Flow.write]
    split <;> rfl
  | finish n =>
    simp only [Flow.step]
    cases hf : f.finish n with
    | mk f' a =>
      unfold Flow.finish at hf
      rcases pushOutputs_cases hf with ⟨e, _⟩ | ⟨g, b, _, hp, _, e1, _⟩
      · show f'.conns = _
        rw [e]; rfl
      · show f'.conns = _
        rw [e1, (pushConns_frame _ _ _ _ _ hp).1]; rfl
  | fail n | untick n | reset n | setup => rfl
  | incoming => exact (pushIncoming_frame _ _ _ _ rfl).1
  | offer n k c => rfl

theorem sys_conns {y y' : Sys} {e : Ev} (h : y.step e = some y') : y'.flow.conns = y.flow.conns := by
  have key := flow_conns y.flow e
  cases e with
  | begin n | write n k v | finish n | fail n | untick n | reset n =>
    simp only [Sys.step] at h
    split at h
    · cases h; exact key
    · cases h
  | setup | incoming | offer n k c => cases h; exact key

theorem carryOn_conns {n : Nat} {it it' : It} {y : Sys} {q : Prog} (h : carryOn n it y q = some it') : it'.sys.flow.conns = y.flow.conns := by
  unfold carryOn at h
  split at h
  · rename_i m s
    cases hy : y.step (.finish n) with
    | none => rw [hy] at h; cases h
    | some y' => rw [hy] at h; cases h; exact sys_conns hy
  · rename_i m
    cases hy : y.step (.fail n) with
    | none => rw [hy] at h; cases h
    | some y' => rw [hy] at h; cases h; exact sys_conns hy
  · cases h; rfl
  · cases h

theorem step_conns {n : Nat} {it it' : It} {m : Move} (h : step n it m = some it') : it'.sys.flow.conns = it.sys.flow.conns := by
  cases m with
  | start =>
    simp only [step, start] at h
    split at h
    · rename_i y _ hy
      have e := sys_conns hy
      split at h
      · cases h; exact e
      · split at h
        · exact (carryOn_conns h).trans e
        · split at h
          · exact (carryOn_conns h).trans e
          · unfold work at h
            split at h
            · exact (carryOn_conns h).trans e
            · split at h
              · cases h
              · rename_i hy'
                exact (carryOn_conns h).trans ((sys_conns hy').trans e)
    · cases h
  | answer r =>
    simp only [step] at h
    split at h
    · cases h
    · exact carryOn_conns h
  | reset r =>
    simp only [step] at h
    split at h
    · rename_i y _ hy
      cases h
      have e := sys_conns hy
      split <;> exact e
    · cases h
  | setup =>
    simp only [step] at h
    split at h
    · rename_i y _ hy
      cases h
      exact sys_conns hy
    · cases h
  | other e =>
    simp only [step] at h
    split at h
    · cases hy : it.sys.step e with
      | none => rw [hy] at h; cases h
      | some y => rw [hy] at h; cases h; exact sys_conns hy
    · cases h

theorem given_step {n : Nat} {y y' : Sys} {e : Ev} (h : Given n y) (hs : y.step e = some y') : Given n y' := by
  refine ⟨?_, (list_event h.1 hs).2 h.2⟩
  have key := neat_step h.1 e
  cases e with
  | begin n | write n k v | finish n | fail n | untick n | reset n =>
    simp only [Sys.step] at hs
    split at hs
    · cases hs; exact key
    · cases hs
  | setup | incoming | offer n k c => cases hs; exact key

theorem given_carryOn {n : Nat} {it it' : It} {y : Sys} {q : Prog} (hy : Given n y) (h : carryOn n it y q = some it') : Given n it'.sys := by
  unfold carryOn at h
  split at h
  · cases hs : y.step (.finish n) with
    | none => rw [hs] at h; cases h
    | some y' => rw [hs] at h; cases h; exact given_step hy hs
  · cases hs : y.step (.fail n) with
    | none => rw [hs] at h; cases h
    | some y' => rw [hs] at h; cases h; exact given_step hy hs
  · cases h; exact hy
  · cases h

theorem given_move {n : Nat} {it it' : It} {m : Move} (hg : Given n it.sys) (h : step n it m = some it') : Given n it'.sys := by
  cases m with
  | start =>
    simp only [step, start] at h
    split at h
    · rename_i y _ hy
      have e := given_step hg hy
      split at h
      · cases h; exact e
      · split at h
        · exact given_carryOn e h
        · split at h
          · exact given_carryOn e h
          · unfold work at h
            split at h
            · exact given_carryOn e h
            · split at h
              · cases h
              · rename_i hy'
                exact given_carryOn (given_step e hy') h
    · cases h
  | answer r =>
    simp only [step] at h
    split at h
    · cases h
    · exact given_carryOn hg h
  | reset r =>
    simp only [step] at h
    split at h
    · rename_i y _ hy
      cases h
      have e := given_step hg hy
      split <;> exact e
    · cases h
  | setup =>
    simp only [step] at h
    split at h
    · rename_i y _ hy
      cases h
      exact given_step hg hy
    · cases h
  | other e =>
    simp only [step] at h
    split at h
    · cases hy : it.sys.step e with
      | none => rw [hy] at h; cases h
      | some y => rw [hy] at h; cases h; exact given_step hg hy
    · cases h

theorem inv_run {n : Nat} {p : Nat × String} (ms : List Move) : ∀ (s s' : It × Seen), Inv n s.1 s.2 → Wired n p s.1.sys.flow → Given n s.1.sys →
    AllFine n s.1 ms → run n p s ms = some s' → Inv n s'.1 s'.2 ∧ Wired n p s'.1.sys.flow := by
  induction ms with
  | nil => intro s s' h hw _ _ hr; cases hr; exact ⟨h, hw⟩
  | cons m ms ih =>
    intro s s' h hw hg hf hr
    simp only [run] at hr
    split at hr
    · cases hr
    · rename_i it' hs
      have e := step_conns hs
      refine ih (it', watch n p s.1 m it' s.2) s' (inv_step h hw hg hf.1 hs) ?_ (given_move hg hs) (hf.2 it' hs) hr
      unfold Wired at hw ⊢
      rw [e]; exact hw

theorem inv_fresh {n : Nat} {f : Flow} {m : Mem} (h1 : OneSource f.conns) (h2 : IncomingApart f) (h3 : DynamicOutputs f) :
    Inv n (fresh f m).1 (fresh f m).2 := by
  refine ⟨inStep_started h1 h2 h3, (fun _ _ c hc hu => ?_), (fun k hk => by cases hk)⟩
  simp only [fresh, started] at hc
  rw [input_setup] at hc
  cases hq : f.input n "list" with
  | none => rw [hq] at hc; cases hc
  | some c0 => rw [hq] at hc; cases hc; cases hu

theorem items_length : ∀ {ss : List (Option Cont × Option Cont)} {vs : List Val}, Items ss vs → ss.length = vs.length
  | [], [], _ => rfl
  | _ :: _, _ :: _, h => by simp [items_length h.2]

/-- The item the child is at. -/
theorem busy_item {n : Nat} {f : Flow} {k : Res → Prog} {σ : Seen} (h : Busy n f k σ) :
    ∃ c l item, f.input n "list" = some c ∧ c.value = some (.list l) ∧ l[σ.done.length]? = some item ∧ Gets item σ.last := by
  obtain ⟨m, l, item, _, _, b3, _, b5, _, b7, c8, d8, b8⟩ := h
  refine ⟨c8, l, item, d8, b8, ?_, b5⟩
  have hlt : m.counter < l.length := by
    rcases Nat.lt_or_ge m.counter l.length with g | g
    · exact g
    · rw [List.getElem?_eq_none g] at b3; cases b3
  rw [items_length b7, List.length_take, Nat.min_eq_left (by omega)]
  exact b3

/-- The child's last item. -/
theorem busy_end {n : Nat} {it it' : It} {r : Res} {k : Res → Prog} {σ : Seen} (hk : it.child = some k) (h : Busy n it.sys.flow k σ)
    (hs : step n it (.answer r) = some it') (ha : it'.answer = some (.ok .succeeded)) :
    ∃ c l, it.sys.flow.input n "list" = some c ∧ c.value = some (.list l) ∧ r = .ok .succeeded ∧ Items (σ.done ++ [σ.last]) l := by
  obtain ⟨m, l, item, _, b2, b3, _, b5, _, b7, c8, d8, b8⟩ := h
  refine ⟨c8, l, d8, b8, ?_⟩
  simp only [step, hk] at hs
  subst b2
  have answers : ∀ m r', carryOn n it it.sys (.done m r') = some it' → r' = .ok .succeeded := by
    intro m r' h
    cases r' with
    | err =>
      simp only [carryOn] at h
      cases hq : it.sys.step (.fail n) with
      | none => rw [hq] at h; cases h
      | some y' => rw [hq] at h; cases h; cases ha
    | ok s =>
      simp only [carryOn] at h
      cases hq : it.sys.step (.finish n) with
      | none => rw [hq] at h; cases h
      | some y' =>
        rw [hq] at h
        cases h
        dsimp only at ha
        split at ha
        · cases ha
        · exact Option.some.inj ha
  cases r with
  | err => cases answers _ _ hs
  | ok a =>
    simp only [rest] at hs
    split at hs
    · rename_i e
      subst e
      split at hs
      · rename_i hlast
        refine ⟨rfl, ?_⟩
        have : l = l.take m.counter ++ [item] := by
          have h1 := List.take_add_one (l := l) (i := m.counter)
          rw [b3, hlast, List.take_length] at h1
          exact h1
        rw [this]
        exact items_append b7 ⟨b5, trivial⟩
      · cases answers _ _ hs
    · split at hs
      · cases answers _ _ hs
      · cases answers _ _ hs

theorem given_fresh {n : Nat} {f : Flow} {m : Mem} (h1 : Neat f) (h2 : (f.input n "list").isSome = true) : Given n (fresh f m).1.sys := by
  refine ⟨neat_step h1 .setup, ?_⟩
  show (f.setup.input n "list").isSome = true
  rw [input_setup, Option.isSome_map]; exact h2

/-! ### The claims -/

/-- The tree: no input has two sources or also gets data from a surrounding tree, outputs are not static, the node has an input `list`, and `p` is an input that
is wired to its output `list_item`. -/
structure Tidy (n : Nat) (p : Nat × String) (f : Flow) : Prop where
  one : OneSource f.conns
  apart : IncomingApart f
  dynamic : DynamicOutputs f
  neat : Neat f
  list : (f.input n "list").isSome = true
  wired : Wired n p f

/-- C123: take a tree that has just been set up, and let anything happen in which no other hook writes the same new value twice in a tick, and no list arrives
within the child's tick or is equal to one that waits. Whenever the IterateList ticks its child, an input that is wired to `list_item` holds an item of the
list, namely the one whose number is that of the items the child has succeeded with in this round. -/
theorem c123_item_partial (n : Nat) (p : Nat × String) (f : Flow) (m : Mem) (ht : Tidy n p f) (ms : List Move) (hf : AllFine n (fresh f m).1 ms)
    (s : It × Seen) (hr : run n p (fresh f m) ms = some s) (hc : s.1.child.isSome = true) :
    ∃ c l item, s.1.sys.flow.input n "list" = some c ∧ c.value = some (.list l) ∧ l[s.2.done.length]? = some item ∧ Gets item s.2.last := by
  obtain ⟨k, hk⟩ := Option.isSome_iff_exists.1 hc
  exact busy_item ((inv_run ms _ s (inv_fresh ht.one ht.apart ht.dynamic) ht.wired (given_fresh ht.neat ht.list) hf hr).1.busy k hk)

theorem run_append {n : Nat} {p : Nat × String} (ms ms' : List Move) : ∀ s, run n p s (ms ++ ms') = (run n p s ms).bind fun s => run n p s ms' := by
  induction ms with
  | nil => intro s; rfl
  | cons m ms ih =>
    intro s
    simp only [List.cons_append, run]
    split
    · rfl
    · exact ih _

/-- C123: when the IterateList answers SUCCEEDED after a tick of the child, the child has succeeded with every item of the list in this round, once and in
order: what its input held at these ticks is the list. -/
theorem c123_round_partial (n : Nat) (p : Nat × String) (f : Flow) (m : Mem) (ht : Tidy n p f) (ms : List Move) (hf : AllFine n (fresh f m).1 ms)
    (r : Res) (s s' : It × Seen) (hr : run n p (fresh f m) ms = some s) (hr' : run n p (fresh f m) (ms ++ [.answer r]) = some s')
    (ha : s'.1.answer = some (.ok .succeeded)) :
    ∃ c l, s.1.sys.flow.input n "list" = some c ∧ c.value = some (.list l) ∧ Items s'.2.done l := by
  have I := (inv_run ms _ s (inv_fresh ht.one ht.apart ht.dynamic) ht.wired (given_fresh ht.neat ht.list) hf hr).1
  rw [run_append, hr] at hr'
  simp only [Option.bind_some, run] at hr'
  split at hr'
  · cases hr'
  · rename_i it' hs
    cases hr'
    cases hk : s.1.child with
    | none => simp only [step, hk] at hs; cases hs
    | some k =>
      obtain ⟨c, l, g1, g2, g3, g4⟩ := busy_end hk (I.busy k hk) hs ha
      refine ⟨c, l, g1, g2, ?_⟩
      simp only [watch, g3, if_true]
      exact g4

/-! ### A list that is given with the node -/

/-- Nothing is wired to the list. -/
def Alone (n : Nat) (f : Flow) : Prop :=
  (∀ s, ∀ x ∈ f.connsOf s, x.place ≠ (n, "list")) ∧ (n, "list") ∉ f.incoming.map (·.1)

theorem incoming_keys (f : Flow) (e : Ev) : (f.step e).1.incoming.map (·.1) = f.incoming.map (·.1) := by
  cases e with
  | begin n =>
    simp only [Flow.step, Flow.begin]
    split
    · rfl
    · split <;> rfl
  | write n k v => simp only [Flow.step, Flow.write]; split <;> rfl
  | finish n =>
    simp only [Flow.step]
    cases hf : f.finish n with
    | mk f' a =>
      unfold Flow.finish at hf
      rcases pushOutputs_cases hf with ⟨e, _⟩ | ⟨g, b, _, hp, _, _, e2, _⟩
      · show f'.incoming.map _ = _
        rw [e]; rfl
      · show f'.incoming.map _ = _
        rw [e2, (pushConns_frame _ _ _ _ _ hp).2.1]; rfl
  | fail n | untick n | reset n | setup => rfl
  | incoming =>
    simp only [Flow.step]
    rw [(pushIncoming_frame f.incoming f _ _ rfl).2.1]
  | offer n k c =>
    simp only [Flow.step]
    generalize f.incoming = l
    induction l with
    | nil => rfl
    | cons q l ih => simp only [Data.modify]; split <;> simp [ih]

theorem sys_step_flow {y y' : Sys} {e : Ev} (h : y.step e = some y') : y'.flow = (y.flow.step e).1 := by
  cases e with
  | begin n | write n k v | finish n | fail n | untick n | reset n =>
    simp only [Sys.step] at h
    split at h
    · cases h; rfl
    · cases h
  | setup | incoming | offer n k c => cases h; rfl

/-- Something that every event keeps is kept by every move. -/
theorem kept_move {n : Nat} {P : Flow → Prop} (hP : ∀ f e, P f → P (f.step e).1) {it it' : It} {m : Move} (hg : P it.sys.flow)
    (h : step n it m = some it') : P it'.sys.flow := by
  have ev : ∀ {y y' : Sys} {e : Ev}, P y.flow → y.step e = some y' → P y'.flow := fun h hs => by rw [sys_step_flow hs]; exact hP _ _ h
  have on : ∀ {y : Sys} {q : Prog}, P y.flow → carryOn n it y q = some it' → P it'.sys.flow := by
    intro y q hy h
    unfold carryOn at h
    split at h
    · cases hs : y.step (.finish n) with
      | none => rw [hs] at h; cases h
      | some y' => rw [hs] at h; cases h; exact ev hy hs
    · cases hs : y.step (.fail n) with
      | none => rw [hs] at h; cases h
      | some y' => rw [hs] at h; cases h; exact ev hy hs
    · cases h; exact hy
    · cases h
  cases m with
  | start =>
    simp only [step, start] at h
    split at h
    · rename_i y _ hy
      have e := ev hg hy
      split at h
      · cases h; exact e
      · split at h
        · exact on e h
        · split at h
          · exact on e h
          · unfold work at h
            split at h
            · exact on e h
            · split at h
              · cases h
              · rename_i hy'
                exact on (ev e hy') h
    · cases h
  | answer r =>
    simp only [step] at h
    split at h
    · cases h
    · exact on hg h
  | reset r =>
    simp only [step] at h
    split at h
    · rename_i y _ hy
      cases h
      have e := ev hg hy
      split <;> exact e
    · cases h
  | setup =>
    simp only [step] at h
    split at h
    · rename_i y _ hy
      cases h
      exact ev hg hy
    · cases h
  | other e =>
    simp only [step] at h
    split at h
    · cases hy : it.sys.step e with
      | none => rw [hy] at h; cases h
      | some y => rw [hy] at h; cases h; exact ev hg hy
    · cases h

/-- No hook of another node writes the same new value twice in a tick. -/
def Quiet (n : Nat) : It → List Move → Prop
  | _, [] => True
  | it, m :: ms => (∀ e, m = .other e → NoEcho it.sys e) ∧ ∀ it', step n it m = some it' → Quiet n it' ms

theorem allFine_alone {n : Nat} (ms : List Move) : ∀ it, Alone n it.sys.flow → Quiet n it ms → AllFine n it ms := by
  induction ms with
  | nil => intro it _ _; trivial
  | cons m ms ih =>
    intro it hg hq
    refine ⟨fun e he => ⟨hq.1 e he, fun v hv => ?_⟩, fun it' hs => ih it' (kept_move (P := Alone n) (fun f e h => ?_) hg hs) (hq.2 it' hs)⟩
    · cases hv with
      | push h1 h2 _ => exact absurd h2 (hg.1 _ _ h1)
      | incoming h1 _ _ => exact absurd (List.mem_map_of_mem h1) hg.2
    · refine ⟨?_, by rw [incoming_keys]; exact h.2⟩
      unfold Flow.connsOf
      rw [flow_conns]
      exact h.1

/-- C123 for a list that is given with the node: nothing is wired to the input `list`. Then no more is asked than that no other hook writes the same new
value twice in a tick. -/
theorem c123_given_partial (n : Nat) (p : Nat × String) (f : Flow) (m : Mem) (ht : Tidy n p f) (ha : Alone n f) (ms : List Move)
    (hq : Quiet n (fresh f m).1 ms) (s : It × Seen) (hr : run n p (fresh f m) ms = some s) (hc : s.1.child.isSome = true) :
    ∃ c l item, s.1.sys.flow.input n "list" = some c ∧ c.value = some (.list l) ∧ l[s.2.done.length]? = some item ∧ Gets item s.2.last :=
  c123_item_partial n p f m ht ms (allFine_alone ms _ ha hq) s hr hc

/-! ### A list that changes unnoticed -/

/-- A list of numbers that can be wired. -/
def numbers : Cont := ⟨.list (.int 0 99) true 99 false, true, false, false, none, false⟩

/-- The node 0 has a list as its output, which is wired to the IterateList 1; its items are wired to its child 2. -/
def line : Flow :=
  ⟨[(0, ⟨[], [("out", numbers)]⟩), (1, ⟨[("list", numbers)], [("list_item", num)]⟩), (2, ⟨[("in", num)], []⟩)],
   [(0, [⟨"out", 1, "list"⟩]), (1, [⟨"list_item", 2, "in"⟩]), (2, [])], [], []⟩

/-- A list that is given with the node: 7, 8. -/
def literal : Flow :=
  ⟨[(1, ⟨[("list", { numbers with allowStatic := true, isStatic := true, value := some (.list [.int 7, .int 8]) })], [("list_item", num)]⟩),
    (2, ⟨[("in", num)], []⟩)], [(1, [⟨"list_item", 2, "in"⟩]), (2, [])], [], []⟩

/-- The node 0 is ticked and puts out a list. -/
def puts (l : List Int) : List Move := [.other (.begin 0), .other (.write 0 "out" (.list (l.map .int))), .other (.finish 0)]

/-- The IterateList is ticked, and its child, which answers `r`. -/
def runs (r : BTState) : List Move := [.start, .other (.begin 2), .other (.finish 2), .answer (.ok r)]

/-- Is the child being ticked; the numbers at the output `list_item` and the input of the child. -/
def looks (s : Option (It × Seen)) : Option (Bool × Option (Option Int × Bool) × Option (Option Int × Bool)) :=
  s.map fun s => (s.1.child.isSome, Flow.look s.2.last.1, Flow.look s.2.last.2)

/-- The answer of the last tick, and the numbers the child has succeeded with. -/
def ends (s : Option (It × Seen)) : Option (Option Res × List (Option (Option Int × Bool))) := s.map fun s => (s.1.answer, s.2.done.map fun x => Flow.look x.2)

/-- The list changes, and before the IterateList is ticked again its source is reset and puts out the same list once more. -/
def unnoticed : List Move :=
  puts [7, 8] ++ [.start] ++ runs .running ++ puts [9, 8] ++ [.other (.reset 0)] ++ puts [9, 8] ++ [.start]

/-- The code violates C123 if a change of the list is not noticed: the mark of the input gets lost (C52), and the child is ticked with 7, which is no item of
the list any more. -/
theorem c123_unnoticed : looks (run 1 (2, "in") (fresh line {}) unnoticed) = some (true, some (some 9, true), some (some 7, false)) := by decide +kernel

/-! ### Examples -/

/-- Two rounds through a given list; the child needs two ticks for the first item. -/
def rounds : List Move := [.start] ++ runs .running ++ runs .succeeded ++ [.start] ++ runs .succeeded

/-- Checks a write for `NoEcho`. -/
def silent (y : Sys) : Ev → Bool
  | .write n k v => (y.flow.output n k).all fun c => !c.updated || c.value.all fun old => !pyEq old (clean c.ty v)
  | _ => true

/-- Checks that a value for the list is welcome. -/
def welcome (n : Nat) (it : It) (v : Val) : Bool :=
  it.child.isNone && (it.sys.flow.input n "list").all fun c => !c.updated || c.value.all fun old => !pyEq old (clean c.ty v)

/-- Checks all values that an event brings. -/
def timely (n : Nat) (it : It) : Ev → Bool
  | .finish s => (it.sys.flow.connsOf s).all fun x => x.place ≠ (n, "list") ||
      (it.sys.flow.output s x.sourceKey).all fun c => !c.updated || c.value.all (welcome n it)
  | .incoming => it.sys.flow.incoming.isEmpty
  | _ => true

/-- Checks a run. -/
def checked (n : Nat) : It → List Move → Bool
  | _, [] => true
  | it, m :: ms => (match m with | .other e => silent it.sys e && timely n it e | _ => true) && (step n it m).all fun it' => checked n it' ms

theorem all_of {A : Type} {q : A → Bool} {o : Option A} {a : A} (h : o.all q = true) (e : o = some a) : q a = true := by subst e; exact h

theorem fresh_value {c : Cont} {v : Val} (h : (!c.updated || c.value.all fun old => !pyEq old (clean c.ty v)) = true) (hu : c.updated = true) (old : Val)
    (hold : c.value = some old) : pyEq old (clean c.ty v) = false := by
  rw [hu] at h
  have := all_of (show c.value.all _ = true from h) hold
  simpa using this

theorem welcome_of {n : Nat} {it : It} {v : Val} (h : welcome n it v = true) : it.child = none ∧
    ∀ c old, it.sys.flow.input n "list" = some c → c.updated = true → c.value = some old → pyEq old (clean c.ty v) = false := by
  simp only [welcome, Bool.and_eq_true, Option.isNone_iff_eq_none] at h
  exact ⟨h.1, fun c old hc hu ho => fresh_value (v := v) (by have := all_of h.2 hc; exact this) hu old ho⟩

theorem checked_fine {n : Nat} (ms : List Move) : ∀ it, checked n it ms = true → AllFine n it ms := by
  induction ms with
  | nil => intro it _; trivial
  | cons m ms ih =>
    intro it h
    simp only [checked, Bool.and_eq_true] at h
    refine ⟨fun e he => ?_, fun it' hs => ih it' (by have := all_of h.2 hs; exact this)⟩
    subst he
    have h := h.1
    simp only [Bool.and_eq_true] at h
    refine ⟨?_, fun v hv => ?_⟩
    · cases e with
      | write m k v => exact fun c hc hu old ho => fresh_value (v := v) (by have h := h.1; simp only [silent] at h; have := all_of h hc; exact this) hu old ho
      | _ => trivial
    · cases hv with
      | @push s x v h1 h2 h3 =>
        obtain ⟨c, c1, c2, c3⟩ := h3
        have := List.all_eq_true.1 h.2 x h1
        simp only [h2, ne_eq, not_true_eq_false, decide_false, Bool.false_or] at this
        have := all_of this c1
        rw [c2] at this
        exact welcome_of (all_of (show c.value.all _ = true from this) c3)
      | incoming h1 _ _ =>
        have := h.2
        simp only [timely, List.isEmpty_iff] at this
        rw [this] at h1; cases h1

/-- A list that changes in time: the IterateList starts again with the first item. -/
def changes : List Move := puts [7, 8] ++ [.start] ++ runs .succeeded ++ puts [9] ++ [.start] ++ runs .succeeded

theorem changes_fine : AllFine 1 (fresh line {}).1 changes := checked_fine _ _ (by decide +kernel)

theorem tidy_line : Tidy 1 (2, "in") line := by
  have hl : ∀ s xs, line.conns.lookup s = some xs → s = 0 ∧ xs = [⟨"out", 1, "list"⟩] ∨ s = 1 ∧ xs = [⟨"list_item", 2, "in"⟩] ∨ s = 2 ∧ xs = [] := by
    intro s xs h
    match s, h with
    | 0, h => cases h; exact .inl ⟨rfl, rfl⟩
    | 1, h => cases h; exact .inr (.inl ⟨rfl, rfl⟩)
    | 2, h => cases h; exact .inr (.inr ⟨rfl, rfl⟩)
    | s + 3, h => cases h
  refine ⟨⟨fun s xs h => ?_, fun s s' xs xs' x x' h h' hx hx' hp => ?_⟩, fun s xs x _ _ => rfl, fun n k c h => ?_, ⟨fun s => ?_, List.nodup_nil⟩, rfl,
    [⟨"list_item", 2, "in"⟩], _, rfl, List.mem_singleton.2 rfl, rfl, rfl⟩
  · rcases hl s xs h with ⟨_, rfl⟩ | ⟨_, rfl⟩ | ⟨_, rfl⟩ <;> simp
  · rcases hl s xs h with ⟨rfl, rfl⟩ | ⟨rfl, rfl⟩ | ⟨rfl, rfl⟩ <;> rcases hl s' xs' h' with ⟨rfl, rfl⟩ | ⟨rfl, rfl⟩ | ⟨rfl, rfl⟩ <;>
      simp_all [Conn.place]
  · have go : ∀ (k' : String) (d c : Cont), List.lookup k [(k', d)] = some c → c = d := by
      intro k' d c h
      simp only [List.lookup] at h
      split at h
      · cases h; rfl
      · cases h
    match n, h with
    | 0, h => rw [go "out" numbers c h]; rfl
    | 1, h => rw [go "list_item" num c h]; rfl
    | 2, h => cases h
    | n + 3, h => cases h
  · unfold Flow.connsOf
    cases h : line.conns.lookup s with
    | none => exact List.nodup_nil
    | some xs => rcases hl s xs h with ⟨_, rfl⟩ | ⟨_, rfl⟩ | ⟨_, rfl⟩ <;> simp

example : Tidy 1 (2, "in") line ∧ AllFine 1 (fresh line {}).1 changes := ⟨tidy_line, changes_fine⟩

example : ends (run 1 (2, "in") (fresh line {}) changes) = some (some (.ok .succeeded), [some (some 9, true)]) := by decide +kernel

theorem quiet_of {n : Nat} (ms : List Move) : ∀ it, AllFine n it ms → Quiet n it ms := by
  induction ms with
  | nil => intro it _; trivial
  | cons m ms ih => exact fun it h => ⟨fun e he => (h.1 e he).1, fun it' hs => ih it' (h.2 it' hs)⟩

theorem literal_conns (s : Nat) (xs : List Conn) (h : literal.conns.lookup s = some xs) : s = 1 ∧ xs = [⟨"list_item", 2, "in"⟩] ∨ s = 2 ∧ xs = [] := by
  match s, h with
  | 0, h => cases h
  | 1, h => cases h; exact .inl ⟨rfl, rfl⟩
  | 2, h => cases h; exact .inr ⟨rfl, rfl⟩
  | s + 3, h => cases h

theorem tidy_literal : Tidy 1 (2, "in") literal := by
  refine ⟨⟨fun s xs h => ?_, fun s s' xs xs' x x' h h' hx hx' hp => ?_⟩, fun s xs x _ _ => rfl, fun n k c h => ?_, ⟨fun s => ?_, List.nodup_nil⟩, rfl,
    [⟨"list_item", 2, "in"⟩], _, rfl, List.mem_singleton.2 rfl, rfl, rfl⟩
  · rcases literal_conns s xs h with ⟨_, rfl⟩ | ⟨_, rfl⟩ <;> simp
  · rcases literal_conns s xs h with ⟨rfl, rfl⟩ | ⟨rfl, rfl⟩ <;> rcases literal_conns s' xs' h' with ⟨rfl, rfl⟩ | ⟨rfl, rfl⟩ <;> simp_all [Conn.place]
  · have go : ∀ (k' : String) (d c : Cont), List.lookup k [(k', d)] = some c → c = d := by
      intro k' d c h
      simp only [List.lookup] at h
      split at h
      · cases h; rfl
      · cases h
    match n, h with
    | 0, h => cases h
    | 1, h => rw [go "list_item" num c h]; rfl
    | 2, h => cases h
    | n + 3, h => cases h
  · unfold Flow.connsOf
    cases h : literal.conns.lookup s with
    | none => exact List.nodup_nil
    | some xs => rcases literal_conns s xs h with ⟨_, rfl⟩ | ⟨_, rfl⟩ <;> simp

theorem alone_literal : Alone 1 literal := by
  refine ⟨fun s x hx hp => ?_, by decide⟩
  have hx : x ∈ literal.connsOf s := hx
  unfold Flow.connsOf at hx
  cases h : literal.conns.lookup s with
  | none => rw [h] at hx; cases hx
  | some xs =>
    rw [h] at hx
    rcases literal_conns s xs h with ⟨_, rfl⟩ | ⟨_, rfl⟩
    · rw [List.mem_singleton.1 hx] at hp; cases hp
    · cases hx

example : Tidy 1 (2, "in") literal ∧ Alone 1 literal ∧ Quiet 1 (fresh literal {}).1 rounds :=
  ⟨tidy_literal, alone_literal, quiet_of _ _ (checked_fine _ _ (by decide +kernel))⟩

example : ends (run 1 (2, "in") (fresh literal {}) rounds) = some (some (.ok .succeeded), [some (some 7, false), some (some 8, true)]) := by decide +kernel

example : looks (run 1 (2, "in") (fresh literal {}) ([.start] ++ runs .running ++ [.start])) = some (true, some (some 7, false), some (some 7, false)) := by
  decide +kernel

end Verif.Nodes.Iterate
