import Verif.Whole.Claims
import Verif.Exec.Mark
import Verif.Data.Flow

/-! C122: data flows along the wirings that have been edited. The connections of the `DataFlowManager` are a copy of the wirings, made when the tick thread sets
the root up (tree_exec_manager.py 674-678); edits do not touch them. -/

set_option autoImplicit false

namespace Verif.Whole.Wires

open Verif.BT (Op Res BTState Ops Tree ops Node Kind)
open Verif.Edit (St Req Ref Id Spec Reg Wiring findRoot structureMsg)
open Verif.Exec (Topo Mgr World Cmd TState Thread Pc control threadStep)
open Verif.Exec.Mark (rests controlInits threadInits Loose)
open Verif.Data (modify)

/-! ### The model -/

/-- data_flow_manager.py 42-58: `Connection` -/
structure Link where
  srcKey : Nat
  tgt : Id
  tgtKey : Nat
  deriving DecidableEq, Repr

/-- data_flow_manager.py 92-112: the loop over the wirings. An id that is not a UUID ends it (`Err`, which tree_exec_manager.py 677 ignores); `none`: `KeyError`. -/
def connect : List Wiring → List (Id × List Link) → Option (List (Id × List Link))
  | [], cs => some cs
  | w :: ws, cs =>
    match w.src, w.tgt with
    | some a, some b => if (cs.lookup a).isSome then connect ws (modify a (· ++ [⟨w.srcKey, b, w.tgtKey⟩]) cs) else none
    | _, _ => some cs

/-- data_flow_manager.py 85-113: `initialize`, called with `self.nodes` and `self.wirings`. -/
def initConns (s : St) : Option (List (Id × List Link)) := connect s.wirings (s.nodes.map fun x => (x.1, []))

/-- The system of C118 with `data_flow_manager.connections`. -/
structure Net (n : Nat) where
  sys : Sys n
  conns : List (Id × List Link) := []

variable (C : Nat → Nat → Bool) (cl : Classes) {n : Nat}

/-- As `Whole.step`; the connections change only where `initialize` is called. (A `KeyError` would end the tick thread, see `c122_no_error`.) -/
def netStep (a : Act) (w : Net n) : Net n :=
  { sys := step C cl a w.sys
    conns := match a with
      | .service _ => w.conns
      | .command c b => if controlInits (ops (n + 1)) b c w.sys.mgr then (initConns w.sys.ed).getD w.conns else w.conns
      | .think => if threadInits (ops (n + 1)) w.sys.mgr then (initConns w.sys.ed).getD w.conns else w.conns }

/-- One after the other. -/
def netRun (as : List Act) (w : Net n) : Net n := as.foldl (fun w a => netStep C cl a w) w

/-- The start: no nodes, no connections (data_flow_manager.py 75-83). -/
def netStart (n : Nat) (world : Nat → World (Tree (n + 1))) : Net n := { sys := start n world }

/-! ### Specification -/

/-- What leaves a node, in the order of the wirings. -/
def leaving (ws : List Wiring) (a : Id) : List (Nat × Option Id × Nat) := (ws.filter fun w => w.src = some a).map fun w => (w.srcKey, w.tgt, w.tgtKey)

/-- The connections lead where the wirings lead: for every node those that leave it, in their order. -/
def Follows (cs : List (Id × List Link)) (ids : List Id) (ws : List Wiring) : Prop :=
  ∀ a, (cs.lookup a).map (·.map fun l => (l.srcKey, some l.tgt, l.tgtKey)) = if a ∈ ids then some (leaving ws a) else none

variable {C} {cl}

/-! ### Initialising -/

theorem connect_ok (ws : List Wiring) : ∀ (cs : List (Id × List Link)), (∀ w ∈ ws, ∃ a b, w.src = some a ∧ w.tgt = some b ∧ (cs.lookup a).isSome) →
    ∃ cs', connect ws cs = some cs' ∧ ∀ a, (cs'.lookup a).map (·.map fun l => (l.srcKey, some l.tgt, l.tgtKey)) =
      (cs.lookup a).map fun ls => ls.map (fun l => (l.srcKey, some l.tgt, l.tgtKey)) ++ leaving ws a := by
  induction ws with
  | nil => intro cs _; exact ⟨cs, rfl, fun a => by cases cs.lookup a <;> simp [leaving]⟩
  | cons w ws ih =>
    intro cs h
    obtain ⟨a, b, h1, h2, h3⟩ := h w (by simp)
    have hl := fun k => Data.lookup_modify a k (· ++ [(⟨w.srcKey, b, w.tgtKey⟩ : Link)]) cs
    obtain ⟨cs', k1, k2⟩ := ih (modify a (· ++ [⟨w.srcKey, b, w.tgtKey⟩]) cs) (fun w' hw' => by
      obtain ⟨a', b', g1, g2, g3⟩ := h w' (by simp [hw'])
      refine ⟨a', b', g1, g2, ?_⟩
      rw [hl]
      split
      · rw [Option.isSome_map]; exact g3
      · exact g3)
    refine ⟨cs', by simp only [connect, h1, h2, h3, if_true]; exact k1, fun x => ?_⟩
    rw [k2, hl]
    by_cases hx : x = a
    · subst hx
      rw [if_pos rfl]
      cases cs.lookup x with
      | none => rfl
      | some ls => simp [leaving, h1, h2]
    · rw [if_neg hx]
      have : leaving (w :: ws) x = leaving ws x := by
        simp only [leaving]
        rw [List.filter_cons_of_neg]
        simp only [h1, Option.some.injEq, decide_eq_true_eq]
        exact fun e => hx e.symm
      rw [this]

theorem lookup_blank (l : List (Id × Ref)) (a : Id) :
    (l.map fun x => (x.1, ([] : List Link))).lookup a = if a ∈ l.map (·.1) then some [] else none := by
  induction l with
  | nil => rfl
  | cons x l ih =>
    simp only [List.map_cons, List.lookup, List.mem_cons]
    by_cases h : a = x.1
    · simp [h]
    · have hb : (a == x.1) = false := by simpa using h
      rw [hb]
      simp only [h, false_or]
      exact ih

theorem init_ok {s : St} (v : Edit.Inv2 C s) : ∃ cs, initConns s = some cs ∧ Follows cs (s.nodes.map (·.1)) s.wirings := by
  obtain ⟨cs, h1, h2⟩ := connect_ok s.wirings (s.nodes.map fun x => (x.1, [])) (fun w hw => by
    obtain ⟨a, b, ra, rb, to, ti, h1, h2, h3, _⟩ := v.basic.wired w hw fun _ hf => hf.elim
    refine ⟨a, b, h1, h2, ?_⟩
    rw [lookup_blank, if_pos (List.mem_map.2 ⟨_, h3, rfl⟩)]
    rfl)
  refine ⟨cs, h1, fun a => ?_⟩
  rw [h2, lookup_blank]
  split
  · simp
  · rfl

theorem init_erase (s : St) : initConns (erase s) = initConns s := rfl

/-! ### Invariant -/

theorem run_sys (as : List Act) : ∀ w : Net n, (netRun C cl as w).sys = run C cl as w.sys := by
  induction as with
  | nil => intro w; rfl
  | cons a as ih => intro w; exact ih (netStep C cl a w)

/-- The connections are those of the wirings, or nothing is being ticked. -/
def Current (w : Net n) : Prop := initConns w.sys.ed = some w.conns ∨ Loose (ops (n + 1)) w.sys.mgr

theorem rests_reset (n : Nat) (t : Tree n) (h : rests ((ops n).state t) = true) : ((ops n).run .reset t).res = .err :=
  (BT.c01_rejected_call_has_no_effect n .reset t (by
    simp only [rests, Bool.or_eq_true, decide_eq_true_eq] at h
    rcases h with e | e <;> simp [e, BT.Allowed])).1

theorem quiet_rests {w : Sys n} (q : Quiet w) (he : w.mgr.state = .editable) : Exec.Holds (fun t => rests ((ops (n + 1)).state t) = true) w.mgr.tree := by
  intro t ht
  rcases Exec.Rest.rest_root (n + 1) t (q.calm he t ht) with e | e <;> simp [rests, e]

theorem current_step {w : Net n} (h : Coherent C cl w.sys) (q : Quiet w.sys) (k : Current w) (a : Act) : Current (netStep C cl a w) := by
  obtain ⟨cs, hcs, _⟩ := init_ok h.ed
  cases a with
  | service r =>
    unfold Current netStep
    simp only [step]
    split
    · exact k
    · rename_i he
      have he : w.sys.mgr.state = .editable := by simpa using he
      refine .inr fun t _ => .inl ?_
      show (Exec.edit _ w.sys.mgr).1.state = .editable
      unfold Exec.edit
      rw [if_neg (by simp [he])]
      exact he
  | command c b =>
    have hed : initConns (step C cl (.command c b) w.sys).ed = initConns w.sys.ed := by
      simp only [step]
      split
      · exact init_erase _
      · rfl
    unfold Current
    simp only [netStep]
    rw [hed]
    rcases k with k | k
    · left
      split
      · rw [k]; rfl
      · exact k
    · rcases Exec.Mark.control_inits c b h.exec (quiet_rests q) (rests_reset (n + 1)) k with e | e
      · left
        rw [if_pos e, hcs]
        rfl
      · exact .inr e
  | think =>
    have hed : initConns (step C cl .think w.sys).ed = initConns w.sys.ed := rfl
    unfold Current
    simp only [netStep]
    rw [hed]
    rcases k with k | k
    · left
      split
      · rw [k]; rfl
      · exact k
    · rcases Exec.Mark.thread_inits h.exec k with e | e
      · left
        rw [if_pos e, hcs]
        rfl
      · exact .inr e

theorem current_run (hcl : cl.Ok) (as : List Act) : ∀ {w : Net n}, Coherent C cl w.sys → Quiet w.sys → Current w → Sane C cl as w.sys → Tame C cl as w.sys →
    Current (netRun C cl as w) := by
  induction as with
  | nil => intro w _ _ k _ _; exact k
  | cons a as ih =>
    intro w h q k hs ht
    exact ih (w := netStep C cl a w) (coherent_step cl h a hs.1) (quiet_step hcl h q a ht.1) (current_step h q k a) hs.2 ht.2

theorem shown_step {w : Sys n} (a : Act) (e : w.shown.wirings = w.ed.wirings) : (step C cl a w).shown.wirings = (step C cl a w).ed.wirings := by
  cases a with
  | service r =>
    simp only [step]
    split
    · exact e
    · rfl
  | command c b =>
    simp only [step]
    split
    · exact e
    · exact e
  | think => exact e

theorem shown_run (as : List Act) : ∀ {w : Sys n}, w.shown.wirings = w.ed.wirings → (run C cl as w).shown.wirings = (run C cl as w).ed.wirings := by
  induction as with
  | nil => intro w e; exact e
  | cons a as ih => intro w e; exact ih (shown_step a e)

/-! ### C122 -/

/-- Initialising the data flow never fails: every wiring starts at a node of the tree, and the connections follow the wirings. -/
theorem c122_no_error (world : Nat → World (Tree (n + 1))) (hw : Faithful world) (as : List Act) (hs : Sane C cl as (start n world)) :
    ∃ cs, initConns (run C cl as (start n world)).ed = some cs ∧
      Follows cs ((run C cl as (start n world)).ed.nodes.map (·.1)) (run C cl as (start n world)).ed.wirings :=
  init_ok (coherent_run cl as (coherent_start cl world hw) hs).ed

/-- After any history of careful edits, commands and ticks: if the tree is not editable nor in ERROR, and its tick thread is not just starting or failing, then
the connections lead exactly where the wirings lead that were published last. Missing: edits that are not careful, and a SHUTDOWN that fails while the tree can be
edited (`c122_stale`). -/
theorem c122_flow_partial (hcl : cl.Ok) (world : Nat → World (Tree (n + 1))) (hw : Faithful world) (as : List Act) (hs : Sane C cl as (start n world))
    (ht : Tame C cl as (start n world)) (t : Tree (n + 1)) :
    let w := netRun C cl as (netStart n world)
    w.sys.mgr.tree = .root t → w.sys.mgr.state ≠ .editable → w.sys.mgr.state ≠ .error → w.sys.mgr.thread ≠ .alive .start → w.sys.mgr.thread ≠ .alive .failed →
    Follows w.conns (w.sys.ed.nodes.map (·.1)) w.sys.shown.wirings := by
  intro w hr h1 h2 h3 h4
  have hc : Current w := current_run hcl as (w := netStart n world) (coherent_start cl world hw) (quiet_start world) (.inl rfl) hs ht
  have hsys : w.sys = run C cl as (start n world) := run_sys as _
  have hco : Coherent C cl w.sys := by rw [hsys]; exact coherent_run cl as (coherent_start cl world hw) hs
  have hsh : w.sys.shown.wirings = w.sys.ed.wirings := by rw [hsys]; exact shown_run as rfl
  obtain ⟨cs, k1, k2⟩ := init_ok hco.ed
  rw [hsh]
  rcases hc with e | e
  · rw [k1] at e; cases e; exact k2
  · rcases e t hr with k | k | k | k
    · exact absurd k h1
    · exact absurd k.1 h3
    · exact absurd k h2
    · exact absurd k h4

/-- Whenever the tick thread is about to tick the root, the connections lead exactly where the published wirings lead. -/
theorem c122_ticked_partial (hcl : cl.Ok) (world : Nat → World (Tree (n + 1))) (hw : Faithful world) (as : List Act) (hs : Sane C cl as (start n world))
    (ht : Tame C cl as (start n world)) :
    let w := netRun C cl as (netStart n world)
    ∀ t, w.sys.mgr.tree = .root t → w.sys.mgr.thread = .alive .tick → Follows w.conns (w.sys.ed.nodes.map (·.1)) w.sys.shown.wirings := by
  intro w t hr hp
  have hsys : w.sys = run C cl as (start n world) := run_sys as _
  have hi : Exec.Inv w.sys.mgr := by rw [hsys]; exact (coherent_run cl as (coherent_start cl world hw) hs).exec
  have hx : Exec.Executing w.sys.mgr.thread := ⟨_, hp, by simp, by simp⟩
  refine c122_flow_partial hcl world hw as hs ht t hr (fun e => ?_) (fun e => ?_) (by rw [hp]; simp) (by rw [hp]; simp)
  · have e : w.sys.mgr.state = .editable := e
    exact hi.quiet (by simp [e]) (by simp [e]) hx
  · have e : w.sys.mgr.state = .error := e
    exact hi.quiet (by simp [e]) (by simp [e]) hx

/-! ### Samples -/

/-- Two leaves below a Sequence, with an input and an output each. -/
def leaf : Spec := { max := some 0, ins := [(1, 7)], outs := [(2, 7)] }

/-- Two leaves are wired, ticked, shut down; the wiring is replaced by the opposite one, and they are ticked again. -/
def rewired : List Act :=
  [.service (.add 1 (some {}) none 0 []), .service (.add 2 (some leaf) (some 1) 0 []), .service (.add 3 (some leaf) (some 1) 1 []),
   .service (.wire [⟨some 2, 2, some 3, 1⟩] false), .command .tickOnce true, .service (.unwire [⟨some 2, 2, some 3, 1⟩] false),
   .command .shutdown true, .service (.unwire [⟨some 2, 2, some 3, 1⟩] false), .service (.wire [⟨some 3, 2, some 2, 1⟩] false),
   .command .tickPeriodically true, .think, .think]

/-- The state after the first `k` actions. -/
def netAfter (cl : Classes) (as : List Act) (k : Nat) : Net 2 := netRun anyType cl (as.take k) (netStart 2 fun _ => {})

theorem rewired_sane : Sane anyType sample rewired (start 2 fun _ => {}) := by
  refine ⟨fun r e _ => ?_, fun r e _ => ?_, fun r e _ => ?_, fun r e _ => ?_, fun r e _ => ?_, fun r e _ => ?_, fun r e _ => ?_, fun r e _ => ?_, fun r e _ => ?_,
    fun r e _ => ?_, fun r e _ => ?_, fun r e _ => ?_, trivial⟩
  · cases e; exact ⟨fresh_of (by decide +kernel), nofun⟩
  · cases e; exact ⟨fresh_of (by decide +kernel), by decide⟩
  · cases e; exact ⟨fresh_of (by decide +kernel), by decide⟩
  · cases e; exact trivial
  · cases e
  · cases e; exact trivial
  · cases e
  · cases e; exact trivial
  · cases e; exact trivial
  · cases e
  · cases e
  · cases e

/-- It meets the hypotheses; the removal of the wiring is refused until the tree is shut down; the old connection is kept until the tree is set up again, and at
the tick there is the new one. -/
example : Sane anyType sample rewired (start 2 fun _ => {}) ∧ Tame anyType sample rewired (start 2 fun _ => {}) ∧
    (netAfter sample rewired 6).conns = [(1, []), (2, [⟨2, 3, 1⟩]), (3, [])] ∧ (netAfter sample rewired 6).sys.shown.wirings = [⟨some 2, 2, some 3, 1⟩] ∧
    (netAfter sample rewired 9).conns = [(1, []), (2, [⟨2, 3, 1⟩]), (3, [])] ∧ (netAfter sample rewired 9).sys.shown.wirings = [⟨some 3, 2, some 2, 1⟩] ∧
    (netAfter sample rewired 12).sys.mgr.thread = .alive .tick ∧ (netAfter sample rewired 12).conns = [(1, []), (2, []), (3, [⟨2, 2, 1⟩])] := by
  refine ⟨rewired_sane, ?_, by decide +kernel, by decide +kernel, by decide +kernel, by decide +kernel, by decide +kernel, by decide +kernel⟩
  refine ⟨?_, ?_, ?_, ?_, ?_, ?_, ?_, ?_, ?_, ?_, ?_, ?_, trivial⟩ <;> intro c b e <;> cases e
  · intro _ h; rcases h with h | h <;> cases h
  · intro _ _; decide +kernel
  · intro _ h; rcases h with h | h <;> cases h

/-- A leaf that answers IDLE when it is shut down. -/
def odd : Classes where
  kind sp := if sp.max = some 0 then .leaf else .sequence
  name sp := sp.cls
  env _ i := { hook := [.ok .idle, .ok .succeeded].getD i .err }

/-- It is added, SHUTDOWN fails, it is wired to itself, and ticked. -/
def oddly : List Act :=
  [.service (.add 1 (some leaf) none 0 []), .command .shutdown true, .service (.wire [⟨some 1, 2, some 1, 1⟩] false), .command .tickPeriodically true, .think, .think]

/-- It is needed that no SHUTDOWN fails while the tree can be edited: the wiring is accepted and published, but when the root is ticked there are no connections,
not even an entry for the node; pushing its outputs fails then. -/
theorem c122_stale : odd.Ok ∧ Sane anyType odd oddly (start 2 fun _ => {}) ∧
    (control (ops 3) true .shutdown (netAfter odd oddly 1).sys.mgr).2.success = false ∧ (netAfter odd oddly 2).sys.mgr.state = .editable ∧
    (netAfter odd oddly 6).sys.shown.wirings = [⟨some 1, 2, some 1, 1⟩] ∧ (netAfter odd oddly 6).sys.mgr.thread = .alive .tick ∧
    ((netAfter odd oddly 6).sys.loc 0).state = .idle ∧ (netAfter odd oddly 6).conns = [] := by
  refine ⟨⟨sample_ok.max, sample_ok.sub⟩, ?_, by decide +kernel, by decide +kernel, by decide +kernel, by decide +kernel, by decide +kernel,
    by decide +kernel⟩
  · refine ⟨fun r e _ => ?_, fun r e _ => ?_, fun r e _ => ?_, fun r e _ => ?_, fun r e _ => ?_, fun r e _ => ?_, trivial⟩
    · cases e; exact ⟨fresh_of (by decide +kernel), nofun⟩
    · cases e
    · cases e; exact trivial
    · cases e
    · cases e
    · cases e

end Verif.Whole.Wires
