import Verif.Whole.Refine

/-! C127: a Sequence of nodes that compute is a program. Its statements are the leaves in their order; when it has SUCCEEDED, every output is what its
node computes from its inputs, and every wired input holds the output it is wired to. So the result is determined by the inputs that are not wired,
whatever has happened before. -/

set_option autoImplicit false

namespace Verif.Whole.Program

open Verif.Data
open Verif.Whole.Values
open Verif.Whole.Refine
open Verif.BT (BTState Res Op Mem Prog hookProg)

variable {M N S : Type}

/-! ### Nodes that compute -/

/-- What a node makes of the values of its inputs: it FAILS, it returns an `Err`, or it sets outputs and SUCCEEDS. -/
inductive Work
  | fails
  | raises
  | sets (ws : List (String × Val))

/-- A function of the values of the inputs. -/
abbrev Calc := (String → Option Val) → Work

/-- `self.outputs.set_value(…).map(lambda _: BTNodeState.SUCCEEDED)`, as in constant.py 68-69, maths.py 126-127, 214-215, 313-314, list.py 62-63, setters.py
70-71, for several outputs one after another. -/
def writeAll (m : M) : List (String × Val) → Hook M
  | [] => .done m (.ok .succeeded)
  | (k, v) :: ws => .write k v fun a => if a = .ok then writeAll m ws else .done m .err

/-- `_do_tick` of a node that reads its inputs, computes, and sets outputs: Constant (constant.py 65-70), Convert (maths.py 122-128), Operation (maths.py
206-216), UnaryOperation (maths.py 306-315), ListLength (list.py 59-64), the setters (setters.py 63-72, 104-117, 147-161), StringConcatenation (format.py 91-100),
PassthroughNode (passthrough_node.py 60-65). -/
def compute (g : Calc) (m : M) : Hook M :=
  .read fun d =>
    match g fun k => (d.inputs.lookup k).bind (·.value) with
    | .fails => .done m (.ok .failed)
    | .raises => .done m .err
    | .sets ws => writeAll m ws

/-- A node of such a tree: `F i` is what the leaf `i` computes, `none` stands for Sequences (sequence.py 82-117 in `Verif/BT/Hooks.lean`; they use no data).
Nothing is said about `_do_untick` and `_do_reset`. -/
def nodeStraight (F : Nat → Option Calc) (P : N → Prop) (nd : Node (Mem × S) N) : Prop :=
  (∀ g, F nd.id = some g → nd.children = [] ∧ ∀ c st m l, nd.hook .tick c st m l = compute g m) ∧
  (F nd.id = none → ∀ c st m l, nd.hook .tick c st m l = Refine.plain m.2 (hookProg .sequence .tick st m.1 {} l)) ∧
  ∀ c ∈ nd.children, P c

/-- A tree of Sequences over leaves that compute. -/
def Straight (F : Nat → Option Calc) : (n : Nat) → Tree (Mem × S) n → Prop
  | 0, t => Empty.elim t
  | n + 1, t => nodeStraight F (Straight F n) t

/-- The number of a node and those below it. -/
def nodeNos (nos : N → List Nat) (nd : Node M N) : List Nat := nd.id :: nd.children.flatMap nos

/-- The nodes in the order in which they are ticked. -/
def ids : (n : Nat) → Tree M n → List Nat
  | 0, t => Empty.elim t
  | n + 1, t => nodeNos (ids n) t

/-! ### What is claimed -/

/-- There is a wiring from an output of `a` to an input of `b`. -/
def Wired (conns : List (Nat × List Conn)) (a b : Nat) : Prop := ∃ xs x, conns.lookup a = some xs ∧ x ∈ xs ∧ x.target = b

/-- Data flows forward only: no node is wired to itself or to one that is ticked before it; Sequences have no outputs. -/
structure Forward (F : Nat → Option Calc) (l : List Nat) (conns : List (Nat × List Conn)) : Prop where
  order : l.Pairwise fun a b => ¬ Wired conns b a
  self : ∀ a ∈ l, ¬ Wired conns a a
  inner : ∀ a ∈ l, F a = none → ∀ b, ¬ Wired conns a b

/-- The values of the inputs of a node. -/
def values (f : Flow) (i : Nat) : String → Option Val := fun k => (f.input i k).bind (·.value)

/-- The output holds this value. -/
def Shown (f : Flow) (i : Nat) (k : String) (v : Val) : Prop := ∃ c w, f.output i k = some c ∧ c.value = some w ∧ Same c.ty v w

/-- The outputs of the node are what it computes from its inputs. -/
def Solved (g : Calc) (i : Nat) (f : Flow) : Prop := ∃ ws, g (values f i) = .sets ws ∧ ∀ p ∈ ws, Shown f i p.1 p.2

/-- The functions set no output twice. -/
def Once (F : Nat → Option Calc) : Prop := ∀ i g vs ws, F i = some g → g vs = .sets ws → (ws.map (·.1)).Nodup

/-! ### What operations leave alone -/

/-- Nodes outside `l` keep their outputs, and their inputs unless nodes of `l` are wired to them. -/
structure Still (l : List Nat) (y y' : Sys) : Prop where
  conns : y'.flow.conns = y.flow.conns
  phase : ∀ n, n ∉ l → y'.phase n = y.phase n
  output : ∀ n, n ∉ l → ∀ k, y'.flow.output n k = y.flow.output n k
  input : ∀ n, n ∉ l → (∀ s ∈ l, ¬ Wired y.flow.conns s n) → ∀ k, y'.flow.input n k = y.flow.input n k

theorem Still.refl (l : List Nat) (y : Sys) : Still l y y := ⟨rfl, fun _ _ => rfl, fun _ _ _ => rfl, fun _ _ _ _ => rfl⟩

theorem Still.trans {l : List Nat} {y y' y'' : Sys} (h : Still l y y') (g : Still l y' y'') : Still l y y'' :=
  ⟨g.conns.trans h.conns, fun n hn => (g.phase n hn).trans (h.phase n hn), fun n hn k => (g.output n hn k).trans (h.output n hn k),
    fun n hn hw k => (g.input n hn (by rw [h.conns]; exact hw) k).trans (h.input n hn hw k)⟩

theorem Still.mono {l l' : List Nat} {y y' : Sys} (h : Still l y y') (e : ∀ n ∈ l, n ∈ l') : Still l' y y' :=
  ⟨h.conns, fun n hn => h.phase n (fun g => hn (e n g)), fun n hn => h.output n (fun g => hn (e n g)),
    fun n hn hw => h.input n (fun g => hn (e n g)) (fun s hs => hw s (e s hs))⟩

theorem not_single {n id : Nat} (h : n ∉ [id]) : n ≠ id := fun e => h (e ▸ List.mem_cons_self)

theorem still_enter (y : Sys) (id : Nat) (p : Phase) : Still [id] y (y.enter id p) :=
  ⟨rfl, fun n hn => by simp only [Sys.enter, if_neg (not_single hn)], fun _ _ _ => rfl, fun _ _ _ _ => rfl⟩

theorem place_free {conns : List (Nat × List Conn)} {id n : Nat} {xs : List Conn} (hx : conns.lookup id = some xs) (h : ¬ Wired conns id n) (k : String) :
    (n, k) ∉ xs.map Conn.place := by
  intro g
  obtain ⟨x, hm, e⟩ := List.mem_map.1 g
  exact h ⟨xs, x, hx, hm, (Prod.mk.inj e).1⟩

/-- Finishing a tick changes the inputs of other nodes by wirings only. -/
theorem finish_input (f : Flow) {id n : Nat} (hw : ¬ Wired f.conns id n) (k : String) :
    (f.finish id).1.input n k = if n = id then (f.input n k).map Cont.resetUpdated else f.input n k := by
  rw [← input_allInputs]
  cases h : f.finish id with
  | mk f' a =>
    unfold Flow.finish at h
    rcases pushOutputs_cases h with ⟨e, _⟩ | ⟨g, b, hl, hp, _, _, _, _, e4⟩
    · rw [e]
    · dsimp only
      rw [e4, (pushConns_frame _ _ _ _ _ hp).2.2.2.2 n k (place_free (conns := f.conns) hl hw k)]

theorem step_input_other (f : Flow) {id n : Nat} {e : Ev} (he : own id e) (hn : n ≠ id) (hw : ¬ Wired f.conns id n) (k : String) :
    (f.step e).1.input n k = f.input n k := by
  cases e with
  | begin m =>
    cases he
    simp only [Flow.step, Flow.begin]
    split
    · rfl
    · split
      · rw [input_allOutputs]
      · rfl
  | write m j v =>
    cases he
    simp only [Flow.step, Flow.write]
    split
    · rfl
    · rw [input_setOutput]
  | finish m =>
    cases he
    simp only [Flow.step]
    rw [finish_input f hw, if_neg hn]
  | fail m => rfl
  | untick m => cases he; simp only [Flow.step]; rw [input_allOutputs]
  | reset m => cases he; simp only [Flow.step, Flow.reset]; rw [input_allOutputs, input_allInputs, if_neg hn]
  | setup => cases he
  | incoming => cases he
  | offer => cases he

theorem still_step (y : Sys) {id : Nat} {e : Ev} (he : own id e) : Still [id] y { y with flow := (y.flow.step e).1 } :=
  ⟨step_conns _ _, fun _ _ => rfl, fun _ hn k => step_output_other _ he (not_single hn) k,
    fun _ hn hw k => step_input_other _ he (not_single hn) (hw id List.mem_cons_self) k⟩

theorem still_marks (y : Sys) (id : Nat) : Still [id] y { y with flow := y.flow.allInputs id Cont.resetUpdated } := by
  refine ⟨rfl, fun _ _ => rfl, fun n _ k => ?_, fun n hn _ k => ?_⟩
  · dsimp only; rw [output_allInputs]
  · dsimp only; rw [input_allInputs, if_neg (by simpa using hn)]

/-- What operations of `o` leave alone. -/
def Contained (o : Ops N) (nos : N → List Nat) : Prop := ∀ a c y, Still (nos c) y (o.run a c y).sys ∧ nos (o.run a c y).node = nos c

theorem exec_still {o : Ops N} {nos : N → List Nat} (ho : Contained o nos) (id : Nat) (p : Hook M) :
    ∀ cs y, Still (id :: cs.flatMap nos) y (exec o id p cs y).sys ∧ (exec o id p cs y).children.map nos = cs.map nos := by
  induction p with
  | done m r => exact fun cs y => ⟨Still.refl _ _, rfl⟩
  | peek i k ih =>
    intro cs y
    simp only [exec]
    split <;> exact ih _ cs y
  | read k ih => exact fun cs y => ih _ cs y
  | write key v k ih =>
    intro cs y
    simp only [exec]
    exact ⟨((still_step y (e := .write id key v) rfl).mono (fun n hn => by rw [List.mem_singleton.1 hn]; exact List.mem_cons_self)).trans (ih _ cs _).1, (ih _ cs _).2⟩
  | call b i k ih =>
    intro cs y
    simp only [exec]
    split
    · exact ih _ cs y
    · rename_i c hc
      have h := ho b c y
      generalize o.run b c y = out at h
      have hm : (cs.set i out.node).map nos = cs.map nos := by
        rw [List.map_set, h.2]
        apply List.ext_getElem?
        intro j
        rw [List.getElem?_set]
        split
        · rename_i hij
          subst hij
          simp only [List.getElem?_map, hc, Option.map_some]
          split
          · rfl
          · rename_i hlt
            exact absurd (by simpa using (List.getElem?_eq_some_iff.1 hc).1) hlt
        · rfl
      have hf : (cs.set i out.node).flatMap nos = cs.flatMap nos := by rw [List.flatMap_def, hm, ← List.flatMap_def]
      have r := ih out.res (cs.set i out.node) out.sys
      rw [hf, hm] at r
      exact ⟨(h.1.mono fun n hn => List.mem_cons_of_mem _ (List.mem_flatMap.2 ⟨c, List.mem_of_getElem? hc, hn⟩)).trans r.1, r.2⟩

theorem node_contained {o : Ops N} {nos : N → List Nat} (ho : Contained o nos) : Contained (Node.ops (M := M) o) (nodeNos nos) := by
  intro a nd y
  have own1 : ∀ {z z' : Sys}, Still [nd.id] z z' → Still (nodeNos nos nd) z z' := fun h =>
    h.mono fun n hn => by rw [List.mem_singleton.1 hn]; exact List.mem_cons_self
  have nn : ∀ p cs y s, cs = nd.children → nodeNos nos (nd.after (exec o nd.id p cs y) s) = nodeNos nos nd := by
    intro p cs y s h
    subst h
    simp only [nodeNos, Node.after, List.flatMap_def, (exec_still ho nd.id p nd.children y).2]
  cases a with
  | tick =>
    show Still _ _ (Node.tick o nd y).sys ∧ nodeNos nos (Node.tick o nd y).node = _
    unfold Node.tick
    split
    · dsimp only
      split
      · have h1 : Still (nodeNos nos nd) y (Sys.enter { y with flow := (y.flow.step (.begin nd.id)).1 } nd.id .active) :=
          (own1 (still_step y (e := .begin nd.id) rfl)).trans (own1 (still_enter _ _ _))
        generalize Sys.enter { y with flow := (y.flow.step (.begin nd.id)).1 } nd.id .active = y1 at h1
        have h2 := h1.trans (exec_still ho nd.id (nd.body o .tick) nd.children y1).1
        have h3 := nn (nd.body o .tick) nd.children y1
        split
        · exact ⟨h2.trans (own1 (still_enter _ _ _)), h3 _ rfl⟩
        · split
          · split
            · exact ⟨h2.trans ((own1 (still_step _ (e := .finish nd.id) rfl)).trans (own1 (still_enter _ _ _))), h3 _ rfl⟩
            · exact ⟨h2.trans ((own1 (still_step _ (e := .finish nd.id) rfl)).trans (own1 (still_enter _ _ _))), h3 _ rfl⟩
          · exact ⟨h2.trans (own1 ((still_marks _ _).trans (still_enter _ _ _))), h3 _ rfl⟩
      · exact ⟨own1 (still_enter _ _ _), rfl⟩
    · exact ⟨Still.refl _ _, rfl⟩
  | untick =>
    show Still _ _ (Node.untick o nd y).sys ∧ nodeNos nos (Node.untick o nd y).node = _
    unfold Node.untick
    have h2 : Still (nodeNos nos nd) y (exec o nd.id (nd.body o .untick) nd.children y).sys := (exec_still ho nd.id (nd.body o .untick) nd.children y).1
    have h3 := nn (nd.body o .untick) nd.children y
    split
    · dsimp only
      split
      · exact ⟨h2.trans (own1 (still_enter _ _ _)), h3 _ rfl⟩
      · split
        · exact ⟨h2.trans (own1 (still_step _ (e := .untick nd.id) rfl)), h3 _ rfl⟩
        · exact ⟨h2, h3 _ rfl⟩
    · exact ⟨Still.refl _ _, rfl⟩
  | reset =>
    show Still _ _ (Node.reset o nd y).sys ∧ nodeNos nos (Node.reset o nd y).node = _
    unfold Node.reset
    have h1 : Still (nodeNos nos nd) y { y with flow := (y.flow.step (.reset nd.id)).1 } := own1 (still_step y (e := .reset nd.id) rfl)
    have h2 := h1.trans (exec_still ho nd.id (nd.body o .reset) nd.children { y with flow := (y.flow.step (.reset nd.id)).1 }).1
    have h3 := nn (nd.body o .reset) nd.children { y with flow := (y.flow.step (.reset nd.id)).1 }
    split
    · dsimp only
      split
      · exact ⟨h2.trans (own1 (still_enter _ _ _)), h3 _ rfl⟩
      · exact ⟨h2, h3 _ rfl⟩
    · exact ⟨Still.refl _ _, rfl⟩

theorem ids_states (n : Nat) : ∀ t : Tree M n, (states n t).map (·.1) = ids n t := by
  induction n with
  | zero => exact fun t => Empty.elim t
  | succ n ih =>
    intro t
    have : ∀ nd : Node M (Tree M n), ((nd.id, nd.state) :: nd.children.flatMap (states n)).map (·.1) = nodeNos (ids n) nd := by
      intro nd
      simp only [nodeNos, List.map_cons, List.map_flatMap, ih]
    exact this t

theorem tree_contained (n : Nat) : Contained (ops M n) (ids n) := by
  induction n with
  | zero => intro a t; exact Empty.elim t
  | succ n ih => exact node_contained (M := M) ih

/-- An operation keeps the hooks. -/
theorem exec_all {o : Ops N} {P : N → Prop} (ho : ∀ a c y, P c → P (o.run a c y).node) (id : Nat) (p : Hook M) :
    ∀ cs y, (∀ c ∈ cs, P c) → ∀ c ∈ (exec o id p cs y).children, P c := by
  induction p with
  | done m r => exact fun cs y h => h
  | peek i k ih =>
    intro cs y h
    simp only [exec]
    split <;> exact ih _ cs y h
  | read k ih => exact fun cs y h => ih _ cs y h
  | write key v k ih => exact fun cs y h => ih _ cs _ h
  | call b i k ih =>
    intro cs y h
    simp only [exec]
    split
    · exact ih _ cs y h
    · rename_i c hc
      refine ih _ _ _ fun d hd => ?_
      rcases List.mem_or_eq_of_mem_set hd with g | g
      · exact h d g
      · subst g; exact ho b c y (h c (List.mem_of_getElem? hc))

/-- What an operation does to a node itself. -/
theorem node_same {P : N → Prop} {o : Ops N} (ho : ∀ a c y, P c → P (o.run a c y).node) (a : Act) (nd : Node M N) (y : Sys) (h : ∀ c ∈ nd.children, P c) :
    ((Node.ops o).run a nd y).node.id = nd.id ∧ ((Node.ops o).run a nd y).node.hook = nd.hook ∧ ((Node.ops o).run a nd y).node.children.length = nd.children.length ∧
    ∀ c ∈ ((Node.ops o).run a nd y).node.children, P c := by
  have len : ∀ (p : Hook M) cs y, (exec o nd.id p cs y).children.length = cs.length := by
    intro p
    induction p with
    | done m r => exact fun cs y => rfl
    | peek i k ih => intro cs y; simp only [exec]; split <;> exact ih _ cs y
    | read k ih => exact fun cs y => ih _ cs y
    | write key v k ih => exact fun cs y => ih _ cs _
    | call b i k ih =>
      intro cs y
      simp only [exec]
      split
      · exact ih _ cs y
      · rw [show ∀ (d : Done M N) s, ({ d with seen := s } : Done M N).children = d.children from fun _ _ => rfl, ih, List.length_set]
  cases a with
  | tick =>
    show (Node.tick o nd y).node.id = nd.id ∧ (Node.tick o nd y).node.hook = nd.hook ∧ (Node.tick o nd y).node.children.length = nd.children.length ∧
      ∀ c ∈ (Node.tick o nd y).node.children, P c
    unfold Node.tick
    repeat' (first | split | (dsimp only; split))
    all_goals first
      | exact ⟨rfl, rfl, len _ _ _, exec_all ho _ _ _ _ h⟩
      | exact ⟨rfl, rfl, rfl, h⟩
  | untick =>
    show (Node.untick o nd y).node.id = nd.id ∧ (Node.untick o nd y).node.hook = nd.hook ∧ (Node.untick o nd y).node.children.length = nd.children.length ∧
      ∀ c ∈ (Node.untick o nd y).node.children, P c
    unfold Node.untick
    repeat' (first | split | (dsimp only; split))
    all_goals first
      | exact ⟨rfl, rfl, len _ _ _, exec_all ho _ _ _ _ h⟩
      | exact ⟨rfl, rfl, rfl, h⟩
  | reset =>
    show (Node.reset o nd y).node.id = nd.id ∧ (Node.reset o nd y).node.hook = nd.hook ∧ (Node.reset o nd y).node.children.length = nd.children.length ∧
      ∀ c ∈ (Node.reset o nd y).node.children, P c
    unfold Node.reset
    repeat' (first | split | (dsimp only; split))
    all_goals first
      | exact ⟨rfl, rfl, len _ _ _, exec_all ho _ _ _ _ h⟩
      | exact ⟨rfl, rfl, rfl, h⟩

theorem node_straight {F : Nat → Option Calc} {P : N → Prop} {o : Ops N} (ho : ∀ a c y, P c → P (o.run a c y).node) (a : Act) (nd : Node (Mem × S) N) (y : Sys)
    (h : nodeStraight F P nd) : nodeStraight F P ((Node.ops o).run a nd y).node := by
  obtain ⟨e1, e2, e3, e4⟩ := node_same ho a nd y h.2.2
  refine ⟨fun g hg => ?_, fun hg => ?_, e4⟩
  · rw [e1] at hg
    refine ⟨List.eq_nil_of_length_eq_zero (by rw [e3, (h.1 g hg).1]; rfl), ?_⟩
    rw [e2]; exact (h.1 g hg).2
  · rw [e1] at hg
    rw [e2]; exact h.2.1 hg

theorem straight_run (F : Nat → Option Calc) (n : Nat) : ∀ (a : Act) (t : Tree (Mem × S) n) (y : Sys), Straight F n t → Straight F n ((ops (Mem × S) n).run a t y).node := by
  induction n with
  | zero => exact fun a t => Empty.elim t
  | succ n ih => exact fun a t y h => node_straight ih a t y h

/-! ### Leaves -/

/-- The leaves of `l` have been ticked, and their outputs are what they compute. -/
def AllSolved (F : Nat → Option Calc) (l : List Nat) (y : Sys) : Prop := ∀ i ∈ l, ∀ g, F i = some g → y.phase i = .idle ∧ Solved g i y.flow

theorem solved_congr {g : Calc} {i : Nat} {f f' : Flow} (h : Solved g i f) (h1 : ∀ k, values f' i k = values f i k) (h2 : ∀ k, f'.output i k = f.output i k) :
    Solved g i f' := by
  obtain ⟨ws, e, hw⟩ := h
  refine ⟨ws, by rw [show values f' i = values f i from funext h1]; exact e, fun p hp => ?_⟩
  obtain ⟨c, w, e1, e2⟩ := hw p hp
  exact ⟨c, w, by rw [h2]; exact e1, e2⟩

theorem allSolved_still {F : Nat → Option Calc} {l l' : List Nat} {y y' : Sys} (h : Still l y y') (hd : ∀ i ∈ l', i ∉ l) (hw : ∀ i ∈ l', ∀ s ∈ l, ¬ Wired y.flow.conns s i)
    (hs : AllSolved F l' y) : AllSolved F l' y' := by
  intro i hi g hg
  obtain ⟨h1, h2⟩ := hs i hi g hg
  refine ⟨(h.phase i (hd i hi)).trans h1, solved_congr h2 (fun k => ?_) (h.output i (hd i hi))⟩
  unfold values
  rw [h.input i (hd i hi) (hw i hi)]

theorem exec_writeAll (o : Ops N) (id : Nat) (m : M) (cs : List N) : ∀ (ws : List (String × Val)) (y : Sys), (ws.map (·.1)).Nodup →
    (exec o id (writeAll m ws) cs y).res = .ok .succeeded →
    (∀ n k, (exec o id (writeAll m ws) cs y).sys.flow.input n k = y.flow.input n k) ∧ (∀ p ∈ ws, Shown (exec o id (writeAll m ws) cs y).sys.flow id p.1 p.2) ∧
    ∀ k, k ∉ ws.map (·.1) → (exec o id (writeAll m ws) cs y).sys.flow.output id k = y.flow.output id k
  | [], y, _, _ => ⟨fun _ _ => rfl, (fun _ h => by cases h), fun _ _ => rfl⟩
  | (k, v) :: ws, y, hn, h => by
    simp only [writeAll, exec] at h ⊢
    rw [List.map_cons, List.nodup_cons] at hn
    split at h
    · rename_i hok
      rw [if_pos hok]
      obtain ⟨i1, i2, i3⟩ := exec_writeAll o id m cs ws { y with flow := (y.flow.step (.write id k v)).1 } hn.2 h
      have hw : (∀ n j, (y.flow.step (.write id k v)).1.input n j = y.flow.input n j) ∧ Shown (y.flow.step (.write id k v)).1 id k v ∧
          ∀ j, j ≠ k → (y.flow.step (.write id k v)).1.output id j = y.flow.output id j := by
        simp only [Flow.step, Flow.write] at hok ⊢
        split at hok
        · cases hok
        · rename_i c hc
          dsimp only at hok
          refine ⟨fun n j => input_setOutput .., ?_, fun j hj => ?_⟩
          · obtain ⟨w, w1, w2, _⟩ := set_ok hok
            refine ⟨(c.set v).1, w, ?_, w1, ?_⟩
            · rw [output_setOutput, if_pos ⟨rfl, rfl⟩, hc]; rfl
            · have : (c.set v).1.ty = c.ty := by
                unfold Cont.set Cont.assign
                repeat' split
                all_goals rfl
              rw [this]; exact w2
          · rw [output_setOutput, if_neg (fun g => hj g.2)]
      refine ⟨fun n j => (i1 n j).trans (hw.1 n j), fun p hp => ?_, fun j hj => ?_⟩
      · rcases List.mem_cons.1 hp with rfl | hp
        · obtain ⟨c, w, e1, e2⟩ := hw.2.1
          exact ⟨c, w, (i3 k hn.1).trans e1, e2⟩
        · exact i2 p hp
      · rw [List.map_cons, List.mem_cons, not_or] at hj
        exact (i3 j hj.2).trans (hw.2.2 j hj.1)
    · cases h

theorem exec_compute (o : Ops N) (id : Nat) (g : Calc) (m : M) (cs : List N) (y : Sys) (hg : ∀ vs ws, g vs = .sets ws → (ws.map (·.1)).Nodup)
    (h : (exec o id (compute g m) cs y).res = .ok .succeeded) : Solved g id (exec o id (compute g m) cs y).sys.flow := by
  have hv : (fun k => (((y.flow.nodes.lookup id).getD ⟨[], []⟩).inputs.lookup k).bind (·.value)) = values y.flow id := by
    funext k
    unfold values Flow.input
    cases y.flow.nodes.lookup id <;> rfl
  simp only [compute, exec, hv] at h ⊢
  cases hw : g (values y.flow id) with
  | fails => rw [hw] at h; cases h
  | raises => rw [hw] at h; cases h
  | sets ws =>
    rw [hw] at h
    dsimp only at h ⊢
    obtain ⟨h1, h2, _⟩ := exec_writeAll o id m cs ws y (hg _ ws hw) h
    refine ⟨ws, ?_, h2⟩
    rw [← hw]
    congr 1
    funext k
    unfold values
    rw [h1]

theorem finish_output {f f' : Flow} {a : Ans} {id : Nat} (h : f.finish id = (f', a)) (n : Nat) (k : String) : f'.output n k = f.output n k := by
  unfold Flow.finish at h
  rw [← output_allInputs f id n k Cont.resetUpdated]
  rcases pushOutputs_cases h with ⟨e, _⟩ | ⟨g, b, _, hp, _, _, _, e3, _⟩
  · rw [e]
  · rw [e3, (pushConns_frame _ _ _ _ _ hp).2.2.2.1]

/-- A tick that SUCCEEDS: the hook SUCCEEDED, and then the outputs were pushed. -/
theorem tick_succeeded {o : Ops N} {nd : Node M N} {y : Sys} (h : (Node.tick o nd y).res = .ok .succeeded) :
    ∃ y1, Still [nd.id] y y1 ∧ (exec o nd.id (nd.body o .tick) nd.children y1).res = .ok .succeeded ∧
      (Node.tick o nd y).sys = Sys.enter { (exec o nd.id (nd.body o .tick) nd.children y1).sys with
        flow := ((exec o nd.id (nd.body o .tick) nd.children y1).sys.flow.finish nd.id).1 } nd.id .idle := by
  unfold Node.tick at h ⊢
  split at h
  · rename_i hacc
    rw [if_pos hacc]
    dsimp only at h ⊢
    split at h
    · rename_i hb
      rw [if_pos hb]
      refine ⟨Sys.enter { y with flow := (y.flow.step (.begin nd.id)).1 } nd.id .active, (still_step y (e := .begin nd.id) rfl).trans (still_enter _ _ _), ?_⟩
      generalize Sys.enter { y with flow := (y.flow.step (.begin nd.id)).1 } nd.id .active = y1 at h ⊢
      generalize exec o nd.id (nd.body o .tick) nd.children y1 = x at h ⊢
      split at h
      · cases h
      · rename_i s hs
        rw [hs]
        split at h
        · rename_i ha
          rw [if_pos ha]
          split at h
          · rename_i he
            rw [if_pos he]
            exact ⟨h, rfl⟩
          · cases h
        · cases h
    · cases h
  · cases h

theorem leaf_solved {o : Ops N} {nd : Node M N} {y : Sys} {g : Calc} (hh : ∀ c st m l, nd.hook .tick c st m l = compute g m)
    (hg : ∀ vs ws, g vs = .sets ws → (ws.map (·.1)).Nodup) (hw : ¬ Wired y.flow.conns nd.id nd.id)
    (h : (Node.tick o nd y).res = .ok .succeeded) : (Node.tick o nd y).sys.phase nd.id = .idle ∧ Solved g nd.id (Node.tick o nd y).sys.flow := by
  obtain ⟨y1, e1, e2, e3⟩ := tick_succeeded h
  rw [e3]
  refine ⟨entered _ _ _, ?_⟩
  have hb : nd.body o .tick = compute g nd.mem := hh ..
  rw [hb] at e2 ⊢
  have hs := exec_compute o nd.id g nd.mem nd.children y1 hg e2
  have hcn : (exec o nd.id (compute g nd.mem) nd.children y1).sys.flow.conns = y.flow.conns := by
    rw [← e1.conns]
    have : ∀ ws (y : Sys), (exec o nd.id (writeAll nd.mem ws) nd.children y).sys.flow.conns = y.flow.conns := by
      intro ws
      induction ws with
      | nil => exact fun y => rfl
      | cons p ws ih =>
        intro y
        simp only [writeAll, exec]
        split
        · rw [ih]; exact step_conns _ _
        · exact step_conns _ _
    simp only [compute, exec]
    split
    · rfl
    · rfl
    · exact this _ _
  generalize exec o nd.id (compute g nd.mem) nd.children y1 = x at hs hcn ⊢
  refine solved_congr hs (fun k => ?_) (fun k => finish_output rfl _ _)
  unfold values
  show ((x.sys.flow.finish nd.id).1.input nd.id k).bind _ = _
  rw [finish_input x.sys.flow (by rw [hcn]; exact hw), if_pos rfl]
  cases x.sys.flow.input nd.id k <;> rfl

/-! ### Sequences -/

/-- The children have been used, no more. -/
structure Moved (nos : N → List Nat) (P : N → Prop) (cs : List N) (y : Sys) (cs' : List N) (y' : Sys) : Prop where
  keep : (∀ c ∈ cs, P c) → ∀ c ∈ cs', P c
  nos : cs'.map nos = cs.map nos
  conns : y'.flow.conns = y.flow.conns

theorem map_set_same {nos : N → List Nat} {cs : List N} {i : Nat} {c c' : N} (hc : cs[i]? = some c) (h : nos c' = nos c) : (cs.set i c').map nos = cs.map nos := by
  rw [List.map_set, h]
  apply List.ext_getElem?
  intro j
  rw [List.getElem?_set]
  split
  · rename_i hij
    subst hij
    simp only [List.getElem?_map, hc, Option.map_some]
    split
    · rfl
    · rename_i hlt
      exact absurd (by simpa using (List.getElem?_eq_some_iff.1 hc).1) hlt
  · rfl

theorem moved_set {o : Ops N} {nos : N → List Nat} {P : N → Prop} (ho : Contained o nos) (hp : ∀ a c y, P c → P (o.run a c y).node) {cs : List N} {i : Nat} {c : N} (a : Act)
    (y : Sys) (hc : cs[i]? = some c) : Moved nos P cs y (cs.set i (o.run a c y).node) (o.run a c y).sys := by
  refine ⟨fun h d hd => ?_, map_set_same hc (ho a c y).2, (ho a c y).1.conns⟩
  rcases List.mem_or_eq_of_mem_set hd with g | g
  · exact h d g
  · subst g; exact hp a c y (h c (List.mem_of_getElem? hc))

theorem Moved.trans {nos : N → List Nat} {P : N → Prop} {cs cs' cs'' : List N} {y y' y'' : Sys} (h : Moved nos P cs y cs' y') (g : Moved nos P cs' y' cs'' y'') :
    Moved nos P cs y cs'' y'' := ⟨fun k => g.keep (h.keep k), g.nos.trans h.nos, g.conns.trans h.conns⟩

theorem forAll_cases {o : Ops N} {nos : N → List Nat} {P : N → Prop} (ho : Contained o nos) (hp : ∀ a c y, P c → P (o.run a c y).node) (id : Nat) (a : Act) (s : S) (m : Mem)
    (k : Prog) : ∀ (is : List Nat) (cs : List N) (y : Sys), (exec o id (Refine.plain s (Prog.forAll a.op m is k)) cs y).res = .err ∨
      ∃ cs' y', Moved nos P cs y cs' y' ∧ (exec o id (Refine.plain s (Prog.forAll a.op m is k)) cs y).res = (exec o id (Refine.plain s k) cs' y').res ∧
        (exec o id (Refine.plain s (Prog.forAll a.op m is k)) cs y).sys = (exec o id (Refine.plain s k) cs' y').sys
  | [], cs, y => .inr ⟨cs, y, ⟨fun h => h, rfl, rfl⟩, rfl, rfl⟩
  | i :: is, cs, y => by
    have e : ∀ q, Refine.plain s (Prog.call a.op i q) = .call a i fun r => Refine.plain s (q r) := by intro q; cases a <;> rfl
    simp only [Prog.forAll, e, exec]
    split
    · exact .inl rfl
    · rename_i c hc
      dsimp only
      have mv := moved_set ho hp a y hc
      generalize o.run a c y = out at mv ⊢
      cases out.res with
      | err => exact .inl rfl
      | ok st =>
        dsimp only
        rcases forAll_cases ho hp id a s m k is (cs.set i out.node) out.sys with h | ⟨cs', y', h1, h2, h3⟩
        · exact .inl h
        · exact .inr ⟨cs', y', mv.trans h1, h2, h3⟩

theorem forward_child {F : Nat → Option Calc} {nos : N → List Nat} {cs : List N} {conns : List (Nat × List Conn)} (h : Forward F (cs.flatMap nos) conns) {c : N} (hc : c ∈ cs) :
    Forward F (nos c) conns :=
  ⟨(List.pairwise_flatMap.1 h.order).1 c hc, fun a ha => h.self a (List.mem_flatMap.2 ⟨c, hc, ha⟩), fun a ha => h.inner a (List.mem_flatMap.2 ⟨c, hc, ha⟩)⟩

theorem flatMap_congr {nos : N → List Nat} {cs cs' : List N} (h : cs'.map nos = cs.map nos) : cs'.flatMap nos = cs.flatMap nos := by
  rw [List.flatMap_def, h, ← List.flatMap_def]

theorem length_congr {nos : N → List Nat} {cs cs' : List N} (h : cs'.map nos = cs.map nos) : cs'.length = cs.length := by
  rw [← List.length_map (f := nos), h, List.length_map]

theorem loop_solved {o : Ops N} {nos : N → List Nat} {P : N → Prop} {F : Nat → Option Calc} (ho : Contained o nos) (hp : ∀ a c y, P c → P (o.run a c y).node)
    (ht : ∀ c y, P c → (nos c).Nodup → Forward F (nos c) y.flow.conns → (o.run .tick c y).res = .ok .succeeded → AllSolved F (nos c) (o.run .tick c y).sys) (id : Nat) (s : S) (m : Mem) :
    ∀ (k j : Nat) (cs : List N) (y : Sys), j + k = cs.length → (∀ c ∈ cs, P c) → (cs.flatMap nos).Nodup → Forward F (cs.flatMap nos) y.flow.conns →
      (∀ i c, i < j → cs[i]? = some c → AllSolved F (nos c) y) → (exec o id (Refine.plain s (Prog.seqLoop false m (List.range' j k))) cs y).res = .ok .succeeded →
      AllSolved F (cs.flatMap nos) (exec o id (Refine.plain s (Prog.seqLoop false m (List.range' j k))) cs y).sys
  | 0, j, cs, y, hl, _, _, _, hs, _ => by
    intro i hi
    obtain ⟨c, hc, hi⟩ := List.mem_flatMap.1 hi
    obtain ⟨n, hn⟩ := List.mem_iff_getElem?.1 hc
    exact hs n c (by have := (List.getElem?_eq_some_iff.1 hn).1; omega) hn i hi
  | k + 1, j, cs, y, hl, hP, hn, hf, hs, hr => by
    have hj : j < cs.length := by omega
    have hc : cs[j]? = some cs[j] := List.getElem?_eq_getElem hj
    have hm := List.getElem_mem hj
    generalize cs[j] = c at hc hm
    simp only [List.range'_succ, Prog.seqLoop, Refine.plain, exec, hc] at hr ⊢
    have mv := moved_set ho hp .tick y hc
    have st := (ho .tick c y).1
    have tk := ht c y (hP c hm) ((List.pairwise_flatMap.1 hn).1 c hm) (forward_child hf hm)
    generalize o.run .tick c y = out at hr mv st tk ⊢
    obtain ⟨nd, res, z, sn⟩ := out
    dsimp only at hr mv st tk ⊢
    cases res with
    | err => cases hr
    | ok b =>
      dsimp only at hr ⊢
      by_cases hb : b = .succeeded
      · subst hb
        simp only [if_true] at hr ⊢
        have fm := flatMap_congr mv.nos
        have := loop_solved ho hp ht id s m k (j + 1) (cs.set j nd) z (by rw [List.length_set]; omega) (mv.keep hP) (by rw [fm]; exact hn)
          (by rw [fm, mv.conns]; exact hf) (fun i d hi hd => ?_) hr
        · rw [fm] at this; exact this
        · have hd' : (cs.set j nd)[i]?.map nos = cs[i]?.map nos := by
            have := congrArg (fun l => l[i]?) mv.nos
            simpa only [List.getElem?_map] using this
          rw [hd, Option.map_some] at hd'
          cases hci : cs[i]? with
          | none => rw [hci] at hd'; cases hd'
          | some d' =>
            rw [hci, Option.map_some] at hd'
            rw [Option.some.inj hd']
            by_cases hij : i = j
            · subst hij
              rw [hc] at hci
              cases hci
              exact tk rfl
            · have lt : i < j := by omega
              have pw := List.pairwise_iff_getElem.1 (List.pairwise_flatMap.1 hn).2
              have pf := List.pairwise_iff_getElem.1 (List.pairwise_flatMap.1 hf.order).2
              obtain ⟨l1, rfl⟩ := List.getElem?_eq_some_iff.1 hci
              obtain ⟨l2, rfl⟩ := List.getElem?_eq_some_iff.1 hc
              exact allSolved_still st (fun x hx hx' => pw i j l1 l2 lt x hx x hx' rfl) (fun x hx s hs => pf i j l1 l2 lt x hx s hs) (hs i _ lt hci)
      · rw [if_neg hb] at hr
        split at hr
        · rename_i hb'
          subst hb'
          cases hr
        · rcases forAll_cases (nos := nos) ho hp id .untick s m (.done m (.ok b)) (List.range' (j + 1) k) (cs.set j nd) z with h | ⟨cs', y', _, h2, _⟩
          · exact absurd (h.symm.trans hr) (by simp)
          · exact absurd (Res.ok.inj (h2.symm.trans hr)) hb

theorem sequence_solved {o : Ops N} {nos : N → List Nat} {P : N → Prop} {F : Nat → Option Calc} (ho : Contained o nos) (hp : ∀ a c y, P c → P (o.run a c y).node)
    (ht : ∀ c y, P c → (nos c).Nodup → Forward F (nos c) y.flow.conns → (o.run .tick c y).res = .ok .succeeded → AllSolved F (nos c) (o.run .tick c y).sys) (id : Nat) (s : S) (m : Mem)
    (st : BTState) (l : List Nat) (cs : List N) (y : Sys) (hl : l.length = cs.length) (hP : ∀ c ∈ cs, P c) (hn : (cs.flatMap nos).Nodup) (hf : Forward F (cs.flatMap nos) y.flow.conns)
    (hr : (exec o id (Refine.plain s (hookProg .sequence .tick st m {} l)) cs y).res = .ok .succeeded) :
    AllSolved F (cs.flatMap nos) (exec o id (Refine.plain s (hookProg .sequence .tick st m {} l)) cs y).sys := by
  have e : hookProg .sequence .tick st m {} l = if l.length = 0 then .done m (.ok .succeeded) else Prog.resetIfFinished l.length st m (Prog.seqLoop false m (List.range l.length)) := rfl
  rw [e, hl] at hr ⊢
  split at hr
  · rename_i h0
    rw [if_pos h0]
    cases cs with
    | nil => intro i hi; cases hi
    | cons c cs => cases h0
  · rename_i h0
    rw [if_neg h0]
    unfold Prog.resetIfFinished at hr ⊢
    split at hr
    · rename_i hfin
      rw [if_pos hfin]
      rcases forAll_cases (nos := nos) ho hp id .reset s m (Prog.seqLoop false m (List.range cs.length)) (List.range cs.length) cs y with h | ⟨cs', y', h1, h2, h3⟩
      · exact absurd (h.symm.trans hr) (by simp)
      · have fm := flatMap_congr h1.nos
        rw [show (Op.reset) = Act.op .reset from rfl, h3]
        rw [show (Op.reset) = Act.op .reset from rfl, h2] at hr
        rw [List.range_eq_range'] at hr ⊢
        have := loop_solved ho hp ht id s m cs.length 0 cs' y' (by rw [length_congr h1.nos]; omega) (h1.keep hP) (by rw [fm]; exact hn) (by rw [fm, h1.conns]; exact hf)
          (fun i c hi => absurd hi (Nat.not_lt_zero _)) hr
        rw [fm] at this
        exact this
    · rename_i hfin
      rw [if_neg hfin]
      rw [List.range_eq_range'] at hr ⊢
      exact loop_solved ho hp ht id s m cs.length 0 cs y (by omega) hP hn hf (fun i c hi => absurd hi (Nat.not_lt_zero _)) hr

theorem node_solved {o : Ops N} {nos : N → List Nat} {P : N → Prop} {F : Nat → Option Calc} (hF : Once F) (ho : Contained o nos) (hp : ∀ a c y, P c → P (o.run a c y).node)
    (ht : ∀ c y, P c → (nos c).Nodup → Forward F (nos c) y.flow.conns → (o.run .tick c y).res = .ok .succeeded → AllSolved F (nos c) (o.run .tick c y).sys)
    (nd : Node (Mem × S) N) (y : Sys) (hs : nodeStraight F P nd) (hn : (nodeNos nos nd).Nodup) (hf : Forward F (nodeNos nos nd) y.flow.conns)
    (hr : ((Node.ops o).run .tick nd y).res = .ok .succeeded) : AllSolved F (nodeNos nos nd) ((Node.ops o).run .tick nd y).sys := by
  change (Node.tick o nd y).res = _ at hr
  show AllSolved F (nodeNos nos nd) (Node.tick o nd y).sys
  cases hk : F nd.id with
  | some g =>
    obtain ⟨h1, h2⟩ := hs.1 g hk
    have := leaf_solved h2 (fun vs ws => hF nd.id g vs ws hk) (hf.self nd.id List.mem_cons_self) hr
    intro i hi g' hg'
    simp only [nodeNos, h1, List.flatMap_nil, List.mem_cons, List.not_mem_nil, or_false] at hi
    subst hi
    rw [hk] at hg'
    cases hg'
    exact this
  | none =>
    have h2 := hs.2.1 hk
    obtain ⟨y1, e1, e2, e3⟩ := tick_succeeded hr
    rw [e3]
    have hb : nd.body o .tick = Refine.plain nd.mem.2 (hookProg .sequence .tick nd.state nd.mem.1 {} (nd.children.map o.name)) := h2 ..
    rw [hb] at e2 ⊢
    obtain ⟨n1, n2⟩ := List.nodup_cons.1 hn
    have f1 : Forward F (nd.children.flatMap nos) y1.flow.conns := by
      rw [e1.conns]
      exact ⟨(List.pairwise_cons.1 hf.order).2, fun a ha => hf.self a (List.mem_cons_of_mem _ ha), fun a ha => hf.inner a (List.mem_cons_of_mem _ ha)⟩
    have sol := sequence_solved ho hp ht nd.id nd.mem.2 nd.mem.1 nd.state (nd.children.map o.name) nd.children y1 (by simp) hs.2.2 n2 f1 e2
    have hcn := ((exec_still ho nd.id (Refine.plain nd.mem.2 (hookProg .sequence .tick nd.state nd.mem.1 {} (nd.children.map o.name))) nd.children y1).1).conns
    generalize exec o nd.id (Refine.plain nd.mem.2 (hookProg .sequence .tick nd.state nd.mem.1 {} (nd.children.map o.name))) nd.children y1 = x at sol hcn ⊢
    have fin := allSolved_still (F := F) (l' := nd.children.flatMap nos) ((still_step x.sys (e := .finish nd.id) rfl).trans (still_enter _ nd.id .idle))
      (fun i hi h => n1 (List.mem_singleton.1 h ▸ hi)) (fun i hi s hs' => by
        rw [List.mem_singleton.1 hs', hcn, e1.conns]
        exact hf.inner nd.id List.mem_cons_self hk i) sol
    intro i hi g hg
    rcases List.mem_cons.1 hi with rfl | hi
    · rw [hk] at hg; cases hg
    · exact fin i hi g hg

theorem tree_solved {F : Nat → Option Calc} (hF : Once F) (n : Nat) : ∀ (t : Tree (Mem × S) n) (y : Sys), Straight F n t → (ids n t).Nodup → Forward F (ids n t) y.flow.conns →
    ((ops (Mem × S) n).run .tick t y).res = .ok .succeeded → AllSolved F (ids n t) ((ops (Mem × S) n).run .tick t y).sys := by
  induction n with
  | zero => exact fun t => Empty.elim t
  | succ n ih => exact fun t y hs hn hf hr => node_solved hF (tree_contained n) (straight_run F n) ih t y hs hn hf hr

/-! ### Histories -/

theorem straight_runs (F : Nat → Option Calc) (n : Nat) (ms : List Move) : ∀ (t : Tree (Mem × S) n) (y : Sys), Straight F n t → Straight F n (runs n ms t y).1 := by
  induction ms with
  | nil => exact fun t y h => h
  | cons m ms ih =>
    intro t y h
    refine ih _ _ ?_
    cases m with
    | act a => exact straight_run F n a t y h
    | incoming => exact h
    | offer => exact h

theorem ids_runs (n : Nat) (ms : List Move) : ∀ (t : Tree M n) (y : Sys), ids n (runs n ms t y).1 = ids n t := by
  induction ms with
  | nil => exact fun t y => rfl
  | cons m ms ih =>
    intro t y
    refine (ih _ _).trans ?_
    cases m with
    | act a => exact (tree_contained n a t y).2
    | incoming => rfl
    | offer => rfl

/-- The data is a solution of the equations of the program: outputs are what their node computes from its inputs, wired inputs hold the output that they are
wired to. -/
structure Equations (F : Nat → Option Calc) (l : List Nat) (f : Flow) : Prop where
  outputs : ∀ i ∈ l, ∀ g, F i = some g → Solved g i f
  inputs : ∀ s ∈ l, ∀ g, F s = some g → ∀ xs x, f.conns.lookup s = some xs → x ∈ xs → ∀ c v, f.output s x.sourceKey = some c → c.value = some v → Holds f x v

/-- C127: whatever has happened before: when a tick of a tree of Sequences over nodes that compute SUCCEEDS, all outputs are what their nodes compute from the
inputs they have then, and all wired inputs hold the outputs they are wired to. -/
theorem c127_equations_partial {F : Nat → Option Calc} (hF : Once F) (I : Mem × S → Prop) (n : Nat) (t : Tree (Mem × S) n) (f : Flow) (h : Ready I n t f) (ht : Straight F n t)
    (hw : Forward F (ids n t) f.conns) (ms : List Move)
    (hr : (step n (runs n ms t (started f)).1 (runs n ms t (started f)).2.1 (.act .tick)).res = .ok .succeeded) :
    Equations F (ids n t) (step n (runs n ms t (started f)).1 (runs n ms t (started f)).2.1 (.act .tick)).sys.flow := by
  obtain ⟨k, hcn, _⟩ := kept_runs ms (kept_ready h)
  have hs := straight_runs F n ms t (started f) ht
  have hi := ids_runs n ms t (started f)
  generalize (runs n ms t (started f)).1 = t' at *
  generalize (runs n ms t (started f)).2.1 = y at *
  have hcn : y.flow.conns = f.conns := hcn
  have sol := tree_solved hF n t' y hs (by rw [← ids_states]; exact k.nodup) (by rw [hi, hcn]; exact hw) hr
  have r := (kept_step k (.act .tick)).1.sync
  rw [hi] at sol
  refine ⟨fun i hm g hg => (sol i hm g hg).2, fun s hm g hg xs x h1 h2 c v hc hv => ?_⟩
  have hp := (sol s hm g hg).1
  rcases r.sync s xs x h1 h2 (by rw [show (step n t' y (.act .tick)).sys.phase s = .idle from hp]; simp) c v hc hv with g | g
  · rw [show (step n t' y (.act .tick)).sys.phase s = .idle from hp] at g; cases g.1
  · exact g

/-! ### There is one solution only -/

/-- A notion of likeness for values, for which a container holds something like what it was given. -/
structure Likeness (R : Val → Val → Prop) : Prop where
  refl : ∀ v, R v v
  symm : ∀ v w, R v w → R w v
  trans : ∀ u v w, R u v → R v w → R u w
  equal : ∀ v w, pyEq v w = true → R v w
  stored : ∀ t v, R (clean t v) v

/-- Both are missing, or both are there and alike. -/
def Alike (R : Val → Val → Prop) : Option Val → Option Val → Prop
  | none, none => True
  | some v, some w => R v w
  | _, _ => False

/-- From like inputs like outputs are computed. -/
def Respects (R : Val → Val → Prop) (g : Calc) : Prop :=
  ∀ vs vs', (∀ k, Alike R (vs k) (vs' k)) → ∀ ws ws', g vs = .sets ws → g vs' = .sets ws' → ∀ p ∈ ws, ∃ q ∈ ws', q.1 = p.1 ∧ R p.2 q.2

/-- Outputs that are wired are set in each tick. -/
def Supplies (F : Nat → Option Calc) (l : List Nat) (conns : List (Nat × List Conn)) : Prop :=
  ∀ s ∈ l, ∀ g, F s = some g → ∀ xs x, conns.lookup s = some xs → x ∈ xs → ∀ vs ws, g vs = .sets ws → x.sourceKey ∈ ws.map (·.1)

/-- The input is not wired to a node of `l`. -/
def Free (l : List Nat) (conns : List (Nat × List Conn)) (i : Nat) (k : String) : Prop :=
  ∀ s ∈ l, ∀ xs x, conns.lookup s = some xs → x ∈ xs → ¬ (x.target = i ∧ x.targetKey = k)

theorem same_like {R : Val → Val → Prop} (h : Likeness R) {t : Ty} {v w : Val} (hs : Same t v w) : R w v := by
  rcases hs with rfl | hs
  · exact h.stored t v
  · exact h.trans _ _ _ (h.equal _ _ hs) (h.stored t v)

/-- The node has set like outputs. -/
def LikeOutputs (R : Val → Val → Prop) (g : Calc) (i : Nat) (f f' : Flow) : Prop :=
  ∀ ws, g (values f i) = .sets ws → ∀ k ∈ ws.map (·.1), ∃ c w c' w', f.output i k = some c ∧ c.value = some w ∧ f'.output i k = some c' ∧ c'.value = some w' ∧ R w w'

theorem solution_unique {R : Val → Val → Prop} (hR : Likeness R) {F : Nat → Option Calc} {l : List Nat} {f f' : Flow}
    (hg : ∀ i ∈ l, ∀ g, F i = some g → Respects R g) (hc : f'.conns = f.conns) (hw : Forward F l f.conns) (hs : Supplies F l f.conns) (h : Equations F l f) (h' : Equations F l f')
    (hfree : ∀ i ∈ l, ∀ k, Free l f.conns i k → Alike R (values f i k) (values f' i k)) :
    ∀ (m i : Nat) (g : Calc), l[m]? = some i → F i = some g → LikeOutputs R g i f f' := by
  intro m
  induction m using Nat.strongRecOn with
  | ind m ih =>
    intro i g hm hig ws hws
    have hi := List.mem_of_getElem? hm
    have like : ∀ k, Alike R (values f i k) (values f' i k) := by
      intro k
      by_cases hk : Free l f.conns i k
      · exact hfree i hi k hk
      · simp only [Free, Classical.not_forall, Classical.not_not] at hk
        obtain ⟨s, hsl, xs, x, h1, h2, e1, e2⟩ := hk
        obtain ⟨j, hj⟩ := List.mem_iff_getElem?.1 hsl
        have wired : Wired f.conns s i := ⟨xs, x, h1, h2, e1⟩
        have lt : j < m := by
          rcases Nat.lt_trichotomy j m with g | g | g
          · exact g
          · subst g
            rw [hm] at hj
            cases hj
            exact absurd wired (hw.self _ hsl)
          · obtain ⟨l1, rfl⟩ := List.getElem?_eq_some_iff.1 hm
            obtain ⟨l2, rfl⟩ := List.getElem?_eq_some_iff.1 hj
            exact absurd wired (List.pairwise_iff_getElem.1 hw.order m j l1 l2 g)
        cases hF : F s with
        | none => exact absurd wired (hw.inner s hsl hF i)
        | some gs =>
          obtain ⟨ws1, e3, _⟩ := h.outputs s hsl gs hF
          obtain ⟨c, w, c', w', c1, c2, c3, c4, hr⟩ := ih j lt s gs hj hF ws1 e3 x.sourceKey (hs s hsl gs hF xs x h1 h2 _ _ e3)
          obtain ⟨t, u, t1, t2, t3⟩ := h.inputs s hsl gs hF xs x h1 h2 c w c1 c2
          obtain ⟨t', u', t1', t2', t3'⟩ := h'.inputs s hsl gs hF xs x (by rw [hc]; exact h1) h2 c' w' c3 c4
          rw [e1, e2] at t1 t1'
          simp only [values, t1, t1', Option.bind_some, t2, t2', Alike]
          exact hR.trans _ _ _ (same_like hR t3) (hR.trans _ _ _ hr (hR.symm _ _ (same_like hR t3')))
    intro k hk
    obtain ⟨p, hp, rfl⟩ := List.mem_map.1 hk
    obtain ⟨ws1, e1, sh⟩ := h.outputs i hi g hig
    obtain ⟨ws2, e2, sh'⟩ := h'.outputs i hi g hig
    rw [hws] at e1
    cases e1
    obtain ⟨q, hq, q1, q2⟩ := hg i hi g hig _ _ like ws ws2 hws e2 p hp
    obtain ⟨c, w, c1, c2, c3⟩ := sh p hp
    obtain ⟨c', w', c1', c2', c3'⟩ := sh' q hq
    rw [q1] at c1'
    exact ⟨c, w, c', w', c1, c2, c1', c2', hR.trans _ _ _ (same_like hR c3) (hR.trans _ _ _ q2 (hR.symm _ _ (same_like hR c3')))⟩

/-- C127: the result depends on the inputs that are not wired, and on nothing else: two ticks that SUCCEED, after any two histories, leave like values in all
outputs that are set, if those inputs have like values. -/
theorem c127_determined_partial {R : Val → Val → Prop} (hR : Likeness R) {F : Nat → Option Calc} (hF : Once F) (I : Mem × S → Prop) (n : Nat) (t : Tree (Mem × S) n) (f : Flow)
    (h : Ready I n t f) (ht : Straight F n t) (hw : Forward F (ids n t) f.conns) (hs : Supplies F (ids n t) f.conns) (hg : ∀ i ∈ ids n t, ∀ g, F i = some g → Respects R g)
    (ms ms' : List Move) :
    let a := step n (runs n ms t (started f)).1 (runs n ms t (started f)).2.1 (.act .tick)
    let b := step n (runs n ms' t (started f)).1 (runs n ms' t (started f)).2.1 (.act .tick)
    a.res = .ok .succeeded → b.res = .ok .succeeded →
    (∀ i ∈ ids n t, ∀ k, Free (ids n t) f.conns i k → Alike R (values a.sys.flow i k) (values b.sys.flow i k)) →
    ∀ i ∈ ids n t, ∀ g, F i = some g → LikeOutputs R g i a.sys.flow b.sys.flow := by
  intro a b ha hb hfree i hi g hg'
  have conns : ∀ ms, (step n (runs n ms t (started f)).1 (runs n ms t (started f)).2.1 (.act .tick)).sys.flow.conns = f.conns := by
    intro ms
    obtain ⟨k, hcn, _⟩ := kept_runs ms (kept_ready h)
    exact (kept_step k (.act .tick)).2.1.trans hcn
  obtain ⟨m, hm⟩ := List.mem_iff_getElem?.1 hi
  have ca : a.sys.flow.conns = f.conns := conns ms
  refine solution_unique (l := ids n t) hR hg ((conns ms').trans (conns ms).symm) (by rw [ca]; exact hw) (by rw [ca]; exact hs) (c127_equations_partial hF I n t f h ht hw ms ha)
    (c127_equations_partial hF I n t f h ht hw ms' hb) (by rw [ca]; exact hfree) m i g hm hg'

/-! ### The classes of the project -/

/-- What `compute` does with the data. -/
def setAll (s : S) : List (String × Val) → Io (S × Res)
  | [] => .done (s, .ok .succeeded)
  | (k, v) :: ws => .write k v fun a => if a = .ok then setAll s ws else .done (s, .err)

/-- The same for a leaf of `dress`. -/
def calcIo (g : Calc) (s : S) : Io (S × Res) :=
  .read fun d =>
    match g fun k => (d.inputs.lookup k).bind (·.value) with
    | .fails => .done (s, .ok .failed)
    | .raises => .done (s, .err)
    | .sets ws => setAll s ws

theorem setAll_hook (m : Mem × S) : ∀ ws, (setAll m.2 ws).andThen (fun x => Hook.done (m.1, x.1) x.2) = writeAll m ws
  | [] => rfl
  | (k, v) :: ws => by
    simp only [setAll, Io.andThen, writeAll]
    congr 1
    funext a
    split
    · exact setAll_hook m ws
    · rfl

theorem calcIo_hook (g : Calc) (m : Mem × S) : (calcIo g m.2).andThen (fun x => Hook.done (m.1, x.1) x.2) = compute g m := by
  simp only [calcIo, Io.andThen, compute]
  congr 1
  funext d
  split
  · rfl
  · rfl
  · exact setAll_hook m _

/-- A tree whose nodes are leaves that compute, and Sequences. -/
def OfProgram (F : Nat → Option Calc) (u : Nat → Uses S) (n : Nat) (b : BT.Tree n) : Prop :=
  BT.AllNodes (fun nd => (∀ g, F nd.id = some g → nd.kind = .leaf ∧ nd.children.length = 0 ∧ ∀ c st s, (u nd.id).leaf .tick c st s = calcIo g s) ∧
    (F nd.id = none → nd.kind = .sequence ∧ ∀ c st m, (u nd.id).before .tick c st m = .done (m.2, {}))) n b

theorem straight_dress {F : Nat → Option Calc} {u : Nat → Uses S} (s : Nat → S) (n : Nat) : ∀ b : BT.Tree n, OfProgram F u n b → Straight F n (dress u s n b) := by
  induction n with
  | zero => exact fun b => Empty.elim b
  | succ n ih =>
    intro b h
    have : ∀ b : BT.Node (BT.Tree n), ((∀ g, F b.id = some g → b.kind = .leaf ∧ b.children.length = 0 ∧ ∀ c st s, (u b.id).leaf .tick c st s = calcIo g s) ∧
        (F b.id = none → b.kind = .sequence ∧ ∀ c st m, (u b.id).before .tick c st m = .done (m.2, {}))) → (∀ c ∈ b.children, OfProgram F u n c) →
        nodeStraight F (Straight F n) ⟨b.id, b.name, b.state, (b.mem, s b.id), b.ctr, hookOf (u b.id) b.kind, b.children.map (dress u s n)⟩ := by
      intro b h1 h2
      refine ⟨fun g hg => ?_, fun hg => ?_, fun c hc => ?_⟩
      · obtain ⟨e1, e2, e3⟩ := h1.1 g hg
        refine ⟨by rw [List.eq_nil_of_length_eq_zero e2]; rfl, fun c st m l => ?_⟩
        show hookOf (u b.id) b.kind .tick c st m l = _
        rw [e1]
        simp only [hookOf, e3, calcIo_hook]
      · obtain ⟨e1, e2⟩ := h1.2 hg
        intro c st m l
        show hookOf (u b.id) b.kind .tick c st m l = _
        rw [e1]
        simp only [hookOf, e2, Io.andThen]
        rfl
      · obtain ⟨d, hd, rfl⟩ := List.mem_map.1 hc
        exact ih d (h2 d hd)
    exact this b h.1 h.2

theorem program_runs {F : Nat → Option Calc} {u : Nat → Uses S} (n : Nat) (h : List Op) : ∀ b : BT.Tree n, OfProgram F u n b → OfProgram F u n (BT.runs (BT.ops n) h b).2 := by
  have one : ∀ n op (b : BT.Tree n), OfProgram F u n b → OfProgram F u n ((BT.ops n).run op b).node := by
    intro n
    induction n with
    | zero => exact fun _ b => Empty.elim b
    | succ n ih =>
      intro op b hb
      refine ⟨?_, BT.run_children (BT.ops n) _ (fun op c hc => ih op c hc) op b hb.2⟩
      obtain ⟨e1, _, e3, _, _, e6⟩ := BT.run_static (BT.ops n) op b
      show (∀ g, F (BT.Node.run (BT.ops n) op b).node.id = some g → _) ∧ (F (BT.Node.run (BT.ops n) op b).node.id = none → _)
      have := hb.1
      refine ⟨fun g hg => ?_, fun hg => ?_⟩
      · rw [e1] at hg
        obtain ⟨g1, g2, g3⟩ := this.1 g hg
        exact ⟨e3.trans g1, e6.trans g2, by rw [show ((BT.ops (n + 1)).run op b).node.id = b.id from e1]; exact g3⟩
      · rw [e1] at hg
        obtain ⟨g1, g2⟩ := this.2 hg
        exact ⟨e3.trans g1, by rw [show ((BT.ops (n + 1)).run op b).node.id = b.id from e1]; exact g2⟩
  induction h with
  | nil => exact fun b hb => hb
  | cons op h ih => exact fun b hb => ih _ (one n op b hb)

/-- C127 for trees of the classes of the project, set up by any history. -/
theorem c127_classes_partial {F : Nat → Option Calc} (hF : Once F) (u : Nat → Uses S) (hu : ∀ i, (u i).Neat) (s : Nat → S) (n : Nat) (b : BT.Tree n) (hb : BT.Fresh n b)
    (hn : (BT.nodeIds n b).Nodup) (hp : OfProgram F u n b) (h : List Op) (f : Flow) (h1 : OneSource f.conns) (h2 : IncomingApart f) (h3 : DynamicOutputs f)
    (hw : Forward F (BT.nodeIds n b) f.conns) (ms : List Move) :
    let t := dress u s n (BT.runs (BT.ops n) h b).2
    let out := step n (runs n ms t (started f)).1 (runs n ms t (started f)).2.1 (.act .tick)
    out.res = .ok .succeeded → Equations F (BT.nodeIds n b) out.sys.flow := by
  intro t out hr
  have e : ids n t = BT.nodeIds n b := by
    rw [← ids_states, alike_states n _ _ (alike_dress u s n _)]
    exact Refine.ids_runs n h b
  have := c127_equations_partial hF (fun m : Mem × S => BT.CacheOk m.1) n t f
    ⟨fit_dress u hu s n _ (BT.caches_runs n h b (BT.caches_fresh n b hb)), by rw [ids_states, e]; exact hn, h1, h2, h3⟩ (straight_dress s n _ (program_runs n h b hp))
    (by rw [e]; exact hw) ms hr
  rw [e] at this
  exact this

/-! ### Example -/

/-- Leaves that compute, Sequences. -/
def usesOf (F : Nat → Option Calc) (i : Nat) : Uses Unit where
  leaf := fun a _ _ s =>
    match a, F i with
    | .tick, some g => calcIo g s
    | .tick, none => .done (s, .ok .succeeded)
    | _, _ => .done (s, .ok .idle)
  before := fun _ _ _ m => .done (m.2, {})
  own := fun _ s => .done (s, .succeeded)

theorem usesOf_neat {F : Nat → Option Calc} (hF : Once F) (i : Nat) : (usesOf F i).Neat := by
  refine ⟨fun a c st s => ?_, fun _ _ _ _ => trivial, fun _ _ => trivial⟩
  unfold usesOf
  dsimp only
  split
  · rename_i g hg
    intro d
    have all : ∀ (ws : List (String × Val)) (done : List String), (ws.map (·.1)).Nodup → (∀ k ∈ ws.map (·.1), k ∉ done) →
        (setAll s ws).Neat .tick (fun x => Act.tick = .tick → ∀ s, x.2 = .ok s → BT.allowedAfter .tick s = true) done := by
      intro ws
      induction ws with
      | nil => exact fun done _ _ _ s h => by cases h; rfl
      | cons p ws ih =>
        intro done hn hd
        rw [List.map_cons, List.nodup_cons] at hn
        refine ⟨rfl, hd _ List.mem_cons_self, fun r => ?_⟩
        dsimp only
        split
        · refine ih _ hn.2 fun k hk hm => ?_
          rcases List.mem_cons.1 hm with rfl | hm
          · exact hn.1 hk
          · exact hd k (List.mem_cons_of_mem _ hk) hm
        · exact fun _ s h => by cases h
    dsimp only
    split
    · exact fun _ s h => by cases h; rfl
    · exact fun _ s h => by cases h
    · rename_i ws hws
      exact all ws [] (hF i g _ ws hg hws) (fun _ _ h => by cases h)
  · exact fun _ s h => by cases h; rfl
  · rename_i h1 h2
    intro h
    cases hi : F i with
    | none => exact absurd hi (h2 h)
    | some g => exact absurd hi (h1 g h)

/-- constant.py 65-70: Constant. -/
def constant : Calc := fun vs =>
  match vs "constant_value" with
  | some v => .sets [("constant", v)]
  | none => .raises

/-- maths.py 206-216: Operation with a fixed operator, a function of the input `in`. -/
def onInt (h : Int → Int) : Calc := fun vs =>
  match vs "in" with
  | some (.int i) => .sets [("out", .int (h i))]
  | _ => .raises

/-- The number 0 is a Constant, 1 adds one, 2 doubles. -/
def sampleF : Nat → Option Calc
  | 0 => some constant
  | 1 => some (onInt (· + 1))
  | 2 => some (onInt (2 * ·))
  | _ => none

/-- A Sequence of the Constant and a Sequence of the others. -/
def sampleTree : BT.Tree 3 :=
  BT.mk 2 4 .sequence [BT.mkLeaf 1 0 [.ok .idle], BT.mk 1 3 .sequence [BT.mkLeaf 0 1 [.ok .idle], BT.mkLeaf 0 2 [.ok .idle]]]

/-- A number that does not change. -/
def fixed (i : Int) : Cont := { num with isStatic := true, value := some (.int i) }

/-- Each is wired to the next. -/
def sampleFlow (i : Int) : Flow :=
  ⟨[(0, ⟨[("constant_value", fixed i)], [("constant", num)]⟩), (1, ⟨[("in", num)], [("out", num)]⟩), (2, ⟨[("in", num)], [("out", num)]⟩), (3, ⟨[], []⟩), (4, ⟨[], []⟩)],
    [(0, [⟨"constant", 1, "in"⟩]), (1, [⟨"out", 2, "in"⟩]), (2, []), (3, []), (4, [])], [], []⟩

/-- The tree after its setup. -/
def sample : Tree (Mem × Unit) 3 := dress (usesOf sampleF) (fun _ => ()) 3 (BT.runs (BT.ops 3) [.setup] sampleTree).2

/-- What a history leads to: the answer of the last tick and the output of the last node. -/
def sampleOut (i : Int) (ms : List Move) : Res × Option Int :=
  let r := runs 3 ms sample (started (sampleFlow i))
  let out := step 3 r.1 r.2.1 (.act .tick)
  (out.res, (out.sys.flow.output 2 "out").bind fun c => match c.value with | some (.int i) => some i | _ => none)

/-- Twice the successor of seven, in one tick; and again after whatever may happen. -/
example : sampleOut 7 [] = (.ok .succeeded, some 16) ∧ sampleOut 7 [.act .tick, .act .untick, .act .reset, .act .tick] = (.ok .succeeded, some 16) := by
  refine ⟨?_, ?_⟩ <;> decide +kernel

theorem sample_once : Once sampleF := by
  intro i g vs ws h hw
  have one : ∀ h : Int → Int, onInt h vs = .sets ws → (ws.map (·.1)).Nodup := by
    intro h hw
    unfold onInt at hw
    split at hw
    · cases hw; exact (by simp)
    · cases hw
  match i, h with
  | 0, h =>
    cases h
    unfold constant at hw
    split at hw
    · cases hw; exact (by simp)
    · cases hw
  | 1, h => cases h; exact one _ hw
  | 2, h => cases h; exact one _ hw
  | n + 3, h => cases h

theorem sample_conns (i : Int) (s : Nat) (xs : List Conn) (h : (sampleFlow i).conns.lookup s = some xs) :
    s = 0 ∧ xs = [⟨"constant", 1, "in"⟩] ∨ s = 1 ∧ xs = [⟨"out", 2, "in"⟩] ∨ xs = [] := by
  match s, h with
  | 0, h => cases h; exact .inl ⟨rfl, rfl⟩
  | 1, h => cases h; exact .inr (.inl ⟨rfl, rfl⟩)
  | 2, h => cases h; exact .inr (.inr rfl)
  | 3, h => cases h; exact .inr (.inr rfl)
  | 4, h => cases h; exact .inr (.inr rfl)
  | n + 5, h => simp [sampleFlow, List.lookup] at h

theorem sample_wired (i : Int) {a b : Nat} (h : Wired (sampleFlow i).conns a b) : a = 0 ∧ b = 1 ∨ a = 1 ∧ b = 2 := by
  obtain ⟨xs, x, h1, h2, rfl⟩ := h
  rcases sample_conns i a xs h1 with ⟨rfl, rfl⟩ | ⟨rfl, rfl⟩ | rfl
  · rw [List.mem_singleton.1 h2]; exact .inl ⟨rfl, rfl⟩
  · rw [List.mem_singleton.1 h2]; exact .inr ⟨rfl, rfl⟩
  · cases h2

theorem sample_forward (i : Int) : Forward sampleF (BT.nodeIds 3 sampleTree) (sampleFlow i).conns := by
  have e : BT.nodeIds 3 sampleTree = [4, 0, 3, 1, 2] := by decide
  rw [e]
  refine ⟨?_, fun a _ h => ?_, fun a ha h b hw => ?_⟩
  · have : [4, 0, 3, 1, 2].Pairwise fun a b => ¬ (b = 0 ∧ a = 1 ∨ b = 1 ∧ a = 2) := by decide
    exact this.imp fun h g => h (sample_wired i g)
  · rcases sample_wired i h with ⟨h1, h2⟩ | ⟨h1, h2⟩ <;> omega
  · rcases sample_wired i hw with ⟨rfl, _⟩ | ⟨rfl, _⟩ <;> cases h

theorem sample_fine (i : Int) : OneSource (sampleFlow i).conns ∧ IncomingApart (sampleFlow i) ∧ DynamicOutputs (sampleFlow i) := by
  have hl := sample_conns i
  refine ⟨⟨fun s xs h => ?_, fun s s' xs xs' x x' h h' hx hx' hp => ?_⟩, fun s xs x _ _ => rfl, fun n k c h => ?_⟩
  · rcases hl s xs h with ⟨_, rfl⟩ | ⟨_, rfl⟩ | rfl <;> decide
  · rcases hl s xs h with ⟨rfl, rfl⟩ | ⟨rfl, rfl⟩ | rfl <;> rcases hl s' xs' h' with ⟨rfl, rfl⟩ | ⟨rfl, rfl⟩ | rfl <;>
      first
        | rfl
        | (cases hx; done)
        | (cases hx'; done)
        | (rw [List.mem_singleton.1 hx, List.mem_singleton.1 hx'] at hp; cases hp)
  · have hb : ∀ (d : NodeData) j, d.outputs = [(j, num)] → d.outputs.lookup k = some c → c.isStatic = false := by
      intro d j hd h
      rw [hd] at h
      simp only [List.lookup] at h
      split at h
      · cases h; rfl
      · cases h
    match n, h with
    | 0, h => exact hb ⟨[("constant_value", fixed i)], [("constant", num)]⟩ "constant" rfl h
    | 1, h => exact hb ⟨[("in", num)], [("out", num)]⟩ "out" rfl h
    | 2, h => exact hb ⟨[("in", num)], [("out", num)]⟩ "out" rfl h
    | 3, h => cases h
    | 4, h => cases h
    | n + 5, h => simp [sampleFlow, Flow.output, List.lookup] at h

theorem sample_program : OfProgram sampleF (usesOf sampleF) 3 sampleTree := by
  have leaf : ∀ i g, sampleF i = some g → ∀ c st s, (usesOf sampleF i).leaf .tick c st s = calcIo g s := by
    intro i g h c st s
    simp only [usesOf, h]
  have l : ∀ m i, (sampleF i).isSome → OfProgram sampleF (usesOf sampleF) (m + 1) (BT.mkLeaf m i [.ok .idle]) := by
    intro m i hi
    exact ⟨⟨fun g hg => ⟨rfl, rfl, leaf i g hg⟩, fun hn => by rw [show sampleF i = none from hn] at hi; cases hi⟩, fun c hc => by cases hc⟩
  refine ⟨⟨(fun g hg => by cases hg), fun _ => ⟨rfl, fun _ _ _ => rfl⟩⟩, fun c hc => ?_⟩
  rcases List.mem_cons.1 hc with rfl | hc
  · exact l 1 0 rfl
  · rw [List.mem_singleton.1 hc]
    refine ⟨⟨(fun g hg => by cases hg), fun _ => ⟨rfl, fun _ _ _ => rfl⟩⟩, fun c hc => ?_⟩
    rcases List.mem_cons.1 hc with rfl | hc
    · exact l 0 1 rfl
    · rw [List.mem_singleton.1 hc]; exact l 0 2 rfl

/-- All that `c127_classes_partial` asks for. -/
example : Once sampleF ∧ (∀ i, (usesOf sampleF i).Neat) ∧ BT.Fresh 3 sampleTree ∧ (BT.nodeIds 3 sampleTree).Nodup ∧ OfProgram sampleF (usesOf sampleF) 3 sampleTree ∧
    OneSource (sampleFlow 7).conns ∧ IncomingApart (sampleFlow 7) ∧ DynamicOutputs (sampleFlow 7) ∧ Forward sampleF (BT.nodeIds 3 sampleTree) (sampleFlow 7).conns :=
  ⟨sample_once, usesOf_neat sample_once, by decide, by decide, sample_program, (sample_fine 7).1, (sample_fine 7).2.1, (sample_fine 7).2.2, sample_forward 7⟩

/-- Values are alike that are the same number, or no numbers. -/
theorem number_likeness : Likeness fun v w => v.num = w.num := by
  have num : ∀ a y : Val, pyEq.numEq a y = true → a.num = y.num := by
    intro a y h
    unfold pyEq.numEq at h
    split at h
    · rename_i x z hx hz
      rw [hx, hz]
      unfold Flt.eq at h
      split at h
      · cases h
      · cases h
      · exact congrArg some (by simpa using h)
    · cases h
  refine ⟨fun _ => rfl, fun _ _ h => h.symm, fun _ _ _ h g => h.trans g, fun v w h => ?_, fun t v => ?_⟩
  · unfold pyEq at h
    split at h
    all_goals first
      | rfl
      | exact num _ _ h
      | cases h
  · unfold clean
    split <;> first | rfl | simp [Val.num]

theorem onInt_respects (h : Int → Int) : Respects (fun v w => v.num = w.num) (onInt h) := by
  intro vs vs' hl ws ws' e e' p hp
  have hk := hl "in"
  unfold onInt at e e'
  split at e
  · rename_i i hi
    cases e
    split at e'
    · rename_i j hj
      cases e'
      rw [hi, hj] at hk
      have hij : (i : Rat) = (j : Rat) := by
        have := Option.some.inj (show (Val.int i).num = (Val.int j).num from hk)
        exact Flt.fin.inj this
      have : i = j := by exact_mod_cast hij
      subst this
      exact ⟨p, hp, rfl, rfl⟩
    · cases e'
  · cases e

theorem constant_respects : Respects (fun v w => v.num = w.num) constant := by
  intro vs vs' hl ws ws' e e' p hp
  have hk := hl "constant_value"
  unfold constant at e e'
  split at e
  · rename_i v hv
    cases e
    split at e'
    · rename_i w hw
      cases e'
      rw [hv, hw] at hk
      exact ⟨("constant", w), List.mem_cons_self, by rw [List.mem_singleton.1 hp], by rw [List.mem_singleton.1 hp]; exact hk⟩
    · cases e'
  · cases e

theorem sample_respects (i : Nat) (g : Calc) (h : sampleF i = some g) : Respects (fun v w => v.num = w.num) g := by
  match i, h with
  | 0, h => cases h; exact constant_respects
  | 1, h => cases h; exact onInt_respects _
  | 2, h => cases h; exact onInt_respects _
  | n + 3, h => cases h

theorem sample_supplies (i : Int) (l : List Nat) : Supplies sampleF l (sampleFlow i).conns := by
  intro s _ g hg xs x h1 h2 vs ws hw
  rcases sample_conns i s xs h1 with ⟨rfl, rfl⟩ | ⟨rfl, rfl⟩ | rfl
  · cases hg
    rw [List.mem_singleton.1 h2]
    unfold constant at hw
    split at hw
    · cases hw; exact List.mem_cons_self
    · cases hw
  · cases hg
    rw [List.mem_singleton.1 h2]
    unfold onInt at hw
    split at hw
    · cases hw; exact List.mem_cons_self
    · cases hw
  · cases h2

theorem sample_ready (i : Int) : Ready (fun m : Mem × Unit => BT.CacheOk m.1) 3 sample (sampleFlow i) := by
  refine ⟨fit_dress _ (usesOf_neat sample_once) _ 3 _ (BT.caches_runs 3 _ _ (BT.caches_fresh 3 _ (by decide))), ?_, (sample_fine i).1, (sample_fine i).2.1, (sample_fine i).2.2⟩
  rw [show (states 3 sample).map (·.1) = BT.nodeIds 3 sampleTree by decide +kernel]
  decide

/-- All that `c127_determined_partial` asks for. -/
example : Likeness (fun v w => v.num = w.num) ∧ Once sampleF ∧ Ready (fun m : Mem × Unit => BT.CacheOk m.1) 3 sample (sampleFlow 7) ∧ Straight sampleF 3 sample ∧
    Forward sampleF (ids 3 sample) (sampleFlow 7).conns ∧ Supplies sampleF (ids 3 sample) (sampleFlow 7).conns ∧
    ∀ i ∈ ids 3 sample, ∀ g, sampleF i = some g → Respects (fun v w => v.num = w.num) g :=
  ⟨number_likeness, sample_once, sample_ready 7, straight_dress _ 3 _ (program_runs 3 _ _ sample_program),
    (show ids 3 sample = BT.nodeIds 3 sampleTree by decide +kernel) ▸ sample_forward 7, sample_supplies 7 _, fun i _ g => sample_respects i g⟩

/-- The order matters: if data flows backward, the first tick already finds an input without value. -/
theorem c127_backward : let f := { sampleFlow 7 with conns := [(0, [⟨"constant", 2, "in"⟩]), (1, []), (2, [⟨"out", 1, "in"⟩]), (3, []), (4, [])] }
    (step 3 sample (started f) (.act .tick)).res = .err := by decide +kernel

end Verif.Whole.Program
