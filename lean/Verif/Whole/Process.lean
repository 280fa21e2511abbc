import Verif.Whole.Claims

/-! C119: a process from its start with a default tree (tree_node.py 448-478) to its end (tree_node.py 501-527). -/

set_option autoImplicit false

namespace Verif.Whole.Process

open Verif.BT (Tree ops nodeStates nodeIds)
open Verif.Edit (St Req Ref Id Reg handle findRoot structureMsg TreeMsg history Along Present KeysUnique view specOf parentOf)
open Verif.Exec (World Cmd TState control)

variable {C : Nat → Nat → Bool} {cl : Classes} {n : Nat}

/-! ### The model -/

/-- config/tree_node_parameters.yaml 64-103: `default_tree`. `file` is what `load_tree_from_file` makes of `tree_path` (C93). -/
structure Config where
  load : Bool := false
  file : Option TreeMsg := none
  command : Cmd := .tickPeriodically

/-- tree_node.py 448-478: `load_default_tree`. -/
def boot (C : Nat → Nat → Bool) (cl : Classes) (p : Config) (w : Sys n) : Sys n :=
  if p.load then
    let w' := step C cl (.service (.load p.file)) w
    if (handle C (.load p.file) w.ed).2 = .ok then step C cl (.command p.command true) w' else w'
  else w

/-- tree_node.py 501-527: `main` until the interrupt; `as` is what happens while the executor spins. Nothing is done to the tree afterwards: nobody calls
`TreeNode.shutdown`. -/
def main (C : Nat → Nat → Bool) (cl : Classes) (p : Config) (as : List Act) (world : Nat → World (Tree (n + 1))) : Sys n :=
  run C cl as (boot C cl p (start n world))

/-- tree_node.py 481-498: `TreeNode.shutdown`. -/
def shutdown (C : Nat → Nat → Bool) (cl : Classes) (w : Sys n) : Sys n :=
  if w.mgr.state = .idle ∨ w.mgr.state = .editable ∨ w.mgr.state = .error then w else step C cl (.command .shutdown true) w

/-! ### Specification -/

/-- The nodes form one tree: exactly one node without parent. -/
def OneTree (s : St) : Prop := ∃ i, (specOf s i ≠ none ∧ parentOf s i = none) ∧ ∀ j, specOf s j ≠ none → parentOf s j = none → j = i

/-! ### The start is a history -/

/-- What `load_default_tree` does, as a history. -/
def bootActs (C : Nat → Nat → Bool) (p : Config) : List Act :=
  if p.load then .service (.load p.file) :: if (handle C (.load p.file) {}).2 = .ok then [.command p.command true] else [] else []

theorem boot_eq (p : Config) (world : Nat → World (Tree (n + 1))) : boot C cl p (start n world) = run C cl (bootActs C p) (start n world) := by
  unfold boot bootActs
  have e : (start n world).ed = {} := rfl
  rw [e]
  split
  · split <;> rfl
  · rfl

theorem main_eq (p : Config) (as : List Act) (world : Nat → World (Tree (n + 1))) :
    main C cl p as world = run C cl (bootActs C p ++ as) (start n world) := by
  unfold main
  rw [boot_eq]
  exact (List.foldl_append ..).symm

theorem sane_append (as bs : List Act) : ∀ w : Sys n, Sane C cl as w → Sane C cl bs (run C cl as w) → Sane C cl (as ++ bs) w := by
  induction as with
  | nil => intro w _ h; exact h
  | cons a as ih => intro w h1 h2; exact ⟨h1.1, ih _ h1.2 h2⟩

theorem tame_append (as bs : List Act) : ∀ w : Sys n, Tame C cl as w → Tame C cl bs (run C cl as w) → Tame C cl (as ++ bs) w := by
  induction as with
  | nil => intro w _ h; exact h
  | cons a as ih => intro w h1 h2; exact ⟨h1.1, ih _ h1.2 h2⟩

theorem boot_sane (p : Config) (hp : (Req.load p.file).Careful {}) (world : Nat → World (Tree (n + 1))) :
    Sane C cl (bootActs C p) (start n world) := by
  unfold bootActs
  split
  · split
    · refine ⟨fun r e _ => ?_, fun r e _ => (nomatch e), trivial⟩
      cases e; exact hp
    · refine ⟨fun r e _ => ?_, trivial⟩
      cases e; exact hp
  · exact trivial

theorem service_start (r : Req) (world : Nat → World (Tree (n + 1))) :
    (step C cl (.service r) (start n world)).mgr.state = .editable ∧ (step C cl (.service r) (start n world)).mgr.thread = .absent ∧
    (step C cl (.service r) (start n world)).ed = (handle C r {}).1 ∧
    (step C cl (.service r) (start n world)).shown = structureMsg (handle C r {}).1 := by
  have e : (start n world).mgr.state = .editable := rfl
  simp only [step, e, ne_eq, not_true, if_false]
  unfold Exec.edit
  rw [if_neg (by simp [e])]
  exact ⟨e, rfl, rfl, rfl⟩

theorem parentOf_present {s : St} (v : Edit.Inv2 C s) {i p : Id} (h : parentOf s i = some p) : Present s p := by
  unfold parentOf at h
  cases hg : Edit.dictGet s.nodes i with
  | none => rw [hg] at h; cases h
  | some r =>
    rw [hg] at h
    obtain ⟨q, hq, e⟩ := Option.map_eq_some_iff.1 (show (s.heap r).parent.map _ = some p from h)
    obtain ⟨⟨j, hj⟩, _⟩ := v.links.up r ⟨i, Edit.dictGet_mem hg⟩ q hq
    rw [← e, v.basic.dict.key _ _ hj]
    exact Edit.present_iff.2 ⟨q, hj⟩

theorem oneTree_root {s : St} (v : Edit.Inv2 C s) (h : OneTree s) : ∃ r, findRoot s = some (some r) := by
  refine (Edit.findRoot_ids v).2 ?_
  obtain ⟨i, ⟨h1, h2⟩, h3⟩ := h
  refine ⟨i, ⟨h1, fun p hp => by rw [h2] at hp; cases hp⟩, fun j hj hp => h3 j hj ?_⟩
  cases e : parentOf s j with
  | none => rfl
  | some p => exact absurd (parentOf_present v e) (hp p e)

theorem view_specOf (s : St) (i : Id) : specOf s i = ((view s).node i).map (·.1) := by
  simp [specOf, view, Option.map_map, Function.comp_def]

theorem view_parentOf (s : St) (i : Id) : parentOf s i = ((view s).node i).bind (·.2.1) := by
  simp only [parentOf, view]
  cases Edit.dictGet s.nodes i <;> rfl

theorem oneTree_view {s s' : St} (h : view s = view s') (k : OneTree s) : OneTree s' := by
  unfold OneTree at k ⊢
  simp only [view_specOf, view_parentOf, h] at k
  simp only [view_specOf, view_parentOf]
  exact k

/-! ### C119 -/

/-- A tree that was made by careful edits and saved, given as default tree: when the process has started, the nodes, links and wirings are those of the saved
tree, the same structure is published, and the tick thread runs. -/
theorem c119_default (world : Nat → World (Tree (n + 1))) (hwf : Faithful world) (rs : List Req) (h : Along C Req.Careful rs {})
    (hk : KeysUnique (history C rs {})) (h1 : OneTree (history C rs {})) (p : Config) (hp : p.load = true)
    (hf : p.file = some (structureMsg (history C rs {}))) (hc : p.command = .tickPeriodically ∨ p.command = .tickUntilResult) :
    let w : Sys n := main C cl p [] world
    view w.ed = view (history C rs {}) ∧ w.shown = structureMsg w.ed ∧ w.mgr.state = .ticking ∧ w.mgr.thread = .alive .start ∧
    ∀ r, OnlyTop w.ed r → w.ed.nodes.length ≤ n + 1 → ∃ t, w.mgr.tree = .root t ∧ Shows cl w.ed w.loc (n + 1) r t := by
  intro w
  have v := (Edit.history_inv3 rs Edit.init_inv3 h).toInv2
  obtain ⟨k1, k2⟩ := Edit.round_trip v hk {}
  have hcar := Edit.careful_load v {}
  have v' : Edit.Inv2 C (handle C (.load (some (structureMsg (history C rs {})))) {}).1 :=
    (Edit.handle_inv3 _ Edit.init_inv3 hcar).toInv2
  obtain ⟨r, hr⟩ := oneTree_root v' (oneTree_view k2.symm h1)
  have ha : bootActs C p = [.service (.load (some (structureMsg (history C rs {})))), .command p.command true] := by
    unfold bootActs
    rw [hf, k1, if_pos hp, if_pos rfl]
  have hw : w = step C cl (.command p.command true) (step C cl (.service (.load (some (structureMsg (history C rs {}))))) (start n world)) := by
    show boot C cl p (start n world) = _
    rw [boot_eq, ha]; rfl
  obtain ⟨s1, s2, s3, s4⟩ := service_start (C := C) (cl := cl) (n := n) (.load (some (structureMsg (history C rs {})))) world
  have st : (step C cl (.service (.load (some (structureMsg (history C rs {}))))) (start n world)).mgr.tree =
      .root (read cl (handle C (.load (some (structureMsg (history C rs {})))) {}).1.heap (fun x => if x < 0 then {} else {}) n r) := by
    have e : (start n world).mgr.state = .editable := rfl
    simp only [step, e, ne_eq, not_true, if_false]
    unfold Exec.edit
    rw [if_neg (by simp [e])]
    show topo cl _ _ n = _
    have e2 : (start n world).ed = {} := rfl
    rw [e2]
    unfold topo
    rw [hr]
    rfl
  generalize step C cl (.service (.load (some (structureMsg (history C rs {}))))) (start n world) = w1 at hw s1 s2 s3 s4 st
  have hcmd : ∀ c, c = .tickPeriodically ∨ c = .tickUntilResult →
      (control (ops (n + 1)) true c w1.mgr).1.state = .ticking ∧ (control (ops (n + 1)) true c w1.mgr).1.thread = .alive .start ∧
      (control (ops (n + 1)) true c w1.mgr).1.tree = w1.mgr.tree := by
    intro c hc
    unfold Exec.control
    rw [if_neg (by simp [s1])]
    have hrn : Exec.renew w1.mgr = { w1.mgr with thread := .fresh } := by
      unfold Exec.renew Exec.newThread
      rw [s2]; rfl
    rw [hrn]
    unfold Exec.dispatch
    rw [if_neg (by simp [s1])]
    rcases hc with rfl | rfl <;> simp [Exec.tickMultipleCmd, Exec.Thread.isAlive, st, Exec.startThread]
  obtain ⟨c1, c2, c3⟩ := hcmd _ hc
  have hed : w.ed = w1.ed := by
    rw [hw]
    have : erases p.command w1.mgr (control (ops (n + 1)) true p.command w1.mgr).2.success = false := by
      unfold erases; rw [st]; rcases hc with e | e <;> rw [e]
    simp only [step, this]
    rfl
  have hmt : w.mgr.tree = w1.mgr.tree := by rw [hw]; exact c3
  refine ⟨?_, ?_, ?_, ?_, ?_⟩
  · rw [hed, s3]; exact k2
  · have : w.shown = w1.shown := by rw [hw]; rfl
    rw [this, s4, hed, s3]
  · rw [hw]; exact c1
  · rw [hw]; exact c2
  · intro r' hr' hn
    refine ⟨_, hmt.trans st, ?_⟩
    have hsane : Sane C cl (bootActs C p) (start n world) := boot_sane p (by rw [hf]; exact hcar) world
    have key := (c118_same_tree world hwf (bootActs C p) hsane).2.2
    rw [← boot_eq] at key
    obtain ⟨q, q1, q2, _⟩ := key _ (hmt.trans st) hn
    rw [q1.2.2 r' hr'.1 hr'.2.1]
    exact q2

/-- If the default tree cannot be loaded, no command is executed: the tree can be edited, no thread has been made, and nothing is set up. -/
theorem c119_not_loaded (hcl : cl.Ok) (world : Nat → World (Tree (n + 1))) (hwf : Faithful world) (p : Config) (hp : (Req.load p.file).Careful {})
    (hf : p.load = true → (handle C (.load p.file) {}).2 ≠ .ok) :
    let w : Sys n := main C cl p [] world
    w.mgr.state = .editable ∧ w.mgr.thread = .absent ∧ ∀ r, (w.loc r).AtRest := by
  intro w
  have hs := boot_sane (C := C) (cl := cl) (n := n) p hp world
  have ht : Tame C cl (bootActs C p) (start n world) := by
    unfold bootActs
    split
    · rename_i e
      rw [if_neg (hf e)]
      exact ⟨fun c b e => (nomatch e), trivial⟩
    · exact trivial
  have hst : w.mgr.state = .editable ∧ w.mgr.thread = .absent := by
    show (boot C cl p (start n world)).mgr.state = .editable ∧ (boot C cl p (start n world)).mgr.thread = .absent
    rw [boot_eq]
    unfold bootActs
    split
    · rename_i e
      rw [if_neg (hf e)]
      obtain ⟨s1, s2, _⟩ := service_start (C := C) (cl := cl) (n := n) (.load p.file) world
      exact ⟨s1, s2⟩
    · exact ⟨rfl, rfl⟩
  refine ⟨hst.1, hst.2, fun r => ?_⟩
  have := c118_rest_partial hcl world hwf (bootActs C p) hs ht
  rw [← boot_eq] at this
  exact this hst.1 r

/-- The process ends while the tree can be edited: no node is left set up. Partial: see `c119_left_running`; and as in C109 no SHUTDOWN may have failed. -/
theorem c119_end_partial (hcl : cl.Ok) (world : Nat → World (Tree (n + 1))) (hwf : Faithful world) (p : Config) (hp : (Req.load p.file).Careful {})
    (as : List Act) (hs : Sane C cl as (boot C cl p (start n world))) (ht : Tame C cl (bootActs C p ++ as) (start n world))
    (he : (main C cl p as world).mgr.state = .editable) (r : Ref) : ((main C cl p as world).loc r).AtRest := by
  rw [main_eq] at he ⊢
  rw [boot_eq] at hs
  exact c118_rest_partial hcl world hwf _ (sane_append _ _ _ (boot_sane p hp world) hs) ht he r

/-! ### Samples -/

/-- The requests by which the sample tree was made: a Sequence with a leaf. -/
def made : List Req := [.add 1 (some {}) none 0 [], .add 2 (some { max := some 0 }) (some 1) 0 []]

/-- Start with that tree. -/
def config : Config := { load := true, file := some (structureMsg (history anyType made {})) }

/-- The process after some steps of the tick thread. -/
def ended : Sys 1 := main anyType sample config [.think, .think, .think] fun _ => {}

theorem made_careful : Along anyType Req.Careful made {} := by
  refine ⟨⟨fresh_of (by decide +kernel), nofun⟩, ⟨fresh_of (by decide +kernel), by decide⟩, trivial⟩

theorem made_get (i : Id) : specOf (history anyType made {}) i = if i = 1 then some {} else if i = 2 then some { max := some 0 } else none := by
  have h : (history anyType made {}).nodes = [(1, 0), (2, 1)] := by decide +kernel
  unfold specOf Edit.dictGet
  rw [h]
  by_cases h1 : i = 1
  · subst h1; decide +kernel
  · by_cases h2 : i = 2
    · subst h2; decide +kernel
    · have e1 : ¬ 1 = i := fun e => h1 e.symm
      have e2 : ¬ 2 = i := fun e => h2 e.symm
      simp [List.find?, e1, e2, h1, h2]

example : Along anyType Req.Careful made {} ∧ KeysUnique (history anyType made {}) ∧ OneTree (history anyType made {}) ∧ config.load = true ∧
    (handle anyType (.load config.file) {}).2 = .ok ∧ (boot anyType sample config (start 1 fun _ => {})).ed.nodes.length = 2 := by
  refine ⟨made_careful, ?_, ?_, rfl, by decide +kernel, by decide +kernel⟩
  · intro i sp h
    rw [made_get] at h
    split at h
    · cases h; decide
    · split at h
      · cases h; decide
      · cases h
  · refine ⟨1, ⟨by rw [made_get]; decide, by decide +kernel⟩, fun j hj hp => ?_⟩
    rw [made_get] at hj
    by_cases h1 : j = 1
    · exact h1
    · by_cases h2 : j = 2
      · subst h2
        exact absurd hp (by decide +kernel)
      · rw [if_neg h1, if_neg h2] at hj; exact absurd rfl hj

/-- A file that cannot be read. -/
example : (Req.load ({ load := true } : Config).file).Careful {} ∧ (handle anyType (.load ({ load := true } : Config).file) {}).2 ≠ .ok :=
  ⟨trivial, by decide +kernel⟩

/-- The process is interrupted while the default tree is ticked: it ends, and a leaf is left RUNNING. `TreeNode.shutdown`, which nobody calls, would have
shut it down. -/
theorem c119_left_running : ended.mgr.state = .ticking ∧ (ended.loc 1).state = .running ∧
    (shutdown anyType sample ended).mgr.state = .editable ∧ ((shutdown anyType sample ended).loc 1).state = .shutdown ∧
    ((shutdown anyType sample ended).loc 0).state = .shutdown := by decide +kernel

/-- The process is interrupted after a SHUTDOWN. -/
example : Sane anyType sample [.think, .think, .think, .command .shutdown true] (boot anyType sample config (start 1 fun _ => {})) ∧
    Tame anyType sample (bootActs anyType config ++ [.think, .think, .think, .command .shutdown true]) (start 1 fun _ => {}) ∧
    (main anyType sample config [.think, .think, .think, .command .shutdown true] (fun _ => ({} : World (Tree 2)))).mgr.state = .editable := by
  refine ⟨⟨fun r e => (nomatch e), fun r e => (nomatch e), fun r e => (nomatch e), fun r e => (nomatch e), trivial⟩, ?_, by decide +kernel⟩
  have e : bootActs anyType config = [.service (.load config.file), .command .tickPeriodically true] := by
    unfold bootActs
    rw [if_pos (show config.load = true from rfl), if_pos (by decide +kernel)]
    rfl
  rw [e]
  refine ⟨?_, ?_, ?_, ?_, ?_, ?_, trivial⟩ <;> intro c b h <;> cases h
  · intro _ h; rcases h with h | h <;> cases h
  · intro h; exact absurd h (by decide +kernel)

end Verif.Whole.Process
