import Verif.Whole.System

/-! C118: what is controlled and ticked is what has been edited, and what is edited is not set up. -/

set_option autoImplicit false

namespace Verif.Whole

open Verif.BT (Op Res BTState Ops Tree ops Node Kind Mem Env nodeStates nodeIds)
open Verif.Edit (St Req Ref Id Obj Spec Reg handle findRoot structureMsg TreeMsg preorder Climb Above)
open Verif.Exec (Topo Mgr World Cmd TState control threadStep Holds)

variable {C : Nat → Nat → Bool} {cl : Classes} {n : Nat}

/-! ### Specification -/

/-- The tree consists of the object `r` and those below it: node for node the class of its configuration, the state of the object, and the children of the
object in their order. -/
def Shows (cl : Classes) (s : St) (loc : Ref → Local) : (n : Nat) → Ref → Tree n → Prop
  | 0, _, t => Empty.elim t
  | n + 1, r, t =>
    let nd : Node (Tree n) := t
    nd.id = r ∧ nd.kind = cl.kind (s.heap r).spec ∧ nd.state = (loc r).state ∧ nd.children.length = (s.heap r).children.length ∧
      ∀ p ∈ (s.heap r).children.zip nd.children, Shows cl s loc n p.1 p.2

/-- `r` is the only node without parent. -/
def OnlyTop (s : St) (r : Ref) : Prop := Reg s r ∧ (s.heap r).parent = none ∧ ∀ x, Reg s x → (s.heap x).parent = none → x = r

/-- SHUTDOWN is sent only while the nodes form a tree. -/
def Rooted (C : Nat → Nat → Bool) (cl : Classes) : List Act → Sys n → Prop
  | [], _ => True
  | a :: as, w => (∀ b, a = .command .shutdown b → findRoot w.ed ≠ none) ∧ Rooted C cl as (step C cl a w)

/-! ### The tree that is read -/

theorem read_shows {s : St} (v : Edit.Inv2 C s) (loc : Ref → Local) {r0 : Ref} (h0 : (s.heap r0).parent = none) (n : Nat) :
    ∀ r d, Reg s r → Climb s d r r0 → s.nodes.length ≤ d + n + 1 → Shows cl s loc (n + 1) r (read cl s.heap loc n r) := by
  have leaf : ∀ r d c, Reg s r → Climb s d r r0 → c ∈ (s.heap r).children → d + 1 < s.nodes.length := by
    intro r d c hr hd hc
    obtain ⟨h1, h2⟩ := v.links.down r hr c hc
    have hpos : 0 < s.nodes.length := by
      obtain ⟨i, hi⟩ := hr
      exact List.length_pos_of_mem hi
    obtain ⟨k, y, k1, k2, k3⟩ := Edit.up_to_top v.links v.acyc (s.nodes.length - 1) c [] h1 (by simp) (by simp) (by simp; omega)
    have := Edit.Climb.det (k := d + 1) ⟨r, h2, hd⟩ k2 k3
    omega
  induction n with
  | zero =>
    intro r d hr hd hn
    have hc : (s.heap r).children = [] := by
      cases he : (s.heap r).children with
      | nil => rfl
      | cons c cs =>
        have := leaf r d c hr hd (by rw [he]; simp)
        omega
    refine ⟨rfl, rfl, rfl, by rw [hc]; rfl, ?_⟩
    rw [hc]
    intro p hp
    cases hp
  | succ n ih =>
    intro r d hr hd hn
    refine ⟨rfl, rfl, rfl, List.length_map .., ?_⟩
    intro p hp
    have hp : p ∈ (s.heap r).children.zip ((s.heap r).children.map (read cl s.heap loc n)) := hp
    rw [← List.map_id (s.heap r).children, List.map_map, List.zip_map'] at hp
    obtain ⟨c, hc, rfl⟩ := List.mem_map.1 hp
    obtain ⟨h1, h2⟩ := v.links.down r hr c hc
    exact ih c (d + 1) h1 ⟨r, h2, hd⟩ (by omega)

theorem preorder_all {s : St} (v : Edit.Inv2 C s) {r : Ref} (hr : OnlyTop s r) {k : Nat} (hk : s.nodes.length ≤ k) {x : Ref} :
    x ∈ preorder s k r ↔ Reg s x := by
  constructor
  · exact fun h => (Edit.preorder_sound v.links k hr.1 h).1
  · intro hx
    have hpos : 0 < s.nodes.length := by
      obtain ⟨i, hi⟩ := hx
      exact List.length_pos_of_mem hi
    obtain ⟨m, y, k1, k2, k3⟩ := Edit.up_to_top v.links v.acyc (s.nodes.length - 1) x [] hx (by simp) (by simp) (by simp; omega)
    have hy : Reg s y := by
      clear k1 k3
      induction m generalizing x with
      | zero => cases k2; exact hx
      | succ m ih => obtain ⟨p, hp, k2⟩ := k2; exact ih (v.links.up x hx p hp).1 k2
    have := hr.2.2 y hy k3
    subst this
    exact Edit.preorder_le (by omega) (Edit.preorder_up v.links m hx k2)

theorem onlyTop {s : St} (v : Edit.Inv2 C s) {r : Ref} (h : findRoot s = some (some r)) : OnlyTop s r := by
  obtain ⟨⟨h1, h2⟩, h3⟩ := (Edit.c34_root_parent s v.basic.dict ((Edit.links_iff _).2 v.links) r).1 h
  exact ⟨h1, h2, h3⟩

theorem tree_root {w : Sys n} (h : Coherent C cl w) {t : Tree (n + 1)} (ht : w.mgr.tree = .root t) :
    ∃ r, findRoot w.ed = some (some r) ∧ t = read cl w.ed.heap w.loc n r := by
  rw [h.tree] at ht
  unfold topo at ht
  split at ht
  · cases ht
  · cases ht
  · rename_i r e
    cases ht
    exact ⟨r, e, rfl⟩

/-! ### C118: the same tree -/

/-- After any history of careful edits, commands and ticks: the manager takes the tree to be empty, or not to be a tree, exactly if the nodes of the editor are
so; otherwise what it works on is the tree below the only node without parent, each node of the editor once, with its class and its state. -/
theorem c118_same_tree (world : Nat → World (Tree (n + 1))) (hw : Faithful world) (as : List Act) (hs : Sane C cl as (start n world)) :
    let w := run C cl as (start n world)
    (w.mgr.tree = .empty ↔ w.ed.nodes = []) ∧ (w.mgr.tree = .bad ↔ w.ed.nodes ≠ [] ∧ ∀ r, ¬ OnlyTop w.ed r) ∧
    ∀ t, w.mgr.tree = .root t → w.ed.nodes.length ≤ n + 1 → ∃ r, OnlyTop w.ed r ∧ Shows cl w.ed w.loc (n + 1) r t ∧
      (nodeIds (n + 1) t).Nodup ∧ ∀ x, x ∈ nodeIds (n + 1) t ↔ Reg w.ed x := by
  intro w
  have h : Coherent C cl w := coherent_run cl as (coherent_start cl world hw) hs
  have v := h.ed
  refine ⟨?_, ?_, ?_⟩
  · rw [h.tree, ← Edit.c34_empty]
    unfold topo
    split <;> rename_i e <;> simp [e]
  · rw [h.tree]
    unfold topo
    split
    · rename_i e
      refine iff_of_true rfl ⟨fun e' => ?_, fun r hr => ?_⟩
      · rw [(Edit.c34_empty _).2 e'] at e; cases e
      · rw [(Edit.c34_root_parent _ v.basic.dict ((Edit.links_iff _).2 v.links) r).2 ⟨⟨hr.1, hr.2.1⟩, hr.2.2⟩] at e; cases e
    · rename_i e
      exact iff_of_false (fun e => nomatch e) (fun k => k.1 ((Edit.c34_empty _).1 e))
    · rename_i r e
      exact iff_of_false (fun e => nomatch e) (fun k => k.2 r (onlyTop v e))
  · intro t ht hn
    obtain ⟨r, hr, rfl⟩ := tree_root h ht
    have hr' := onlyTop v hr
    refine ⟨r, hr', read_shows v w.loc hr'.2.1 n r 0 hr'.1 rfl (by omega), ?_, fun x => ?_⟩
    · rw [read_ids]; exact Edit.preorder_nodup v.links v.acyc (n + 1) hr'.1
    · rw [read_ids]; exact preorder_all v hr' hn

/-- No tick fails because the parent of a node is missing. -/
theorem c118_no_orphans (world : Nat → World (Tree (n + 1))) (hw : Faithful world) (as : List Act) (hs : Sane C cl as (start n world)) :
    (run C cl as (start n world)).mgr.orphans = false := by
  have h : Coherent C cl _ := coherent_run cl as (coherent_start cl world hw) hs
  rw [h.orphans]
  unfold orphans
  rw [List.any_eq_false]
  intro x hx
  have hr : Reg (run C cl as (start n world)).ed x.2 := ⟨x.1, hx⟩
  split
  · simp
  · rename_i p hp
    obtain ⟨j, hj⟩ := (h.ed.links.up _ hr p hp).1
    have := h.ed.basic.dict.key _ _ hj
    simp only [decide_eq_true_eq]
    rw [this]
    exact fun k => k (List.mem_map.2 ⟨_, hj, rfl⟩)

/-! ### C118: what can be edited is not set up -/

theorem quiet_all {w : Sys n} (h : Coherent C cl w) (q : Quiet w) (he : w.mgr.state = .editable) (r : Ref) : (w.loc r).AtRest := by
  cases ht : w.mgr.tree with
  | bad => exact q.out r fun t e => by rw [ht] at e; cases e
  | empty => exact q.out r fun t e => by rw [ht] at e; cases e
  | root t =>
    by_cases hm : r ∈ nodeIds (n + 1) t
    · have := q.calm he t ht
      obtain ⟨r0, _, rfl⟩ := tree_root h ht
      rw [read_ids] at hm
      refine this (r, (w.loc r).state) ?_
      rw [← locals_state, read_locals, List.map_map]
      exact List.mem_map.2 ⟨r, hm, rfl⟩
    · exact q.out r fun t' e => by rw [ht] at e; cases e; exact hm

theorem read_rest {s : St} {loc : Ref → Local} (h : ∀ r, (loc r).AtRest) (n : Nat) (r : Ref) : Exec.Rest.AtRest (n + 1) (read cl s.heap loc n r) := by
  intro p hp
  rw [← locals_state, read_locals, List.map_map] at hp
  obtain ⟨x, _, rfl⟩ := List.mem_map.1 hp
  exact h x

theorem shape_ids {x y : Topo (Tree n)} (h : SameShape x y) {t : Tree n} (hy : x = .root t) : ∃ t', y = .root t' ∧ nodeIds n t' = nodeIds n t := by
  subst hy
  cases y with
  | bad => exact h.elim
  | empty => exact h.elim
  | root t' => exact ⟨t', rfl, by rw [← nodeIds_skel, ← (show skel n t = skel n t' from h), nodeIds_skel]⟩

theorem out_store {w : Sys n} (q : Quiet w) {x : Topo (Tree (n + 1))} (hx : SameShape w.mgr.tree x) (r : Ref)
    (h : ∀ t, x = .root t → r ∉ nodeIds (n + 1) t) : (store w.loc x r).AtRest := by
  have hr : (w.loc r).AtRest := by
    refine q.out r fun t ht => ?_
    obtain ⟨t', h1, h2⟩ := shape_ids hx ht
    rw [← h2]
    exact h t' h1
  cases x with
  | bad => exact hr
  | empty => exact hr
  | root t =>
    have := lookup_none (l := locals (n + 1) t) (r := r) (by rw [locals_fst]; exact h t rfl)
    simp only [store]
    rw [this]
    exact hr

theorem kept_plain (hcl : cl.Ok) {w : Sys n} (h : Coherent C cl w) : Exec.Kept (Plain (n + 1)) w.mgr := by
  refine ⟨fun t ht => ?_, fun i f t hf ht => ?_⟩
  · obtain ⟨r, _, rfl⟩ := tree_root h ht
    exact plain_read hcl h.ed.basic.lim _ n r
  · rw [← plain_skel, h.world i f t hf, plain_skel]; exact ht

theorem quiet_step (hcl : cl.Ok) {w : Sys n} (h : Coherent C cl w) (q : Quiet w) (a : Act)
    (ht : ∀ c b, a = .command c b → w.mgr.state = .editable → c = .shutdown ∨ c = .setupAndShutdown →
      (control (ops (n + 1)) b c w.mgr).2.success = true) : Quiet (step C cl a w) := by
  have hd : ∀ t, Plain (n + 1) t → ((ops (n + 1)).run .shutdown t).res.isOk = true → Exec.Rest.AtRest (n + 1) ((ops (n + 1)).run .shutdown t).node :=
    fun t hp => Exec.Rest.rest_shutdown (n + 1) t (plain_good _ t hp)
  have hk := kept_plain hcl h
  cases a with
  | service r =>
    simp only [step]
    split
    · exact q
    · rename_i he
      have he : w.mgr.state = .editable := by simpa using he
      have hall : ∀ x : Ref, (if x < w.ed.next then w.loc x else {} : Local).AtRest := by
        intro x
        split
        · exact quiet_all h q he x
        · exact .inr rfl
      have e : ∀ f, (Exec.edit f w.mgr).1 = { w.mgr with tree := (f (w.mgr.tree, w.mgr.orphans)).1, orphans := (f (w.mgr.tree, w.mgr.orphans)).2 } := by
        intro f; unfold Exec.edit; rw [if_neg (by simp [he])]
      refine ⟨fun x _ => hall x, ?_⟩
      dsimp only
      rw [e]
      intro _ t ht
      dsimp only at ht
      unfold topo at ht
      split at ht
      · cases ht
      · cases ht
      · cases ht
        exact read_rest hall n _
  | command c b =>
    have hc := Exec.Rest.calm_step (o := ops (n + 1)) (plain_run (n + 1)) hd (Exec.Rest.rest_reset (n + 1)) (.command c b) h.exec hk q.calm
      (fun f e => nomatch e) (fun c' b' e => by cases e; exact ht c b rfl)
    exact ⟨out_store q (control_shape cl h c b).1, hc⟩
  | think =>
    have hc := Exec.Rest.calm_step (o := ops (n + 1)) (plain_run (n + 1)) hd (Exec.Rest.rest_reset (n + 1)) .think h.exec hk q.calm
      (fun f e => nomatch e) (fun c' b' e => nomatch e)
    exact ⟨out_store q (think_shape cl h).1, hc⟩

theorem quiet_run (hcl : cl.Ok) (as : List Act) : ∀ {w : Sys n}, Coherent C cl w → Quiet w → Sane C cl as w → Tame C cl as w → Quiet (run C cl as w) := by
  induction as with
  | nil => intro w _ q _ _; exact q
  | cons a as ih => intro w h q hs ht; exact ih (coherent_step cl h a hs.1) (quiet_step hcl h q a ht.1) hs.2 ht.2

theorem quiet_start (world : Nat → World (Tree (n + 1))) : Quiet (start n world) :=
  ⟨fun _ _ => .inr rfl, fun _ _ ht => nomatch ht⟩

/-- While the tree can be edited, no node is set up: neither those of the tree, nor those outside of it, nor those that have been removed; provided that no
SHUTDOWN failed while the tree could be edited. -/
theorem c118_rest_partial (hcl : cl.Ok) (world : Nat → World (Tree (n + 1))) (hw : Faithful world) (as : List Act) (hs : Sane C cl as (start n world))
    (ht : Tame C cl as (start n world)) (he : (run C cl as (start n world)).mgr.state = .editable) (r : Ref) :
    ((run C cl as (start n world)).loc r).AtRest :=
  quiet_all (coherent_run cl as (coherent_start cl world hw) hs) (quiet_run hcl as (coherent_start cl world hw) (quiet_start world) hs ht) he r

/-- A node that has been removed or replaced is not set up, whatever the state of the tree. -/
theorem c118_removed_partial (hcl : cl.Ok) (world : Nat → World (Tree (n + 1))) (hw : Faithful world) (as : List Act) (hs : Sane C cl as (start n world))
    (ht : Tame C cl as (start n world)) (r : Ref) (hr : ¬ Reg (run C cl as (start n world)).ed r) : ((run C cl as (start n world)).loc r).AtRest := by
  have h : Coherent C cl _ := coherent_run cl as (coherent_start cl world hw) hs
  refine (quiet_run hcl as (coherent_start cl world hw) (quiet_start world) hs ht).out r fun t e hm => ?_
  obtain ⟨r0, h0, rfl⟩ := tree_root h e
  rw [read_ids] at hm
  exact hr (Edit.preorder_sound h.ed.links _ (reg_root h.ed h0) hm).1

/-! ### C118: commands do not edit -/

theorem command_ed {w : Sys n} (h : Coherent C cl w) {a : Act} (ha : ∀ r, a ≠ .service r) (hr : ∀ b, a = .command .shutdown b → findRoot w.ed ≠ none) :
    (step C cl a w).ed = w.ed ∧ (step C cl a w).shown = w.shown := by
  cases a with
  | service r => exact absurd rfl (ha r)
  | think => exact ⟨rfl, rfl⟩
  | command c b =>
    refine ⟨?_, rfl⟩
    simp only [step]
    split
    · rename_i he
      obtain ⟨rfl, e2, _⟩ := erases_bad he
      exact absurd (topo_bad cl (h.tree.symm.trans e2)) (hr b rfl)
    · rfl

/-- Commands and ticks leave nodes, links, wirings and the published structure as they are, unless SHUTDOWN is sent while the nodes do not form a tree. -/
theorem c118_unedited_partial (world : Nat → World (Tree (n + 1))) (hw : Faithful world) (as bs : List Act) (hs : Sane C cl as (start n world))
    (hb : ∀ a ∈ bs, ∀ r, a ≠ .service r) (hr : (∀ b, .command .shutdown b ∉ bs) ∨ findRoot (run C cl as (start n world)).ed ≠ none) :
    (run C cl (as ++ bs) (start n world)).ed = (run C cl as (start n world)).ed ∧
    (run C cl (as ++ bs) (start n world)).shown = (run C cl as (start n world)).shown := by
  have h : Coherent C cl (run C cl as (start n world)) := coherent_run cl as (coherent_start cl world hw) hs
  have e : run C cl (as ++ bs) (start n world) = run C cl bs (run C cl as (start n world)) := List.foldl_append ..
  rw [e]
  generalize run C cl as (start n world) = w at h hr ⊢
  clear e hs
  induction bs generalizing w with
  | nil => exact ⟨rfl, rfl⟩
  | cons a bs ih =>
    have k := command_ed h (hb a (by simp)) (fun b e => by
      rcases hr with hr | hr
      · exact absurd (by simp [e]) (hr b)
      · exact hr)
    have h' := coherent_step cl h a (fun r e => absurd e (hb a (by simp) r))
    obtain ⟨k1, k2⟩ := ih (fun x hx => hb x (List.mem_cons_of_mem _ hx)) (step C cl a w) h'
      (hr.imp (fun hr b hx => hr b (List.mem_cons_of_mem _ hx)) (fun hr => by rw [k.1]; exact hr))
    exact ⟨k1.trans k.1, k2.trans k.2⟩

/-- The published structure is that of the editor if SHUTDOWN is sent only while the nodes form a tree. -/
theorem c118_shown_partial (world : Nat → World (Tree (n + 1))) (hw : Faithful world) (as : List Act) (hs : Sane C cl as (start n world))
    (hr : Rooted C cl as (start n world)) : (run C cl as (start n world)).shown = structureMsg (run C cl as (start n world)).ed := by
  have h : Coherent C cl (start n world) := coherent_start cl world hw
  have e : (start n world).shown = structureMsg (start n world).ed := rfl
  generalize start n world = w at h hs hr e ⊢
  induction as generalizing w with
  | nil => exact e
  | cons a as ih =>
    refine ih (step C cl a w) (coherent_step cl h a hs.1) hs.2 hr.2 ?_
    by_cases ha : ∃ r, a = .service r
    · obtain ⟨r, rfl⟩ := ha
      simp only [step]
      split
      · exact e
      · rfl
    · have := command_ed h (fun r e => ha ⟨r, e⟩) hr.1
      rw [this.1, this.2]
      exact e

/-! ### Samples -/

/-- Sequences and leaves. The second object is a leaf that keeps running, the others have nothing to do. -/
def sample : Classes where
  kind sp := if sp.max = some 0 then .leaf else .sequence
  name sp := sp.cls
  env r i := if r = 1 then { hook := [.ok .idle, .ok .running, .ok .idle, .ok .shutdown].getD (i % 4) .err }
    else { hook := [.ok .idle, .ok .idle, .ok .shutdown].getD (i % 3) .err }

theorem sample_ok : sample.Ok := by
  refine ⟨fun sp m h => ?_, fun sp h => ?_⟩
  · simp only [sample] at h
    split at h
    · rename_i e; cases h; exact e
    · cases h
  · simp only [sample] at h
    split at h <;> cases h

/-- A Sequence of two leaves is built, ticked, shut down; one leaf is removed (refused before the SHUTDOWN), and the rest is ticked. -/
def session : List Act :=
  [.service (.add 1 (some {}) none 0 []), .service (.add 2 (some { max := some 0 }) (some 1) 0 []),
   .service (.add 3 (some { max := some 0 }) (some 1) 1 []), .command .tickOnce true, .service (.remove (some 3) false), .command .shutdown true,
   .service (.remove (some 3) false), .command .tickOnce true]

/-- A Sequence with a child and another node beside it; SHUTDOWN. -/
def fragments : List Act :=
  [.service (.add 1 (some {}) none 0 []), .service (.add 2 (some {}) (some 1) 0 []), .service (.add 3 (some {}) none 0 []), .command .shutdown true]

/-- Any two types fit. -/
def anyType : Nat → Nat → Bool := fun _ _ => true

/-- The state after the first `k` actions. -/
def after (as : List Act) (k : Nat) : Sys 2 := run anyType sample (as.take k) (start 2 fun _ => {})

theorem fresh_of {s : St} {i : Id} (h : i ∉ s.nodes.map (·.1)) : Edit.Fresh s i := fun r hr => h (List.mem_map.2 ⟨(i, r), hr, rfl⟩)

theorem session_sane : Sane anyType sample session (start 2 fun _ => {}) := by
  refine ⟨fun r e _ => ?_, fun r e _ => ?_, fun r e _ => ?_, fun r e _ => ?_, fun r e _ => ?_, fun r e _ => ?_, fun r e _ => ?_, fun r e _ => ?_, trivial⟩
  · cases e; exact ⟨fresh_of (by decide +kernel), nofun⟩
  · cases e; exact ⟨fresh_of (by decide +kernel), by decide⟩
  · cases e; exact ⟨fresh_of (by decide +kernel), by decide⟩
  · cases e
  · cases e; exact trivial
  · cases e
  · cases e; exact trivial
  · cases e

theorem fragments_sane : Sane anyType sample fragments (start 2 fun _ => {}) := by
  refine ⟨fun r e _ => ?_, fun r e _ => ?_, fun r e _ => ?_, fun r e _ => ?_, trivial⟩
  · cases e; exact ⟨fresh_of (by decide +kernel), nofun⟩
  · cases e; exact ⟨fresh_of (by decide +kernel), by decide⟩
  · cases e; exact ⟨fresh_of (by decide +kernel), nofun⟩
  · cases e

/-- The session meets the hypotheses: the leaf that is removed was set up and is shut down; at the end the tree of two nodes is ticked and its leaf runs. -/
example : Faithful (fun _ : Nat => ({} : World (Tree 3))) ∧ Sane anyType sample session (start 2 fun _ => {}) ∧ Tame anyType sample session (start 2 fun _ => {}) ∧
    Rooted anyType sample session (start 2 fun _ => {}) ∧ ((after session 4).loc 2).state = .idle ∧ (after session 5).ed.nodes.length = 3 ∧
    (after session 6).mgr.state = .editable ∧ (after session 8).mgr.state = .waiting ∧ (after session 8).ed.nodes = [(1, 0), (2, 1)] ∧
    ((after session 8).loc 1).state = .running ∧ ((after session 8).loc 2).state = .shutdown ∧ (after session 8).ed.nodes.length ≤ 3 := by
  refine ⟨fun i f t h => (nomatch h), session_sane, ?_, ?_, by decide +kernel, by decide +kernel, by decide +kernel, by decide +kernel, by decide +kernel,
    by decide +kernel, by decide +kernel, by decide +kernel⟩
  · refine ⟨?_, ?_, ?_, ?_, ?_, ?_, ?_, ?_, trivial⟩ <;> intro c b e <;> cases e
    · intro _ h; rcases h with h | h <;> cases h
    · intro _ _; decide +kernel
    · intro _ h; rcases h with h | h <;> cases h
  · refine ⟨?_, ?_, ?_, ?_, ?_, ?_, ?_, ?_, trivial⟩ <;> intro b e <;> cases e
    decide +kernel

/-- SHUTDOWN of nodes that do not form a tree: it succeeds, erases the links between nodes, and the published structure still has them. -/
theorem c118_erased : Sane anyType sample fragments (start 2 fun _ => {}) ∧
    (control (ops 3) true .shutdown (after fragments 3).mgr).2.success = true ∧
    (after fragments 3).ed.childIds 0 = [2] ∧ ((after fragments 3).ed.heap 1).parent = some 0 ∧
    (after fragments 4).ed.childIds 0 = [] ∧ ((after fragments 4).ed.heap 1).parent = none ∧
    (after fragments 4).shown = (after fragments 3).shown ∧ (after fragments 4).shown.nodes.map (·.childIds) = [[some 2], [], []] ∧
    (structureMsg (after fragments 4).ed).nodes.map (·.childIds) = [[], [], []] :=
  ⟨fragments_sane, by decide +kernel, by decide +kernel, by decide +kernel, by decide +kernel, by decide +kernel, rfl, by decide +kernel, by decide +kernel⟩

/-- Then a move to the former child is refused as if it would make a cycle, although no node has a parent any more; the attempt publishes the structure,
and the same request is accepted when it is sent again. -/
theorem c118_stale : (∀ r, Reg (after fragments 4).ed r → ((after fragments 4).ed.heap r).parent = none) ∧
    (handle anyType (.move (some 1) (some 2) 0) (after fragments 4).ed).2 = .err ∧
    (handle anyType (.move (some 1) (some 2) 0) (handle anyType (.move (some 1) (some 2) 0) (after fragments 4).ed).1).2 = .ok := by
  refine ⟨?_, by decide +kernel, by decide +kernel⟩
  rintro r ⟨i, hi⟩
  have h : ∀ x ∈ (after fragments 4).ed.nodes, ((after fragments 4).ed.heap x.2).parent = none := by decide +kernel
  exact h _ hi

end Verif.Whole
