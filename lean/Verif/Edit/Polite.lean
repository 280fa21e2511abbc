import Verif.Edit.Exchange

/-! C29: the links agree after every history of polite requests, and how impolite ones break them. -/

set_option autoImplicit false

namespace Verif.Edit

variable {C : Nat → Nat → Bool}

/-- Ids the message lists as children. -/
def TreeMsg.listed (t : TreeMsg) : List Id := (t.nodes.flatMap (·.childIds)).filterMap id

/-- A request that cannot break the links: fresh ids; a node is not morphed into one with too little
room for its children; a loaded message lists no node twice as child. -/
def Req.Polite : Req → St → Prop
  | .add u _ _ _ _, s => Fresh s u
  | .morph (some i) (some sp), s => ∀ r m, (i, r) ∈ s.nodes → sp.max = some m → (s.heap r).children.length ≤ m
  | .load (some t), _ => t.listed.Nodup
  | _, _ => True

theorem Req.Polite.fresh {r : Req} {s : St} (h : r.Polite s) : r.FreshId s := by
  cases r <;> first | exact trivial | exact h

/-! ### Loading -/

theorem empty_inv {s : St} (b : Basic C (fun _ => False) s) (h : s.nodes = []) : Inv C s := by
  have hno : ∀ r, ¬ Reg s r := by rintro r ⟨i, hi⟩; rw [h] at hi; cases hi
  exact ⟨b, fun r hr => absurd hr (hno r), fun r hr => absurd hr (hno r), fun r hr => absurd hr (hno r)⟩

/-- Nodes without links. -/
def Bare (s : St) : Prop := ∀ r, Reg s r → (s.heap r).parent = none ∧ (s.heap r).children = []

theorem instantiate_bare {s : St} (i : Id) (sp : Spec) (d : Dict s) (h : Bare s) : Bare (instantiate s i sp).1 := by
  intro r hr
  rcases (reg_instantiate d i sp r).1 hr with rfl | ⟨j, hj, _⟩
  · simp [instantiate]
  · have := Nat.ne_of_lt (d.alloc _ _ hj)
    simp only [instantiate, if_neg this]
    exact h r ⟨j, hj⟩

theorem loadNodes_bare (ms : List NodeMsg) {s : St} (b : Basic C (fun _ => False) s) (hw : s.wirings = []) (h : Bare s) :
    Bare (loadNodes ms s).1 := by
  induction ms generalizing s with
  | nil => exact h
  | cons m ms ih =>
    unfold loadNodes
    split
    · rename_i i sp _ _
      have b1 : Basic C (fun _ => False) (instantiate s i sp).1 := (instantiate_basic i sp b).strengthen fun j hj => Or.inr (by
        intro w h
        rw [show (instantiate s i sp).1.wirings = s.wirings from rfl, hw] at h
        cases h)
      exact ih b1 hw (instantiate_bare i sp b.dict h)
    · exact h

theorem Bare.links {s : St} (h : Bare s) : LinksOn (Reg s) s.heap :=
  ⟨fun r hr c hc => (by rw [(h r hr).2] at hc; cases hc), fun r hr p hp => (by rw [(h r hr).1] at hp; cases hp),
    fun r hr => (by rw [(h r hr).2]; exact List.nodup_nil)⟩

/-- Nodes whose id is still to be listed have no parent. -/
def Orphans (s : St) (ids : List Id) : Prop := ∀ i ∈ ids, ∀ r, (i, r) ∈ s.nodes → (s.heap r).parent = none

theorem loadChildren_inv (i : Id) (cs : List (Option Id)) (rest : List Id) {s : St} (v : Inv C s) (hn : (cs.filterMap id ++ rest).Nodup)
    (ho : Orphans s (cs.filterMap id ++ rest)) :
    Inv C (loadChildren i cs s).1 ∧ ((loadChildren i cs s).2 = .ok → Orphans (loadChildren i cs s).1 rest) := by
  induction cs generalizing s with
  | nil => exact ⟨v, fun _ => ho⟩
  | cons c cs ih =>
    cases c with
    | none => exact ⟨v, fun h => by cases h⟩
    | some c =>
      simp only [List.filterMap_cons_some (f := (id : Option Id → Option Id)) rfl, List.cons_append, List.nodup_cons] at hn ho
      unfold loadChildren
      split
      · rename_i ri rc hri hrc
        split
        · rename_i s1 h1
          have v1 := addChild_inv v h1 (reg_of_get hri) (reg_of_get hrc) (ho c (by simp) rc (dictGet_mem hrc))
          have a1 := addChild_added h1
          refine ih v1 hn.2 ?_
          intro j hj r hr
          rw [a1.nodes] at hr
          rw [a1.parent, if_neg]
          · exact ho j (by simp [hj]) r hr
          · rintro rfl
            have e1 := v.basic.dict.key _ _ hr
            have e2 := v.basic.dict.key _ _ (dictGet_mem hrc)
            exact hn.1 (by rw [← e2, e1]; exact hj)
        · exact ⟨v, fun h => by cases h⟩
      · exact ⟨v, fun h => by cases h⟩

theorem loadLinks_inv (ms : List NodeMsg) {s : St} (v : Inv C s) (hn : ((ms.flatMap (·.childIds)).filterMap id).Nodup)
    (ho : Orphans s ((ms.flatMap (·.childIds)).filterMap id)) : Inv C (loadLinks ms s).1 := by
  induction ms generalizing s with
  | nil => exact v
  | cons m ms ih =>
    simp only [List.flatMap_cons, List.filterMap_append] at hn ho
    obtain ⟨k1, k2⟩ := loadChildren_inv (m.nid.getD 0) m.childIds _ v hn ho
    unfold loadLinks
    split
    · rename_i s1 h1
      rw [h1] at k1 k2
      exact ih k1 (List.nodup_append.1 hn).2.1 (k2 rfl)
    · rename_i s1 e _ h1
      rw [h1] at k1
      exact k1

theorem loadTree_inv {s : St} (t : TreeMsg) (v : Inv C s) (hn : t.listed.Nodup) : Inv C (loadTree C s (some t)).1 := by
  refine ⟨loadTree_basic (some t) v.basic, ?_⟩
  unfold loadTree
  dsimp only
  have b1 : Basic C (fun _ => False) (edit clear s).1 := edit_basic (clear_basic v.basic)
  have b2 := loadNodes_basic t.nodes b1 rfl
  have hb := loadNodes_bare t.nodes b1 rfl (by rintro r ⟨i, hi⟩; cases hi)
  have v2 : Inv C (loadNodes t.nodes (edit clear s).1).1 := ⟨b2.1, hb.links⟩
  split
  · exact v2.links
  · have v3 := loadLinks_inv t.nodes v2 hn (fun i _ r hr => (hb r ⟨i, hr⟩).1)
    split
    · rename_i s3 h3
      rw [h3] at v3
      split
      · exact v3.links
      · exact v3.links
    · rename_i s3 _ _ h3
      rw [h3] at v3
      exact v3.links

/-! ### All requests -/

theorem morphNode_inv {s : St} (n : Option Id) (sp : Option Spec) (v : Inv C s) (h : (Req.morph n sp).Polite s) :
    Inv C (morphNode C s n sp).1 := by
  refine ⟨morphNode_basic n sp v.basic, ?_⟩
  cases n with
  | none => exact v.links
  | some i =>
    cases hg : dictGet s.nodes i with
    | none => unfold morphNode; simp only [hg]; exact v.links
    | some old =>
      cases sp with
      | none => unfold morphNode; simp only [hg]; exact v.links
      | some sp => exact (morphNode_ok v (dictGet_mem hg) (fun m hm => h old m (dictGet_mem hg) hm)).2.links

theorem setOptions_inv {s : St} (n : Option Id) (sp : Option Spec) (v : Inv C s) : Inv C (setOptions C s n sp).1 := by
  refine ⟨setOptions_basic n sp v.basic, ?_⟩
  cases n with
  | none => exact v.links
  | some i =>
    cases hg : dictGet s.nodes i with
    | none => unfold setOptions; simp only [hg]; exact v.links
    | some old =>
      cases sp with
      | none => unfold setOptions; simp only [hg]; exact v.links
      | some sp => exact (setOptions_ok v (dictGet_mem hg)).2.links

theorem wire_inv {s s' : St} (v : Inv C s) (b : Basic C (fun _ => False) s') (h1 : s'.nodes = s.nodes) (h2 : s'.heap = s.heap) : Inv C s' := by
  refine ⟨b, ?_⟩
  rw [h2]
  exact v.links.congr fun r => by unfold Reg; rw [h1]

theorem handle_inv {s : St} (r : Req) (v : Inv C s) (h : r.Polite s) : Inv C (handle C r s).1 := by
  have b := handle_basic r v.basic h.fresh
  cases r with
  | add u sp p i cs => exact sync_inv (addNode_inv sp p i cs v h)
  | remove n wc => exact sync_inv (removeNode_inv n wc v)
  | morph n sp => exact sync_inv (morphNode_inv n sp v h)
  | setOptions n sp => exact sync_inv (setOptions_inv n sp v)
  | move n p i => exact sync_inv (moveNode_inv n p i v)
  | replace o n => exact sync_inv (replaceNode_inv o n v)
  | wire ws ig =>
    refine wire_inv v b ?_ ?_
    · show (wireData C s ws ig).1.nodes = _
      unfold wireData; split
      · rfl
      · split <;> rfl
    · show (wireData C s ws ig).1.heap = _
      unfold wireData; split
      · rfl
      · split <;> rfl
  | unwire ws ig =>
    refine wire_inv v b ?_ ?_
    · show (unwireData s ws ig).1.nodes = _
      unfold unwireData; split <;> rfl
    · show (unwireData s ws ig).1.heap = _
      unfold unwireData; split <;> rfl
  | load m =>
    cases m with
    | none => exact sync_inv v
    | some t => exact sync_inv (loadTree_inv t v h)
  | reload =>
    show Inv C (sync (reloadTree C s).1)
    refine sync_inv ?_
    unfold reloadTree
    split
    · exact v
    · exact loadTree_inv _ v (by simp [TreeMsg.listed])
  | clear => exact sync_inv (empty_inv (clear_basic v.basic) rfl)
  | rename => exact sync_inv v

/-- All requests of a history satisfy `P` in the state in which they arrive. -/
def Along (C : Nat → Nat → Bool) (P : Req → St → Prop) : List Req → St → Prop
  | [], _ => True
  | r :: rs, s => P r s ∧ Along C P rs (handle C r s).1

instance decAlong (C : Nat → Nat → Bool) (P : Req → St → Prop) [∀ r s, Decidable (P r s)] : (rs : List Req) → (s : St) →
    Decidable (Along C P rs s)
  | [], _ => isTrue trivial
  | _ :: rs, _ => @instDecidableAnd _ _ _ (decAlong C P rs _)

theorem history_inv {s : St} (rs : List Req) (v : Inv C s) (h : Along C Req.Polite rs s) : Inv C (history C rs s) := by
  induction rs generalizing s with
  | nil => exact v
  | cons r rs ih => exact ih (handle_inv r v h.1) h.2

theorem init_inv : Inv C {} := empty_inv init_basic rfl

/-- C29. Links agree after every history of polite requests. Partial: `morph_node` to a class with too
little room, and `load_tree` of a message that lists a node twice as child, are excluded; see
`c29_morph_breaks` and `c29_load_breaks`. -/
theorem c29_links_partial (rs : List Req) (h : Along C Req.Polite rs {}) : LinksAgree (history C rs {}) :=
  (links_iff _).2 (history_inv rs init_inv h).links

/-- C29. Step version: from every tree with agreeing links. -/
theorem c29_step_partial (r : Req) (s : St) (d : Dict s) (hlim : ∀ x m, (s.heap x).spec.max = some m → (s.heap x).children.length ≤ m)
    (hw : ∀ w ∈ s.wirings, WiringValid C s w) (hl : LinksAgree s) (h : r.Polite s) : LinksAgree (handle C r s).1 :=
  (links_iff _).2 (handle_inv r ⟨⟨d, hlim, fun w hm _ => hw w hm⟩, (links_iff s).1 hl⟩ h).links

/-! ### Violations -/

/-- A sequence with two leaves. -/
def exPair : St := history exC [.add 1 (some exSeq) (some 0) (-1) [], .add 2 (some exLeaf) (some 1) (-1) [], .add 3 (some exLeaf) (some 1) (-1) []] {}

/-- C29 is violated: a `morph_node` that is rejected because the new class allows too few children
leaves a node that names a dropped object as parent. -/
theorem c29_morph_breaks :
    (handle exC (.morph (some 1) (some exLeaf)) exPair).2 = .err ∧ ¬ LinksAgree (handle exC (.morph (some 1) (some exLeaf)) exPair).1 := by
  refine ⟨by decide +kernel, fun h => ?_⟩
  obtain ⟨⟨j, hj⟩, _⟩ := h.parent 2 ⟨3, by decide +kernel⟩ 0 (by decide +kernel)
  have : ∀ x ∈ (handle exC (.morph (some 1) (some exLeaf)) exPair).1.nodes, x.2 ≠ 0 := by decide +kernel
  exact this _ hj rfl

/-- C29 is violated: a message that lists a node as child of two nodes is loaded with success; one
of the two parents lists a child that has another parent. -/
theorem c29_load_breaks :
    let t : TreeMsg := ⟨[⟨some 1, some exSeq, [some 2, some 3]⟩, ⟨some 2, some exSeq, [some 3]⟩, ⟨some 3, some exLeaf, []⟩], []⟩
    (handle exC (.load (some t)) {}).2 = .ok ∧ ¬ LinksAgree (handle exC (.load (some t)) {}).1 := by
  refine ⟨by decide +kernel, fun h => ?_⟩
  obtain ⟨_, h2⟩ := h.child 0 ⟨1, by decide +kernel⟩ 2 (by decide +kernel)
  revert h2
  decide +kernel

/-! ### Examples -/

instance (r : Req) (s : St) : Decidable (r.Polite s) := by
  cases r with
  | morph n sp =>
    cases n with
    | none => exact isTrue trivial
    | some i =>
      cases sp with
      | none => exact isTrue trivial
      | some sp =>
        exact decidable_of_iff (∀ x ∈ s.nodes, x.1 = i → ∀ m ∈ sp.max, (s.heap x.2).children.length ≤ m)
          ⟨fun h r m hr hm => h _ hr rfl m hm, fun h x hx he m hm => h x.2 m (he ▸ hx) hm⟩
  | load m =>
    cases m with
    | none => exact isTrue trivial
    | some t => exact inferInstanceAs (Decidable t.listed.Nodup)
  | add u sp p i cs => exact inferInstanceAs (Decidable (Fresh s u))
  | _ => exact isTrue trivial

/-- A history that adds, wires, moves, morphs, replaces, removes and loads. -/
def exLong : List Req := exReqs ++
  [.move (some 4) (some 2) 0, .morph (some 2) (some { exSeq with max := some 2 }), .add 5 (some exSeq) (some 0) 0 [],
   .replace (some 2) (some 5), .remove (some 3) false, .move (some 5) (some 0) 0, .setOptions (some 5) (some exSeq)]

example : Along exC Req.Polite exLong {} ∧ (history exC exLong {}).nodes.length = 3 := by decide +kernel

end Verif.Edit
