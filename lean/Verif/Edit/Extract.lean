import Verif.Edit.Load

/-! C82, C83: taking a part of the tree out, as a message. -/

set_option autoImplicit false

namespace Verif.Edit

variable {C : Nat → Nat → Bool}

/-! ### The model -/

/-- node.py 1079-1167: `get_subtree_msg`. The wirings are made from `subscriptions` and `subscribers` of the nodes; nothing ever writes
these (they are set to empty lists in node.py 184-185), so there are no wirings and no public inputs and outputs. -/
def subtreeMsg (s : St) (r : Ref) : TreeMsg := { nodes := (preorder s s.nodes.length r).map (nodeMsg s), wirings := [] }

/-- tree_edit_manager.py 987-1012: `get_subtree`; `none`: no success. -/
def getSubtree (s : St) (root : Option Id) : Option TreeMsg :=
  (root.bind (dictGet s.nodes)).map (subtreeMsg s)

/-- tree_edit_manager.py 1041-1044: is the node put into `nodes_to_keep`? -/
def keeps (ids : List Id) (m : NodeMsg) : Bool := ids.any fun i => m.nid = some i || some i ∈ m.childIds

/-- tree_edit_manager.py 1034-1051: the ids in `nodes_to_remove`. -/
def toRemove (t : TreeMsg) (ids : List Id) : List Id := (t.nodes.filter fun m => !keeps ids m).filterMap (·.nid)

/-- tree_edit_manager.py 1015-1094: `generate_subtree`; `none`: no success. `shuffle` is the order in which Python goes through the set
`nodes_to_remove`. The temporary manager is an empty one. -/
def generateSubtree (C : Nat → Nat → Bool) (s : St) (ids : List Id) (shuffle : List Id → List Id) : Option TreeMsg :=
  match findRoot s with
  | some (some _) =>
    let t := structureMsg s
    let a := handle C (.load (some t)) {}
    if a.2 = .ok then
      let s' := (shuffle (toRemove t ids)).foldl (fun s i => (handle C (.remove (some i) false) s).1) a.1
      (findRoot s').map fun _ => structureMsg s'
    else none
  | _ => none

/-! ### What is wanted -/

/-- The message lists exactly the nodes in `P`, each once, as they are in the tree but without the children that are not in `P`. -/
structure Lists (s : St) (P : Id → Prop) (t : TreeMsg) : Prop where
  once : (t.nodes.map (·.nid)).Nodup
  ids : ∀ j, some j ∈ t.nodes.map (·.nid) ↔ P j
  node : ∀ m ∈ t.nodes, ∃ (j : Id) (l : List Id), m.nid = some j ∧ m.spec = specOf s j ∧ m.childIds = l.map some ∧ l.Sublist (kids s j) ∧
    ∀ k ∈ kids s j, k ∈ l ↔ P k

/-- The wirings of the message are those between nodes in `P`. -/
def WiresAmong (s : St) (P : Id → Prop) (t : TreeMsg) : Prop :=
  ∀ w, w ∈ t.wirings ↔ w ∈ s.wirings ∧ (∀ a, w.src = some a → P a) ∧ ∀ a, w.tgt = some a → P a

/-- Exactly one node in `P` has no parent in `P`. -/
def Rooted (s : St) (P : Id → Prop) : Prop :=
  ∃ i, (P i ∧ ∀ p, parentOf s i = some p → ¬ P p) ∧ ∀ j, P j → (∀ p, parentOf s j = some p → ¬ P p) → j = i

/-- There is such a node. -/
def Present (s : St) (j : Id) : Prop := specOf s j ≠ none

/-- The nodes named in a request to `generate_subtree`, and their parents. -/
def Kept (s : St) (ids : List Id) (j : Id) : Prop := Present s j ∧ (j ∈ ids ∨ ∃ k ∈ ids, k ∈ kids s j)

/-! ### Messages made of nodes of the tree -/

/-- The listing of some nodes. -/
def listingOf (s : St) (refs : List Ref) : Listing := refs.map fun r => ((s.heap r).nid, (s.heap r).spec, s.childIds r)

theorem listingOf_msgs (s : St) (refs : List Ref) : (listingOf s refs).msgs = refs.map (nodeMsg s) := by
  show List.map _ (List.map _ refs) = _
  rw [List.map_map]; rfl

theorem mem_listingOf {s : St} {refs : List Ref} {x : Id × Spec × List Id} :
    x ∈ listingOf s refs ↔ ∃ r ∈ refs, x = ((s.heap r).nid, (s.heap r).spec, s.childIds r) := by
  show x ∈ List.map _ refs ↔ _
  rw [List.mem_map]
  constructor
  · rintro ⟨r, h1, h2⟩; exact ⟨r, h1, h2.symm⟩
  · rintro ⟨r, h1, h2⟩; exact ⟨r, h1, h2.symm⟩

theorem listingOf_fine {s : St} (v : Inv C s) {refs : List Ref} (hn : refs.Nodup) (hr : ∀ r ∈ refs, Reg s r)
    (hc : ∀ r ∈ refs, ∀ c ∈ (s.heap r).children, c ∈ refs) : (listingOf s refs).Fine := by
  have d := v.basic.dict
  have l := v.links
  have hinj : ∀ x y, Reg s x → Reg s y → (s.heap x).nid = (s.heap y).nid → x = y := fun x y hx hy => d.inj hx hy
  refine ⟨?_, ?_, ?_, ?_⟩
  · show (List.map _ (List.map _ refs)).Nodup
    rw [List.map_map]
    unfold List.Nodup at hn ⊢
    rw [List.pairwise_map]
    exact hn.imp_of_mem fun {a b} h1 h2 hne e => hne (hinj a b (hr a h1) (hr b h2) e)
  · show (List.flatMap _ (List.map _ refs)).Nodup
    unfold List.Nodup
    rw [List.flatMap_map, List.pairwise_flatMap]
    refine ⟨?_, ?_⟩
    · intro r h
      have hR := hr r h
      show List.Pairwise _ (List.map _ _)
      rw [List.pairwise_map]
      exact (l.nodup r hR).imp_of_mem fun {a b} h1 h2 hne e => hne (hinj a b (l.down r hR a h1).1 (l.down r hR b h2).1 e)
    · refine List.Pairwise.imp_of_mem ?_ hn
      intro r1 r2 h1 h2 hne x hx y hy e
      subst e
      obtain ⟨c1, hc1, e1⟩ := List.mem_map.1 hx
      obtain ⟨c2, hc2, e2⟩ := List.mem_map.1 hy
      have k1 := l.down r1 (hr r1 h1) c1 hc1
      have k2 := l.down r2 (hr r2 h2) c2 hc2
      have := hinj c1 c2 k1.1 k2.1 (e1.trans e2.symm)
      subst this
      rw [k1.2] at k2
      exact hne (by simpa using k2.2)
  · intro c h
    obtain ⟨x, hx, hcx⟩ := List.mem_flatMap.1 h
    obtain ⟨r, hrr, rfl⟩ := mem_listingOf.1 hx
    obtain ⟨y, hy, rfl⟩ := List.mem_map.1 hcx
    exact List.mem_map.2 ⟨_, mem_listingOf.2 ⟨y, hc r hrr y hy, rfl⟩, rfl⟩
  · intro x hx m hm
    obtain ⟨r, hrr, rfl⟩ := mem_listingOf.1 hx
    have := v.basic.lim r m hm
    simp only [St.childIds, List.length_map]
    exact this

/-! ### The nodes below a node -/

theorem Climb.det {s : St} {k n : Nat} {a b c : Ref} (h1 : Climb s k a b) (h2 : Climb s n a c) (hc : (s.heap c).parent = none) : k ≤ n := by
  induction k generalizing a n with
  | zero => omega
  | succ k ih =>
    obtain ⟨p, hp, h1⟩ := h1
    cases n with
    | zero => cases h2; rw [hp] at hc; cases hc
    | succ n =>
      obtain ⟨q, hq, h2⟩ := h2
      rw [hp] at hq; cases hq
      have := ih h1 h2
      omega

theorem climb_of_above {s : St} {a b : Ref} (h : Above s.heap a b) : ∃ k, Climb s k a b := by
  induction h with
  | one e => exact ⟨1, _, e, rfl⟩
  | more e _ ih => obtain ⟨k, hk⟩ := ih; exact ⟨k + 1, _, e, hk⟩

theorem mem_preorder {s : St} (v : Inv2 C s) {r x : Ref} (hr : Reg s r) :
    x ∈ preorder s s.nodes.length r ↔ Reg s x ∧ (x = r ∨ Above s.heap x r) := by
  constructor
  · exact preorder_sound v.links _ hr
  · rintro ⟨hx, h⟩
    have hpos : 0 < s.nodes.length := by
      obtain ⟨i, hi⟩ := hx
      exact List.length_pos_of_mem hi
    obtain ⟨k, hk⟩ : ∃ k, Climb s k x r := by
      rcases h with rfl | h
      · exact ⟨0, rfl⟩
      · exact climb_of_above h
    obtain ⟨n, y, h1, h2, h3⟩ := up_to_top v.links v.acyc (s.nodes.length - 1) x [] hx (by simp) (by simp) (by simp; omega)
    have := Climb.det hk h2 h3
    exact preorder_le (by omega) (preorder_up v.links k hx hk)

/-- The nodes `refs` as a message. -/
theorem lists_refs {s : St} (v : Inv C s) {refs : List Ref} {P : Id → Prop} {t : TreeMsg} (ht : t.nodes = refs.map (nodeMsg s)) (hn : refs.Nodup)
    (hr : ∀ r ∈ refs, Reg s r) (hP : ∀ j r, (j, r) ∈ s.nodes → (r ∈ refs ↔ P j)) (hex : ∀ j, P j → ∃ r, (j, r) ∈ s.nodes)
    (hc : ∀ r ∈ refs, ∀ c ∈ (s.heap r).children, c ∈ refs) : Lists s P t := by
  have d := v.basic.dict
  have hF := listingOf_fine v hn hr hc
  refine ⟨?_, ?_, ?_⟩
  · rw [ht, List.map_map]
    have := hF.ids
    rw [listingOf, List.map_map] at this
    unfold List.Nodup at this ⊢
    rw [List.pairwise_map] at this ⊢
    exact this.imp fun {a b} h e => h (Option.some.inj e)
  · intro j
    rw [ht, List.map_map, List.mem_map]
    constructor
    · rintro ⟨r, h1, h2⟩
      obtain ⟨i, hi⟩ := hr r h1
      have e : (s.heap r).nid = j := Option.some.inj h2
      rw [d.key i r hi] at e
      subst e
      exact (hP i r hi).1 h1
    · intro h
      obtain ⟨r, h1⟩ := hex j h
      exact ⟨r, (hP j r h1).2 h, congrArg some (d.key j r h1)⟩
  · intro m hm
    rw [ht] at hm
    obtain ⟨r, h1, rfl⟩ := List.mem_map.1 hm
    obtain ⟨i, hi⟩ := hr r h1
    refine ⟨i, s.childIds r, congrArg some (d.key i r hi), (specOf_reg d hi).symm, rfl, ?_, ?_⟩
    · rw [kids_reg d hi]; exact List.Sublist.refl _
    · intro k hk
      rw [kids_reg d hi] at hk
      refine ⟨fun _ => ?_, fun _ => hk⟩
      obtain ⟨c, hcc, rfl⟩ := List.mem_map.1 hk
      obtain ⟨j, hj⟩ := (v.links.down r (hr r h1) c hcc).1
      rw [d.key j c hj]
      exact (hP j c hj).1 (hc r h1 c hcc)

theorem preorder_closed {s : St} (v : Inv2 C s) {r : Ref} (hr : Reg s r) : ∀ x ∈ preorder s s.nodes.length r, ∀ c ∈ (s.heap x).children,
    c ∈ preorder s s.nodes.length r := by
  intro x hx c hc
  obtain ⟨h1, h2⟩ := (mem_preorder v hr).1 hx
  obtain ⟨h3, h4⟩ := v.links.down x h1 c hc
  refine (mem_preorder v hr).2 ⟨h3, Or.inr ?_⟩
  rcases h2 with rfl | h2
  · exact .one h4
  · exact .more h4 h2

/-- C82: `get_subtree` for a node answers with exactly this node and the nodes below it, with specs and children; for an unknown node
there is no success. Partial: without the wirings, see `c82_wirings_lost`. -/
theorem c82_nodes_partial (rs : List Req) (h : Along C Req.Careful rs {}) (i : Id) :
    let s := history C rs {}
    (getSubtree s (some i) = none ↔ specOf s i = none) ∧
    ∀ t, getSubtree s (some i) = some t → Lists s (fun j => j = i ∨ Below s i j) t ∧ t.nodes.head?.map (·.nid) = some (some i) := by
  have v := (history_inv3 rs init_inv3 h).toInv2
  generalize history C rs {} = s at *
  have d := v.basic.dict
  dsimp only
  cases hg : dictGet s.nodes i with
  | none => simp [getSubtree, hg, specOf]
  | some r =>
    have hr := dictGet_mem hg
    refine ⟨by simp [getSubtree, hg, specOf], fun t ht => ?_⟩
    have ht : subtreeMsg s r = t := by simpa [getSubtree, hg] using ht
    subst ht
    refine ⟨lists_refs v.toInv rfl (preorder_nodup v.links v.acyc _ ⟨i, hr⟩) (fun x hx => ((mem_preorder v ⟨i, hr⟩).1 hx).1) ?_ ?_
      (preorder_closed v ⟨i, hr⟩), ?_⟩
    · intro j x hj
      rw [mem_preorder v ⟨i, hr⟩, below_iff v.toInv hr]
      constructor
      · rintro ⟨_, rfl | h⟩
        · exact Or.inl (by rw [← d.key j x hj, d.key i x hr])
        · exact Or.inr ⟨x, hj, h⟩
      · rintro (rfl | ⟨y, hy, hab⟩)
        · have e1 := mem_dictGet d.keys hj
          have e2 := mem_dictGet d.keys hr
          rw [e1] at e2; cases e2
          exact ⟨⟨_, hj⟩, Or.inl rfl⟩
        · have e1 := mem_dictGet d.keys hj
          have e2 := mem_dictGet d.keys hy
          rw [e1] at e2; cases e2
          exact ⟨⟨_, hj⟩, Or.inr hab⟩
    · rintro j (rfl | hb)
      · exact ⟨r, hr⟩
      · exact below_exists v.toInv hb
    · have : 0 < s.nodes.length := List.length_pos_of_mem hr
      obtain ⟨n, hn⟩ : ∃ n, s.nodes.length = n + 1 := ⟨s.nodes.length - 1, by omega⟩
      rw [subtreeMsg, hn]
      simp [preorder, nodeMsg, d.key i r hr]

/-- C82: the message of `get_subtree` can be loaded into any manager, and gives the nodes below the node, with the same links. -/
theorem c82_load (rs : List Req) (h : Along C Req.Careful rs {}) (i : Id) (t : TreeMsg) (ht : getSubtree (history C rs {}) (some i) = some t) (s0 : St) :
    let s := history C rs {}
    let a := handle C (.load (some t)) s0
    a.2 = .ok ∧ (∀ j, (j = i ∨ Below s i j) → specOf a.1 j = specOf s j ∧ kids a.1 j = kids s j) ∧
    (∀ j, ¬ (j = i ∨ Below s i j) → specOf a.1 j = none) ∧ parentOf a.1 i = none ∧ ∀ j, Below s i j → parentOf a.1 j = parentOf s j := by
  have v := (history_inv3 rs init_inv3 h).toInv2
  generalize history C rs {} = s at *
  have d := v.basic.dict
  dsimp only
  cases hg : dictGet s.nodes i with
  | none => simp [getSubtree, hg] at ht
  | some r =>
    have hr := dictGet_mem hg
    have ht : subtreeMsg s r = t := by simpa [getSubtree, hg] using ht
    subst ht
    have hreg : ∀ x ∈ preorder s s.nodes.length r, Reg s x := fun x hx => ((mem_preorder v ⟨i, hr⟩).1 hx).1
    have hF := listingOf_fine v.toInv (preorder_nodup v.links v.acyc _ ⟨i, hr⟩) hreg (preorder_closed v ⟨i, hr⟩)
    obtain ⟨k1, k2, k3, k4, k5⟩ := c37_load (C := C) _ hF [] (by intro w hw; cases hw) s0
    rw [listingOf_msgs] at k1 k2 k3 k4 k5
    have hin : ∀ j, (j = i ∨ Below s i j) → ∃ x, (j, x) ∈ s.nodes ∧ x ∈ preorder s s.nodes.length r := by
      rintro j (rfl | hb)
      · exact ⟨r, hr, (mem_preorder v ⟨_, hr⟩).2 ⟨⟨_, hr⟩, Or.inl rfl⟩⟩
      · obtain ⟨x, hx, hab⟩ := (below_iff v.toInv hr).1 hb
        exact ⟨x, hx, (mem_preorder v ⟨_, hr⟩).2 ⟨⟨_, hx⟩, Or.inr hab⟩⟩
    refine ⟨k1, ?_, ?_, ?_, ?_⟩
    · intro j hj
      obtain ⟨x, hx, hm⟩ := hin j hj
      have := k3 _ (mem_listingOf.2 ⟨x, hm, rfl⟩)
      dsimp only at this
      rw [d.key j x hx] at this
      exact ⟨by rw [specOf_reg d hx]; exact this.1, by rw [kids_reg d hx]; exact this.2.1⟩
    · intro j hj
      refine (k4 j ?_).1
      intro hm
      obtain ⟨x, hx, rfl⟩ := List.mem_map.1 hm
      obtain ⟨y, hy, rfl⟩ := mem_listingOf.1 hx
      obtain ⟨⟨k, hk⟩, h2⟩ := (mem_preorder v ⟨i, hr⟩).1 hy
      apply hj
      dsimp only
      rcases h2 with rfl | h2
      · exact Or.inl (d.key i _ hr)
      · right
        rw [d.key k y hk]
        exact (below_iff v.toInv hr).2 ⟨y, hk, h2⟩
    · refine k5 i ?_
      intro hm
      obtain ⟨x, hx, hc⟩ := List.mem_flatMap.1 hm
      obtain ⟨y, hy, rfl⟩ := mem_listingOf.1 hx
      obtain ⟨c, hcc, e⟩ := List.mem_map.1 hc
      obtain ⟨h1, h2⟩ := (mem_preorder v ⟨i, hr⟩).1 hy
      obtain ⟨h3, h4⟩ := v.links.down y h1 c hcc
      have : c = r := d.inj h3 ⟨i, hr⟩ (by rw [e, d.key i r hr])
      subst this
      rcases h2 with rfl | h2
      · exact v.acyc _ h1 (.one h4)
      · exact v.acyc _ h3 (.more h4 h2)
    · intro j hb
      obtain ⟨x, hx, hab⟩ := (below_iff v.toInv hr).1 hb
      obtain ⟨p, hp, hpr⟩ : ∃ p, (s.heap x).parent = some p ∧ (p = r ∨ Above s.heap p r) := by
        cases hab with
        | one e => exact ⟨_, e, Or.inl rfl⟩
        | more e h => exact ⟨_, e, Or.inr h⟩
      obtain ⟨⟨q, hq⟩, hch⟩ := v.links.up x ⟨j, hx⟩ p hp
      have := (k3 _ (mem_listingOf.2 ⟨p, (mem_preorder v ⟨_, hr⟩).2 ⟨⟨_, hq⟩, hpr⟩, rfl⟩)).2.2 j
        (List.mem_map.2 ⟨x, hch, d.key j x hx⟩)
      rw [parentOf_reg d hx, hp]
      exact this

/-! ### Generating a subtree -/

theorem present_iff {s : St} {j : Id} : Present s j ↔ ∃ r, (j, r) ∈ s.nodes := by
  unfold Present
  rw [Ne, specOf_none]
  cases hg : dictGet s.nodes j with
  | none => exact ⟨fun h => absurd rfl h, fun ⟨r, hr⟩ => absurd hr (dictGet_none hg r)⟩
  | some r => exact ⟨fun _ => ⟨r, dictGet_mem hg⟩, fun _ h => by cases h⟩

theorem findRoot_ids {s : St} (v : Inv2 C s) : (∃ r, findRoot s = some (some r)) ↔ Rooted s (Present s) := by
  have d := v.basic.dict
  have hl := (links_iff s).2 v.links
  have top : ∀ j r, (j, r) ∈ s.nodes → ((∀ p, parentOf s j = some p → ¬ Present s p) ↔ (s.heap r).parent = none) := by
    intro j r hr
    rw [parentOf_reg d hr]
    cases hp : (s.heap r).parent with
    | none => simp
    | some p =>
      obtain ⟨⟨q, hq⟩, _⟩ := v.links.up r ⟨j, hr⟩ p hp
      constructor
      · intro h
        exact absurd (present_iff.2 ⟨p, by dsimp only; rw [d.key q p hq]; exact hq⟩) (h _ rfl)
      · intro h; cases h
  constructor
  · rintro ⟨r, h⟩
    obtain ⟨⟨⟨i, hi⟩, h1⟩, h2⟩ := (c34_root_parent s d hl r).1 h
    refine ⟨i, ⟨present_iff.2 ⟨r, hi⟩, (top i r hi).2 h1⟩, ?_⟩
    intro j hj ht
    obtain ⟨x, hx⟩ := present_iff.1 hj
    have := h2 x ⟨j, hx⟩ ((top j x hx).1 ht)
    subst this
    rw [← d.key j x hx, d.key i x hi]
  · rintro ⟨i, ⟨hi, ht⟩, hu⟩
    obtain ⟨r, hr⟩ := present_iff.1 hi
    refine ⟨r, (c34_root_parent s d hl r).2 ⟨⟨⟨i, hr⟩, (top i r hr).1 ht⟩, ?_⟩⟩
    rintro x ⟨j, hx⟩ hp
    have := hu j (present_iff.2 ⟨x, hx⟩) ((top j x hx).2 hp)
    subst this
    have e1 := mem_dictGet d.keys hr
    have e2 := mem_dictGet d.keys hx
    rw [e1] at e2; cases e2; rfl

/-- The message of a tree may be loaded carefully. -/
theorem careful_load {s : St} (v : Inv2 C s) (s0 : St) : (Req.load (some (structureMsg s))).Careful s0 := by
  have d := v.basic.dict
  have l := v.links
  obtain ⟨refs, hn, hmem, he⟩ := published v
  have hF := listingOf_fine v.toInv hn (fun r h => (hmem r).1 h) (fun r h c hc => (hmem c).2 (l.down r ((hmem r).1 h) c hc).1)
  refine ⟨?_, ?_⟩
  · have := hF.once
    unfold TreeMsg.listed
    rw [he]
    have e : (List.flatMap (fun x : NodeMsg => x.childIds) (refs.map (nodeMsg s))).filterMap id = (listingOf s refs).flatMap (·.2.2) := by
      unfold listingOf
      clear this hF he hmem hn
      induction refs with
      | nil => rfl
      | cons r refs ih =>
        simp only [List.map_cons, List.flatMap_cons, List.filterMap_append]
        rw [ih]
        congr 1
        show List.filterMap id (List.map some _) = _
        rw [List.filterMap_map]
        exact List.filterMap_some
    rw [e]; exact this
  · have hd : ∀ r, Reg s r → ∃ k, ∃ y, Climb s k r y ∧ (s.heap y).parent = none := by
      intro r hr
      have hpos : 0 < s.nodes.length := by
        obtain ⟨i, hi⟩ := hr
        exact List.length_pos_of_mem hi
      obtain ⟨n, y, _, h2, h3⟩ := up_to_top l v.acyc (s.nodes.length - 1) r [] hr (by simp) (by simp) (by simp; omega)
      exact ⟨n, y, h2, h3⟩
    have hrank : ∃ rank : Id → Nat, ∀ i r, (i, r) ∈ s.nodes → ∃ y, Climb s (rank i) r y ∧ (s.heap y).parent = none := by
      have : ∀ i, ∃ k, ∀ r, (i, r) ∈ s.nodes → ∃ y, Climb s k r y ∧ (s.heap y).parent = none := by
        intro i
        cases hg : dictGet s.nodes i with
        | none => exact ⟨0, fun r hr => absurd hr (dictGet_none hg r)⟩
        | some r =>
          obtain ⟨k, hk⟩ := hd r ⟨i, dictGet_mem hg⟩
          refine ⟨k, fun x hx => ?_⟩
          rw [mem_dictGet d.keys hx] at hg
          cases hg; exact hk
      exact ⟨fun i => Classical.choose (this i), fun i => Classical.choose_spec (this i)⟩
    obtain ⟨rank, hrank⟩ := hrank
    refine ⟨rank, ?_⟩
    intro m hm i hi c hc
    rw [he] at hm
    obtain ⟨r, hr, rfl⟩ := List.mem_map.1 hm
    obtain ⟨j, hj⟩ := (hmem r).1 hr
    have e : j = i := by rw [← d.key j r hj]; exact Option.some.inj hi
    subst e
    obtain ⟨k, hk, e⟩ := List.mem_map.1 hc
    cases e
    obtain ⟨x, hx, rfl⟩ := List.mem_map.1 hk
    obtain ⟨⟨q, hq⟩, hp⟩ := l.down r ⟨j, hj⟩ x hx
    rw [d.key q x hq]
    obtain ⟨y, h1, h2⟩ := hrank j r hj
    obtain ⟨z, h3, h4⟩ := hrank q x hq
    have : Climb s (rank j + 1) x y := ⟨r, hp, h1⟩
    have := Climb.det this h3 h4
    omega

theorem along_append {P : Req → St → Prop} (rs : List Req) (r : Req) : ∀ s : St, Along C P rs s → P r (history C rs s) → Along C P (rs ++ [r]) s := by
  induction rs with
  | nil => intro s _ h; exact ⟨h, trivial⟩
  | cons a rs ih => intro s h1 h2; exact ⟨h1.1, ih _ h1.2 h2⟩

theorem along_imp {P Q : Req → St → Prop} (h : ∀ r s, P r s → Q r s) (rs : List Req) : ∀ s : St, Along C P rs s → Along C Q rs s := by
  induction rs with
  | nil => intro s _; exact trivial
  | cons a rs ih => intro s h1; exact ⟨h _ _ h1.1, ih _ h1.2⟩

theorem history_append (rs : List Req) (r : Req) (s : St) : history C (rs ++ [r]) s = (handle C r (history C rs s)).1 := by
  unfold history; rw [List.foldl_append]; rfl

/-- What is left after removing the nodes `del`, one after the other. -/
structure Without (s s' : St) (del : List Id) : Prop where
  spec : ∀ j, j ∉ del → specOf s' j = specOf s j
  gone : ∀ j, j ∈ del → specOf s' j = none
  kids : ∀ j, j ∉ del → (kids s' j).Sublist (kids s j) ∧ ∀ k ∈ kids s j, k ∈ Edit.kids s' j ↔ k ∉ del
  parent : ∀ j, j ∉ del → ∀ k, parentOf s' j = some k ↔ parentOf s j = some k ∧ k ∉ del
  wirings : ∀ w, w ∈ s'.wirings ↔ w ∈ s.wirings ∧ ∀ a ∈ del, w.src ≠ some a ∧ w.tgt ≠ some a

theorem removes (del : List Id) : ∀ (rs : List Req), Along C Req.Careful rs {} → del.Nodup → (∀ i ∈ del, Present (history C rs {}) i) →
    let s' := del.foldl (fun s i => (handle C (.remove (some i) false) s).1) (history C rs {})
    Inv2 C s' ∧ Without (history C rs {}) s' del := by
  induction del with
  | nil =>
    intro rs h _ _
    refine ⟨(history_inv3 rs init_inv3 h).toInv2, ?_⟩
    constructor <;> simp
  | cons i del ih =>
    intro rs h hn hex
    obtain ⟨hi, hn⟩ := List.nodup_cons.1 hn
    have hok : (handle C (.remove (some i) false) (history C rs {})).2 = .ok := by
      obtain ⟨r, hr⟩ := present_iff.1 (hex i (by simp))
      have d := (history_inv3 rs init_inv3 h).basic.dict
      show (removeNode _ _ _).2 = _
      unfold removeNode
      simp [mem_dictGet d.keys hr]
    obtain ⟨k1, k2, _, k4, k5, k6⟩ := c35_remove rs (along_imp (fun _ _ h => h.polite) rs _ h) i false hok
    have hg : ∀ j, (j = i ∨ (false = true ∧ Below (history C rs {}) i j)) ↔ j = i := by simp
    dsimp only at k1 k2 k4 k5 k6
    simp only [hg] at k1 k2 k4 k5 k6
    have := ih (rs ++ [.remove (some i) false]) (along_append rs (.remove (some i) false) _ h trivial) hn (by
      intro j hj
      unfold Present
      rw [history_append, k2 j (fun e => hi (e ▸ hj))]
      exact hex j (by simp [hj]))
    rw [history_append] at this
    obtain ⟨v, w⟩ := this
    dsimp only [List.foldl_cons]
    refine ⟨v, ?_⟩
    generalize (List.foldl (fun s i => (handle C (.remove (some i) false) s).1) (handle C (.remove (some i) false) (history C rs {})).1 del) = s2 at *
    constructor
    · intro j hj
      simp only [List.mem_cons, not_or] at hj
      rw [w.spec j hj.2, k2 j hj.1]
    · intro j hj
      by_cases hd : j ∈ del
      · exact w.gone j hd
      · have : j = i := by simpa [hd] using hj
        rw [w.spec j hd]; exact k1 j this
    · intro j hj
      simp only [List.mem_cons, not_or] at hj
      obtain ⟨a1, a2⟩ := w.kids j hj.2
      obtain ⟨b1, b2⟩ := k4 j hj.1
      refine ⟨a1.trans b1, fun k hk => ?_⟩
      simp only [List.mem_cons, not_or]
      constructor
      · intro hm
        have := a1.subset hm
        exact ⟨(b2 k hk).1 this, (a2 k this).1 hm⟩
      · rintro ⟨e1, e2⟩
        have := (b2 k hk).2 e1
        exact (a2 k this).2 e2
    · intro j hj k
      simp only [List.mem_cons, not_or] at hj ⊢
      rw [w.parent j hj.2, k5 j hj.1, and_assoc]
    · intro x
      rw [w.wirings, k6]
      simp only [List.mem_cons, forall_eq_or_imp, forall_eq]
      rw [and_assoc]

theorem view_spec {s s' : St} (h : view s' = view s) : (∀ j, specOf s' j = specOf s j) ∧ (∀ j, kids s' j = kids s j) ∧
    (∀ j, parentOf s' j = parentOf s j) ∧ s'.wirings = s.wirings := by
  have hn : ∀ j, (view s').node j = (view s).node j := fun j => by rw [h]
  refine ⟨fun j => ?_, fun j => ?_, fun j => ?_, ?_⟩
  · have := congrArg (Option.map (·.1)) (hn j)
    simpa [view, specOf, Function.comp_def] using this
  · have := congrArg (fun o => (o.map (·.2.2)).getD []) (hn j)
    simpa [view, kids, Function.comp_def] using this
  · have := congrArg (fun o => o.bind (·.2.1)) (hn j)
    simpa [view, parentOf, Function.comp_def, Option.bind_map] using this
  · exact congrArg View.wirings h

theorem mem_toRemove {s : St} (v : Inv2 C s) (ids : List Id) : (toRemove (structureMsg s) ids).Nodup ∧
    ∀ j, j ∈ toRemove (structureMsg s) ids ↔ Present s j ∧ ¬ Kept s ids j := by
  have d := v.basic.dict
  obtain ⟨refs, hn, hmem, he⟩ := published v
  have e : toRemove (structureMsg s) ids = (refs.filter fun r => !keeps ids (nodeMsg s r)).map fun r => (s.heap r).nid := by
    unfold toRemove
    rw [he, List.filter_map, List.filterMap_map]
    have : ((fun x : NodeMsg => x.nid) ∘ nodeMsg s) = some ∘ fun r => (s.heap r).nid := rfl
    rw [this, ← List.filterMap_map]
    exact List.filterMap_some
  have hk : ∀ j r, (j, r) ∈ s.nodes → (keeps ids (nodeMsg s r) = true ↔ Kept s ids j) := by
    intro j r hr
    unfold keeps Kept
    rw [List.any_eq_true]
    simp only [Bool.or_eq_true, decide_eq_true_eq]
    have h1 : (nodeMsg s r).nid = some j := congrArg some (d.key j r hr)
    have h2 : ∀ k, some k ∈ (nodeMsg s r).childIds ↔ k ∈ kids s j := by
      intro k
      rw [kids_reg d hr]
      show some k ∈ List.map some _ ↔ _
      simp
    simp only [h1, h2, Option.some.injEq]
    constructor
    · rintro ⟨k, h3, rfl | h4⟩
      · exact ⟨present_iff.2 ⟨r, hr⟩, Or.inl h3⟩
      · exact ⟨present_iff.2 ⟨r, hr⟩, Or.inr ⟨k, h3, h4⟩⟩
    · rintro ⟨_, h3 | ⟨k, h3, h4⟩⟩
      · exact ⟨j, h3, Or.inl rfl⟩
      · exact ⟨k, h3, Or.inr h4⟩
  rw [e]
  constructor
  · unfold List.Nodup
    rw [List.pairwise_map]
    exact (hn.sublist List.filter_sublist).imp_of_mem fun {a b} h1 h2 hne e =>
      hne (d.inj ((hmem a).1 (List.mem_filter.1 h1).1) ((hmem b).1 (List.mem_filter.1 h2).1) e)
  · intro j
    rw [List.mem_map]
    constructor
    · rintro ⟨r, h1, h2⟩
      obtain ⟨h3, h4⟩ := List.mem_filter.1 h1
      obtain ⟨i, hi⟩ := (hmem r).1 h3
      rw [d.key i r hi] at h2
      subst h2
      refine ⟨present_iff.2 ⟨r, hi⟩, fun hK => ?_⟩
      rw [(hk i r hi).2 hK] at h4
      cases h4
    · rintro ⟨h1, h2⟩
      obtain ⟨r, hr⟩ := present_iff.1 h1
      refine ⟨r, List.mem_filter.2 ⟨(hmem r).2 ⟨j, hr⟩, ?_⟩, d.key j r hr⟩
      cases hb : keeps ids (nodeMsg s r) with
      | false => rfl
      | true => exact absurd ((hk j r hr).1 hb) h2

/-- What `generate_subtree` computes. -/
theorem generate_spec (rs : List Req) (h : Along C Req.Careful rs {}) (hk : KeysUnique (history C rs {})) (ids : List Id)
    (shuffle : List Id → List Id) (hs : ∀ l, (shuffle l).Perm l) :
    let s := history C rs {}
    (Rooted s (Present s) ∧ ((∀ j, ¬ Kept s ids j) ∨ Rooted s (Kept s ids)) ↔ generateSubtree C s ids shuffle ≠ none) ∧
    ∀ t, generateSubtree C s ids shuffle = some t → Lists s (Kept s ids) t ∧ WiresAmong s (Kept s ids) t := by
  have v := (history_inv3 rs init_inv3 h).toInv2
  generalize history C rs {} = s at *
  obtain ⟨rok, rv⟩ := round_trip v hk {}
  obtain ⟨e1, e2, e3, e4⟩ := view_spec rv
  obtain ⟨n1, n2⟩ := mem_toRemove v ids
  have hp := hs (toRemove (structureMsg s) ids)
  have hhist : history C [.load (some (structureMsg s))] {} = (handle C (.load (some (structureMsg s))) {}).1 := rfl
  obtain ⟨v', w⟩ := removes (C := C) (shuffle (toRemove (structureMsg s) ids)) [.load (some (structureMsg s))] ⟨careful_load v _, trivial⟩
    (hp.nodup_iff.2 n1) (fun i hi => by
      have := ((n2 i).1 (hp.mem_iff.1 hi)).1
      unfold Present at this ⊢
      rw [hhist, e1]; exact this)
  rw [hhist] at v' w
  have hx : ∀ j, j ∈ shuffle (toRemove (structureMsg s) ids) ↔ Present s j ∧ ¬ Kept s ids j := fun j => hp.mem_iff.trans (n2 j)
  dsimp only
  have : Decidable (∃ r, findRoot s = some (some r)) := Classical.propDecidable _
  have hgen : generateSubtree C s ids shuffle = if (∃ r, findRoot s = some (some r)) then
      (findRoot ((shuffle (toRemove (structureMsg s) ids)).foldl (fun s i => (handle C (.remove (some i) false) s).1)
        (handle C (.load (some (structureMsg s))) {}).1)).map fun _ =>
        structureMsg ((shuffle (toRemove (structureMsg s) ids)).foldl (fun s i => (handle C (.remove (some i) false) s).1)
        (handle C (.load (some (structureMsg s))) {}).1) else none := by
    unfold generateSubtree
    split
    · rename_i r hr
      dsimp only
      rw [if_pos rok, if_pos ⟨r, hr⟩]
    · rename_i hne
      rw [if_neg]
      rintro ⟨r, hr⟩
      exact hne r hr
  rw [hgen]
  clear hgen
  generalize List.foldl _ _ _ = s' at *
  have hE : ∀ j, Present s' j ↔ Kept s ids j := by
    intro j
    constructor
    · intro hj
      by_cases hd : j ∈ shuffle (toRemove (structureMsg s) ids)
      · exact absurd (w.gone j hd) hj
      · have : Present s j := by unfold Present at hj ⊢; rwa [w.spec j hd, e1] at hj
        by_cases hK : Kept s ids j
        · exact hK
        · exact absurd ((hx j).2 ⟨this, hK⟩) hd
    · intro hK
      have hd : j ∉ shuffle (toRemove (structureMsg s) ids) := fun hd => ((hx j).1 hd).2 hK
      unfold Present
      rw [w.spec j hd, e1]
      exact hK.1
  have hd : ∀ j, Kept s ids j → j ∉ shuffle (toRemove (structureMsg s) ids) := fun j hK hd => ((hx j).1 hd).2 hK
  have hpar : ∀ j, Kept s ids j → ∀ p, parentOf s' j = some p ↔ parentOf s j = some p ∧ Kept s ids p := by
    intro j hK p
    rw [w.parent j (hd j hK), e3]
    constructor
    · rintro ⟨h1, h2⟩
      refine ⟨h1, ?_⟩
      have : Present s p := present_iff.2 (kids_exists v.toInv ((mem_kids_iff v.toInv).2 h1)).1
      by_cases hK : Kept s ids p
      · exact hK
      · exact absurd ((hx p).2 ⟨this, hK⟩) h2
    · rintro ⟨h1, h2⟩
      exact ⟨h1, hd p h2⟩
  have hroot : Rooted s' (Present s') ↔ Rooted s (Kept s ids) := by
    have : ∀ j, Kept s ids j → ((∀ p, parentOf s' j = some p → ¬ Present s' p) ↔ ∀ p, parentOf s j = some p → ¬ Kept s ids p) := by
      intro j hK
      simp only [hpar j hK, hE]
      constructor
      · intro h p h1 h2; exact h p ⟨h1, h2⟩ h2
      · rintro h p ⟨h1, h2⟩ _; exact h p h1 h2
    unfold Rooted
    simp only [hE]
    constructor
    · rintro ⟨i, ⟨h1, h2⟩, h3⟩
      refine ⟨i, ⟨h1, ?_⟩, fun j hj h4 => h3 j hj ?_⟩
      · have := this i h1; simp only [hE] at this; exact this.1 h2
      · have := this j hj; simp only [hE] at this; exact this.2 h4
    · rintro ⟨i, ⟨h1, h2⟩, h3⟩
      refine ⟨i, ⟨h1, ?_⟩, fun j hj h4 => h3 j hj ?_⟩
      · have := this i h1; simp only [hE] at this; exact this.2 h2
      · have := this j hj; simp only [hE] at this; exact this.1 h4
  constructor
  · rw [← findRoot_ids v]
    constructor
    · rintro ⟨h1, h2⟩
      rw [if_pos h1]
      have : findRoot s' ≠ none := by
        rcases h2 with h2 | h2
        · rw [(c34_empty s').2]
          · exact fun h => by cases h
          · cases hnn : s'.nodes with
            | nil => rfl
            | cons a l => exact absurd ((hE a.1).1 (present_iff.2 ⟨a.2, by rw [hnn]; simp⟩)) (h2 _)
        · obtain ⟨r, hr⟩ := (findRoot_ids v').2 (hroot.2 h2)
          rw [hr]; exact fun h => by cases h
      cases hf : findRoot s' with
      | none => exact absurd hf this
      | some o => simp
    · intro h1
      split at h1
      · rename_i h2
        refine ⟨h2, ?_⟩
        cases hf : findRoot s' with
        | none => rw [hf] at h1; exact absurd rfl h1
        | some o =>
          cases o with
          | some r => exact Or.inr (hroot.1 ((findRoot_ids v').1 ⟨r, hf⟩))
          | none =>
            left
            intro j hj
            obtain ⟨r, hr⟩ := present_iff.1 ((hE j).2 hj)
            rw [(c34_empty s').1 hf] at hr
            cases hr
      · exact absurd rfl h1
  · intro t ht
    split at ht
    · obtain ⟨o, _, rfl⟩ := Option.map_eq_some_iff.1 ht
      obtain ⟨refs, hn, hmem, he⟩ := published v'
      have L := lists_refs v'.toInv (P := Present s') he hn (fun r hr => (hmem r).1 hr)
        (fun j r hr => ⟨fun _ => present_iff.2 ⟨r, hr⟩, fun _ => (hmem r).2 ⟨j, hr⟩⟩) (fun j hj => present_iff.1 hj)
        (fun r hr c hc => (hmem c).2 (v'.links.down r ((hmem r).1 hr) c hc).1)
      refine ⟨⟨L.once, fun j => (L.ids j).trans (hE j), ?_⟩, ?_⟩
      · intro m hm
        obtain ⟨j, l, h1, h2, h3, h4, h5⟩ := L.node m hm
        have hj : Kept s ids j := (hE j).1 ((L.ids j).1 (List.mem_map.2 ⟨m, hm, h1⟩))
        obtain ⟨a1, a2⟩ := w.kids j (hd j hj)
        rw [e2] at a1 a2
        refine ⟨j, l, h1, by rw [h2, w.spec j (hd j hj), e1], h3, h4.trans a1, fun k hk => ?_⟩
        constructor
        · intro hm
          have := h4.subset hm
          exact (hE k).1 ((h5 k this).1 hm)
        · intro hK
          have := (a2 k hk).2 (hd k hK)
          exact (h5 k this).2 ((hE k).2 hK)
      · intro x
        show x ∈ s'.wirings ↔ _
        rw [w.wirings, e4]
        refine and_congr_right fun hxw => ?_
        obtain ⟨a, b, hxa, hxb, hea, heb⟩ : ∃ a b, x.src = some a ∧ x.tgt = some b ∧ Present s a ∧ Present s b := by
          obtain ⟨a, b, ra, rb, _, _, h1, h2, h3, h4, _⟩ := v.basic.wired x hxw (fun _ h => h.elim)
          exact ⟨a, b, h1, h2, present_iff.2 ⟨ra, h3⟩, present_iff.2 ⟨rb, h4⟩⟩
        rw [hxa, hxb]
        constructor
        · intro h
          constructor
          · rintro _ ⟨⟩
            by_cases hK : Kept s ids a
            · exact hK
            · exact absurd rfl (h a ((hx a).2 ⟨hea, hK⟩)).1
          · rintro _ ⟨⟩
            by_cases hK : Kept s ids b
            · exact hK
            · exact absurd rfl (h b ((hx b).2 ⟨heb, hK⟩)).2
        · rintro ⟨h1, h2⟩ c hc
          refine ⟨?_, ?_⟩
          · rintro ⟨⟩; exact hd _ (h1 _ rfl) hc
          · rintro ⟨⟩; exact hd _ (h2 _ rfl) hc
    · cases ht

/-- C83: if `generate_subtree` answers with success, the message lists exactly the nodes of the request and their parents, as they are
in the tree but without the other children, with exactly the wirings between them; for every order in which the others are removed.
Partial: the nodes further up are missing, see `c83_parents_missing`. -/
theorem c83_result_partial (rs : List Req) (h : Along C Req.Careful rs {}) (hk : KeysUnique (history C rs {})) (ids : List Id)
    (shuffle : List Id → List Id) (hs : ∀ l, (shuffle l).Perm l) (t : TreeMsg)
    (ht : generateSubtree C (history C rs {}) ids shuffle = some t) :
    let s := history C rs {}
    Lists s (Kept s ids) t ∧ WiresAmong s (Kept s ids) t :=
  (generate_spec rs h hk ids shuffle hs).2 t ht

/-- C83: there is success iff the tree has a root and the nodes of the request and their parents have one, or there is none of them. -/
theorem c83_success (rs : List Req) (h : Along C Req.Careful rs {}) (hk : KeysUnique (history C rs {})) (ids : List Id)
    (shuffle : List Id → List Id) (hs : ∀ l, (shuffle l).Perm l) :
    let s := history C rs {}
    generateSubtree C s ids shuffle ≠ none ↔ Rooted s (Present s) ∧ ((∀ j, ¬ Kept s ids j) ∨ Rooted s (Kept s ids)) :=
  (generate_spec rs h hk ids shuffle hs).1.symm

/-- C83: if the request names with every node its parent, the answer is success and lists exactly the nodes of the request. -/
theorem c83_closed (rs : List Req) (h : Along C Req.Careful rs {}) (hk : KeysUnique (history C rs {})) (ids : List Id)
    (shuffle : List Id → List Id) (hs : ∀ l, (shuffle l).Perm l) (hroot : Rooted (history C rs {}) (Present (history C rs {})))
    (hex : ∀ j ∈ ids, Present (history C rs {}) j)
    (hcl : ∀ j ∈ ids, ∀ p, parentOf (history C rs {}) j = some p → p ∈ ids) :
    let s := history C rs {}
    ∃ t, generateSubtree C s ids shuffle = some t ∧ Lists s (· ∈ ids) t ∧ WiresAmong s (· ∈ ids) t := by
  obtain ⟨g1, g2⟩ := generate_spec rs h hk ids shuffle hs
  have v := (history_inv3 rs init_inv3 h).toInv2
  dsimp only at g1 g2 ⊢
  generalize history C rs {} = s at *
  have hK : Kept s ids = (· ∈ ids) := by
    funext j
    apply propext
    constructor
    · rintro ⟨_, h1 | ⟨k, h1, h2⟩⟩
      · exact h1
      · exact hcl k h1 j ((mem_kids_iff v.toInv).1 h2)
    · intro hj; exact ⟨hex j hj, Or.inl hj⟩
  rw [hK] at g1 g2
  have : generateSubtree C s ids shuffle ≠ none := by
    refine g1.1 ⟨hroot, ?_⟩
    cases ids with
    | nil => left; intro j hj; cases hj
    | cons a l =>
      right
      obtain ⟨i, ⟨h1, h2⟩, h3⟩ := hroot
      have hip : parentOf s i = none := by
        cases hp : parentOf s i with
        | none => rfl
        | some p => exact absurd (present_iff.2 (kids_exists v.toInv ((mem_kids_iff v.toInv).2 hp)).1) (h2 p hp)
      have noPar : ∀ j ∈ a :: l, (∀ p, parentOf s j = some p → p ∉ a :: l) → j = i := by
        intro j hj hp
        refine h3 j (hex j hj) fun p hpp => ?_
        exact absurd (hcl j hj p hpp) (hp p hpp)
      have hin : i ∈ a :: l := by
        obtain ⟨r, hr⟩ := present_iff.1 (hex a (by simp))
        have climb : ∀ (k : Nat) (j : Id) (x y : Ref), (j, x) ∈ s.nodes → j ∈ a :: l → Climb s k x y → (s.heap y).parent = none → i ∈ a :: l := by
          intro k
          induction k with
          | zero =>
            intro j x y hx hj hc hy
            cases hc
            have : j = i := noPar j hj (by rw [parentOf_reg v.basic.dict hx, hy]; intro p hp; cases hp)
            exact this ▸ hj
          | succ k ih =>
            rintro j x y hx hj ⟨p, hp, hc⟩ hy
            obtain ⟨⟨q, hq⟩, _⟩ := v.links.up x ⟨j, hx⟩ p hp
            refine ih q p y hq (hcl j hj q ?_) hc hy
            rw [parentOf_reg v.basic.dict hx, hp]
            exact congrArg some (v.basic.dict.key q p hq)
        obtain ⟨n, y, _, k2, k3⟩ := up_to_top v.links v.acyc (s.nodes.length - 1) r [] ⟨a, hr⟩ (by simp) (by simp)
          (by have := List.length_pos_of_mem hr; simp; omega)
        exact climb n a r y hr (by simp) k2 k3
      exact ⟨i, ⟨hin, by rw [hip]; intro p hp; cases hp⟩, noPar⟩
  cases hg : generateSubtree C s ids shuffle with
  | none => exact absurd hg this
  | some t => exact ⟨t, rfl, g2 t hg⟩

/-! ### Violations and examples -/

/-- A sequence of two sequences with a leaf each, and a wiring between two leaves of the first. -/
def exTwo : List Req :=
  [.add 1 (some exSeq) (some 0) (-1) [], .add 2 (some exSeq) (some 1) (-1) [], .add 3 (some exSeq) (some 1) (-1) [],
   .add 4 (some exLeaf) (some 2) (-1) [], .add 5 (some exLeaf) (some 2) (-1) [], .add 6 (some exLeaf) (some 3) (-1) [],
   .wire [⟨some 4, 2, some 5, 1⟩] false]

/-- C82 is violated: node 2 has two leaves with a wiring between them, and the message has no wiring. -/
theorem c82_wirings_lost :
    (history exC exTwo {}).wirings = [⟨some 4, 2, some 5, 1⟩] ∧
    getSubtree (history exC exTwo {}) (some 2) =
      some ⟨[⟨some 2, some exSeq, [some 4, some 5]⟩, ⟨some 4, some exLeaf, []⟩, ⟨some 5, some exLeaf, []⟩], []⟩ := by decide +kernel

/-- C83 is violated: asked for two leaves in different branches, `generate_subtree` does not add their common parent, and fails. -/
theorem c83_parents_missing :
    generateSubtree exC (history exC exTwo {}) [4, 6] id = none ∧
    (generateSubtree exC (history exC exTwo {}) [4, 6, 2, 3, 1] id).isSome = true := by decide +kernel

/-- The result need not contain the old root. -/
example : generateSubtree exC (history exC exTwo {}) [4, 5] id =
    some ⟨[⟨some 2, some exSeq, [some 4, some 5]⟩, ⟨some 4, some exLeaf, []⟩, ⟨some 5, some exLeaf, []⟩], [⟨some 4, 2, some 5, 1⟩]⟩ := by
  decide +kernel

theorem exTwo_careful : Along exC Req.Careful exTwo {} :=
  ⟨⟨by decide +kernel, by decide⟩, ⟨by decide +kernel, by decide⟩, ⟨by decide +kernel, by decide⟩, ⟨by decide +kernel, by decide⟩,
    ⟨by decide +kernel, by decide⟩, ⟨by decide +kernel, by decide⟩, trivial, trivial⟩

theorem exTwo_keys : KeysUnique (history exC exTwo {}) := by
  intro i sp h
  obtain ⟨r, hr, rfl⟩ := specOf_some h
  have : ∀ x ∈ (history exC exTwo {}).nodes, (((history exC exTwo {}).heap x.2).spec.ins.map (·.1)).Nodup ∧
      (((history exC exTwo {}).heap x.2).spec.outs.map (·.1)).Nodup := by decide +kernel
  exact this (i, r) hr

example : Along exC Req.Careful exTwo {} ∧ KeysUnique (history exC exTwo {}) ∧ Rooted (history exC exTwo {}) (Present (history exC exTwo {})) ∧
    (∀ j ∈ [4, 2, 1], Present (history exC exTwo {}) j) ∧ (∀ j ∈ [4, 2, 1], ∀ p, parentOf (history exC exTwo {}) j = some p → p ∈ [4, 2, 1]) ∧
    (∀ l : List Id, l.reverse.Perm l) ∧
    generateSubtree exC (history exC exTwo {}) [4, 2, 1] List.reverse =
      some ⟨[⟨some 1, some exSeq, [some 2]⟩, ⟨some 2, some exSeq, [some 4]⟩, ⟨some 4, some exLeaf, []⟩], []⟩ := by
  refine ⟨exTwo_careful, exTwo_keys, ?_, ?_, ?_, List.reverse_perm, by decide +kernel⟩
  · rw [← findRoot_ids (history_inv3 exTwo init_inv3 exTwo_careful).toInv2]
    exact ⟨0, by decide +kernel⟩
  · intro j hj
    have : ∀ j ∈ [4, 2, 1], specOf (history exC exTwo {}) j ≠ none := by decide +kernel
    exact this j hj
  · have : ∀ j ∈ [4, 2, 1], (parentOf (history exC exTwo {}) j).all (· ∈ [4, 2, 1]) = true := by decide +kernel
    intro j hj p hp
    have := this j hj
    rw [hp] at this
    simpa using this

end Verif.Edit
