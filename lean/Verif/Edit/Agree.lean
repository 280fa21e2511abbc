import Verif.Edit.Root

/-! C29: parent and child links agree after every polite history. -/

set_option autoImplicit false

namespace Verif.Edit

variable {C : Nat → Nat → Bool}

theorem links_iff (s : St) : LinksAgree s ↔ LinksOn (Reg s) s.heap := by
  constructor
  · intro h
    refine ⟨h.child, fun r hr p hp => ?_, fun r hr => ?_⟩
    · obtain ⟨h1, h2⟩ := h.parent r hr p hp
      exact ⟨h1, List.count_pos_iff.1 (by omega)⟩
    · rw [List.nodup_iff_count]
      intro c
      by_cases hc : c ∈ (s.heap r).children
      · obtain ⟨h1, h2⟩ := h.child r hr c hc
        exact Nat.le_of_eq (h.parent c h1 r h2).2
      · rw [List.count_eq_zero.2 hc]; exact Nat.zero_le _
  · intro h
    refine ⟨h.down, fun r hr p hp => ?_⟩
    obtain ⟨h1, h2⟩ := h.up r hr p hp
    refine ⟨h1, ?_⟩
    have k1 := List.count_pos_iff.2 h2
    have k2 := List.nodup_iff_count.1 (h.nodup p h1) r
    omega

/-- The invariant. -/
structure Inv (C : Nat → Nat → Bool) (s : St) : Prop where
  basic : Basic C (fun _ => False) s
  links : LinksOn (Reg s) s.heap

theorem reg_same {s s' : St} (h : Same s s') {r : Ref} : Reg s' r ↔ Reg s r := by unfold Reg; rw [h.nodes]

theorem reg_of_get {s : St} {i : Id} {r : Ref} (h : dictGet s.nodes i = some r) : Reg s r := ⟨i, dictGet_mem h⟩

/-- Registered objects with the same id are the same. -/
theorem Dict.inj {s : St} (d : Dict s) {a b : Ref} (ha : Reg s a) (hb : Reg s b) (h : (s.heap a).nid = (s.heap b).nid) : a = b := by
  obtain ⟨i, hi⟩ := ha
  obtain ⟨j, hj⟩ := hb
  have e1 := d.key _ _ hi
  have e2 := d.key _ _ hj
  have : i = j := by rw [← e1, ← e2, h]
  subst this
  have := (mem_dictGet d.keys hi).symm.trans (mem_dictGet d.keys hj)
  cases this; rfl

theorem Dict.lt {s : St} (d : Dict s) {a : Ref} (ha : Reg s a) : a < s.next := by
  obtain ⟨i, hi⟩ := ha
  exact d.alloc _ _ hi

theorem LinksOn.congr {L L' : Ref → Prop} {h : Ref → Obj} (hl : LinksOn L h) (hL : ∀ r, L' r ↔ L r) : LinksOn L' h := by
  have : L' = L := funext fun r => propext (hL r)
  rw [this]; exact hl

theorem LinksOn.same {s s' : St} (h : Same s s') (hl : LinksOn (Reg s) s'.heap) : LinksOn (Reg s') s'.heap :=
  hl.congr fun _ => reg_same h

theorem reg_instantiate {s : St} (d : Dict s) (i : Id) (sp : Spec) (r : Ref) :
    Reg (instantiate s i sp).1 r ↔ r = s.next ∨ ∃ j, (j, r) ∈ s.nodes ∧ j ≠ i := by
  unfold Reg
  constructor
  · rintro ⟨j, hj⟩
    rcases (mem_dictSet d.keys).1 hj with h | ⟨h1, h2⟩
    · cases h; exact Or.inl rfl
    · exact Or.inr ⟨j, h1, h2⟩
  · rintro (rfl | ⟨j, h1, h2⟩)
    · exact ⟨i, (mem_dictSet d.keys).2 (Or.inl rfl)⟩
    · exact ⟨j, (mem_dictSet d.keys).2 (Or.inr ⟨h1, h2⟩)⟩

/-- A new object joins, without links. -/
theorem links_with_new {s : St} (d : Dict s) (hl : LinksOn (Reg s) s.heap) (i : Id) (sp : Spec) :
    LinksOn (fun r => Reg s r ∨ r = s.next) (instantiate s i sp).1.heap := by
  have hold : ∀ r, Reg s r → (instantiate s i sp).1.heap r = s.heap r := by
    intro r hr
    have := Nat.ne_of_lt (d.lt hr)
    simp [instantiate, this]
  have hnew : (instantiate s i sp).1.heap s.next = { nid := i, spec := sp } := by simp [instantiate]
  refine ⟨?_, ?_, ?_⟩
  · rintro r (hr | rfl) c hc
    · rw [hold r hr] at hc
      obtain ⟨h1, h2⟩ := hl.down r hr c hc
      exact ⟨Or.inl h1, by rw [hold c h1]; exact h2⟩
    · rw [hnew] at hc; cases hc
  · rintro r (hr | rfl) p hp
    · rw [hold r hr] at hp
      obtain ⟨h1, h2⟩ := hl.up r hr p hp
      exact ⟨Or.inl h1, by rw [hold p h1]; exact h2⟩
    · rw [hnew] at hp; cases hp
  · rintro r (hr | rfl)
    · rw [hold r hr]; exact hl.nodup r hr
    · rw [hnew]; exact List.nodup_nil

theorem instantiate_inv {s : St} {i : Id} (sp : Spec) (v : Inv C s) (h : Fresh s i) : Inv C (instantiate s i sp).1 := by
  refine ⟨instantiate_fresh sp v.basic h, (links_with_new v.basic.dict v.links i sp).congr fun r => ?_⟩
  rw [reg_instantiate v.basic.dict]
  constructor
  · rintro (rfl | ⟨j, hj, _⟩)
    · exact Or.inr rfl
    · exact Or.inl ⟨j, hj⟩
  · rintro (⟨j, hj⟩ | rfl)
    · exact Or.inr ⟨j, hj, fun he => h r (he ▸ hj)⟩
    · exact Or.inl rfl

theorem sync_inv {s : St} (v : Inv C s) : Inv C (sync s) := ⟨basic_sync v.basic, v.links⟩

theorem Inv.relink {s s' : St} (v : Inv C s) (h : Relink s s') (hl : LinksOn (Reg s) s'.heap) : Inv C s' :=
  ⟨v.basic.relink h, hl.same h.same⟩

theorem addChild_inv {s s' : St} {p c : Ref} {a : Option Int} (v : Inv C s) (h : addChild s p c a = some s') (hp : Reg s p)
    (hc : Reg s c) (ho : (s.heap c).parent = none) : Inv C s' :=
  v.relink (addChild_relink h) (added_links (addChild_added h) v.links hp hc ho)

theorem removeChild_inv {s s' : St} {p c : Ref} {i : Id} (v : Inv C s) (h : removeChild s p i = some (s', c)) (hp : Reg s p) : Inv C s' :=
  v.relink (removeChild_relink h) (removed_links (removeChild_removed h) v.links hp)

/-! ### Removing -/

theorem dropNodes_heap {s : St} (del : List Id) {r : Ref} (hr : Reg s r) :
    (dropNodes s del).heap r =
      if (s.heap r).nid ∈ del then { s.heap r with parent := none, children := [] }
      else { s.heap r with
        children := (s.heap r).children.filter fun c => (s.heap c).nid ∉ del
        parent := match (s.heap r).parent with
          | some p => if (s.heap p).nid ∈ del then none else some p
          | none => none } := by
  have : s.nodes.any (fun x => decide (x.2 = r)) = true := by
    obtain ⟨i, hi⟩ := hr
    exact List.any_eq_true.2 ⟨_, hi, by simp⟩
  simp only [dropNodes, this, if_true]
  rfl

theorem reg_dropNodes {s : St} (d : Dict s) (del : List Id) (r : Ref) :
    Reg (dropNodes s del) r ↔ Reg s r ∧ (s.heap r).nid ∉ del := by
  unfold Reg
  constructor
  · rintro ⟨i, hi⟩
    obtain ⟨h1, h2⟩ := List.mem_filter.1 hi
    refine ⟨⟨i, h1⟩, ?_⟩
    rw [d.key _ _ h1]; simpa using h2
  · rintro ⟨⟨i, hi⟩, h⟩
    rw [d.key _ _ hi] at h
    exact ⟨i, List.mem_filter.2 ⟨hi, by simpa using h⟩⟩

theorem dropNodes_inv {s : St} (del : List Id) (v : Inv C s) : Inv C (dropNodes s del) := by
  have d := v.basic.dict
  refine ⟨dropNodes_basic del v.basic, ?_⟩
  have hh : ∀ r, Reg (dropNodes s del) r → (dropNodes s del).heap r = { s.heap r with
        children := (s.heap r).children.filter fun c => (s.heap c).nid ∉ del
        parent := match (s.heap r).parent with
          | some p => if (s.heap p).nid ∈ del then none else some p
          | none => none } := by
    intro r hr
    obtain ⟨h1, h2⟩ := (reg_dropNodes d del r).1 hr
    rw [dropNodes_heap del h1, if_neg h2]
  refine ⟨?_, ?_, ?_⟩
  · intro r hr c hc
    rw [hh r hr] at hc
    obtain ⟨h1, h2⟩ := (reg_dropNodes d del r).1 hr
    obtain ⟨h3, h4⟩ := List.mem_filter.1 hc
    obtain ⟨h5, h6⟩ := v.links.down r h1 c h3
    have hc' : Reg (dropNodes s del) c := (reg_dropNodes d del c).2 ⟨h5, by simpa using h4⟩
    refine ⟨hc', ?_⟩
    rw [hh c hc']
    simp [h6, h2]
  · intro r hr p hp
    rw [hh r hr] at hp
    obtain ⟨h1, h2⟩ := (reg_dropNodes d del r).1 hr
    simp only at hp
    split at hp
    · rename_i q hq
      split at hp
      · cases hp
      · rename_i hnd
        simp only [Option.some.injEq] at hp
        subst hp
        obtain ⟨h5, h6⟩ := v.links.up r h1 q hq
        have hq' : Reg (dropNodes s del) q := (reg_dropNodes d del q).2 ⟨h5, hnd⟩
        refine ⟨hq', ?_⟩
        rw [hh q hq']
        exact List.mem_filter.2 ⟨h6, by simpa using h2⟩
    · cases hp
  · intro r hr
    rw [hh r hr]
    exact (v.links.nodup r ((reg_dropNodes d del r).1 hr).1).sublist List.filter_sublist

theorem removeNode_inv {s : St} (n : Option Id) (wc : Bool) (v : Inv C s) : Inv C (removeNode s n wc).1 := by
  unfold removeNode
  split
  · exact v
  · split
    · exact v
    · exact dropNodes_inv _ (sync_inv v)

/-! ### Adding -/

theorem addNode_inv {s : St} {u : Id} (sp : Option Spec) (p : Option Id) (i : Int) (cs : List Id) (v : Inv C s) (h : Fresh s u) :
    Inv C (addNode s u sp p i cs).1 := by
  unfold addNode
  split
  · exact v
  · rename_i _ sp
    have v1 := instantiate_inv sp v h
    dsimp only
    split
    · exact v1
    · rename_i p
      split
      · exact sync_inv (removeNode_inv _ _ v1)
      · exact v1
      · rename_i s2 h2
        have v2 : Inv C s2 := by
          split at h2
          · cases h2; exact v1
          · split at h2
            · cases h2
            · rename_i rp hrp
              simp only [Option.some.injEq] at h2
              refine addChild_inv v1 h2 (reg_of_get hrp) ((reg_instantiate v.basic.dict u sp _).2 (Or.inl rfl)) ?_
              simp [instantiate]
        have v3 : Inv C (if (!cs.isEmpty) = true then (edit (removeNode · (some u) false) s2).1 else s2) := by
          split
          · exact sync_inv (removeNode_inv _ _ v2)
          · exact v2
        split
        · exact v3
        · exact sync_inv (removeNode_inv _ _ v3)
        · exact v3

/-! ### Moving -/

/-- The child that `remove_child` finds is the one meant. -/
theorem removed_eq {s s' : St} {p c r : Ref} (v : Inv C s) (h : Removed s s' p c (s.heap r).nid) (hp : Reg s p) (hr : Reg s r) : c = r :=
  v.basic.dict.inj (v.links.down p hp c h.mem).1 hr h.cid

theorem moveNode_inv {s : St} (n p : Option Id) (i : Int) (v : Inv C s) : Inv C (moveNode s n p i).1 := by
  unfold moveNode
  split
  · exact v
  · exact v
  · rename_i a b
    split
    · exact v
    · rename_i r hr
      have hreg := reg_of_get hr
      split
      · split
        · exact sync_inv v
        · rename_i q hq
          have hqr := (v.links.up r hreg q hq).1
          split
          · exact v
          · rename_i h1
            exact sync_inv (removeChild_inv v h1 hqr)
      · split
        · exact v
        · rename_i rp hrp
          split
          · exact v
          · dsimp only
            split
            · exact v
            · split
              · exact v
              · rename_i s' hs'
                have k1 : Inv C s' ∧ Same s s' ∧ (s'.heap r).parent = none := by
                  split at hs'
                  · rename_i hpar; cases hs'; exact ⟨v, Same.refl s, hpar⟩
                  · rename_i q hq
                    have hqr := (v.links.up r hreg q hq).1
                    cases h1 : removeChild s q (s.heap r).nid with
                    | none => rw [h1] at hs'; cases hs'
                    | some x =>
                      obtain ⟨s1, c⟩ := x
                      rw [h1] at hs'
                      cases hs'
                      have hrem := removeChild_removed h1
                      have := removed_eq v hrem hqr hreg
                      subst this
                      exact ⟨removeChild_inv v h1 hqr, hrem.same, by rw [hrem.parent]; simp⟩
                obtain ⟨v1, hsame, hnone⟩ := k1
                split
                · exact v1
                · rename_i h2
                  exact sync_inv (addChild_inv v1 h2 ((reg_same hsame).2 (reg_of_get hrp)) ((reg_same hsame).2 hreg) hnone)

/-! ### Moving children, replacing -/

theorem moveChildren_links {L : Ref → Prop} (old new : Ref) (skip : Option Id) (cs : List Id) (s : St) (hl : LinksOn L s.heap) (ho : L old)
    (hn : L new) : LinksOn L (moveChildren old new skip cs s).1.heap := by
  induction cs generalizing s with
  | nil => exact hl
  | cons c cs ih =>
    unfold moveChildren
    split
    · exact hl
    · rename_i s1 rc h1
      have r1 := removeChild_removed h1
      have l1 := removed_links r1 hl ho
      split
      · exact ih s1 l1
      · split
        · exact l1
        · rename_i s2 h2
          refine ih s2 (added_links (addChild_added h2) l1 hn (hl.down old ho rc r1.mem).1 ?_)
          rw [r1.parent]; simp

theorem replaceNode_inv {s : St} (o n : Option Id) (v : Inv C s) : Inv C (replaceNode s o n).1 := by
  unfold replaceNode
  split
  · exact v
  · exact v
  · split
    · exact v
    · exact v
    · rename_i ro rn hro hrn
      dsimp only
      split
      · exact v
      · have v1 := v.relink (moveChildren_relink ro rn (some (s.heap rn).nid) (s.childIds ro) s)
          (moveChildren_links ro rn _ _ s v.links (reg_of_get hro) (reg_of_get hrn))
        split
        · exact v1
        · have v2 : Inv C (edit (removeNode · (some (s.heap ro).nid) true) _).1 := sync_inv (removeNode_inv (some (s.heap ro).nid) true v1)
          split
          · rename_i s2 h2
            rw [h2] at v2
            split
            · exact v2
            · exact sync_inv (moveNode_inv _ _ _ v2)
          · rename_i s2 _ _ h2
            rw [h2] at v2
            exact v2

/-! ### Exchanging an object -/

/-- Moving all children from one object to another that has room for them. -/
theorem moveChildren_done {L : Ref → Prop} (old new : Ref) (hne : old ≠ new) :
    ∀ (cs : List Id) (s : St), LinksOn L s.heap → L old → L new → cs = s.childIds old → (s.heap old).parent = none →
      (∀ a b, L a → L b → a ≠ old → b ≠ old → (s.heap a).nid = (s.heap b).nid → a = b) →
      (∀ m, (s.heap new).spec.max = some m → (s.heap new).children.length + cs.length ≤ m) →
      let r := moveChildren old new none cs s
      r.2 = true ∧ (r.1.heap old).children = [] ∧ (r.1.heap old).parent = none ∧
        (r.1.heap new).children = (s.heap new).children ++ (s.heap old).children ∧
        (∀ x, (r.1.heap x).parent = if x ∈ (s.heap old).children then some new else (s.heap x).parent) ∧
        (∀ x, x ≠ old → x ≠ new → (r.1.heap x).children = (s.heap x).children) := by
  intro cs
  induction cs with
  | nil =>
    intro s hl ho hn hcs hp _ _
    have hc : (s.heap old).children = [] := by
      cases h : (s.heap old).children with
      | nil => rfl
      | cons a l => simp [St.childIds, h] at hcs
    refine ⟨rfl, hc, hp, by simp [moveChildren, hc], ?_, fun _ _ _ => rfl⟩
    intro x; rw [hc]; simp [moveChildren]
  | cons c cs ih =>
    intro s hl ho hn hcs hp hinj hroom
    cases hch : (s.heap old).children with
    | nil => simp [St.childIds, hch] at hcs
    | cons c0 rest =>
      have hc0 : c0 ∈ (s.heap old).children := by rw [hch]; simp
      have hcid : (s.heap c0).nid = c ∧ cs = rest.map fun c => (s.heap c).nid := by
        simp only [St.childIds, hch, List.map_cons, List.cons.injEq] at hcs
        exact ⟨hcs.1.symm, hcs.2⟩
      have hnd := hl.nodup old ho
      rw [hch, List.nodup_cons] at hnd
      -- the child found first is `c0`
      have hrc : removeChild s old c = some ((s.upd old fun o => { o with children := o.children.eraseIdx 0 }).upd c0
          fun o => { o with parent := none }, c0) := by
        have hi : childIndex s old c = some 0 := by
          unfold childIndex
          rw [← hcs]
          simp [List.idxOf?, List.findIdx?_cons]
        unfold removeChild
        rw [hi, hch]
        rfl
      have r1 := removeChild_removed hrc
      generalize hs1 : ((s.upd old fun o => { o with children := o.children.eraseIdx 0 }).upd c0 fun o => { o with parent := none }) = s1 at hrc r1
      have l1 := removed_links r1 hl ho
      have hLc := (hl.down old ho c0 hc0).1
      have hcold : c0 ≠ old := by
        rintro rfl
        have := (hl.down c0 ho c0 hc0).2
        rw [hp] at this; cases this
      have hpar1 : (s1.heap c0).parent = none := by rw [r1.parent]; simp
      have hch1 : (s1.heap old).children = rest := by
        rw [← hs1]
        simp only [St.upd, if_neg (Ne.symm hcold)]
        simp [hch]
      have hnew1 : (s1.heap new).children = (s.heap new).children := r1.others new (Ne.symm hne)
      have hadd : ∃ s2, addChild s1 new c0 none = some s2 := by
        unfold addChild
        dsimp only
        split
        · rename_i hmax
          rw [r1.spec, hnew1] at hmax
          have := hroom _ hmax
          simp only [List.length_cons] at this
          omega
        · split
          · rename_i hdup
            obtain ⟨y, hy, hye⟩ := List.mem_map.1 hdup
            obtain ⟨hy1, hy2⟩ := l1.down new hn y hy
            rw [r1.nid, r1.nid] at hye
            have hyold : y ≠ old := by
              rintro rfl
              rw [r1.parent, if_neg (Ne.symm hcold), hp] at hy2
              cases hy2
            have := hinj y c0 hy1 hLc hyold hcold hye
            subst this
            rw [hpar1] at hy2; cases hy2
          · exact ⟨_, rfl⟩
      obtain ⟨s2, h2⟩ := hadd
      have a2 := addChild_added h2
      have hnew2 : (s2.heap new).children = (s.heap new).children ++ [c0] := by rw [addChild_last h2, hnew1]
      have l2 := added_links a2 l1 hn hLc hpar1
      have hold2 : (s2.heap old).children = rest := by rw [a2.others old hne, hch1]
      have hp2 : (s2.heap old).parent = none := by
        rw [a2.parent, if_neg (Ne.symm hcold), r1.parent, if_neg (Ne.symm hcold), hp]
      have hnid2 : ∀ x, (s2.heap x).nid = (s.heap x).nid := fun x => by rw [a2.nid, r1.nid]
      have hspec2 : ∀ x, (s2.heap x).spec = (s.heap x).spec := fun x => by rw [a2.spec, r1.spec]
      obtain ⟨e1, e2, e3, e4, e5, e6⟩ := ih s2 l2 ho hn
        (by rw [hcid.2, St.childIds, hold2]; exact List.map_congr_left fun x _ => (hnid2 x).symm) hp2
        (fun a b ha hb h1 h2 he => hinj a b ha hb h1 h2 (by rw [← hnid2, ← hnid2, he]))
        (fun m hm => by
          rw [hspec2] at hm
          have := hroom m hm
          rw [hnew2]
          simp only [List.length_append, List.length_cons, List.length_nil] at this ⊢
          omega)
      have hmv : moveChildren old new none (c :: cs) s = moveChildren old new none cs s2 := by
        rw [moveChildren, hrc]
        simp only [reduceCtorEq, if_false, h2]
      intro r
      have hr : r = moveChildren old new none cs s2 := hmv
      rw [hr]
      refine ⟨e1, e2, e3, ?_, ?_, ?_⟩
      · rw [e4, hnew2, hold2]; simp
      · intro x
        rw [e5 x, hold2, a2.parent, r1.parent]
        by_cases hx0 : x = c0
        · subst hx0; simp
        · simp [hx0]
      · intro x hx1 hx2
        rw [e6 x hx1 hx2, a2.others x hx2, r1.others x hx1]

/-- Putting the new object into the place of the old one in its parent always works. -/
theorem swapInParent_ok {L : Ref → Prop} (s : St) (old new : Ref) (hne : old ≠ new) (hl : LinksOn L s.heap) (ho : L old) (hn : L new)
    (hlim : Lim s) (hnp : (s.heap new).parent = none)
    (hinj : ∀ a b, L a → L b → a ≠ new → b ≠ new → (s.heap a).nid = (s.heap b).nid → a = b) (hid : (s.heap new).nid = (s.heap old).nid) :
    ∃ s2, swapInParent s old new = (s2, .ok) ∧ LinksOn L s2.heap ∧ (s2.heap old).parent = none ∧
      (s2.heap new).parent = (s.heap old).parent ∧ (∀ x, x ≠ old → x ≠ new → (s2.heap x).parent = (s.heap x).parent) ∧
      (∀ x, (s.heap old).parent ≠ some x → (s2.heap x).children = (s.heap x).children) ∧
      (∀ q, (s.heap old).parent = some q → ∃ pre post, (s.heap q).children = pre ++ old :: post ∧ (s2.heap q).children = pre ++ new :: post) := by
  unfold swapInParent
  cases hp : (s.heap old).parent with
  | none => exact ⟨s, rfl, hl, hp, hnp, fun _ _ _ => rfl, fun _ _ => rfl, fun _ h => by cases h⟩
  | some q =>
    obtain ⟨hq, hmem⟩ := hl.up old ho q hp
    obtain ⟨k, hk⟩ := childIndex_some hmem
    obtain ⟨s1, c, h1⟩ := removeChild_some hmem
    have r1 := removeChild_removed h1
    have hcn : c ≠ new := by
      rintro rfl
      have := (hl.down q hq c r1.mem).2
      rw [hnp] at this; cases this
    have hc : c = old := hinj c old (hl.down q hq c r1.mem).1 ho hcn hne r1.cid
    subst hc
    have l1 := removed_links r1 hl hq
    simp only [hk, h1]
    have hnd := hl.nodup q hq
    obtain ⟨i, hi, hie, her⟩ := r1.erased
    -- the index found is the one removed
    have hki : i = k := by
      have h1' := h1
      unfold removeChild at h1'
      rw [hk] at h1'
      dsimp only at h1'
      split at h1'
      · cases h1'
      · rename_i c' hc'
        simp only [Option.some.injEq, Prod.mk.injEq] at h1'
        obtain ⟨_, rfl⟩ := h1'
        obtain ⟨hlt, hge⟩ := List.getElem?_eq_some_iff.1 hc'
        exact (List.getElem_inj hnd).1 (hie.trans hge.symm)
    subst hki
    have hadd : ∃ s2, addChild s1 q new (some (Int.ofNat i)) = some s2 := by
      unfold addChild
      dsimp only
      split
      · rename_i hmax
        rw [r1.spec] at hmax
        have h3 := hlim q _ hmax
        rw [her, List.length_eraseIdx_of_lt hi] at h3
        have := List.length_pos_of_mem hmem
        omega
      · split
        · rename_i hdup
          obtain ⟨y, hy, hye⟩ := List.mem_map.1 hdup
          obtain ⟨hy1, hy2⟩ := l1.down q hq y hy
          rw [r1.nid, r1.nid, hid] at hye
          have hyn : y ≠ new := by
            rintro rfl
            rw [r1.parent, if_neg (Ne.symm hne), hnp] at hy2; cases hy2
          have := hinj y c hy1 ho hyn hne hye
          subst this
          rw [r1.parent] at hy2
          simp at hy2
        · exact ⟨_, rfl⟩
    obtain ⟨s2, h2⟩ := hadd
    have a2 := addChild_added h2
    have h2' : addChild s1 q new (some (i : Int)) = some s2 := h2
    refine ⟨s2, by rw [h2'], added_links a2 l1 hq hn (by rw [r1.parent, if_neg (Ne.symm hne)]; exact hnp), ?_, ?_, ?_, ?_, ?_⟩
    · rw [a2.parent, if_neg hne, r1.parent]; simp
    · rw [a2.parent]; simp
    · intro x hx1 hx2
      rw [a2.parent, if_neg hx2, r1.parent, if_neg hx1]
    · intro x hx
      have : x ≠ q := fun h => hx (by rw [h])
      rw [a2.others x this, r1.others x this]
    · intro q' hq'
      cases hq'
      have hch2 : (s2.heap q).children = (s1.heap q).children.take i ++ new :: (s1.heap q).children.drop i := by
        rw [addChild_children h2, insertPos_nat]
        rw [her, List.length_eraseIdx_of_lt hi]; omega
      refine ⟨(s.heap q).children.take i, (s.heap q).children.drop (i + 1), ?_, ?_⟩
      · rw [← hie, List.getElem_cons_drop, List.take_append_drop]
      · rw [hch2, her, List.eraseIdx_eq_take_drop_succ]
        have hlen : ((s.heap q).children.take i).length = i := by rw [List.length_take]; omega
        rw [List.take_append_of_le_length (by omega), List.take_of_length_le (by omega),
          List.drop_append_of_le_length (by omega), List.drop_of_length_le (by omega)]
        rfl

end Verif.Edit
