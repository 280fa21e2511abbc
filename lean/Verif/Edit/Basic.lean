import Verif.Edit.Links

/-! Invariants that survive every history of requests: the dictionary is a dictionary, child limits
are kept, and (with fresh ids) all wirings are valid. -/

set_option autoImplicit false

namespace Verif.Edit

/-- Only links (and the mirror `_children`) differ. -/
structure Same (s s' : St) : Prop where
  nodes : s'.nodes = s.nodes
  next : s'.next = s.next
  wirings : s'.wirings = s.wirings
  nid : ∀ x, (s'.heap x).nid = (s.heap x).nid
  spec : ∀ x, (s'.heap x).spec = (s.heap x).spec

theorem Same.refl (s : St) : Same s s := ⟨rfl, rfl, rfl, fun _ => rfl, fun _ => rfl⟩

theorem Same.trans {a b c : St} (h : Same a b) (k : Same b c) : Same a c :=
  ⟨k.nodes.trans h.nodes, k.next.trans h.next, k.wirings.trans h.wirings, fun x => (k.nid x).trans (h.nid x),
    fun x => (k.spec x).trans (h.spec x)⟩

theorem Added.same {s s' : St} {p c : Ref} (h : Added s s' p c) : Same s s' := ⟨h.nodes, h.next, h.wirings, h.nid, h.spec⟩

theorem Removed.same {s s' : St} {p c : Ref} {i : Id} (h : Removed s s' p c i) : Same s s' :=
  ⟨h.nodes, h.next, h.wirings, h.nid, h.spec⟩

theorem sync_same (s : St) : Same s (sync s) := ⟨rfl, rfl, rfl, fun _ => rfl, fun _ => rfl⟩

/-- Limits for every object ever made. -/
def Lim (s : St) : Prop := ∀ r m, (s.heap r).spec.max = some m → (s.heap r).children.length ≤ m

theorem Added.lim {s s' : St} {p c : Ref} (h : Added s s' p c) (hl : Lim s) : Lim s' := by
  intro r m hm
  rw [h.spec] at hm
  by_cases hr : r = p
  · subst hr
    obtain ⟨i, hi⟩ := h.inserted
    rw [hi, (perm_insert _ i c).length_eq, List.length_cons]
    have h1 := hl r m hm
    have h2 := h.room
    rw [hm] at h2
    have : m ≠ (s.heap r).children.length := fun he => h2 (by rw [he])
    omega
  · rw [h.others r hr]; exact hl r m hm

theorem Removed.lim {s s' : St} {p c : Ref} {i : Id} (h : Removed s s' p c i) (hl : Lim s) : Lim s' := by
  intro r m hm
  rw [h.spec] at hm
  by_cases hr : r = p
  · subst hr
    obtain ⟨i, _, _, hi⟩ := h.erased
    rw [hi]
    exact Nat.le_trans (List.eraseIdx_sublist _ _).length_le (hl r m hm)
  · rw [h.others r hr]; exact hl r m hm

theorem sync_lim {s : St} (h : Lim s) : Lim (sync s) := h

/-- Links changed, limits kept. -/
structure Relink (s s' : St) : Prop where
  same : Same s s'
  lim : Lim s → Lim s'

theorem Relink.refl (s : St) : Relink s s := ⟨Same.refl s, id⟩

theorem Relink.trans {a b c : St} (h : Relink a b) (k : Relink b c) : Relink a c :=
  ⟨h.same.trans k.same, fun x => k.lim (h.lim x)⟩

theorem Added.relink {s s' : St} {p c : Ref} (h : Added s s' p c) : Relink s s' := ⟨h.same, h.lim⟩

theorem Removed.relink {s s' : St} {p c : Ref} {i : Id} (h : Removed s s' p c i) : Relink s s' := ⟨h.same, h.lim⟩

theorem sync_relink (s : St) : Relink s (sync s) := ⟨sync_same s, sync_lim⟩

theorem addChild_relink {s s' : St} {p c : Ref} {a : Option Int} (h : addChild s p c a = some s') : Relink s s' :=
  (addChild_added h).relink

theorem removeChild_relink {s s' : St} {p c : Ref} {i : Id} (h : removeChild s p i = some (s', c)) : Relink s s' :=
  (removeChild_removed h).relink

theorem moveChildren_relink (old new : Ref) (skip : Option Id) (cs : List Id) (s : St) :
    Relink s (moveChildren old new skip cs s).1 := by
  induction cs generalizing s with
  | nil => exact Relink.refl s
  | cons c cs ih =>
    unfold moveChildren
    split
    · exact Relink.refl s
    · rename_i s1 rc h1
      have k1 := removeChild_relink h1
      split
      · exact k1.trans (ih s1)
      · split
        · exact k1
        · rename_i s2 h2
          exact (k1.trans (addChild_relink h2)).trans (ih s2)

theorem swapInParent_relink (s : St) (old new : Ref) : Relink s (swapInParent s old new).1 := by
  unfold swapInParent
  split
  · exact Relink.refl s
  · split
    · exact Relink.refl s
    · split
      · exact Relink.refl s
      · rename_i s1 _ h1
        have k1 := removeChild_relink h1
        split
        · rename_i s2 h2
          exact k1.trans (addChild_relink h2)
        · refine k1.trans ?_
          dsimp only
          cases h3 : addChild s1 _ old _ with
          | none => exact Relink.refl s1
          | some s3 => exact addChild_relink h3

theorem moveNode_relink (s : St) (n p : Option Id) (i : Int) : Relink s (moveNode s n p i).1 := by
  unfold moveNode
  split
  · exact Relink.refl s
  · exact Relink.refl s
  · rename_i a b
    split
    · exact Relink.refl s
    · rename_i r hr
      split
      · split
        · exact sync_relink s
        · split
          · exact Relink.refl s
          · rename_i h1
            exact (removeChild_relink h1).trans (sync_relink _)
      · split
        · exact Relink.refl s
        · rename_i rp hrp
          split
          · exact Relink.refl s
          · dsimp only
            split
            · exact Relink.refl s
            · split
              · exact Relink.refl s
              · rename_i s' hs'
                have k1 : Relink s s' := by
                  split at hs'
                  · cases hs'; exact Relink.refl s
                  · cases h1 : removeChild s _ (s.heap r).nid with
                    | none => rw [h1] at hs'; cases hs'
                    | some x =>
                      rw [h1] at hs'
                      cases hs'
                      exact removeChild_relink (c := x.2) h1
                split
                · exact k1
                · rename_i h2
                  exact (k1.trans (addChild_relink h2)).trans (sync_relink _)

theorem loadChildren_relink (i : Id) (cs : List (Option Id)) (s : St) : Relink s (loadChildren i cs s).1 := by
  induction cs generalizing s with
  | nil => exact Relink.refl s
  | cons c cs ih =>
    cases c with
    | none => exact Relink.refl s
    | some c =>
      unfold loadChildren
      split
      · split
        · rename_i h
          exact (addChild_relink h).trans (ih _)
        · exact Relink.refl s
      · exact Relink.refl s

theorem loadLinks_relink (ms : List NodeMsg) (s : St) : Relink s (loadLinks ms s).1 := by
  induction ms generalizing s with
  | nil => exact Relink.refl s
  | cons m ms ih =>
    have k := loadChildren_relink (m.nid.getD 0) m.childIds s
    unfold loadLinks
    split
    · rename_i s1 h1
      rw [h1] at k
      exact k.trans (ih s1)
    · rename_i s1 e _ h1
      rw [h1] at k
      exact k

/-! ### All invariants together -/

/-- Wirings are valid, except possibly those at the nodes `x`. -/
def Wired (C : Nat → Nat → Bool) (x : Id → Prop) (s : St) : Prop :=
  ∀ w ∈ s.wirings, (∀ i, x i → w.hasId i = false) → WiringValid C s w

/-- The invariants of all histories. -/
structure Basic (C : Nat → Nat → Bool) (x : Id → Prop) (s : St) : Prop where
  dict : Dict s
  lim : Lim s
  wired : Wired C x s

variable {C : Nat → Nat → Bool} {x : Id → Prop}

theorem WiringValid.same {s s' : St} {w : Wiring} (h : Same s s') (hw : WiringValid C s w) : WiringValid C s' w := by
  obtain ⟨a, b, ra, rb, to, ti, h1, h2, h3, h4, h5, h6, h7⟩ := hw
  exact ⟨a, b, ra, rb, to, ti, h1, h2, by rw [h.nodes]; exact h3, by rw [h.nodes]; exact h4,
    by rw [h.spec]; exact h5, by rw [h.spec]; exact h6, h7⟩

theorem Dict.same {s s' : St} (h : Same s s') (d : Dict s) : Dict s' :=
  ⟨by rw [h.nodes]; intro i r hr; rw [h.nid]; exact d.key i r hr, by rw [h.nodes]; exact d.keys,
    by rw [h.nodes, h.next]; exact d.alloc⟩

theorem Basic.relink {s s' : St} (h : Relink s s') (b : Basic C x s) : Basic C x s' := by
  refine ⟨b.dict.same h.same, h.lim b.lim, ?_⟩
  intro w hw hx
  rw [h.same.wirings] at hw
  exact (b.wired w hw hx).same h.same

theorem basic_sync {s : St} (b : Basic C x s) : Basic C x (sync s) := b.relink (sync_relink s)

/-- `instantiate_node_from_msg` only spoils wirings of the id it registers. -/
theorem instantiate_basic {s : St} (i : Id) (sp : Spec) (b : Basic C x s) :
    Basic C (fun j => x j ∨ j = i) (instantiate s i sp).1 := by
  have hne : ∀ j r, (j, r) ∈ s.nodes → r ≠ s.next := fun j r h => Nat.ne_of_lt (b.dict.alloc j r h)
  refine ⟨⟨?_, ?_, ?_⟩, ?_, ?_⟩
  · intro j r h
    rcases (mem_dictSet b.dict.keys).1 h with h | ⟨h, _⟩
    · cases h; simp [instantiate]
    · simp only [instantiate, if_neg (hne j r h)]; exact b.dict.key j r h
  · exact dictSet_keys _ _ _ b.dict.keys
  · intro j r h
    rcases (mem_dictSet b.dict.keys).1 h with h | ⟨h, _⟩
    · cases h; exact Nat.lt_succ_self _
    · exact Nat.lt_succ_of_lt (b.dict.alloc j r h)
  · intro r m
    simp only [instantiate]
    split
    · intro _; exact Nat.zero_le _
    · exact b.lim r m
  · intro w hw hx
    obtain ⟨a, c, ra, rc, to, ti, h1, h2, h3, h4, h5, h6, h7⟩ := b.wired w hw fun j hj => hx j (Or.inl hj)
    have hi := hx i (Or.inr rfl)
    simp only [Wiring.hasId, h1, h2, Bool.or_eq_false_iff, decide_eq_false_iff_not] at hi
    refine ⟨a, c, ra, rc, to, ti, h1, h2, (mem_dictSet b.dict.keys).2 (Or.inr ⟨h3, hi.1⟩),
      (mem_dictSet b.dict.keys).2 (Or.inr ⟨h4, hi.2⟩), ?_, ?_, h7⟩
    · simp only [instantiate, if_neg (hne _ _ h3)]; exact h5
    · simp only [instantiate, if_neg (hne _ _ h4)]; exact h6

theorem Basic.weaken {y : Id → Prop} {s : St} (h : ∀ i, x i → y i) (b : Basic C x s) : Basic C y s :=
  ⟨b.dict, b.lim, fun w hw hx => b.wired w hw fun i hi => hx i (h i hi)⟩

/-- If no wiring touches the exempted ids, nothing is exempted. -/
theorem Basic.strengthen {y : Id → Prop} {s : St} (b : Basic C x s)
    (h : ∀ i, x i → y i ∨ ∀ w ∈ s.wirings, w.hasId i = false) : Basic C y s := by
  refine ⟨b.dict, b.lim, fun w hw hx => b.wired w hw fun i hi => ?_⟩
  rcases h i hi with h | h
  · exact hx i h
  · exact h w hw

theorem validate_valid {s : St} {w : Wiring} (h : validate C s w = true) : WiringValid C s w := by
  unfold validate at h
  split at h
  · rename_i a b ha hb
    split at h
    · rename_i ra rb hra hrb
      split at h
      · rename_i to ti hto hti
        exact ⟨a, b, ra, rb, to, ti, ha, hb, dictGet_mem hra, dictGet_mem hrb, dictGet_mem hto, dictGet_mem hti, h⟩
      · cases h
    · cases h
  · cases h

theorem wireData_basic {s : St} (ws : List Wiring) (ig : Bool) (b : Basic C x s) : Basic C x (wireData C s ws ig).1 := by
  have key : ∀ ws' : List Wiring, (∀ w ∈ ws', validate C s w = true) → Basic C x { s with wirings := s.wirings ++ ws' } := by
    intro ws' h
    refine ⟨⟨b.dict.key, b.dict.keys, b.dict.alloc⟩, b.lim, ?_⟩
    intro w hw hx
    rcases List.mem_append.1 hw with hw | hw
    · exact b.wired w hw hx
    · exact validate_valid (s := s) (h w hw)
  unfold wireData
  split
  · exact key _ fun w hw => (List.mem_filter.1 hw).2
  · split
    · rename_i h
      exact key _ fun w hw => List.all_eq_true.1 h w hw
    · exact b

theorem removeAll_sub (l ws : List Wiring) : (removeAll l ws).1.Sublist l := by
  induction ws generalizing l with
  | nil => exact List.Sublist.refl l
  | cons w ws ih =>
    unfold removeAll
    split
    · exact (ih _).trans List.erase_sublist
    · exact List.Sublist.refl l

theorem unwireData_basic {s : St} (ws : List Wiring) (ig : Bool) (b : Basic C x s) : Basic C x (unwireData s ws ig).1 := by
  unfold unwireData
  split
  · exact b
  · refine ⟨⟨b.dict.key, b.dict.keys, b.dict.alloc⟩, b.lim, ?_⟩
    intro w hw hx
    exact b.wired w ((removeAll_sub _ _).subset hw) hx

theorem erase_filter_head {α : Type} [DecidableEq α] (p : α → Bool) (a : α) (l : List α) (h : p a = true) :
    ((a :: l).filter fun w => !p w) = l.filter (fun w => !p w) := by simp [h]

/-- Removing all wirings that satisfy `p` leaves those that do not. -/
theorem removeAll_filter (p : Wiring → Bool) (l pre : List Wiring) (hp : ∀ w ∈ pre, p w = false) :
    removeAll (pre ++ l) (l.filter p) = (pre ++ l.filter (fun w => !p w), true) := by
  induction l generalizing pre with
  | nil => simp [removeAll]
  | cons w l ih =>
    cases hw : p w with
    | true =>
      simp only [List.filter_cons, hw, if_true, Bool.not_true, Bool.false_eq_true, if_false]
      unfold removeAll
      rw [if_pos (by simp)]
      have : w ∉ pre := fun hm => by rw [hp w hm] at hw; cases hw
      rw [List.erase_append_right _ this]
      simp only [List.erase_cons_head]
      exact ih pre hp
    | false =>
      simp only [List.filter_cons, hw, Bool.not_false, if_true, Bool.false_eq_true, if_false]
      have h2 : ∀ v ∈ pre ++ [w], p v = false := by
        intro v hv
        rcases List.mem_append.1 hv with h | h
        · exact hp v h
        · rw [List.mem_singleton.1 h]; exact hw
      have := ih (pre ++ [w]) h2
      simpa using this

/-- Unwiring everything at a node succeeds and leaves exactly the rest. -/
theorem unwire_node (s : St) (i : Id) :
    unwireData s (s.wirings.filter (·.hasId i)) false = ({ s with wirings := s.wirings.filter fun w => !w.hasId i }, .ok) := by
  have h1 : (s.wirings.filter (·.hasId i)).all (fun w => decide (w ∈ s.wirings)) = true := by
    rw [List.all_eq_true]; intro w hw; simpa using (List.mem_filter.1 hw).1
  have h2 : (s.wirings.filter (·.hasId i)).filter (fun w => decide (w ∈ s.wirings)) = s.wirings.filter (·.hasId i) := by
    rw [List.filter_eq_self]; intro w hw; simpa using (List.mem_filter.1 hw).1
  have h3 := removeAll_filter (·.hasId i) s.wirings [] (by simp)
  simp only [List.nil_append] at h3
  unfold unwireData
  rw [h1, h2, h3]
  simp

theorem hasId_any {w : Wiring} {del : List Id} (h : del.any w.hasId = false) : ∀ i ∈ del, w.hasId i = false := by
  intro i hi
  rw [List.any_eq_false] at h
  simpa using h i hi

theorem dropNodes_basic {s : St} (del : List Id) (b : Basic C x s) : Basic C x (dropNodes s del) := by
  have hspec : ∀ r, ((dropNodes s del).heap r).spec = (s.heap r).spec := by
    intro r; simp only [dropNodes]; split
    · split <;> rfl
    · rfl
  have hnid : ∀ r, ((dropNodes s del).heap r).nid = (s.heap r).nid := by
    intro r; simp only [dropNodes]; split
    · split <;> rfl
    · rfl
  refine ⟨⟨?_, ?_, ?_⟩, ?_, ?_⟩
  · intro i r h
    rw [hnid]; exact b.dict.key i r (List.mem_filter.1 h).1
  · exact b.dict.keys.sublist (List.filter_sublist.map _)
  · intro i r h; exact b.dict.alloc i r (List.mem_filter.1 h).1
  · intro r m hm
    rw [hspec] at hm
    refine Nat.le_trans ?_ (b.lim r m hm)
    simp only [dropNodes]; split
    · split
      · exact Nat.zero_le _
      · exact List.length_filter_le _ _
    · exact Nat.le_refl _
  · intro w hw hx
    obtain ⟨hw1, hw2⟩ := List.mem_filter.1 hw
    obtain ⟨a, c, ra, rc, to, ti, h1, h2, h3, h4, h5, h6, h7⟩ := b.wired w hw1 hx
    have hd := hasId_any (by simpa using hw2)
    have ha : a ∉ del := fun hm => by
      have := hd a hm
      simp [Wiring.hasId, h1, h2] at this
    have hc : c ∉ del := fun hm => by
      have := hd c hm
      simp [Wiring.hasId, h1, h2] at this
    exact ⟨a, c, ra, rc, to, ti, h1, h2, List.mem_filter.2 ⟨h3, by simpa using ha⟩, List.mem_filter.2 ⟨h4, by simpa using hc⟩,
      by rw [hspec]; exact h5, by rw [hspec]; exact h6, h7⟩

theorem removeNode_basic {s : St} (n : Option Id) (wc : Bool) (b : Basic C x s) : Basic C x (removeNode s n wc).1 := by
  unfold removeNode
  split
  · exact b
  · split
    · exact b
    · exact dropNodes_basic _ (basic_sync b)

theorem edit_basic {y : Id → Prop} {f : St → St × Resp} {s : St} (h : Basic C y (f s).1) : Basic C y (edit f s).1 := basic_sync h

/-- Ids in valid wirings are registered. -/
theorem Basic.fresh {s : St} (b : Basic C (fun _ => False) s) {i : Id} (h : ∀ r, (i, r) ∉ s.nodes) :
    ∀ w ∈ s.wirings, w.hasId i = false := by
  intro w hw
  obtain ⟨a, c, ra, rc, _, _, h1, h2, h3, h4, _⟩ := b.wired w hw (fun _ hf => hf.elim)
  simp only [Wiring.hasId, h1, h2, Bool.or_eq_false_iff, decide_eq_false_iff_not]
  exact ⟨fun he => h ra (he ▸ h3), fun he => h rc (he ▸ h4)⟩

/-- Id `i` is not used in the tree. -/
def Fresh (s : St) (i : Id) : Prop := ∀ r, (i, r) ∉ s.nodes

theorem instantiate_fresh {s : St} {i : Id} (sp : Spec) (b : Basic C (fun _ => False) s) (h : Fresh s i) :
    Basic C (fun _ => False) (instantiate s i sp).1 := by
  refine (instantiate_basic i sp b).strengthen fun j hj => Or.inr ?_
  rcases hj with hj | rfl
  · exact hj.elim
  · exact b.fresh h

theorem addNode_basic {s : St} {u : Id} (sp : Option Spec) (p : Option Id) (i : Int) (cs : List Id)
    (b : Basic C (fun _ => False) s) (h : Fresh s u) : Basic C (fun _ => False) (addNode s u sp p i cs).1 := by
  unfold addNode
  split
  · exact b
  · rename_i _ sp
    have b1 := instantiate_fresh sp b h
    dsimp only
    split
    · exact b1
    · rename_i p
      split
      · exact basic_sync (removeNode_basic _ _ b1)
      · exact b1
      · rename_i s2 h2
        have b2 : Basic C (fun _ => False) s2 := by
          split at h2
          · cases h2; exact b1
          · split at h2
            · cases h2
            · simp only [Option.some.injEq] at h2
              exact b1.relink (addChild_relink h2)
        have b3 : Basic C (fun _ => False) (if (!cs.isEmpty) = true then (edit (removeNode · (some u) false) s2).1 else s2) := by
          split
          · exact edit_basic (removeNode_basic _ _ b2)
          · exact b2
        split
        · exact b3
        · exact basic_sync (removeNode_basic _ _ b3)
        · exact b3

theorem moveNode_basic {s : St} (n p : Option Id) (i : Int) (b : Basic C x s) : Basic C x (moveNode s n p i).1 :=
  b.relink (moveNode_relink s n p i)

theorem replaceNode_basic {s : St} (o n : Option Id) (b : Basic C x s) : Basic C x (replaceNode s o n).1 := by
  unfold replaceNode
  split
  · exact b
  · exact b
  · split
    · exact b
    · exact b
    · rename_i ro rn _ _
      dsimp only
      split
      · exact b
      · have b1 := b.relink (moveChildren_relink ro rn (some (s.heap rn).nid) (s.childIds ro) s)
        split
        · exact b1
        · have b2 := edit_basic (f := (removeNode · (some (s.heap ro).nid) true)) (removeNode_basic (some (s.heap ro).nid) true b1)
          split
          · rename_i s2 h2
            rw [h2] at b2
            split
            · exact b2
            · exact edit_basic (moveNode_basic _ _ _ b2)
          · rename_i s2 _ _ h2
            rw [h2] at b2
            exact b2

/-- Registering a known object again under its own id. -/
theorem reregister_basic {s : St} {r : Ref} (b : Basic C x s) (hr : r < s.next) (i : Id) (hi : (s.heap r).nid = i) (adj : List (Id × List Id))
    (hw : ∀ w ∈ s.wirings, w.hasId i = false) (d : List (Id × Ref)) (hd : ∀ z, z ∈ d ↔ z = (i, r) ∨ (z ∈ s.nodes ∧ z.1 ≠ i))
    (hk : (d.map (·.1)).Nodup) : Basic C x { s with nodes := d, adj := adj } := by
  refine ⟨⟨?_, hk, ?_⟩, b.lim, ?_⟩
  · intro j q h
    rcases (hd _).1 h with h | ⟨h, _⟩
    · cases h; exact hi
    · exact b.dict.key j q h
  · intro j q h
    rcases (hd _).1 h with h | ⟨h, _⟩
    · cases h; exact hr
    · exact b.dict.alloc j q h
  · intro w hwm hx
    obtain ⟨a, c, ra, rc, to, ti, h1, h2, h3, h4, h5⟩ := b.wired w hwm hx
    have := hw w hwm
    simp only [Wiring.hasId, h1, h2, Bool.or_eq_false_iff, decide_eq_false_iff_not] at this
    exact ⟨a, c, ra, rc, to, ti, h1, h2, (hd _).2 (Or.inr ⟨h3, this.1⟩), (hd _).2 (Or.inr ⟨h4, this.2⟩), h5⟩

theorem mem_dictSet_del {α : Type} {d : List (Nat × α)} {k : Nat} {v : α} {z : Nat × α} (hn : (d.map (·.1)).Nodup) :
    (z ∈ dictSet (dictDel d k) k v ↔ z = (k, v) ∨ (z ∈ d ∧ z.1 ≠ k)) ∧ ((dictSet (dictDel d k) k v).map (·.1)).Nodup := by
  have hn2 : ((dictDel d k).map (·.1)).Nodup := hn.sublist (List.filter_sublist.map _)
  refine ⟨?_, dictSet_keys _ _ _ hn2⟩
  rw [mem_dictSet hn2]
  simp only [dictDel, List.mem_filter, decide_eq_true_eq]
  constructor
  · rintro (h | ⟨⟨h1, h2⟩, _⟩)
    · exact Or.inl h
    · exact Or.inr ⟨h1, h2⟩
  · rintro (h | ⟨h1, h2⟩)
    · exact Or.inl h
    · exact Or.inr ⟨⟨h1, h2⟩, h2⟩

theorem noHasId_filter (s : St) (i : Id) : ∀ w ∈ s.wirings.filter (fun w => !w.hasId i), w.hasId i = false := by
  intro w hw; simpa using (List.mem_filter.1 hw).2

/-- The state after instantiating the exchanged node and unwiring it. -/
def exchanged (s : St) (i : Id) (sp : Spec) : St :=
  let s := (instantiate s i sp).1
  sync { s with wirings := s.wirings.filter fun w => !w.hasId i }

theorem exchanged_basic {s : St} {i : Id} (sp : Spec) (b : Basic C (fun _ => False) s) :
    Basic C (fun _ => False) (exchanged s i sp) := by
  have b1 := instantiate_basic i sp b
  unfold exchanged
  refine basic_sync (Basic.strengthen (x := fun j => False ∨ j = i) ?_ ?_)
  · refine ⟨⟨b1.dict.key, b1.dict.keys, b1.dict.alloc⟩, b1.lim, ?_⟩
    intro w hw hx
    exact b1.wired w (List.mem_filter.1 hw).1 hx
  · intro j hj
    rcases hj with hj | rfl
    · exact hj.elim
    · exact Or.inr (noHasId_filter _ _)

theorem exchanged_next (s : St) (i : Id) (sp : Spec) : (exchanged s i sp).next = s.next + 1 := rfl

theorem exchanged_new (s : St) (i : Id) (sp : Spec) : ((exchanged s i sp).heap s.next) = { nid := i, spec := sp } := by
  simp [exchanged, sync, instantiate]

theorem exchanged_old (s : St) (i : Id) (sp : Spec) (r : Ref) (h : r ≠ s.next) : (exchanged s i sp).heap r = s.heap r := by
  simp [exchanged, sync, instantiate, h]

/-- What `morph_node` and `set_options` do after `instantiate_node_from_msg`. -/
theorem edit_unwire_exchange (s : St) (i : Id) (sp : Spec) :
    edit (unwireData · ((instantiate s i sp).1.wirings.filter (·.hasId i)) false) (instantiate s i sp).1 = (exchanged s i sp, .ok) := by
  unfold edit
  dsimp only
  rw [unwire_node]
  rfl

theorem morphNode_basic {s : St} (n : Option Id) (sp : Option Spec) (b : Basic C (fun _ => False) s) :
    Basic C (fun _ => False) (morphNode C s n sp).1 := by
  unfold morphNode
  split
  · exact b
  · rename_i i
    split
    · exact b
    · rename_i old hold
      split
      · exact b
      · rename_i sp
        have hreg := dictGet_mem hold
        have hne : old ≠ s.next := Nat.ne_of_lt (b.dict.alloc _ _ hreg)
        have hnid : ((instantiate s i sp).1.heap old).nid = i := by
          simp only [instantiate, if_neg hne]; exact b.dict.key _ _ hreg
        dsimp only
        rw [hnid, edit_unwire_exchange]
        dsimp only
        have b1 := exchanged_basic (i := i) sp b
        have hw := noHasId_filter (instantiate s i sp).1 i
        have k := swapInParent_relink (exchanged s i sp) old s.next
        have b2 := b1.relink k
        have hn2 := k.same
        have e1 : (instantiate s i sp).2 = s.next := rfl
        rw [e1]
        split
        · rename_i s2 h2
          rw [h2] at b2 hn2
          have k3 := moveChildren_relink old s.next none (s2.childIds old) s2
          have b3 := b2.relink k3
          split
          · exact b3
          · have hs := hn2.trans k3.same
            have ho : ((moveChildren old s.next none (s2.childIds old) s2).1.heap old).nid = i := by
              rw [hs.nid, exchanged_old _ _ _ _ hne]; exact b.dict.key _ _ hreg
            have hnn : ((moveChildren old s.next none (s2.childIds old) s2).1.heap s.next).nid = i := by
              rw [hs.nid, exchanged_new]
            have b4 := reregister_basic (r := s.next) b3 (by rw [hs.next, exchanged_next]; exact Nat.lt_succ_self _) i hnn
              (dictSet (dictDel (moveChildren old s.next none (s2.childIds old) s2).1.adj i) i
                ((moveChildren old s.next none (s2.childIds old) s2).1.childIds s.next))
              (by rw [hs.wirings]; exact hw) _ (fun z => (mem_dictSet_del b3.dict.keys).1) (mem_dictSet_del (z := (i, s.next)) b3.dict.keys).2
            rw [ho, hnn]
            have b5 := edit_basic (f := (wireData C · ((instantiate s i sp).1.wirings.filter (·.hasId i)) true))
              (wireData_basic ((instantiate s i sp).1.wirings.filter (·.hasId i)) true b4)
            split
            · rename_i h5; rw [h5] at b5; exact b5
            · rename_i h5; rw [h5] at b5; exact b5
        · rename_i s2 h2
          rw [h2] at b2
          exact basic_sync (wireData_basic _ _ b2)
        · rename_i s2 _ _ _ h2
          rw [h2] at b2
          exact b2

theorem setOptions_basic {s : St} (n : Option Id) (sp : Option Spec) (b : Basic C (fun _ => False) s) :
    Basic C (fun _ => False) (setOptions C s n sp).1 := by
  unfold setOptions
  split
  · exact b
  · rename_i i
    split
    · exact b
    · rename_i old hold
      have hreg := dictGet_mem hold
      have b0 := basic_sync b
      dsimp only
      split
      · exact b0
      · rename_i sp
        have hne : old ≠ (sync s).next := Nat.ne_of_lt (b.dict.alloc _ _ hreg)
        have hi : ((sync s).heap old).nid = i := b.dict.key _ _ hreg
        rw [hi]
        generalize hsp : ({ sp with max := ((sync s).heap old).spec.max } : Spec) = sp'
        rw [edit_unwire_exchange]
        dsimp only
        have b1 := exchanged_basic (i := i) sp' b0
        have hw := noHasId_filter (instantiate (sync s) i sp').1 i
        have k := swapInParent_relink (exchanged (sync s) i sp') old (sync s).next
        have b2 := b1.relink k
        have hn2 := k.same
        have e1 : (instantiate (sync s) i sp').2 = (sync s).next := rfl
        rw [e1]
        split
        · rename_i s2 h2
          rw [h2] at b2 hn2
          have b4 := reregister_basic (r := (sync s).next) b2 (by rw [hn2.next, exchanged_next]; exact Nat.lt_succ_self _) i
              (by rw [hn2.nid, exchanged_new]) (dictSet s2.adj i (s2.childIds (sync s).next))
              (by rw [hn2.wirings]; exact hw) _ (fun z => mem_dictSet b2.dict.keys) (dictSet_keys s2.nodes i (sync s).next b2.dict.keys)
          have b5 := edit_basic (f := (wireData C · ((instantiate (sync s) i sp').1.wirings.filter (·.hasId i)) true))
              (wireData_basic ((instantiate (sync s) i sp').1.wirings.filter (·.hasId i)) true b4)
          have b6 := b5.relink (moveChildren_relink old (sync s).next none
            ((edit (wireData C · ((instantiate (sync s) i sp').1.wirings.filter (·.hasId i)) true)
              { s2 with nodes := dictSet s2.nodes i (sync s).next, adj := dictSet s2.adj i (s2.childIds (sync s).next) }).1.childIds old) _)
          split
          · exact basic_sync b6
          · exact b6
        · rename_i s2 h2
          rw [h2] at b2
          exact basic_sync (wireData_basic _ _ b2)
        · rename_i s2 _ _ _ h2
          rw [h2] at b2
          exact b2

theorem clear_basic {s : St} (b : Basic C x s) : Basic C (fun _ => False) (clear s).1 :=
  ⟨⟨fun _ _ h => absurd h (by simp [clear]), by simp [clear], fun _ _ h => absurd h (by simp [clear])⟩, b.lim,
    fun _ h => absurd h (by simp [clear])⟩

theorem loadNodes_basic (ms : List NodeMsg) {s : St} (b : Basic C (fun _ => False) s) (hw : s.wirings = []) :
    Basic C (fun _ => False) (loadNodes ms s).1 ∧ (loadNodes ms s).1.wirings = [] := by
  induction ms generalizing s with
  | nil => exact ⟨b, hw⟩
  | cons m ms ih =>
    unfold loadNodes
    split
    · rename_i i sp _ _
      refine ih ((instantiate_basic i sp b).strengthen fun j hj => Or.inr ?_) hw
      intro w h
      rw [show (instantiate s i sp).1.wirings = s.wirings from rfl, hw] at h
      cases h
    · exact ⟨b, hw⟩

theorem loadTree_basic {s : St} (m : Option TreeMsg) (b : Basic C (fun _ => False) s) : Basic C (fun _ => False) (loadTree C s m).1 := by
  unfold loadTree
  split
  · exact b
  · rename_i t
    have b1 : Basic C (fun _ => False) (edit clear s).1 := edit_basic (clear_basic b)
    have b2 := loadNodes_basic t.nodes b1 rfl
    dsimp only
    split
    · exact b2.1
    · have k := loadLinks_relink t.nodes (loadNodes t.nodes (edit clear s).1).1
      have b3 := b2.1.relink k
      split
      · rename_i s3 h3
        rw [h3] at b3
        split
        · rename_i hv
          refine basic_sync ⟨⟨b3.dict.key, b3.dict.keys, b3.dict.alloc⟩, b3.lim, ?_⟩
          intro w hw _
          exact validate_valid (s := s3) (List.all_eq_true.1 hv w hw)
        · exact b3
      · rename_i s3 _ _ h3
        rw [h3] at b3
        exact b3

/-- The only demand on a request: a new node gets an id that is not in use (`uuid4`). -/
def Req.FreshId : Req → St → Prop
  | .add u _ _ _ _, s => Fresh s u
  | _, _ => True

theorem handle_basic {s : St} (r : Req) (b : Basic C (fun _ => False) s) (h : r.FreshId s) :
    Basic C (fun _ => False) (handle C r s).1 := by
  cases r with
  | add u sp p i cs => exact edit_basic (addNode_basic sp p i cs b h)
  | remove n wc => exact edit_basic (removeNode_basic n wc b)
  | morph n sp => exact edit_basic (morphNode_basic n sp b)
  | setOptions n sp => exact edit_basic (setOptions_basic n sp b)
  | move n p i => exact edit_basic (moveNode_basic n p i b)
  | replace o n => exact edit_basic (replaceNode_basic o n b)
  | wire ws ig => exact edit_basic (wireData_basic ws ig b)
  | unwire ws ig => exact edit_basic (unwireData_basic ws ig b)
  | load m => exact edit_basic (loadTree_basic m b)
  | reload =>
    refine edit_basic ?_
    unfold reloadTree
    split
    · exact b
    · exact loadTree_basic _ b
  | clear => exact edit_basic (clear_basic b)
  | rename => exact edit_basic b

theorem init_basic : Basic C (fun _ => False) {} :=
  ⟨⟨fun _ _ h => absurd h List.not_mem_nil, by simp, fun _ _ h => absurd h List.not_mem_nil⟩,
    fun _ _ h => by simp at h, fun _ h => absurd h List.not_mem_nil⟩

/-- Every request of the history that adds a node draws a fresh id. -/
def FreshIds (C : Nat → Nat → Bool) : List Req → St → Prop
  | [], _ => True
  | r :: rs, s => r.FreshId s ∧ FreshIds C rs (handle C r s).1

theorem history_basic {s : St} (rs : List Req) (b : Basic C (fun _ => False) s) (h : FreshIds C rs s) :
    Basic C (fun _ => False) (history C rs s) := by
  induction rs generalizing s with
  | nil => exact b
  | cons r rs ih => exact ih (handle_basic r b h.1) h.2

end Verif.Edit
