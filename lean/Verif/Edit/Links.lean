import Verif.Edit.Spec

/-! Effect of the link operations on the heap, field by field. -/

set_option autoImplicit false

namespace Verif.Edit

/-! ### Dictionaries -/

theorem dictGet_mem {α : Type} {d : List (Nat × α)} {k : Nat} {v : α} (h : dictGet d k = some v) : (k, v) ∈ d := by
  unfold dictGet at h
  cases hf : d.find? (fun x => x.1 = k) with
  | none => rw [hf] at h; cases h
  | some x =>
    rw [hf] at h
    have h1 := List.mem_of_find?_eq_some hf
    have h2 := List.find?_some hf
    simp only [decide_eq_true_eq] at h2
    simp only [Option.map_some, Option.some.injEq] at h
    subst h; subst h2; exact h1

theorem mem_dictGet {α : Type} {d : List (Nat × α)} {k : Nat} {v : α} (hn : (d.map (·.1)).Nodup)
    (h : (k, v) ∈ d) : dictGet d k = some v := by
  induction d with
  | nil => cases h
  | cons x d ih =>
    simp only [List.map_cons, List.nodup_cons] at hn
    unfold dictGet
    rw [List.find?_cons]
    rcases List.mem_cons.1 h with rfl | h
    · simp
    · have : x.1 ≠ k := by
        intro he
        exact hn.1 (List.mem_map.2 ⟨_, h, he.symm⟩)
      simp only [this, decide_false, Bool.false_eq_true]
      exact ih hn.2 h

theorem dictGet_none {α : Type} {d : List (Nat × α)} {k : Nat} (h : dictGet d k = none) : ∀ v, (k, v) ∉ d := by
  intro v hv
  unfold dictGet at h
  simp only [Option.map_eq_none_iff, List.find?_eq_none, decide_eq_true_eq] at h
  exact h _ hv rfl

theorem dictGet_isSome {α : Type} {d : List (Nat × α)} {k : Nat} : (dictGet d k).isSome = true ↔ ∃ v, (k, v) ∈ d := by
  constructor
  · intro h
    obtain ⟨v, hv⟩ := Option.isSome_iff_exists.1 h
    exact ⟨v, dictGet_mem hv⟩
  · rintro ⟨v, hv⟩
    cases hg : dictGet d k with
    | some _ => rfl
    | none => exact absurd hv (dictGet_none hg v)

theorem mem_dictSet {α : Type} {d : List (Nat × α)} {k : Nat} {v : α} {x : Nat × α} (hn : (d.map (·.1)).Nodup) :
    x ∈ dictSet d k v ↔ x = (k, v) ∨ (x ∈ d ∧ x.1 ≠ k) := by
  induction d with
  | nil => simp [dictSet]
  | cons y d ih =>
    obtain ⟨k', v'⟩ := y
    simp only [List.map_cons, List.nodup_cons] at hn
    unfold dictSet
    split
    · rename_i he
      subst he
      simp only [List.mem_cons]
      constructor
      · rintro (h | h)
        · exact Or.inl h
        · exact Or.inr ⟨Or.inr h, fun he => hn.1 (List.mem_map.2 ⟨x, h, he⟩)⟩
      · rintro (h | ⟨h | h, hne⟩)
        · exact Or.inl h
        · exact absurd (by rw [h]) hne
        · exact Or.inr h
    · rename_i he
      rw [List.mem_cons, ih hn.2]
      constructor
      · rintro (h | h | ⟨h1, h2⟩)
        · exact Or.inr ⟨by simp [h], by rw [h]; exact he⟩
        · exact Or.inl h
        · exact Or.inr ⟨by simp [h1], h2⟩
      · rintro (h | ⟨h1, h2⟩)
        · exact Or.inr (Or.inl h)
        · rcases List.mem_cons.1 h1 with h | h
          · exact Or.inl h
          · exact Or.inr (Or.inr ⟨h, h2⟩)

theorem dictSet_keys {α : Type} (d : List (Nat × α)) (k : Nat) (v : α) (hn : (d.map (·.1)).Nodup) :
    ((dictSet d k v).map (·.1)).Nodup := by
  induction d with
  | nil => simp [dictSet]
  | cons y d ih =>
    obtain ⟨k', v'⟩ := y
    simp only [List.map_cons, List.nodup_cons] at hn
    unfold dictSet
    split
    · rename_i he
      subst he
      simpa using hn
    · rename_i he
      simp only [List.map_cons, List.nodup_cons]
      refine ⟨?_, ih hn.2⟩
      intro hm
      obtain ⟨x, hx, hxe⟩ := List.mem_map.1 hm
      rcases (mem_dictSet hn.2).1 hx with h | ⟨h, _⟩
      · exact he (by rw [← hxe, h])
      · exact hn.1 (List.mem_map.2 ⟨x, h, hxe⟩)

/-! ### Attaching and detaching -/

/-- Field by field effect of `add_child`. -/
structure Added (s s' : St) (p c : Ref) : Prop where
  nodes : s'.nodes = s.nodes
  next : s'.next = s.next
  adj : s'.adj = s.adj
  wirings : s'.wirings = s.wirings
  nid : ∀ x, (s'.heap x).nid = (s.heap x).nid
  spec : ∀ x, (s'.heap x).spec = (s.heap x).spec
  parent : ∀ x, (s'.heap x).parent = if x = c then some p else (s.heap x).parent
  others : ∀ x, x ≠ p → (s'.heap x).children = (s.heap x).children
  inserted : ∃ i, (s'.heap p).children = (s.heap p).children.take i ++ c :: (s.heap p).children.drop i
  room : (s.heap p).spec.max ≠ some (s.heap p).children.length
  fresh : (s.heap c).nid ∉ s.childIds p

theorem addChild_added {s s' : St} {p c : Ref} {a : Option Int} (h : addChild s p c a = some s') : Added s s' p c := by
  unfold addChild at h
  simp only at h
  split at h
  · cases h
  · rename_i h1
    split at h
    · cases h
    · rename_i h2
      simp only [Option.some.injEq] at h
      subst h
      refine ⟨rfl, rfl, rfl, rfl, ?_, ?_, ?_, ?_, ⟨insertPos (s.heap p).children.length a, ?_⟩, h1, h2⟩
      · intro x; simp only [St.upd]; split <;> split <;> simp_all
      · intro x; simp only [St.upd]; split <;> split <;> simp_all
      · intro x; simp only [St.upd]; split <;> split <;> simp_all
      · intro x hx; simp only [St.upd]; split <;> simp_all
      · simp only [St.upd]; split <;> simp_all

theorem addChild_children {s s' : St} {p c : Ref} {a : Option Int} (h : addChild s p c a = some s') :
    (s'.heap p).children = (s.heap p).children.take (insertPos (s.heap p).children.length a) ++
      c :: (s.heap p).children.drop (insertPos (s.heap p).children.length a) := by
  unfold addChild at h
  simp only at h
  split at h
  · cases h
  · split at h
    · cases h
    · simp only [Option.some.injEq] at h
      subst h
      simp only [St.upd]; split <;> simp_all

theorem insertPos_none (n : Nat) : insertPos n none = n := by
  have h : ¬ (n : Int) < 0 := by omega
  simp [insertPos, h]

theorem insertPos_nat {n k : Nat} (h : k ≤ n) : insertPos n (some (Int.ofNat k)) = k := by
  have h1 : ¬ (k : Int) < 0 := by omega
  simp [insertPos, h1, Nat.min_eq_left h]

theorem addChild_last {s s' : St} {p c : Ref} (h : addChild s p c none = some s') :
    (s'.heap p).children = (s.heap p).children ++ [c] := by
  rw [addChild_children h, insertPos_none, List.take_length, List.drop_length]

/-- Field by field effect of `remove_child`. -/
structure Removed (s s' : St) (p c : Ref) (cid : Id) : Prop where
  nodes : s'.nodes = s.nodes
  next : s'.next = s.next
  adj : s'.adj = s.adj
  wirings : s'.wirings = s.wirings
  nid : ∀ x, (s'.heap x).nid = (s.heap x).nid
  spec : ∀ x, (s'.heap x).spec = (s.heap x).spec
  parent : ∀ x, (s'.heap x).parent = if x = c then none else (s.heap x).parent
  others : ∀ x, x ≠ p → (s'.heap x).children = (s.heap x).children
  mem : c ∈ (s.heap p).children
  cid : (s.heap c).nid = cid
  erased : ∃ i, ∃ h : i < (s.heap p).children.length, (s.heap p).children[i] = c ∧
    (s'.heap p).children = (s.heap p).children.eraseIdx i

theorem idxOf?_spec {l : List Nat} {a i : Nat} (h : l.idxOf? a = some i) : ∃ hi : i < l.length, l[i] = a := by
  unfold List.idxOf? at h
  rw [List.findIdx?_eq_some_iff_getElem] at h
  obtain ⟨hi, h1, _⟩ := h
  exact ⟨hi, by simpa using h1⟩

theorem removeChild_removed {s s' : St} {p c : Ref} {cid : Id} (h : removeChild s p cid = some (s', c)) :
    Removed s s' p c cid := by
  unfold removeChild at h
  split at h
  · cases h
  · rename_i i hi
    split at h
    · cases h
    · rename_i c' hc
      simp only [Option.some.injEq, Prod.mk.injEq] at h
      obtain ⟨h, rfl⟩ := h
      subst h
      obtain ⟨hl, he⟩ := List.getElem?_eq_some_iff.1 hc
      obtain ⟨hl2, he2⟩ := idxOf?_spec hi
      refine ⟨rfl, rfl, rfl, rfl, ?_, ?_, ?_, ?_, ?_, ?_, i, hl, he, ?_⟩
      · intro x; simp only [St.upd]; split <;> split <;> simp_all
      · intro x; simp only [St.upd]; split <;> split <;> simp_all
      · intro x; simp only [St.upd]; split <;> split <;> simp_all
      · intro x hx; simp only [St.upd]; split <;> simp_all
      · rw [← he]; exact List.getElem_mem _
      · simp only [St.childIds, List.getElem_map] at he2
        rw [← he2, he]
      · simp only [St.upd]; split <;> simp_all

theorem childIndex_some {s : St} {p c : Ref} (h : c ∈ (s.heap p).children) :
    ∃ i, childIndex s p (s.heap c).nid = some i := by
  unfold childIndex
  rw [← Option.isSome_iff_exists, List.isSome_idxOf?]
  exact List.mem_map.2 ⟨c, h, rfl⟩

/-- `remove_child` succeeds for a listed child. -/
theorem removeChild_some {s : St} {p c : Ref} (h : c ∈ (s.heap p).children) :
    ∃ s' c', removeChild s p (s.heap c).nid = some (s', c') := by
  unfold removeChild
  obtain ⟨i, hi⟩ := childIndex_some h
  rw [hi]
  simp only
  obtain ⟨hl, _⟩ := idxOf?_spec hi
  have : i < (s.heap p).children.length := by simpa [St.childIds] using hl
  rw [List.getElem?_eq_getElem this]
  exact ⟨_, _, rfl⟩

theorem childIndex_none {s : St} {p : Ref} {cid : Id} (h : childIndex s p cid = none) : cid ∉ s.childIds p := by
  unfold childIndex at h
  simpa using h

theorem removeChild_none {s : St} {p : Ref} {cid : Id} (h : removeChild s p cid = none) : cid ∉ s.childIds p := by
  intro hm
  obtain ⟨c, hc, rfl⟩ := List.mem_map.1 hm
  obtain ⟨s', c', h2⟩ := removeChild_some hc
  rw [h] at h2
  cases h2

/-- Links agree on the set `L`. -/
structure LinksOn (L : Ref → Prop) (h : Ref → Obj) : Prop where
  down : ∀ r, L r → ∀ c ∈ (h r).children, L c ∧ (h c).parent = some r
  up : ∀ r, L r → ∀ p, (h r).parent = some p → L p ∧ r ∈ (h p).children
  nodup : ∀ r, L r → (h r).children.Nodup

theorem mem_insert {α : Type} {l : List α} {i : Nat} {a x : α} : x ∈ l.take i ++ a :: l.drop i ↔ x = a ∨ x ∈ l := by
  rw [List.mem_append, List.mem_cons]
  constructor
  · rintro (h | h | h)
    · exact Or.inr (List.mem_of_mem_take h)
    · exact Or.inl h
    · exact Or.inr (List.mem_of_mem_drop h)
  · rintro (h | h)
    · exact Or.inr (Or.inl h)
    · rw [← List.take_append_drop i l, List.mem_append] at h
      rcases h with h | h
      · exact Or.inl h
      · exact Or.inr (Or.inr h)

theorem perm_insert {α : Type} (l : List α) (i : Nat) (a : α) : (l.take i ++ a :: l.drop i).Perm (a :: l) := by
  have := @List.perm_middle _ a (l.take i) (l.drop i)
  rwa [List.take_append_drop] at this

theorem nodup_insert {α : Type} {l : List α} {i : Nat} {a : α} (h : l.Nodup) (ha : a ∉ l) :
    (l.take i ++ a :: l.drop i).Nodup := by
  rw [(perm_insert l i a).nodup_iff]
  exact List.nodup_cons.2 ⟨ha, h⟩

theorem mem_eraseIdx_nodup {α : Type} {l : List α} {i : Nat} (hl : i < l.length) (hn : l.Nodup) {x : α} :
    x ∈ l.eraseIdx i ↔ x ∈ l ∧ x ≠ l[i] := by
  rw [List.mem_eraseIdx_iff_getElem]
  constructor
  · rintro ⟨j, hj, hne, rfl⟩
    refine ⟨List.getElem_mem _, fun he => hne ?_⟩
    exact (List.getElem_inj hn).1 he
  · rintro ⟨hm, hne⟩
    obtain ⟨j, hj, rfl⟩ := List.mem_iff_getElem.1 hm
    exact ⟨j, hj, fun he => hne (by subst he; rfl), rfl⟩

/-- Adding an orphan keeps the links in agreement. -/
theorem added_links {L : Ref → Prop} {s s' : St} {p c : Ref} (h : Added s s' p c) (hl : LinksOn L s.heap) (hp : L p)
    (hc : L c) (ho : (s.heap c).parent = none) : LinksOn L s'.heap := by
  obtain ⟨i, hi⟩ := h.inserted
  have hnew : c ∉ (s.heap p).children := fun hm => by
    have := (hl.down p hp c hm).2
    rw [ho] at this; cases this
  refine ⟨?_, ?_, ?_⟩
  · intro r hr x hx
    rw [h.parent]
    by_cases hrp : r = p
    · subst hrp
      rw [hi, mem_insert] at hx
      rcases hx with rfl | hx
      · exact ⟨hc, by simp⟩
      · have := hl.down r hr x hx
        refine ⟨this.1, ?_⟩
        split
        · rename_i he; rfl
        · exact this.2
    · rw [h.others r hrp] at hx
      have := hl.down r hr x hx
      refine ⟨this.1, ?_⟩
      split
      · rename_i he
        subst he
        rw [ho] at this; cases this.2
      · exact this.2
  · intro r hr q hq
    rw [h.parent] at hq
    split at hq
    · rename_i he
      subst he
      simp only [Option.some.injEq] at hq
      subst hq
      exact ⟨hp, by rw [hi, mem_insert]; exact Or.inl rfl⟩
    · have := hl.up r hr q hq
      refine ⟨this.1, ?_⟩
      by_cases hqp : q = p
      · subst hqp; rw [hi, mem_insert]; exact Or.inr this.2
      · rw [h.others q hqp]; exact this.2
  · intro r hr
    by_cases hrp : r = p
    · subst hrp; rw [hi]; exact nodup_insert (hl.nodup r hr) hnew
    · rw [h.others r hrp]; exact hl.nodup r hr

/-- Removing a child keeps the links in agreement. -/
theorem removed_links {L : Ref → Prop} {s s' : St} {p c : Ref} {cid : Id} (h : Removed s s' p c cid)
    (hl : LinksOn L s.heap) (hp : L p) : LinksOn L s'.heap := by
  obtain ⟨i, hlt, hci, hi⟩ := h.erased
  have hn := hl.nodup p hp
  have hcp := (hl.down p hp c h.mem).2
  refine ⟨?_, ?_, ?_⟩
  · intro r hr x hx
    rw [h.parent]
    by_cases hrp : r = p
    · subst hrp
      rw [hi, mem_eraseIdx_nodup hlt hn, hci] at hx
      have := hl.down r hr x hx.1
      rw [if_neg hx.2]; exact this
    · rw [h.others r hrp] at hx
      have := hl.down r hr x hx
      refine ⟨this.1, ?_⟩
      rw [if_neg]
      · exact this.2
      · intro he
        subst he
        rw [hcp] at this
        exact hrp (Option.some.inj this.2).symm
  · intro r hr q hq
    rw [h.parent] at hq
    split at hq
    · cases hq
    · rename_i hrc
      have := hl.up r hr q hq
      refine ⟨this.1, ?_⟩
      by_cases hqp : q = p
      · subst hqp; rw [hi, mem_eraseIdx_nodup hlt hn, hci]; exact ⟨this.2, hrc⟩
      · rw [h.others q hqp]; exact this.2
  · intro r hr
    by_cases hrp : r = p
    · subst hrp; rw [hi]; exact hn.sublist (List.eraseIdx_sublist _ _)
    · rw [h.others r hrp]; exact hl.nodup r hr

end Verif.Edit
