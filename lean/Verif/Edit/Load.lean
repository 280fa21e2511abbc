import Verif.Edit.Reject

/-! C37: loading a message yields exactly the tree it describes; loading what a tree publishes
restores it. -/

set_option autoImplicit false

namespace Verif.Edit

variable {C : Nat → Nat → Bool}

/-- The nodes of a message in which everything parses: id, spec and ids of the children. -/
abbrev Listing := List (Id × Spec × List Id)

/-- The node messages of a listing. -/
def Listing.msgs (L : Listing) : List NodeMsg := L.map fun x => { nid := some x.1, spec := some x.2.1, childIds := x.2.2.map some }

/-- A listing that describes a forest: no id twice, no node twice as child, all children listed, child limits kept. -/
structure Listing.Fine (L : Listing) : Prop where
  ids : (L.map (·.1)).Nodup
  once : (L.flatMap (·.2.2)).Nodup
  known : ∀ c ∈ L.flatMap (·.2.2), c ∈ L.map (·.1)
  room : ∀ x ∈ L, ∀ m, x.2.1.max = some m → x.2.2.length ≤ m

/-! ### Creating the nodes -/

theorem dict_empty {s : St} (h : s.nodes = []) : Dict s :=
  ⟨fun i r hr => (by rw [h] at hr; cases hr), (by rw [h]; exact List.nodup_nil), fun i r hr => (by rw [h] at hr; cases hr)⟩

theorem instantiate_dict {s : St} (i : Id) (sp : Spec) (d : Dict s) : Dict (instantiate s i sp).1 := by
  refine ⟨?_, dictSet_keys _ _ _ d.keys, ?_⟩
  · intro j r h
    rcases (mem_dictSet d.keys).1 h with h | ⟨h, _⟩
    · cases h; simp [instantiate]
    · simp only [instantiate, if_neg (Nat.ne_of_lt (d.alloc j r h))]; exact d.key j r h
  · intro j r h
    rcases (mem_dictSet d.keys).1 h with h | ⟨h, _⟩
    · cases h; exact Nat.lt_succ_self _
    · exact Nat.lt_succ_of_lt (d.alloc j r h)

theorem instantiate_specOf {s : St} (i : Id) (sp : Spec) (d : Dict s) (j : Id) :
    specOf (instantiate s i sp).1 j = if j = i then some sp else specOf s j := by
  have d' := instantiate_dict i sp d
  by_cases hj : j = i
  · subst hj
    rw [if_pos rfl, specOf_reg d' (r := s.next) ((mem_dictSet d.keys).2 (Or.inl rfl))]
    simp [instantiate]
  · rw [if_neg hj]
    cases hg : dictGet s.nodes j with
    | some r =>
      have hr := dictGet_mem hg
      rw [specOf_reg d' (r := r) ((mem_dictSet d.keys).2 (Or.inr ⟨hr, hj⟩)), specOf_reg d hr]
      simp only [instantiate, if_neg (Nat.ne_of_lt (d.alloc j r hr))]
    | none =>
      cases hg' : dictGet (instantiate s i sp).1.nodes j with
      | none => unfold specOf; rw [hg, hg']; rfl
      | some r =>
        rcases (mem_dictSet d.keys).1 (dictGet_mem hg') with h | ⟨h, _⟩
        · cases h; exact absurd rfl hj
        · exact absurd h (dictGet_none hg r)

theorem loadNodes_exact (L : Listing) : ∀ {s : St}, Dict s → Bare s → (L.map (·.1)).Nodup →
    (loadNodes L.msgs s).2 = true ∧ Dict (loadNodes L.msgs s).1 ∧ Bare (loadNodes L.msgs s).1 ∧
    (∀ x ∈ L, specOf (loadNodes L.msgs s).1 x.1 = some x.2.1) ∧
    (∀ j, j ∉ L.map (·.1) → specOf (loadNodes L.msgs s).1 j = specOf s j) := by
  induction L with
  | nil => intro s d b _; exact ⟨rfl, d, b, (fun x h => by cases h), fun _ _ => rfl⟩
  | cons a L ih =>
    intro s d b hn
    rw [List.map_cons, List.nodup_cons] at hn
    obtain ⟨k1, k2, k3, k4, k5⟩ := ih (instantiate_dict a.1 a.2.1 d) (instantiate_bare a.1 a.2.1 d b) hn.2
    refine ⟨k1, k2, k3, ?_, ?_⟩
    · intro x hx
      rcases List.mem_cons.1 hx with rfl | hx
      · have := k5 x.1 hn.1
        rw [instantiate_specOf _ _ d, if_pos rfl] at this
        exact this
      · exact k4 x hx
    · intro j hj
      rw [List.map_cons, List.mem_cons, not_or] at hj
      have := k5 j hj.2
      rw [instantiate_specOf _ _ d, if_neg hj.1] at this
      exact this

/-! ### Linking them -/

theorem specOf_none {s : St} {j : Id} : specOf s j = none ↔ dictGet s.nodes j = none := by
  unfold specOf
  cases dictGet s.nodes j <;> simp

theorem specOf_some {s : St} {j : Id} {sp : Spec} (h : specOf s j = some sp) : ∃ r, (j, r) ∈ s.nodes ∧ (s.heap r).spec = sp := by
  unfold specOf at h
  cases hg : dictGet s.nodes j with
  | none => rw [hg] at h; cases h
  | some r => rw [hg] at h; cases h; exact ⟨r, dictGet_mem hg, rfl⟩

theorem addChild_exact {s : St} (d : Dict s) {p c : Id} {rp rc : Ref} (hp : (p, rp) ∈ s.nodes) (hc : (c, rc) ∈ s.nodes)
    (hroom : (s.heap rp).spec.max ≠ some (kids s p).length) (hn : c ∉ kids s p) :
    ∃ s', addChild s rp rc none = some s' ∧ Same s s' ∧
      (∀ j, kids s' j = if j = p then kids s p ++ [c] else kids s j) ∧
      (∀ j, parentOf s' j = if j = c then some p else parentOf s j) := by
  have hk := kids_reg d hp
  have hlen : (kids s p).length = (s.heap rp).children.length := by rw [hk]; simp [St.childIds]
  have hnid := d.key _ _ hc
  have hnidp := d.key _ _ hp
  have e : addChild s rp rc none = some ((s.upd rp fun o => { o with children := o.children ++ [rc] }).upd rc
      fun o => { o with parent := some rp }) := by
    unfold addChild
    dsimp only
    rw [if_neg (by rw [← hlen]; exact hroom), if_neg (by rw [hnid, ← hk]; exact hn)]
    have hpos : insertPos (s.heap rp).children.length none = (s.heap rp).children.length := by
      unfold insertPos
      dsimp only
      rw [if_neg (by omega), if_neg (by omega)]
      omega
    rw [hpos]
    have : (s.upd rp fun o => { o with children := o.children.take (s.heap rp).children.length ++ rc :: o.children.drop (s.heap rp).children.length })
        = s.upd rp fun o => { o with children := o.children ++ [rc] } := by
      unfold St.upd
      simp
    rw [this]
  have hs : Same s ((s.upd rp fun o => { o with children := o.children ++ [rc] }).upd rc
      fun o => { o with parent := some rp }) := by
    refine ⟨rfl, rfl, rfl, ?_, ?_⟩ <;> intro x <;> simp only [St.upd] <;> split <;> split <;> simp_all
  have hch : ∀ x, (((s.upd rp fun o => { o with children := o.children ++ [rc] }).upd rc
      fun o => { o with parent := some rp }).heap x).children = if x = rp then (s.heap rp).children ++ [rc] else (s.heap x).children := by
    intro x; simp only [St.upd]; repeat' split
    all_goals simp_all
  have hpa : ∀ x, (((s.upd rp fun o => { o with children := o.children ++ [rc] }).upd rc
      fun o => { o with parent := some rp }).heap x).parent = if x = rc then some rp else (s.heap x).parent := by
    intro x; simp only [St.upd]; repeat' split
    all_goals simp_all
  generalize (s.upd rp fun o => { o with children := o.children ++ [rc] }).upd rc
      (fun o => { o with parent := some rp }) = s' at *
  have d' : Dict s' := ⟨fun i r h => by rw [hs.nid]; exact d.key i r (by rw [← hs.nodes]; exact h),
    by rw [hs.nodes]; exact d.keys, fun i r h => by rw [hs.next]; exact d.alloc i r (by rw [← hs.nodes]; exact h)⟩
  have hsame : ∀ i r x, (i, r) ∈ s.nodes → (i, x) ∈ s.nodes → r = x := by
    intro i r x h1 h2
    have := mem_dictGet d.keys h1
    rw [mem_dictGet d.keys h2] at this
    cases this; rfl
  refine ⟨s', e, hs, ?_, ?_⟩
  · intro j
    cases hg : dictGet s.nodes j with
    | none =>
      have hne : j ≠ p := by rintro rfl; exact dictGet_none hg _ hp
      rw [if_neg hne]; unfold kids; rw [hs.nodes, hg]; rfl
    | some r =>
      have hr := dictGet_mem hg
      rw [kids_reg d' (by rw [hs.nodes]; exact hr)]
      have hci : s'.childIds r = (s'.heap r).children.map fun x => (s.heap x).nid := by
        unfold St.childIds; exact List.map_congr_left fun x _ => hs.nid x
      rw [hci, hch]
      by_cases hj : j = p
      · subst hj
        have := hsame _ _ _ hr hp
        subst this
        rw [if_pos rfl, if_pos rfl, List.map_append, hk]
        simp [St.childIds, hnid]
      · rw [if_neg hj, if_neg, kids_reg d hr]
        · rfl
        · rintro rfl; exact hj (by rw [← d.key _ _ hr, hnidp])
  · intro j
    cases hg : dictGet s.nodes j with
    | none =>
      have hne : j ≠ c := by rintro rfl; exact dictGet_none hg _ hc
      rw [if_neg hne]; unfold parentOf; rw [hs.nodes, hg]; rfl
    | some r =>
      have hr := dictGet_mem hg
      rw [parentOf_reg d' (by rw [hs.nodes]; exact hr), hpa]
      by_cases hj : j = c
      · subst hj
        have := hsame _ _ _ hr hc
        subst this
        rw [if_pos rfl, if_pos rfl, Option.map_some, hs.nid, hnidp]
      · rw [if_neg hj, if_neg, parentOf_reg d hr]
        · congr 1; funext x; exact hs.nid x
        · rintro rfl; exact hj (by rw [← d.key _ _ hr, hnid])

theorem Same.dict {s s' : St} (hs : Same s s') (d : Dict s) : Dict s' :=
  ⟨fun i r h => by rw [hs.nid]; exact d.key i r (by rw [← hs.nodes]; exact h),
    by rw [hs.nodes]; exact d.keys, fun i r h => by rw [hs.next]; exact d.alloc i r (by rw [← hs.nodes]; exact h)⟩

theorem Same.specOf {s s' : St} (hs : Same s s') (j : Id) : specOf s' j = specOf s j := by
  unfold Edit.specOf; rw [hs.nodes]
  congr 1; funext r; exact hs.spec r

theorem loadChildren_exact (p : Id) (cs : List Id) : ∀ {s : St}, Dict s → (∃ rp, (p, rp) ∈ s.nodes) → (∀ c ∈ cs, ∃ rc, (c, rc) ∈ s.nodes) →
    (kids s p ++ cs).Nodup → (∀ sp m, specOf s p = some sp → sp.max = some m → (kids s p ++ cs).length ≤ m) →
    ∃ s', loadChildren p (cs.map some) s = (s', .ok) ∧ Same s s' ∧
      (∀ j, kids s' j = if j = p then kids s p ++ cs else kids s j) ∧
      (∀ j, parentOf s' j = if j ∈ cs then some p else parentOf s j) := by
  induction cs with
  | nil =>
    intro s d _ _ _ _
    refine ⟨s, rfl, Same.refl s, ?_, ?_⟩
    · intro j; split
      · rename_i h; subst h; simp
      · rfl
    · intro j; simp
  | cons c cs ih =>
    intro s d hp hc hn hr
    obtain ⟨rp, hp'⟩ := hp
    obtain ⟨rc, hc'⟩ := hc c (by simp)
    have hcn : c ∉ kids s p := by
      intro h
      exact (List.nodup_append.1 hn).2.2 c h c (by simp) rfl
    obtain ⟨s1, h1, hs1, hk1, hp1⟩ := addChild_exact d hp' hc'
      (by
        intro hm
        have := hr _ _ (specOf_reg d hp') hm
        simp at this
        omega)
      hcn
    have d1 := hs1.dict d
    have hkp : kids s1 p = kids s p ++ [c] := by rw [hk1, if_pos rfl]
    obtain ⟨s2, h2, hs2, hk2, hp2⟩ := ih d1 ⟨rp, by rw [hs1.nodes]; exact hp'⟩
      (fun x hx => (by obtain ⟨r, h⟩ := hc x (by simp [hx]); exact ⟨r, by rw [hs1.nodes]; exact h⟩))
      (by rw [hkp, List.append_assoc]; exact hn)
      (by rw [hkp, List.append_assoc, hs1.specOf]; exact hr)
    refine ⟨s2, ?_, ?_, ?_, ?_⟩
    · simp only [List.map_cons, loadChildren]
      rw [mem_dictGet d.keys hp', mem_dictGet d.keys hc']
      dsimp only
      rw [h1]
      exact h2
    · exact ⟨hs2.nodes.trans hs1.nodes, hs2.next.trans hs1.next, hs2.wirings.trans hs1.wirings,
        fun x => (hs2.nid x).trans (hs1.nid x), fun x => (hs2.spec x).trans (hs1.spec x)⟩
    · intro j
      rw [hk2]
      by_cases hj : j = p
      · subst hj; rw [if_pos rfl, if_pos rfl, hkp, List.append_assoc]; rfl
      · rw [if_neg hj, if_neg hj, hk1, if_neg hj]
    · intro j
      rw [hp2, hp1]
      by_cases h1 : j ∈ cs
      · simp [h1]
      · by_cases h2 : j = c
        · simp [h2]
        · simp [h1, h2]

theorem loadLinks_exact (L : Listing) : ∀ {s : St}, Dict s → (∀ x ∈ L, specOf s x.1 = some x.2.1) → (∀ c ∈ L.flatMap (·.2.2), ∃ rc, (c, rc) ∈ s.nodes) →
    (L.map (·.1)).Nodup → (L.flatMap (·.2.2)).Nodup → (∀ x ∈ L, kids s x.1 = []) → (∀ x ∈ L, ∀ m, x.2.1.max = some m → x.2.2.length ≤ m) →
    ∃ s', loadLinks L.msgs s = (s', .ok) ∧ Same s s' ∧ (∀ x ∈ L, kids s' x.1 = x.2.2) ∧ (∀ j, j ∉ L.map (·.1) → kids s' j = kids s j) ∧
      (∀ x ∈ L, ∀ c ∈ x.2.2, parentOf s' c = some x.1) ∧ (∀ j, j ∉ L.flatMap (·.2.2) → parentOf s' j = parentOf s j) := by
  induction L with
  | nil =>
    intro s d _ _ _ _ _ _
    exact ⟨s, rfl, Same.refl s, (fun x h => by cases h), fun _ _ => rfl, (fun x h => by cases h), fun _ _ => rfl⟩
  | cons a L ih =>
    intro s d hsp hc hn ho hk hr
    rw [List.map_cons, List.nodup_cons] at hn
    rw [List.flatMap_cons, List.nodup_append] at ho
    obtain ⟨ra, hra, _⟩ := specOf_some (hsp a (by simp))
    have hka := hk a (by simp)
    obtain ⟨s1, h1, hs1, hk1, hp1⟩ := loadChildren_exact a.1 a.2.2 d ⟨ra, hra⟩
      (fun c h => hc c (by rw [List.flatMap_cons, List.mem_append]; exact Or.inl h))
      (by rw [hka]; exact ho.1)
      (by
        intro sp m h1 h2
        rw [hsp a (by simp)] at h1
        cases h1
        rw [hka]
        exact hr a (by simp) m h2)
    have hne : ∀ x ∈ L, x.1 ≠ a.1 := by
      intro x hx e
      exact hn.1 (e ▸ List.mem_map.2 ⟨x, hx, rfl⟩)
    obtain ⟨s2, h2, hs2, hk2, hk2', hp2, hp2'⟩ := ih (hs1.dict d) (fun x hx => by rw [hs1.specOf]; exact hsp x (by simp [hx]))
      (fun c h => by rw [hs1.nodes]; exact hc c (by rw [List.flatMap_cons, List.mem_append]; exact Or.inr h)) hn.2 ho.2.1
      (fun x hx => by rw [hk1, if_neg (hne x hx)]; exact hk x (by simp [hx])) (fun x hx => hr x (by simp [hx]))
    refine ⟨s2, ?_, ?_, ?_, ?_, ?_, ?_⟩
    · have e : Listing.msgs (a :: L) = { nid := some a.1, spec := some a.2.1, childIds := a.2.2.map some } :: Listing.msgs L := rfl
      rw [e]
      unfold loadLinks
      dsimp only [Option.getD_some]
      rw [h1]
      exact h2
    · exact ⟨hs2.nodes.trans hs1.nodes, hs2.next.trans hs1.next, hs2.wirings.trans hs1.wirings,
        fun x => (hs2.nid x).trans (hs1.nid x), fun x => (hs2.spec x).trans (hs1.spec x)⟩
    · intro x hx
      rcases List.mem_cons.1 hx with rfl | hx
      · rw [hk2' _ hn.1, hk1, if_pos rfl, hka]; rfl
      · exact hk2 x hx
    · intro j hj
      rw [List.map_cons, List.mem_cons, not_or] at hj
      rw [hk2' j hj.2, hk1, if_neg hj.1]
    · intro x hx c hcx
      rcases List.mem_cons.1 hx with rfl | hx
      · rw [hp2' c (fun h => ho.2.2 c hcx c h rfl), hp1, if_pos hcx]
      · exact hp2 x hx c hcx
    · intro j hj
      rw [List.flatMap_cons, List.mem_append, not_or] at hj
      rw [hp2' j hj.2, hp1, if_neg hj.1]

/-! ### Loading a message -/

theorem bare_kids {s : St} (d : Dict s) (b : Bare s) (j : Id) : kids s j = [] := by
  cases hg : dictGet s.nodes j with
  | none => unfold kids; rw [hg]; rfl
  | some r =>
    have hr := dictGet_mem hg
    rw [kids_reg d hr, St.childIds, (b r ⟨j, hr⟩).2]; rfl

theorem bare_parent {s : St} (d : Dict s) (b : Bare s) (j : Id) : parentOf s j = none := by
  cases hg : dictGet s.nodes j with
  | none => unfold parentOf; rw [hg]; rfl
  | some r =>
    have hr := dictGet_mem hg
    rw [parentOf_reg d hr, (b r ⟨j, hr⟩).1]; rfl

/-- What a wiring needs, in terms of the listing. -/
def Listing.Wired (C : Nat → Nat → Bool) (L : Listing) (w : Wiring) : Prop :=
  ∃ a ∈ L, ∃ b ∈ L, ∃ to ti, w.src = some a.1 ∧ w.tgt = some b.1 ∧ dictGet a.2.1.outs w.srcKey = some to ∧
    dictGet b.2.1.ins w.tgtKey = some ti ∧ C ti to = true

/-- C37: a message that describes a forest with valid wirings is accepted, whatever was loaded before, and
the result is exactly what it describes. -/
theorem c37_load (L : Listing) (hL : L.Fine) (ws : List Wiring) (hw : ∀ w ∈ ws, L.Wired C w) (s : St) :
    let a := handle C (.load (some { nodes := L.msgs, wirings := ws })) s
    a.2 = .ok ∧ a.1.wirings = ws ∧
    (∀ x ∈ L, specOf a.1 x.1 = some x.2.1 ∧ kids a.1 x.1 = x.2.2 ∧ ∀ c ∈ x.2.2, parentOf a.1 c = some x.1) ∧
    (∀ j, j ∉ L.map (·.1) → specOf a.1 j = none ∧ kids a.1 j = []) ∧
    (∀ j, j ∉ L.flatMap (·.2.2) → parentOf a.1 j = none) := by
  have d0 : Dict (edit clear s).1 := dict_empty rfl
  have b0 : Bare (edit clear s).1 := by rintro r ⟨i, hi⟩; cases hi
  obtain ⟨k1, k2, k3, k4, k5⟩ := loadNodes_exact L d0 b0 hL.ids
  obtain ⟨s2, h2, hs2, hk2, hk2', hp2, hp2'⟩ := loadLinks_exact L k2 k4
    (fun c hc => by
      obtain ⟨x, hx, e⟩ := List.mem_map.1 (hL.known c hc)
      obtain ⟨r, hr, _⟩ := specOf_some (k4 x hx)
      exact ⟨r, e ▸ hr⟩)
    hL.ids hL.once (fun x _ => bare_kids k2 k3 _) hL.room
  have hspec : ∀ x ∈ L, specOf s2 x.1 = some x.2.1 := fun x hx => by rw [hs2.specOf]; exact k4 x hx
  have d2 := hs2.dict k2
  have hall : ws.all (validate C s2) = true := by
    rw [List.all_eq_true]
    intro w hm
    obtain ⟨a, ha, b, hb, to, ti, e1, e2, e3, e4, e5⟩ := hw w hm
    obtain ⟨r1, hr1, hs1⟩ := specOf_some (hspec a ha)
    obtain ⟨r2, hr2, hs2⟩ := specOf_some (hspec b hb)
    unfold validate
    rw [e1, e2]
    dsimp only
    rw [mem_dictGet d2.keys hr1, mem_dictGet d2.keys hr2]
    dsimp only
    rw [hs1, hs2, e3, e4]
    exact e5
  have e : loadTree C s (some { nodes := L.msgs, wirings := ws }) = (sync { s2 with wirings := ws }, .ok) := by
    unfold loadTree
    dsimp only
    rw [k1]
    simp only [Bool.not_true, Bool.false_eq_true, if_false]
    rw [h2]
    dsimp only
    rw [if_pos hall]
  show (loadTree C s (some { nodes := L.msgs, wirings := ws })).2 = .ok ∧ _
  have e1 : (handle C (.load (some { nodes := L.msgs, wirings := ws })) s).1 = sync (loadTree C s (some { nodes := L.msgs, wirings := ws })).1 := rfl
  rw [e1, e]
  refine ⟨rfl, rfl, ?_, ?_, ?_⟩
  · intro x hx
    exact ⟨hspec x hx, hk2 x hx, hp2 x hx⟩
  · intro j hj
    refine ⟨?_, ?_⟩
    · show specOf s2 j = none
      rw [hs2.specOf, k5 j hj]; rfl
    · show kids s2 j = []
      rw [hk2' j hj, bare_kids k2 k3]
  · intro j hj
    show parentOf s2 j = none
    rw [hp2' j hj, bare_parent k2 k3]

/-! ### What is published -/

/-- `k` steps up. -/
def Climb (s : St) : Nat → Ref → Ref → Prop
  | 0, a, b => a = b
  | k + 1, a, b => ∃ p, (s.heap a).parent = some p ∧ Climb s k p b

theorem Climb.snoc {s : St} {k : Nat} {a b c : Ref} (h : Climb s k a b) (hb : (s.heap b).parent = some c) : Climb s (k + 1) a c := by
  induction k generalizing a with
  | zero => cases h; exact ⟨c, hb, rfl⟩
  | succ k ih => obtain ⟨p, h1, h2⟩ := h; exact ⟨p, h1, ih h2⟩

theorem Climb.last {s : St} {k : Nat} {a c : Ref} (h : Climb s (k + 1) a c) : ∃ b, Climb s k a b ∧ (s.heap b).parent = some c := by
  induction k generalizing a with
  | zero => obtain ⟨p, h1, h2⟩ := h; cases h2; exact ⟨a, rfl, h1⟩
  | succ k ih =>
    obtain ⟨p, h1, h2⟩ := h
    obtain ⟨b, h3, h4⟩ := ih h2
    exact ⟨b, ⟨p, h1, h3⟩, h4⟩

theorem Climb.reg {s : St} (l : LinksOn (Reg s) s.heap) {k : Nat} {a b : Ref} (h : Climb s k a b) (ha : Reg s a) : Reg s b := by
  induction k generalizing a with
  | zero => cases h; exact ha
  | succ k ih => obtain ⟨p, h1, h2⟩ := h; exact ih h2 (l.up a ha p h1).1

theorem preorder_mono {s : St} (k : Nat) : ∀ {r x : Ref}, x ∈ preorder s k r → x ∈ preorder s (k + 1) r := by
  induction k with
  | zero => intro r x h; cases h
  | succ k ih =>
    intro r x h
    rcases List.mem_cons.1 h with rfl | h
    · exact List.mem_cons_self ..
    · obtain ⟨c, hc, hx⟩ := List.mem_flatMap.1 h
      exact List.mem_cons_of_mem _ (List.mem_flatMap.2 ⟨c, hc, ih hx⟩)

theorem preorder_le {s : St} {k n : Nat} (h : k ≤ n) {r x : Ref} (hx : x ∈ preorder s k r) : x ∈ preorder s n r := by
  induction h with
  | refl => exact hx
  | step _ ih => exact preorder_mono _ ih

theorem preorder_up {s : St} (l : LinksOn (Reg s) s.heap) (k : Nat) : ∀ {r x : Ref}, Reg s x → Climb s k x r → x ∈ preorder s (k + 1) r := by
  induction k with
  | zero => intro r x _ h; cases h; exact List.mem_cons_self ..
  | succ k ih =>
    intro r x hx h
    obtain ⟨b, h1, h2⟩ := Climb.last h
    refine List.mem_cons_of_mem _ (List.mem_flatMap.2 ⟨b, ?_, ih hx h1⟩)
    exact (l.up b (Climb.reg l h1 hx) r h2).2

theorem preorder_sound {s : St} (l : LinksOn (Reg s) s.heap) (k : Nat) : ∀ {r x : Ref}, Reg s r → x ∈ preorder s k r →
    Reg s x ∧ (x = r ∨ Above s.heap x r) := by
  induction k with
  | zero => intro r x _ h; cases h
  | succ k ih =>
    intro r x hr h
    rcases List.mem_cons.1 h with rfl | h
    · exact ⟨hr, Or.inl rfl⟩
    · obtain ⟨c, hc, hx⟩ := List.mem_flatMap.1 h
      obtain ⟨h1, h2⟩ := l.down r hr c hc
      obtain ⟨h3, h4⟩ := ih h1 hx
      refine ⟨h3, Or.inr ?_⟩
      rcases h4 with rfl | h4
      · exact .one h2
      · exact h4.trans (.one h2)

/-- Ancestors of a node are comparable. -/
theorem above_linear {h : Ref → Obj} {x a b : Ref} (h1 : Above h x a) (h2 : Above h x b) : a = b ∨ Above h a b ∨ Above h b a := by
  induction h1 with
  | one e =>
    cases h2 with
    | one e' => rw [e] at e'; cases e'; exact Or.inl rfl
    | more e' h' => rw [e] at e'; cases e'; exact Or.inr (Or.inl h')
  | more e h1' ih =>
    cases h2 with
    | one e' => rw [e] at e'; cases e'; exact Or.inr (Or.inr h1')
    | more e' h' => rw [e] at e'; cases e'; exact ih h'

theorem Above.first {h : Ref → Obj} {a b p : Ref} (h1 : Above h a b) (e : (h a).parent = some p) : p = b ∨ Above h p b := by
  cases h1 with
  | one e' => rw [e] at e'; cases e'; exact Or.inl rfl
  | more e' h' => rw [e] at e'; cases e'; exact Or.inr h'

theorem preorder_nodup {s : St} (l : LinksOn (Reg s) s.heap) (ha : Acyc (Reg s) s.heap) (k : Nat) :
    ∀ {r : Ref}, Reg s r → (preorder s k r).Nodup := by
  induction k with
  | zero => intro r _; exact List.nodup_nil
  | succ k ih =>
    intro r hr
    have hsib : ∀ c1 c2, c1 ∈ (s.heap r).children → c2 ∈ (s.heap r).children → ¬ Above s.heap c1 c2 := by
      intro c1 c2 h1 h2 h3
      have e1 := (l.down r hr c1 h1).2
      have e2 := (l.down r hr c2 h2).2
      rcases h3.first e1 with rfl | h4
      · exact ha _ hr (.one e2)
      · exact ha _ hr (h4.trans (.one e2))
    refine List.nodup_cons.2 ⟨?_, ?_⟩
    · intro hm
      obtain ⟨c, hc, hx⟩ := List.mem_flatMap.1 hm
      obtain ⟨h1, h2⟩ := l.down r hr c hc
      rcases (preorder_sound l k h1 hx).2 with rfl | h3
      · exact ha _ hr (.one h2)
      · exact ha _ hr (h3.trans (.one h2))
    · unfold List.Nodup
      rw [List.pairwise_flatMap]
      refine ⟨fun c hc => ih (l.down r hr c hc).1, ?_⟩
      refine (l.nodup r hr).imp_of_mem ?_
      intro c1 c2 h1 h2 hne x hx1 y hx2 e
      subst e
      obtain ⟨_, a1⟩ := preorder_sound l k (l.down r hr c1 h1).1 hx1
      obtain ⟨_, a2⟩ := preorder_sound l k (l.down r hr c2 h2).1 hx2
      rcases a1 with rfl | a1
      · rcases a2 with rfl | a2
        · exact hne rfl
        · exact hsib _ _ h1 h2 a2
      · rcases a2 with rfl | a2
        · exact hsib _ _ h2 h1 a1
        · rcases above_linear a1 a2 with e | e | e
          · exact hne e
          · exact hsib _ _ h1 h2 e
          · exact hsib _ _ h2 h1 e

/-- Going up from a registered node one arrives, in fewer steps than there are nodes, at a node without parent. -/
theorem up_to_top {s : St} (l : LinksOn (Reg s) s.heap) (ha : Acyc (Reg s) s.heap) (m : Nat) : ∀ (x : Ref) (vis : List Ref), Reg s x →
    (x :: vis).Nodup → (∀ v ∈ vis, Reg s v ∧ Above s.heap v x) → s.nodes.length ≤ vis.length + m + 1 →
    ∃ k y, k ≤ m ∧ Climb s k x y ∧ (s.heap y).parent = none := by
  induction m with
  | zero =>
    intro x vis hx hn hv hlen
    refine ⟨0, x, Nat.le_refl _, rfl, ?_⟩
    cases hp : (s.heap x).parent with
    | none => rfl
    | some p =>
      exfalso
      have hpn : p ∉ x :: vis := by
        intro h
        rcases List.mem_cons.1 h with rfl | h
        · exact ha _ hx (.one hp)
        · exact ha _ hx ((Above.one hp).trans (hv p h).2)
      have := subset_length (l := p :: x :: vis) (m := s.nodes.map (·.2)) (List.nodup_cons.2 ⟨hpn, hn⟩) (by
        intro z hz
        have : Reg s z := by
          rcases List.mem_cons.1 hz with rfl | hz
          · exact (l.up x hx _ hp).1
          · rcases List.mem_cons.1 hz with rfl | hz
            · exact hx
            · exact (hv z hz).1
        obtain ⟨i, hi⟩ := this
        exact List.mem_map.2 ⟨(i, z), hi, rfl⟩)
      simp at this
      omega
  | succ m ih =>
    intro x vis hx hn hv hlen
    cases hp : (s.heap x).parent with
    | none => exact ⟨0, x, Nat.zero_le _, rfl, hp⟩
    | some p =>
      have hpn : p ∉ x :: vis := by
        intro h
        rcases List.mem_cons.1 h with rfl | h
        · exact ha _ hx (.one hp)
        · exact ha _ hx ((Above.one hp).trans (hv p h).2)
      obtain ⟨k, y, h1, h2, h3⟩ := ih p (x :: vis) (l.up x hx _ hp).1 (List.nodup_cons.2 ⟨hpn, hn⟩)
        (by
          intro v h
          rcases List.mem_cons.1 h with rfl | h
          · exact ⟨hx, .one hp⟩
          · exact ⟨(hv v h).1, (hv v h).2.trans (.one hp)⟩)
        (by simp; omega)
      exact ⟨k + 1, y, Nat.succ_le_succ h1, ⟨p, hp, h2⟩, h3⟩

/-- The published message lists exactly the registered nodes, each once. -/
theorem published {s : St} (v : Inv2 C s) : ∃ refs : List Ref, refs.Nodup ∧ (∀ r, r ∈ refs ↔ Reg s r) ∧
    (structureMsg s).nodes = refs.map (nodeMsg s) := by
  have d := v.basic.dict
  have hl := (links_iff s).2 v.links
  unfold structureMsg
  dsimp only
  split
  · rename_i h
    refine ⟨[], List.nodup_nil, ?_, rfl⟩
    intro r
    constructor
    · intro h; cases h
    · rintro ⟨i, hi⟩
      exfalso
      unfold findRoot at h
      split at h
      · rename_i he
        rw [List.isEmpty_iff.1 he] at hi
        cases hi
      · dsimp only at h
        split at h <;> cases h
  · rename_i r h
    obtain ⟨⟨hr, hrp⟩, huniq⟩ := (c34_root_parent s d hl r).1 h
    refine ⟨preorder s s.nodes.length r, preorder_nodup v.links v.acyc _ hr, ?_, rfl⟩
    intro x
    constructor
    · intro hx; exact (preorder_sound v.links _ hr hx).1
    · intro hx
      have hpos : 0 < s.nodes.length := by
        obtain ⟨i, hi⟩ := hx
        exact List.length_pos_of_mem hi
      obtain ⟨k, y, h1, h2, h3⟩ := up_to_top v.links v.acyc (s.nodes.length - 1) x [] hx (by simp) (by simp) (by simp; omega)
      have := huniq y (Climb.reg v.links h2 hx) h3
      subst this
      exact preorder_le (by omega) (preorder_up v.links k hx h2)
  · refine ⟨s.nodes.map (·.2), ?_, ?_, by rw [List.map_map]; rfl⟩
    · have hk := d.keys
      unfold List.Nodup at hk ⊢
      rw [List.pairwise_map] at hk ⊢
      refine hk.imp_of_mem ?_
      intro a b h1 h2 hne e
      exact hne (by rw [← d.key a.1 a.2 h1, ← d.key b.1 b.2 h2, e])
    · intro r
      constructor
      · intro h
        obtain ⟨x, hx, rfl⟩ := List.mem_map.1 h
        exact ⟨x.1, hx⟩
      · rintro ⟨i, hi⟩
        exact List.mem_map.2 ⟨(i, r), hi, rfl⟩

/-- Inputs and outputs are Python dictionaries: no key twice. -/
def KeysUnique (s : St) : Prop := ∀ i sp, specOf s i = some sp → (sp.ins.map (·.1)).Nodup ∧ (sp.outs.map (·.1)).Nodup

/-- Published trees can be loaded, in any manager and whatever was loaded there before, and give the same tree. -/
theorem round_trip {s : St} (v : Inv2 C s) (hk : KeysUnique s) (s0 : St) :
    (handle C (.load (some (structureMsg s))) s0).2 = .ok ∧ view (handle C (.load (some (structureMsg s))) s0).1 = view s := by
  have d := v.basic.dict
  have l := v.links
  obtain ⟨refs, hn, hmem, he⟩ := published v
  have hinj : ∀ x y, x ∈ refs → y ∈ refs → (s.heap x).nid = (s.heap y).nid → x = y := by
    intro x y hx hy e
    have h1 := dictGet_reg d ((hmem x).1 hx)
    have h2 := dictGet_reg d ((hmem y).1 hy)
    rw [e, h2] at h1
    cases h1; rfl
  let L : Listing := refs.map fun r => ((s.heap r).nid, (s.heap r).spec, s.childIds r)
  have hmsg : structureMsg s = { nodes := L.msgs, wirings := s.wirings } := by
    have : (structureMsg s).nodes = L.msgs := by
      rw [he]; show _ = List.map _ (List.map _ refs); rw [List.map_map]; rfl
    rw [← this]; rfl
  have hLmem : ∀ x, x ∈ L ↔ ∃ r, Reg s r ∧ x = ((s.heap r).nid, (s.heap r).spec, s.childIds r) := by
    intro x
    show x ∈ List.map _ refs ↔ _
    rw [List.mem_map]
    constructor
    · rintro ⟨r, h1, h2⟩; exact ⟨r, (hmem r).1 h1, h2.symm⟩
    · rintro ⟨r, h1, h2⟩; exact ⟨r, (hmem r).2 h1, h2.symm⟩
  have hids : ∀ j, j ∈ L.map (·.1) ↔ ∃ r, (j, r) ∈ s.nodes := by
    intro j
    rw [List.mem_map]
    constructor
    · rintro ⟨x, h1, h2⟩
      obtain ⟨r, ⟨i, hi⟩, h4⟩ := (hLmem x).1 h1
      refine ⟨r, ?_⟩
      rw [← h2, h4]
      dsimp only
      rw [d.key i r hi]; exact hi
    · rintro ⟨r, hr⟩
      exact ⟨_, (hLmem _).2 ⟨r, ⟨j, hr⟩, rfl⟩, d.key j r hr⟩
  have hfl : ∀ c, c ∈ L.flatMap (·.2.2) ↔ ∃ r x, Reg s r ∧ x ∈ (s.heap r).children ∧ c = (s.heap x).nid := by
    intro c
    rw [List.mem_flatMap]
    constructor
    · rintro ⟨x, h1, h2⟩
      obtain ⟨r, h3, h4⟩ := (hLmem x).1 h1
      subst h4
      obtain ⟨y, hy, e⟩ := List.mem_map.1 h2
      exact ⟨r, y, h3, hy, e.symm⟩
    · rintro ⟨r, x, h1, h2, h3⟩
      exact ⟨_, (hLmem _).2 ⟨r, h1, rfl⟩, List.mem_map.2 ⟨x, h2, h3.symm⟩⟩
  have hnid : ∀ x y, Reg s x → Reg s y → (s.heap x).nid = (s.heap y).nid → x = y :=
    fun x y hx hy => hinj x y ((hmem x).2 hx) ((hmem y).2 hy)
  have hF : L.Fine := by
    refine ⟨?_, ?_, ?_, ?_⟩
    · show (List.map _ (List.map _ refs)).Nodup
      rw [List.map_map]
      unfold List.Nodup at hn ⊢
      rw [List.pairwise_map]
      exact hn.imp_of_mem fun {a b} h1 h2 hne e => hne (hinj a b h1 h2 e)
    · show (List.flatMap _ (List.map _ refs)).Nodup
      unfold List.Nodup
      rw [List.flatMap_map, List.pairwise_flatMap]
      refine ⟨?_, ?_⟩
      · intro r hr
        have hR := (hmem r).1 hr
        show List.Pairwise _ (List.map _ _)
        rw [List.pairwise_map]
        exact (l.nodup r hR).imp_of_mem fun {a b} h1 h2 hne e => hne (hnid a b (l.down r hR a h1).1 (l.down r hR b h2).1 e)
      · refine List.Pairwise.imp_of_mem ?_ hn
        intro r1 r2 h1 h2 hne x hx y hy e
        subst e
        obtain ⟨c1, hc1, e1⟩ := List.mem_map.1 hx
        obtain ⟨c2, hc2, e2⟩ := List.mem_map.1 hy
        have k1 := l.down r1 ((hmem r1).1 h1) c1 hc1
        have k2 := l.down r2 ((hmem r2).1 h2) c2 hc2
        have := hnid c1 c2 k1.1 k2.1 (e1.trans e2.symm)
        subst this
        rw [k1.2] at k2
        exact hne (by simpa using k2.2)
    · intro c hc
      obtain ⟨r, x, h1, h2, rfl⟩ := (hfl c).1 hc
      obtain ⟨i, hi⟩ := (l.down r h1 x h2).1
      exact (hids _).2 ⟨x, by rw [d.key i x hi]; exact hi⟩
    · intro x hx m hm
      obtain ⟨r, _, rfl⟩ := (hLmem x).1 hx
      have := v.basic.lim r m hm
      simp only [St.childIds, List.length_map]
      exact this
  have hW : ∀ w ∈ s.wirings, L.Wired C w := by
    intro w hw
    obtain ⟨a, b, ra, rb, to, ti, e1, e2, h3, h4, h5, h6, h7⟩ := v.basic.wired w hw (fun _ h => h.elim)
    refine ⟨_, (hLmem _).2 ⟨ra, ⟨a, h3⟩, rfl⟩, _, (hLmem _).2 ⟨rb, ⟨b, h4⟩, rfl⟩, to, ti, ?_, ?_, ?_, ?_, h7⟩
    · rw [e1, d.key _ _ h3]
    · rw [e2, d.key _ _ h4]
    · exact mem_dictGet (hk a _ (specOf_reg d h3)).2 h5
    · exact mem_dictGet (hk b _ (specOf_reg d h4)).1 h6
  obtain ⟨k1, k2, k3, k4, k5⟩ := c37_load L hF s.wirings hW s0
  rw [hmsg]
  refine ⟨k1, view_ext ?_ ?_ ?_ k2⟩
  · intro j
    cases hg : dictGet s.nodes j with
    | some r =>
      have hr := dictGet_mem hg
      have := (k3 _ ((hLmem _).2 ⟨r, ⟨j, hr⟩, rfl⟩)).1
      dsimp only at this
      rw [d.key j r hr] at this
      rw [specOf_reg d hr]; exact this
    | none =>
      rw [(k4 j (fun h => by obtain ⟨r, hr⟩ := (hids j).1 h; exact dictGet_none hg r hr)).1, specOf_none.2 hg]
  · intro j
    cases hp : parentOf s j with
    | some p =>
      have hm := (mem_kids_iff v.toInv).2 hp
      obtain ⟨⟨r, hr⟩, _⟩ := kids_exists v.toInv hm
      have := (k3 _ ((hLmem _).2 ⟨r, ⟨p, hr⟩, rfl⟩)).2.2 j (by rw [kids_reg d hr] at hm; exact hm)
      dsimp only at this
      rw [d.key p r hr] at this
      exact this
    | none =>
      refine k5 j ?_
      intro h
      obtain ⟨r, x, h1, h2, rfl⟩ := (hfl j).1 h
      obtain ⟨h3, h4⟩ := l.down r h1 x h2
      obtain ⟨i, hi⟩ := h3
      rw [d.key i x hi, parentOf_reg d hi, h4] at hp
      cases hp
  · intro j
    cases hg : dictGet s.nodes j with
    | some r =>
      have hr := dictGet_mem hg
      have := (k3 _ ((hLmem _).2 ⟨r, ⟨j, hr⟩, rfl⟩)).2.1
      dsimp only at this
      rw [d.key j r hr] at this
      rw [kids_reg d hr]; exact this
    | none =>
      rw [(k4 j (fun h => by obtain ⟨r, hr⟩ := (hids j).1 h; exact dictGet_none hg r hr)).2]
      unfold kids; rw [hg]; rfl

/-- C37: what a tree publishes after any history of careful requests can be loaded, into any manager and
whatever was loaded there before, and gives the same nodes, links and wirings. (`load_tree` refuses the message of the empty
tree, see `loadTree`.) -/
theorem c37_round_trip (rs : List Req) (h : Along C Req.Careful rs {}) (hk : KeysUnique (history C rs {}))
    (_hne : (structureMsg (history C rs {})).nodes ≠ []) (s0 : St) :
    let a := handle C (.load (some (structureMsg (history C rs {})))) s0
    a.2 = .ok ∧ view a.1 = view (history C rs {}) :=
  round_trip (history_inv3 rs init_inv3 h).toInv2 hk s0

/-- C37 is violated by `reload_tree`: it answers success and the tree is gone. -/
theorem c37_reload_empties :
    let a := handle exC .reload exPair
    exPair.nodes.length = 3 ∧ a.2 = .ok ∧ a.1.nodes = [] := by decide +kernel

/-! ### Examples -/

/-- A tree with wirings. -/
def exWired : List Req :=
  [.add 1 (some exSeq) (some 0) (-1) [], .add 2 (some exLeaf) (some 1) (-1) [], .add 3 (some exLeaf) (some 1) 0 [],
   .wire [⟨some 2, 2, some 3, 1⟩] false]

example : Along exC Req.Careful exWired {} ∧ KeysUnique (history exC exWired {}) ∧
    structureMsg (history exC exWired {}) =
      ⟨[⟨some 1, some exSeq, [some 3, some 2]⟩, ⟨some 3, some exLeaf, []⟩, ⟨some 2, some exLeaf, []⟩], [⟨some 2, 2, some 3, 1⟩]⟩ := by
  refine ⟨⟨⟨by decide +kernel, by decide⟩, ⟨by decide +kernel, by decide⟩, ⟨by decide +kernel, by decide⟩, trivial, trivial⟩, ?_, by decide +kernel⟩
  intro i sp h
  obtain ⟨r, hr, rfl⟩ := specOf_some h
  have : ∀ x ∈ (history exC exWired {}).nodes, (((history exC exWired {}).heap x.2).spec.ins.map (·.1)).Nodup ∧
      (((history exC exWired {}).heap x.2).spec.outs.map (·.1)).Nodup := by decide +kernel
  exact this (i, r) hr

/-- The listing of `exWired`. -/
def exListing : Listing := [(1, exSeq, [3, 2]), (3, exLeaf, []), (2, exLeaf, [])]

example : exListing.Fine ∧ exListing.Wired exC ⟨some 2, 2, some 3, 1⟩ := by
  refine ⟨⟨by decide, by decide, by decide, by decide⟩, (2, exLeaf, []), by decide, (3, exLeaf, []), by decide, 7, 7, ?_⟩
  decide

end Verif.Edit
