import Verif.Edit.Polite

/-! C30: edits never create cycles, as long as they are careful; and how careless ones do. -/

set_option autoImplicit false

namespace Verif.Edit

variable {C : Nat → Nat → Bool}

theorem Above.trans {h : Ref → Obj} {a b c : Ref} (h1 : Above h a b) (h2 : Above h b c) : Above h a c := by
  induction h1 with
  | one h => exact .more h h2
  | more h _ ih => exact .more h (ih h2)

/-- No cycle through `L`. -/
def Acyc (L : Ref → Prop) (h : Ref → Obj) : Prop := ∀ r, L r → ¬ Above h r r

/-- Chains are mapped to chains. -/
theorem above_map {L : Ref → Prop} {h h' : Ref → Obj} (f : Ref → Ref)
    (hf : ∀ x, L x → ∀ p, (h' x).parent = some p → L p ∧ (h (f x)).parent = some (f p)) {a b : Ref} (hab : Above h' a b) :
    L a → Above h (f a) (f b) := by
  induction hab with
  | one h1 => exact fun ha => .one (hf _ ha _ h1).2
  | more h1 _ ih => exact fun ha => .more (hf _ ha _ h1).2 (ih (hf _ ha _ h1).1)

theorem acyc_sub {L L' : Ref → Prop} {h h' : Ref → Obj} (ha : Acyc L h) (hL : ∀ x, L' x → L x)
    (hf : ∀ x, L' x → ∀ p, (h' x).parent = some p → L' p ∧ (h x).parent = some p) : Acyc L' h' :=
  fun r hr hc => ha r (hL r hr) (above_map id hf hc hr)

/-- Effect of one new parent link on chains. -/
theorem above_add {s s' : St} {p c : Ref} (h : Added s s' p c) (ho : (s.heap c).parent = none) {a b : Ref} (hab : Above s'.heap a b) :
    Above s.heap a b ∨ ((a = c ∨ Above s.heap a c) ∧ (p = b ∨ Above s.heap p b)) := by
  induction hab with
  | @one a b h1 =>
    rw [h.parent] at h1
    split at h1
    · rename_i he
      simp only [Option.some.injEq] at h1
      exact Or.inr ⟨Or.inl he, Or.inl h1⟩
    · exact Or.inl (.one h1)
  | @more a b d h1 _ ih =>
    rw [h.parent] at h1
    split at h1
    · rename_i he
      simp only [Option.some.injEq] at h1
      subst h1
      rcases ih with ih | ⟨_, ih⟩
      · exact Or.inr ⟨Or.inl he, Or.inr ih⟩
      · exact Or.inr ⟨Or.inl he, ih⟩
    · rcases ih with ih | ⟨h2, h3⟩
      · exact Or.inl (.more h1 ih)
      · refine Or.inr ⟨Or.inr ?_, h3⟩
        rcases h2 with rfl | h2
        · exact .one h1
        · exact .more h1 h2

theorem added_acyc {L : Ref → Prop} {s s' : St} {p c : Ref} (h : Added s s' p c) (ho : (s.heap c).parent = none) (ha : Acyc L s.heap)
    (hn : ¬ (p = c ∨ Above s.heap p c)) : Acyc L s'.heap := by
  intro r hr hc
  rcases above_add h ho hc with h1 | ⟨h1, h2⟩
  · exact ha r hr h1
  · apply hn
    rcases h1 with rfl | h1
    · exact h2
    · rcases h2 with rfl | h2
      · exact Or.inr h1
      · exact Or.inr (h2.trans h1)

theorem removed_above {s s' : St} {p c : Ref} {i : Id} (h : Removed s s' p c i) {a b : Ref} (hab : Above s'.heap a b) : Above s.heap a b := by
  refine above_map (L := fun _ => True) id (fun x _ q hq => ⟨trivial, ?_⟩) hab trivial
  rw [h.parent] at hq
  split at hq
  · cases hq
  · exact hq

theorem removed_acyc {L : Ref → Prop} {s s' : St} {p c : Ref} {i : Id} (h : Removed s s' p c i) (ha : Acyc L s.heap) : Acyc L s'.heap :=
  fun r hr hc => ha r hr (removed_above h hc)

/-! ### The descendants computed from the mirror -/

/-- Children ids according to `_children`. -/
def succs (s : St) (i : Id) : List Id := (dictGet s.adj i).getD []

/-- Work left. -/
def weight (l : List (Id × List Id)) (acc : List Id) : Nat := (l.map fun x => if x.1 ∈ acc then 0 else x.2.length).sum

theorem weight_cons (x : Id × List Id) (l : List (Id × List Id)) (acc : List Id) :
    weight (x :: l) acc = (if x.1 ∈ acc then 0 else x.2.length) + weight l acc := by
  simp only [weight, List.map_cons, List.sum_cons]

theorem weight_step (l : List (Id × List Id)) (acc : List Id) (d : Id) (hd : d ∉ acc) :
    weight l (acc ++ [d]) + ((dictGet l d).getD []).length ≤ weight l acc := by
  have hhead : ∀ y : Id × List Id, (if y.1 ∈ acc ++ [d] then 0 else y.2.length) ≤ (if y.1 ∈ acc then 0 else y.2.length) := by
    intro y
    by_cases h1 : y.1 ∈ acc
    · simp [h1]
    · by_cases h2 : y.1 = d
      · simp [h2]
      · simp [h1, h2]
  have hmono : ∀ l : List (Id × List Id), weight l (acc ++ [d]) ≤ weight l acc := by
    intro l
    induction l with
    | nil => exact Nat.le_refl _
    | cons y l ih =>
      rw [weight_cons, weight_cons]
      exact Nat.add_le_add (hhead y) ih
  induction l with
  | nil => simp [weight, dictGet]
  | cons x l ih =>
    rw [weight_cons, weight_cons]
    by_cases hx : x.1 = d
    · have e1 : (dictGet (x :: l) d).getD [] = x.2 := by simp [dictGet, hx]
      have e2 : (if x.1 ∈ acc ++ [d] then 0 else x.2.length) = 0 := by simp [hx]
      have e3 : (if x.1 ∈ acc then 0 else x.2.length) = x.2.length := by simp [hx, hd]
      rw [e1, e2, e3]
      have := hmono l
      omega
    · have e1 : dictGet (x :: l) d = dictGet l d := by simp [dictGet, hx]
      rw [e1]
      have := hhead x
      omega

/-- With enough rounds the result contains the work list and is closed. -/
theorem descendants_closed (s : St) (fuel : Nat) : ∀ (pending acc : List Id), pending.length + weight s.adj acc ≤ fuel →
    (∀ d ∈ acc, ∀ e ∈ succs s d, e ∈ acc ∨ e ∈ pending) →
    (∀ d ∈ acc, d ∈ descendants s fuel pending acc) ∧ (∀ d ∈ pending, d ∈ descendants s fuel pending acc) ∧
    (∀ d ∈ descendants s fuel pending acc, ∀ e ∈ succs s d, e ∈ descendants s fuel pending acc) := by
  induction fuel with
  | zero =>
    intro pending acc hf hc
    have : pending = [] := List.eq_nil_of_length_eq_zero (by omega)
    subst this
    refine ⟨fun d h => h, (fun d h => (by cases h)), fun d h e he => ?_⟩
    rcases hc d h e he with h | h
    · exact h
    · cases h
  | succ fuel ih =>
    intro pending acc hf hc
    cases pending with
    | nil =>
      refine ⟨fun d h => h, (fun d h => (by cases h)), fun d h e he => ?_⟩
      rcases hc d h e he with h | h
      · exact h
      · cases h
    | cons d pending =>
      unfold descendants
      split
      · rename_i hd
        simp only [List.length_cons] at hf
        obtain ⟨k1, k2, k3⟩ := ih pending acc (by omega) (fun x hx e he => by
          rcases hc x hx e he with h | h
          · exact Or.inl h
          · rcases List.mem_cons.1 h with rfl | h
            · exact Or.inl hd
            · exact Or.inr h)
        refine ⟨k1, fun x hx => ?_, k3⟩
        rcases List.mem_cons.1 hx with rfl | hx
        · exact k1 _ hd
        · exact k2 x hx
      · rename_i hd
        have hw := weight_step s.adj acc d hd
        simp only [List.length_cons] at hf
        obtain ⟨k1, k2, k3⟩ := ih (((dictGet s.adj d).getD []).reverse ++ pending) (acc ++ [d])
          (by simp only [List.length_append, List.length_reverse]; omega) (fun x hx e he => by
          rcases List.mem_append.1 hx with hx | hx
          · rcases hc x hx e he with h | h
            · exact Or.inl (by simp [h])
            · rcases List.mem_cons.1 h with rfl | h
              · exact Or.inl (by simp)
              · exact Or.inr (by simp [h])
          · rw [List.mem_singleton.1 hx] at he
            exact Or.inr (by rw [List.mem_append, List.mem_reverse]; exact Or.inl he))
        refine ⟨fun x hx => k1 x (by simp [hx]), fun x hx => ?_, k3⟩
        rcases List.mem_cons.1 hx with rfl | hx
        · exact k1 _ (by simp)
        · exact k2 x (by simp [hx])

/-- The mirror `_children` is up to date. -/
def Synced (s : St) : Prop := ∀ i r, (i, r) ∈ s.nodes → dictGet s.adj i = some (s.childIds r)

theorem sync_synced {s : St} (d : Dict s) : Synced (sync s) := by
  intro i r h
  have : (i, s.childIds r) ∈ (sync s).adj := List.mem_map.2 ⟨(i, r), h, rfl⟩
  refine mem_dictGet ?_ this
  have e : (sync s).adj.map (·.1) = s.nodes.map (·.1) := by simp [sync, List.map_map, Function.comp_def]
  rw [e]; exact d.keys

/-- The adjacency lists name all children, and perhaps more. -/
def Covers (s : St) : Prop := ∀ i r, (i, r) ∈ s.nodes → ∀ c ∈ (s.heap r).children, (s.heap c).nid ∈ succs s i

theorem Synced.covers {s : St} (hs : Synced s) : Covers s := by
  intro i r hr c hc
  unfold succs
  rw [hs i r hr]
  exact List.mem_map.2 ⟨c, hc, rfl⟩

/-- The check of `move_node` finds every node below. -/
theorem below_found {s : St} (v : Inv C s) (hs : Covers s) {i : Id} {r : Ref} (hr : (i, r) ∈ s.nodes) {x : Ref} (hab : Above s.heap x r) :
    Reg s x → (s.heap x).nid ∈ descendants s (descFuel s (succs s i).reverse) (succs s i).reverse [] := by
  obtain ⟨_, k2, k3⟩ := descendants_closed s (descFuel s (succs s i).reverse) (succs s i).reverse []
    (by
      have : weight s.adj [] = (s.adj.map fun x => x.2.length).sum := by simp [weight]
      rw [this]; exact Nat.le_refl _)
    (fun d h => by cases h)
  generalize descendants s (descFuel s (succs s i).reverse) (succs s i).reverse [] = D at *
  have hsucc : ∀ j q, (j, q) ∈ s.nodes → ∀ c ∈ (s.heap q).children, (s.heap c).nid ∈ succs s j := hs
  induction hab with
  | @one a b h1 =>
    intro ha
    refine k2 _ ?_
    rw [List.mem_reverse]
    exact hsucc i b hr a (v.links.up a ha b h1).2
  | @more a b c h1 _ ih =>
    intro ha
    obtain ⟨hb, hm⟩ := v.links.up a ha b h1
    obtain ⟨j, hj⟩ := hb
    have := ih hr ⟨j, hj⟩
    rw [v.basic.dict.key _ _ hj] at this
    exact k3 j this _ (hsucc j b hj a hm)

/-! ### The requests -/

/-- Invariant with acyclicity. -/
structure Inv2 (C : Nat → Nat → Bool) (s : St) : Prop extends Inv C s where
  acyc : Acyc (Reg s) s.heap

theorem sync_inv2 {s : St} (v : Inv2 C s) : Inv2 C (sync s) := ⟨sync_inv v.toInv, v.acyc⟩

theorem dropNodes_nid (s : St) (del : List Id) (x : Ref) : ((dropNodes s del).heap x).nid = (s.heap x).nid := by
  simp only [dropNodes]
  split
  · split <;> rfl
  · rfl

theorem dropNodes_acyc {s : St} (del : List Id) (v : Inv2 C s) : Acyc (Reg (dropNodes s del)) (dropNodes s del).heap := by
  have d := v.basic.dict
  have v' := dropNodes_inv del v.toInv
  refine acyc_sub v.acyc (fun x hx => ((reg_dropNodes d del x).1 hx).1) ?_
  intro x hx p hp
  refine ⟨(v'.links.up x hx p hp).1, ?_⟩
  obtain ⟨h1, h2⟩ := (reg_dropNodes d del x).1 hx
  rw [dropNodes_heap del h1, if_neg h2] at hp
  simp only at hp
  split at hp
  · rename_i q hq
    split at hp
    · cases hp
    · rw [hq]; exact hp
  · cases hp

theorem removeNode_inv2 {s : St} (n : Option Id) (wc : Bool) (v : Inv2 C s) : Inv2 C (removeNode s n wc).1 := by
  refine ⟨removeNode_inv n wc v.toInv, ?_⟩
  unfold removeNode
  split
  · exact v.acyc
  · split
    · exact v.acyc
    · exact dropNodes_acyc _ (sync_inv2 v)

theorem Acyc.same {s s' : St} (h : Same s s') (ha : Acyc (Reg s) s'.heap) : Acyc (Reg s') s'.heap :=
  fun r hr => ha r ((reg_same h).1 hr)

theorem addNode_inv2 {s : St} {u : Id} (sp : Option Spec) (p : Option Id) (i : Int) (cs : List Id) (v : Inv2 C s) (h : Fresh s u)
    (hp : p ≠ some u) : Inv2 C (addNode s u sp p i cs).1 := by
  refine ⟨addNode_inv sp p i cs v.toInv h, ?_⟩
  unfold addNode
  split
  · exact v.acyc
  · rename_i _ sp
    have v1 := instantiate_inv sp v.toInv h
    have d := v.basic.dict
    have hreg := reg_instantiate d u sp
    have hold : ∀ r, Reg s r → (instantiate s u sp).1.heap r = s.heap r := by
      intro r hr
      have := Nat.ne_of_lt (d.lt hr)
      simp [instantiate, this]
    have hnew : (instantiate s u sp).1.heap s.next = { nid := u, spec := sp } := by simp [instantiate]
    have a1 : Acyc (Reg (instantiate s u sp).1) (instantiate s u sp).1.heap := by
      intro r hr hc
      rcases (hreg r).1 hr with rfl | ⟨j, hj, _⟩
      · cases hc with
        | one h => rw [hnew] at h; cases h
        | more h _ => rw [hnew] at h; cases h
      · refine v.acyc r ⟨j, hj⟩ (above_map (L := Reg s) id (fun x hx q hq => ?_) hc ⟨j, hj⟩)
        rw [hold x hx] at hq
        exact ⟨(v.links.up x hx q hq).1, hq⟩
    have w1 : Inv2 C (instantiate s u sp).1 := ⟨v1, a1⟩
    dsimp only
    split
    · exact a1
    · rename_i p
      split
      · exact (sync_inv2 (removeNode_inv2 _ _ w1)).acyc
      · exact a1
      · rename_i s2 h2
        have v2 : Inv2 C s2 := by
          split at h2
          · cases h2; exact w1
          · split at h2
            · cases h2
            · rename_i rp hrp
              simp only [Option.some.injEq] at h2
              have hinst : Reg (instantiate s u sp).1 (instantiate s u sp).2 := (hreg _).2 (Or.inl rfl)
              have hnone : ((instantiate s u sp).1.heap (instantiate s u sp).2).parent = none := by simp [instantiate]
              refine ⟨addChild_inv v1 h2 (reg_of_get hrp) hinst hnone, ?_⟩
              refine Acyc.same (addChild_relink h2).same (added_acyc (addChild_added h2) hnone a1 ?_)
              have hchild : ((instantiate s u sp).1.heap (instantiate s u sp).2).children = [] := by simp [instantiate]
              have hlast : ∀ x y, Above (instantiate s u sp).1.heap x y → Reg (instantiate s u sp).1 x → y ≠ (instantiate s u sp).2 := by
                intro x y hxy
                induction hxy with
                | @one a b h1 =>
                  intro ha he
                  subst he
                  have := (v1.links.up a ha _ h1).2
                  rw [hchild] at this; cases this
                | @more a b c h1 _ ih =>
                  intro ha
                  exact ih (v1.links.up a ha b h1).1
              rintro (he | he)
              · rw [he] at hrp
                have := v1.basic.dict.key _ _ (dictGet_mem hrp)
                rw [show (instantiate s u sp).2 = s.next from rfl, hnew] at this
                exact hp (by rw [← this])
              · exact hlast _ _ he (reg_of_get hrp) rfl
        have v3 : Inv2 C (if (!cs.isEmpty) = true then (edit (removeNode · (some u) false) s2).1 else s2) := by
          split
          · exact sync_inv2 (removeNode_inv2 _ _ v2)
          · exact v2
        split
        · exact v3.acyc
        · exact (sync_inv2 (removeNode_inv2 _ _ v3)).acyc
        · exact v3.acyc

theorem moveNode_inv2 {s : St} (n p : Option Id) (i : Int) (v : Inv2 C s) (hs : Covers s) (hne : n = none ∨ n ≠ p) :
    Inv2 C (moveNode s n p i).1 := by
  refine ⟨moveNode_inv n p i v.toInv, ?_⟩
  unfold moveNode
  split
  · exact v.acyc
  · exact v.acyc
  · rename_i a b
    have hab : a ≠ b := fun h => by rcases hne with h1 | h1; exact absurd h1 (by simp); exact h1 (by rw [h])
    split
    · exact v.acyc
    · rename_i r hr
      have hreg := reg_of_get hr
      split
      · split
        · exact v.acyc
        · rename_i q hq
          split
          · exact v.acyc
          · rename_i h1
            exact (Acyc.same (removeChild_relink h1).same (removed_acyc (removeChild_removed h1) v.acyc) : Acyc (Reg _) _)
      · split
        · exact v.acyc
        · rename_i rp hrp
          have hregp := reg_of_get hrp
          have hrr : rp ≠ r := by
            rintro rfl
            exact hab ((v.basic.dict.key _ _ (dictGet_mem hr)).symm.trans (v.basic.dict.key _ _ (dictGet_mem hrp)))
          split
          · exact v.acyc
          · dsimp only
            split
            · exact v.acyc
            · rename_i hnd
              have hnot : ¬ Above s.heap rp r := fun h => hnd (below_found v.toInv hs (dictGet_mem hr) h hregp)
              split
              · exact v.acyc
              · rename_i s' hs'
                have k1 : Same s s' ∧ (s'.heap r).parent = none ∧ Acyc (Reg s) s'.heap ∧ ∀ x y, Above s'.heap x y → Above s.heap x y := by
                  split at hs'
                  · rename_i hpar; cases hs'; exact ⟨Same.refl s, hpar, v.acyc, fun _ _ h => h⟩
                  · rename_i q hq
                    have hqr := (v.links.up r hreg q hq).1
                    cases h1 : removeChild s q (s.heap r).nid with
                    | none => rw [h1] at hs'; cases hs'
                    | some x =>
                      obtain ⟨s1, c⟩ := x
                      rw [h1] at hs'
                      cases hs'
                      have hrem := removeChild_removed h1
                      have := removed_eq v.toInv hrem hqr hreg
                      subst this
                      exact ⟨hrem.same, by rw [hrem.parent]; simp, removed_acyc hrem v.acyc, fun _ _ h => removed_above hrem h⟩
                obtain ⟨hsame, hnone, ha, hsub⟩ := k1
                split
                · exact Acyc.same hsame ha
                · rename_i s'' h2
                  have : Acyc (Reg s) s''.heap := added_acyc (addChild_added h2) hnone ha (by
                    rintro (h | h)
                    · exact hrr h
                    · exact hnot (hsub _ _ h))
                  exact Acyc.same ((hsame.trans (addChild_relink h2).same).trans (sync_same _)) this

theorem moveChildren_acyc {L : Ref → Prop} (old new : Ref) (skip : Option Id) (cs : List Id) (s : St) (hl : LinksOn L s.heap) (ho : L old)
    (ha : Acyc L s.heap) (hcond : ∀ c ∈ (s.heap old).children, skip ≠ some (s.heap c).nid → ¬ (new = c ∨ Above s.heap new c)) (hn : L new) :
    Acyc L (moveChildren old new skip cs s).1.heap := by
  induction cs generalizing s with
  | nil => exact ha
  | cons c cs ih =>
    unfold moveChildren
    split
    · exact ha
    · rename_i s1 rc h1
      have r1 := removeChild_removed h1
      have l1 := removed_links r1 hl ho
      have a1 := removed_acyc r1 ha
      have hsubch : ∀ x ∈ (s1.heap old).children, x ∈ (s.heap old).children := by
        obtain ⟨i, _, _, hi⟩ := r1.erased
        intro x hx
        rw [hi] at hx
        exact List.mem_of_mem_eraseIdx hx
      have cond1 : ∀ c ∈ (s1.heap old).children, skip ≠ some (s1.heap c).nid → ¬ (new = c ∨ Above s1.heap new c) := by
        intro x hx hsk
        rw [r1.nid] at hsk
        rintro (h | h)
        · exact hcond x (hsubch x hx) hsk (Or.inl h)
        · exact hcond x (hsubch x hx) hsk (Or.inr (removed_above r1 h))
      split
      · exact ih s1 l1 a1 cond1
      · rename_i hskip
        split
        · exact a1
        · rename_i s2 h2
          have a2 := addChild_added h2
          have hnone : (s1.heap rc).parent = none := by rw [r1.parent]; simp
          have hrc : ¬ (new = rc ∨ Above s1.heap new rc) := by
            rintro (h | h)
            · exact hcond rc r1.mem (by rw [r1.cid]; exact hskip) (Or.inl h)
            · exact hcond rc r1.mem (by rw [r1.cid]; exact hskip) (Or.inr (removed_above r1 h))
          refine ih s2 (added_links a2 l1 hn (hl.down old ho rc r1.mem).1 hnone) (added_acyc a2 hnone a1 hrc) ?_
          intro x hx hsk
          rw [a2.nid] at hsk
          by_cases hold : old = new
          · subst hold
            obtain ⟨i, hi⟩ := a2.inserted
            rw [hi, mem_insert] at hx
            have hx' : x ∈ (s.heap old).children := by
              rcases hx with rfl | hx
              · exact r1.mem
              · exact hsubch x hx
            have hpar := (hl.down old ho x hx').2
            rintro (h | h)
            · subst h; exact ha old ho (.one hpar)
            · -- `old` above its child would be a cycle
              refine hcond x hx' (by rw [← r1.nid]; exact hsk) (Or.inr ?_)
              rcases above_add a2 hnone h with h | ⟨_, h⟩
              · exact removed_above r1 h
              · rcases h with h | h
                · subst h; exact absurd (.one hpar) (ha _ ho)
                · exact removed_above r1 h
          · rw [a2.others old hold] at hx
            rintro (h | h)
            · exact cond1 x hx hsk (Or.inl h)
            · rcases above_add a2 hnone h with h | ⟨_, h⟩
              · exact cond1 x hx hsk (Or.inr h)
              · exact cond1 x hx hsk h

theorem replaceNode_inv2 {s : St} (o n : Option Id) (v : Inv2 C s)
    (hcond : ∀ i j ro rn, o = some i → n = some j → (i, ro) ∈ s.nodes → (j, rn) ∈ s.nodes →
      (s.heap ro).parent ≠ some rn ∧ ∀ c ∈ (s.heap ro).children, c ≠ rn → ¬ Above s.heap rn c) :
    Inv2 C (replaceNode s o n).1 := by
  refine ⟨replaceNode_inv o n v.toInv, ?_⟩
  unfold replaceNode
  split
  · exact v.acyc
  · exact v.acyc
  · rename_i i j
    split
    · exact v.acyc
    · exact v.acyc
    · rename_i ro rn hro hrn
      have hRo := reg_of_get hro
      have hRn := reg_of_get hrn
      obtain ⟨hc1, hc2⟩ := hcond i j ro rn rfl rfl (dictGet_mem hro) (dictGet_mem hrn)
      dsimp only
      split
      · exact v.acyc
      · have rl := moveChildren_relink ro rn (some (s.heap rn).nid) (s.childIds ro) s
        have v1 : Inv2 C (moveChildren ro rn (some (s.heap rn).nid) (s.childIds ro) s).1 :=
          ⟨v.toInv.relink rl (moveChildren_links ro rn _ _ s v.links hRo hRn),
            Acyc.same rl.same (moveChildren_acyc ro rn _ _ s v.links hRo v.acyc (by
              intro c hc hsk
              have hcn : c ≠ rn := by rintro rfl; exact hsk rfl
              rintro (h | h)
              · exact hcn h.symm
              · exact hc2 c hc hcn h) hRn)⟩
        split
        · exact v1.acyc
        · have v2 : Inv2 C (edit (removeNode · (some (s.heap ro).nid) true) (moveChildren ro rn (some (s.heap rn).nid) (s.childIds ro) s).1).1 :=
            sync_inv2 (removeNode_inv2 (some (s.heap ro).nid) true v1)
          have hsy : Synced (edit (removeNode · (some (s.heap ro).nid) true) (moveChildren ro rn (some (s.heap rn).nid) (s.childIds ro) s).1).1 :=
            sync_synced (removeNode_inv2 (some (s.heap ro).nid) true v1).basic.dict
          have hnid : ∀ x, ((edit (removeNode · (some (s.heap ro).nid) true) (moveChildren ro rn (some (s.heap rn).nid) (s.childIds ro) s).1).1.heap x).nid
              = (s.heap x).nid := by
            intro x
            have : ∀ t : St, ((edit (removeNode · (some (s.heap ro).nid) true) t).1.heap x).nid = (t.heap x).nid := by
              intro t
              show ((removeNode t (some (s.heap ro).nid) true).1.heap x).nid = _
              unfold removeNode
              dsimp only
              split
              · rfl
              · exact dropNodes_nid _ _ x
            rw [this, rl.same.nid]
          split
          · rename_i s2 h2
            rw [h2] at v2 hsy hnid
            split
            · exact v2.acyc
            · rename_i q hq
              refine (sync_inv2 (moveNode_inv2 _ _ _ v2 (Synced.covers hsy) (Or.inr ?_))).acyc
              intro he
              simp only [Option.some.injEq] at he
              rw [hnid] at he
              exact hc1 (by rw [hq, v.basic.dict.inj hRn (v.links.up ro hRo q hq).1 he])
          · rename_i s2 _ _ h2
            rw [h2] at v2
            exact v2.acyc

theorem exchanged_acyc {s s' : St} {i : Id} {old : Ref} {sp : Spec} (v : Inv2 C s) (hreg : (i, old) ∈ s.nodes) (e : Exchanged C s s' old i sp) :
    Acyc (Reg s') s'.heap := by
  have d := v.basic.dict
  have hR : Reg s old := ⟨i, hreg⟩
  have hne : old ≠ s.next := Nat.ne_of_lt (d.lt hR)
  let f : Ref → Ref := fun x => if x = s.next then old else x
  have hfren : ∀ q, Reg s q → f (ren old s.next q) = q := by
    intro q hq
    have hqn : q ≠ s.next := Nat.ne_of_lt (d.lt hq)
    show (if (if q = old then s.next else q) = s.next then old else if q = old then s.next else q) = q
    by_cases hqo : q = old
    · simp [hqo]
    · simp [hqo, hqn]
  have hstep : ∀ x, Reg s' x → ∀ p, (s'.heap x).parent = some p → Reg s' p ∧ (s.heap (f x)).parent = some (f p) := by
    intro x hx p hp
    refine ⟨(e.links.up x hx p hp).1, ?_⟩
    rcases (reg_exchanged d hreg e.mem x).1 hx with rfl | ⟨h1, h2⟩
    · rw [e.iso.parent'] at hp
      have : f s.next = old := if_pos rfl
      rw [this]
      cases hq : (s.heap old).parent with
      | none => rw [hq] at hp; cases hp
      | some q =>
        rw [hq] at hp
        simp only [Option.map_some, Option.some.injEq] at hp
        subst hp
        rw [hfren q (v.links.up old hR q hq).1]
    · have hxn : x ≠ s.next := Nat.ne_of_lt (d.lt h1)
      rw [e.iso.parent x h1 h2] at hp
      have : f x = x := if_neg hxn
      rw [this]
      cases hq : (s.heap x).parent with
      | none => rw [hq] at hp; cases hp
      | some q =>
        rw [hq] at hp
        simp only [Option.map_some, Option.some.injEq] at hp
        subst hp
        rw [hfren q (v.links.up x h1 q hq).1]
  intro r hr hc
  refine v.acyc (f r) ?_ (above_map f hstep hc hr)
  rcases (reg_exchanged d hreg e.mem r).1 hr with rfl | ⟨h1, h2⟩
  · have : f s.next = old := if_pos rfl
    rw [this]; exact hR
  · have : f r = r := if_neg (Nat.ne_of_lt (d.lt h1))
    rw [this]; exact h1

/-- Parents have smaller rank. -/
def Ranked (rank : Id → Nat) (s : St) : Prop := ∀ r, Reg s r → ∀ p, (s.heap r).parent = some p → rank (s.heap p).nid < rank (s.heap r).nid

theorem ranked_acyc {rank : Id → Nat} {s : St} (hl : LinksOn (Reg s) s.heap) (h : Ranked rank s) : Acyc (Reg s) s.heap := by
  have : ∀ a b, Above s.heap a b → Reg s a → rank (s.heap b).nid < rank (s.heap a).nid := by
    intro a b hab
    induction hab with
    | one h1 => exact fun ha => h _ ha _ h1
    | more h1 _ ih => exact fun ha => Nat.lt_trans (ih (hl.up _ ha _ h1).1) (h _ ha _ h1)
  exact fun r hr hc => Nat.lt_irrefl _ (this r r hc hr)

theorem loadChildren_ranked {rank : Id → Nat} (i : Id) (cs : List (Option Id)) {s : St} (d : Dict s) (h : Ranked rank s)
    (hr : ∀ c, some c ∈ cs → rank i < rank c) : Ranked rank (loadChildren i cs s).1 := by
  induction cs generalizing s with
  | nil => exact h
  | cons c cs ih =>
    cases c with
    | none => exact h
    | some c =>
      unfold loadChildren
      split
      · rename_i ri rc hri hrc
        split
        · rename_i s1 h1
          have a1 := addChild_added h1
          refine ih (d.same a1.same) ?_ (fun c hc => hr c (by simp [hc]))
          intro x hx p hp
          rw [a1.nid, a1.nid]
          rw [a1.parent] at hp
          split at hp
          · rename_i he
            subst he
            simp only [Option.some.injEq] at hp
            subst hp
            rw [d.key _ _ (dictGet_mem hri), d.key _ _ (dictGet_mem hrc)]
            exact hr c (by simp)
          · exact h x ((reg_same a1.same).1 hx) p hp
        · exact h
      · exact h

theorem loadLinks_ranked {rank : Id → Nat} (ms : List NodeMsg) {s : St} (d : Dict s) (h : Ranked rank s)
    (hr : ∀ m ∈ ms, ∀ c, some c ∈ m.childIds → rank (m.nid.getD 0) < rank c) : Ranked rank (loadLinks ms s).1 := by
  induction ms generalizing s with
  | nil => exact h
  | cons m ms ih =>
    have k := loadChildren_ranked (rank := rank) (m.nid.getD 0) m.childIds d h (hr m (by simp))
    have kr := (loadChildren_relink (m.nid.getD 0) m.childIds s).same
    unfold loadLinks
    split
    · rename_i s1 h1
      rw [h1] at k kr
      exact ih (d.same kr) k (fun m hm => hr m (by simp [hm]))
    · rename_i s1 e _ h1
      rw [h1] at k
      exact k

theorem loadTree_acyc {s : St} (t : TreeMsg) (v : Inv2 C s) (hn : t.listed.Nodup) {rank : Id → Nat}
    (hr : ∀ m ∈ t.nodes, ∀ c, some c ∈ m.childIds → rank (m.nid.getD 0) < rank c) :
    Acyc (Reg (loadTree C s (some t)).1) (loadTree C s (some t)).1.heap := by
  have vi := loadTree_inv t v.toInv hn
  refine ranked_acyc (rank := rank) vi.links ?_
  unfold loadTree
  dsimp only
  have b1 : Basic C (fun _ => False) (edit clear s).1 := edit_basic (clear_basic v.basic)
  have b2 := loadNodes_basic t.nodes b1 rfl
  have hb := loadNodes_bare t.nodes b1 rfl (by rintro r ⟨i, hi⟩; cases hi)
  have r2 : Ranked rank (loadNodes t.nodes (edit clear s).1).1 := fun r hr p hp => by rw [(hb r hr).1] at hp; cases hp
  split
  · exact r2
  · have r3 := loadLinks_ranked t.nodes b2.1.dict r2 hr
    split
    · rename_i s3 h3
      rw [h3] at r3
      split
      · exact r3
      · exact r3
    · rename_i s3 _ _ h3
      rw [h3] at r3
      exact r3

/-- A request that cannot create a cycle: polite; the id of a new node is not the requested parent;
a node is not moved below itself; a node is replaced neither by its parent nor by a node below one of
its children; the child lists of a loaded message have no cycle. -/
def Req.Careful : Req → St → Prop
  | .add u _ p _ _, s => Fresh s u ∧ p ≠ some u
  | .move n p _, _ => n = none ∨ n ≠ p
  | .replace (some i) (some j), s => ∀ ro rn, (i, ro) ∈ s.nodes → (j, rn) ∈ s.nodes →
      (s.heap ro).parent ≠ some rn ∧ ∀ c ∈ (s.heap ro).children, c ≠ rn → ¬ Above s.heap rn c
  | .load (some t), _ => t.listed.Nodup ∧ ∃ rank : Id → Nat, ∀ m ∈ t.nodes, ∀ i, m.nid = some i → ∀ c, some c ∈ m.childIds → rank i < rank c
  | r, s => r.Polite s

theorem Req.Careful.polite {r : Req} {s : St} (h : r.Careful s) : r.Polite s := by
  cases r with
  | add u sp p i cs => exact h.1
  | move n p i => exact trivial
  | replace o n => exact trivial
  | load m =>
    cases m with
    | none => exact trivial
    | some t => exact h.1
  | morph n sp => exact h
  | _ => exact trivial

/-- Everything together, at the border of a request. -/
structure Inv3 (C : Nat → Nat → Bool) (s : St) : Prop extends Inv2 C s where
  synced : Synced s

theorem handle_inv2 {s : St} (r : Req) (v : Inv2 C s) (hc : Covers s) (h : r.Careful s) : Inv3 C (handle C r s).1 := by
  have vi := handle_inv r v.toInv h.polite
  have hsy : Synced (handle C r s).1 := by
    cases r <;> exact sync_synced (Dict.same (s := (handle C _ s).1) ⟨rfl, rfl, rfl, fun _ => rfl, fun _ => rfl⟩ vi.basic.dict)
  refine ⟨⟨vi, ?_⟩, hsy⟩
  cases r with
  | add u sp p i cs => exact (sync_inv2 (addNode_inv2 sp p i cs v h.1 h.2)).acyc
  | remove n wc => exact (sync_inv2 (removeNode_inv2 n wc v)).acyc
  | morph n sp =>
    show Acyc (Reg (sync (morphNode C s n sp).1)) (morphNode C s n sp).1.heap
    cases n with
    | none => exact v.acyc
    | some i =>
      cases hg : dictGet s.nodes i with
      | none => unfold morphNode; simp only [hg]; exact v.acyc
      | some old =>
        cases sp with
        | none => unfold morphNode; simp only [hg]; exact v.acyc
        | some sp =>
          have e := (morphNode_ok v.toInv (dictGet_mem hg) (fun m hm => h old m (dictGet_mem hg) hm)).2
          exact (exchanged_acyc v (dictGet_mem hg) e : Acyc (Reg (_ : St)) _)
  | setOptions n sp =>
    show Acyc (Reg (sync (setOptions C s n sp).1)) (setOptions C s n sp).1.heap
    cases n with
    | none => exact v.acyc
    | some i =>
      cases hg : dictGet s.nodes i with
      | none => unfold setOptions; simp only [hg]; exact v.acyc
      | some old =>
        cases sp with
        | none => unfold setOptions; simp only [hg]; exact v.acyc
        | some sp =>
          have e := (setOptions_ok (sp := sp) v.toInv (dictGet_mem hg)).2
          exact (exchanged_acyc v (dictGet_mem hg) e : Acyc (Reg (_ : St)) _)
  | move n p i => exact (sync_inv2 (moveNode_inv2 n p i v hc h)).acyc
  | replace o n =>
    refine (sync_inv2 (replaceNode_inv2 o n v ?_)).acyc
    rintro i j ro rn rfl rfl h1 h2
    exact h ro rn h1 h2
  | wire ws ig =>
    have hh : (handle C (.wire ws ig) s).1.heap = s.heap := by
      show (wireData C s ws ig).1.heap = _
      unfold wireData; split
      · rfl
      · split <;> rfl
    have hn : (handle C (.wire ws ig) s).1.nodes = s.nodes := by
      show (wireData C s ws ig).1.nodes = _
      unfold wireData; split
      · rfl
      · split <;> rfl
    rw [hh]
    intro r hr
    unfold Reg at hr
    rw [hn] at hr
    exact v.acyc r hr
  | unwire ws ig =>
    have hh : (handle C (.unwire ws ig) s).1.heap = s.heap := by
      show (unwireData s ws ig).1.heap = _
      unfold unwireData; split <;> rfl
    have hn : (handle C (.unwire ws ig) s).1.nodes = s.nodes := by
      show (unwireData s ws ig).1.nodes = _
      unfold unwireData; split <;> rfl
    rw [hh]
    intro r hr
    unfold Reg at hr
    rw [hn] at hr
    exact v.acyc r hr
  | load m =>
    cases m with
    | none => exact v.acyc
    | some t =>
      obtain ⟨hn, rank, hr⟩ := h
      by_cases hall : ∀ m ∈ t.nodes, m.nid.isSome
      · refine loadTree_acyc t v hn (rank := rank) ?_
        intro m hm c hc
        obtain ⟨i, hi⟩ := Option.isSome_iff_exists.1 (hall m hm)
        rw [hi]; exact hr m hm i hi c hc
      · -- an id that does not parse: no links are made
        have hb : (loadNodes t.nodes (edit clear s).1).2 = false := by
          generalize (edit clear s).1 = s0
          have : ∀ (ms : List NodeMsg) (s0 : St), (¬ ∀ m ∈ ms, m.nid.isSome) → (loadNodes ms s0).2 = false := by
            intro ms
            induction ms with
            | nil => intro s0 h; exact absurd (fun m hm => by cases hm) h
            | cons m ms ih =>
              intro s0 h
              unfold loadNodes
              split
              · rename_i i sp hi hsp
                refine ih _ fun hall => h ?_
                intro m' hm'
                rcases List.mem_cons.1 hm' with rfl | hm'
                · rw [hi]; rfl
                · exact hall m' hm'
              · rfl
          exact this t.nodes s0 hall
        have b1 : Basic C (fun _ => False) (edit clear s).1 := edit_basic (clear_basic v.basic)
        have hbare := loadNodes_bare t.nodes b1 rfl (by rintro r ⟨i, hi⟩; cases hi)
        show Acyc (Reg (sync (loadTree C s (some t)).1)) (loadTree C s (some t)).1.heap
        have e : loadTree C s (some t) = ((loadNodes t.nodes (edit clear s).1).1, .err) := by
          unfold loadTree
          dsimp only
          rw [hb]; rfl
        rw [e]
        intro r hr hc
        have := (hbare r hr).1
        cases hc with
        | one h => rw [this] at h; cases h
        | more h _ => rw [this] at h; cases h
  | reload =>
    show Acyc (Reg (sync (reloadTree C s).1)) (reloadTree C s).1.heap
    unfold reloadTree
    split
    · exact v.acyc
    · exact loadTree_acyc ⟨[], []⟩ ⟨⟨clear_basic v.basic, ⟨(by rintro r ⟨i, hi⟩; cases hi), (by rintro r ⟨i, hi⟩; cases hi), (by rintro r ⟨i, hi⟩; cases hi)⟩⟩,
        (by rintro r ⟨i, hi⟩; cases hi)⟩ (by simp [TreeMsg.listed]) (rank := fun _ => 0) (fun m hm => by cases hm)
  | clear => rintro r ⟨i, hi⟩; cases hi
  | rename => exact v.acyc

theorem handle_inv3 {s : St} (r : Req) (v : Inv3 C s) (h : r.Careful s) : Inv3 C (handle C r s).1 := handle_inv2 r v.toInv2 v.synced.covers h

theorem history_inv3 {s : St} (rs : List Req) (v : Inv3 C s) (h : Along C Req.Careful rs s) : Inv3 C (history C rs s) := by
  induction rs generalizing s with
  | nil => exact v
  | cons r rs ih => exact ih (handle_inv3 r v h.1) h.2

theorem init_inv3 : Inv3 C {} :=
  ⟨⟨init_inv, by rintro r ⟨i, hi⟩; cases hi⟩, fun _ _ h => absurd h List.not_mem_nil⟩

/-- C30. No history of careful requests creates a cycle. Partial: the requests excluded by `Req.Careful`
do create cycles; see `c30_move_breaks`, `c30_replace_breaks`, `c30_replace_parent_breaks` and
`c30_load_breaks`. -/
theorem c30_no_cycle_partial (rs : List Req) (h : Along C Req.Careful rs {}) : NoCycle (history C rs {}) :=
  (history_inv3 rs init_inv3 h).acyc

/-! ### Violations -/

/-- C30 is violated: `move_node` of a node below itself succeeds. -/
theorem c30_move_breaks :
    let a := handle exC (.move (some 1) (some 1) 0) exPair
    a.2 = .ok ∧ ¬ NoCycle a.1 :=
  ⟨by decide +kernel, fun h => h 0 ⟨1, by decide +kernel⟩ (.one (by decide +kernel))⟩

/-- A chain of three sequences 1, 2, 3 and, below 3, another one 4. -/
def exChain : St := history exC [.add 1 (some exSeq) (some 0) (-1) [], .add 2 (some exSeq) (some 1) (-1) [], .add 3 (some exSeq) (some 2) (-1) [],
  .add 4 (some exSeq) (some 3) (-1) []] {}

/-- C30 is violated: `replace_node` of the root by a node below its child succeeds and leaves a
cycle. -/
theorem c30_replace_breaks :
    let a := handle exC (.replace (some 1) (some 3)) exChain
    a.2 = .ok ∧ ¬ NoCycle a.1 :=
  ⟨by decide +kernel, fun h => h 2 ⟨3, by decide +kernel⟩ (.more (b := 1) (by decide +kernel) (.one (by decide +kernel)))⟩

/-- C30 is violated: `replace_node` of a node by its parent makes the parent its own parent. -/
theorem c30_replace_parent_breaks :
    let a := handle exC (.replace (some 2) (some 1)) exChain
    a.2 = .ok ∧ ¬ NoCycle a.1 :=
  ⟨by decide +kernel, fun h => h 0 ⟨1, by decide +kernel⟩ (.one (by decide +kernel))⟩

/-- C30 is violated: `load_tree` of a message with a cycle succeeds. -/
theorem c30_load_breaks :
    let a := handle exC (.load (some ⟨[⟨some 1, some exSeq, []⟩, ⟨some 2, some exSeq, [some 3]⟩, ⟨some 3, some exSeq, [some 2]⟩], []⟩)) {}
    a.2 = .ok ∧ ¬ NoCycle a.1 :=
  ⟨by decide +kernel, fun h => h 1 ⟨2, by decide +kernel⟩ (.more (b := 2) (by decide +kernel) (.one (by decide +kernel)))⟩

/-! ### Examples -/

/-- A careful history: a subtree is loaded, a node is added beside it, moved, and takes the place of
another node. -/
def exCareful : List Req :=
  [.load (some ⟨[⟨some 1, some exSeq, [some 2, some 3]⟩, ⟨some 2, some exSeq, [some 4]⟩, ⟨some 3, some exLeaf, []⟩, ⟨some 4, some exLeaf, []⟩], []⟩),
   .add 5 (some exSeq) (some 0) 0 [], .move (some 5) (some 1) 1, .replace (some 2) (some 5)]

example : Along exC Req.Careful exCareful {} ∧
    (history exC exCareful {}).adj = [(1, [5, 3]), (3, []), (4, []), (5, [4])] := by
  refine ⟨⟨⟨by decide +kernel, fun i => i, by simp⟩, ⟨by decide +kernel, by decide⟩, Or.inr (by decide), ?_, trivial⟩, by decide +kernel⟩
  intro ro rn h1 h2
  have e1 : ro = 1 := by
    have : ∀ x ∈ (history exC (exCareful.take 3) {}).nodes, x.1 = 2 → x.2 = 1 := by decide +kernel
    exact this (2, ro) h1 rfl
  have e2 : rn = 4 := by
    have : ∀ x ∈ (history exC (exCareful.take 3) {}).nodes, x.1 = 5 → x.2 = 4 := by decide +kernel
    exact this (5, rn) h2 rfl
  subst e1 e2
  refine ⟨by decide +kernel, ?_⟩
  intro c hc _ hab
  have h4 : ((history exC (exCareful.take 3) {}).heap 4).parent = some 0 := by decide +kernel
  have h0 : ((history exC (exCareful.take 3) {}).heap 0).parent = none := by decide +kernel
  have hc3 : c = 3 := by
    have : ∀ x ∈ ((history exC (exCareful.take 3) {}).heap 1).children, x = 3 := by decide +kernel
    exact this c hc
  subst hc3
  replace hab : Above (history exC (exCareful.take 3) {}).heap 4 3 := hab
  cases hab with
  | one h => rw [h4] at h; cases h
  | more h h' =>
    rw [h4] at h; cases h
    cases h' with
    | one h => rw [h0] at h; cases h
    | more h _ => rw [h0] at h; cases h

end Verif.Edit
