import Verif.Edit.Acyclic

/-! C35: what moving and removing do to the tree. -/

set_option autoImplicit false

namespace Verif.Edit

variable {C : Nat → Nat → Bool}

/-! ### Lists and ids -/

theorem eraseIdx_erase {l : List Nat} (hn : l.Nodup) {i : Nat} (h : i < l.length) : l.eraseIdx i = l.erase l[i] := by
  induction l generalizing i with
  | nil => cases h
  | cons a l ih =>
    cases i with
    | zero => simp
    | succ i =>
      rw [List.nodup_cons] at hn
      have h' : i < l.length := Nat.lt_of_succ_lt_succ h
      have hne : ¬ a = l[i] := fun he => hn.1 (he ▸ List.getElem_mem h')
      simp only [List.eraseIdx_cons_succ, List.getElem_cons_succ]
      rw [List.erase_cons_tail (by simpa using hne), ih hn.2 h']

theorem map_erase_inj {l : List Ref} {f : Ref → Id} {r : Ref} (h : ∀ x ∈ l, f x = f r → x = r) :
    (l.erase r).map f = (l.map f).erase (f r) := by
  induction l with
  | nil => rfl
  | cons a l ih =>
    by_cases ha : a = r
    · subst ha; simp
    · have : ¬ f a = f r := fun he => ha (h a (by simp) he)
      rw [List.erase_cons_tail (by simpa using ha), List.map_cons, List.map_cons, List.erase_cons_tail (by simpa using this),
        ih fun x hx => h x (by simp [hx])]

theorem dictGet_reg {s : St} (d : Dict s) {r : Ref} (h : Reg s r) : dictGet s.nodes (s.heap r).nid = some r := by
  obtain ⟨i, hi⟩ := h
  rw [d.key _ _ hi]
  exact mem_dictGet d.keys hi

theorem kids_reg {s : St} (d : Dict s) {i : Id} {r : Ref} (h : (i, r) ∈ s.nodes) : kids s i = s.childIds r := by
  unfold kids; rw [mem_dictGet d.keys h]; rfl

theorem parentOf_reg {s : St} (d : Dict s) {i : Id} {r : Ref} (h : (i, r) ∈ s.nodes) :
    parentOf s i = (s.heap r).parent.map fun p => (s.heap p).nid := by
  unfold parentOf; rw [mem_dictGet d.keys h]; rfl

theorem specOf_reg {s : St} (d : Dict s) {i : Id} {r : Ref} (h : (i, r) ∈ s.nodes) : specOf s i = some (s.heap r).spec := by
  unfold specOf; rw [mem_dictGet d.keys h]; rfl

/-! ### `Above` and `Below` -/

theorem Below.head {s : St} {i j k : Id} (h1 : j ∈ kids s i) (h2 : Below s j k) : Below s i k := by
  induction h2 with
  | child h => exact .deeper (.child h1) h
  | deeper _ h ih => exact .deeper ih h

theorem Below.congr {s s' : St} {i j : Id} (h : Below s i j) (hk : ∀ i, kids s' i = kids s i) : Below s' i j := by
  induction h with
  | child h => exact .child (by rw [hk]; exact h)
  | deeper _ h ih => exact .deeper ih (by rw [hk]; exact h)

/-- In a consistent tree the two notions agree. -/
theorem below_iff {s : St} (v : Inv C s) {i j : Id} {r : Ref} (hr : (i, r) ∈ s.nodes) :
    Below s i j ↔ ∃ x, (j, x) ∈ s.nodes ∧ Above s.heap x r := by
  have d := v.basic.dict
  constructor
  · intro h
    induction h with
    | @child j h =>
      rw [kids_reg d hr] at h
      obtain ⟨c, hc, rfl⟩ := List.mem_map.1 h
      obtain ⟨⟨k, hk⟩, hp⟩ := v.links.down r ⟨i, hr⟩ c hc
      exact ⟨c, by rw [d.key _ _ hk]; exact hk, .one hp⟩
    | @deeper j k _ h ih =>
      obtain ⟨x, hx, hab⟩ := ih
      rw [kids_reg d hx] at h
      obtain ⟨c, hc, rfl⟩ := List.mem_map.1 h
      obtain ⟨⟨k, hk⟩, hp⟩ := v.links.down x ⟨j, hx⟩ c hc
      exact ⟨c, by rw [d.key _ _ hk]; exact hk, .more hp hab⟩
  · rintro ⟨x, hx, hab⟩
    induction hab generalizing j with
    | @one a b h1 =>
      have := (v.links.up a ⟨j, hx⟩ b h1).2
      refine .child ?_
      rw [kids_reg d hr]
      exact List.mem_map.2 ⟨a, this, d.key _ _ hx⟩
    | @more a b c h1 _ ih =>
      obtain ⟨⟨k, hk⟩, hm⟩ := v.links.up a ⟨j, hx⟩ b h1
      refine .deeper (ih hr hk) ?_
      rw [kids_reg d hk]
      exact List.mem_map.2 ⟨a, hm, d.key _ _ hx⟩

/-! ### The work lists -/

theorem succs_kids {s : St} (d : Dict s) (hs : Synced s) {i : Id} {r : Ref} (hr : (i, r) ∈ s.nodes) : succs s i = kids s i := by
  unfold succs; rw [hs i r hr, kids_reg d hr]; rfl

theorem kids_exists {s : St} (v : Inv C s) {i j : Id} (h : j ∈ kids s i) : (∃ r, (i, r) ∈ s.nodes) ∧ ∃ c, (j, c) ∈ s.nodes := by
  cases hg : dictGet s.nodes i with
  | none => unfold kids at h; rw [hg] at h; cases h
  | some r =>
    have hr := dictGet_mem hg
    rw [kids_reg v.basic.dict hr] at h
    obtain ⟨c, hc, rfl⟩ := List.mem_map.1 h
    obtain ⟨⟨k, hk⟩, _⟩ := v.links.down r ⟨i, hr⟩ c hc
    exact ⟨⟨r, hr⟩, c, by rw [v.basic.dict.key _ _ hk]; exact hk⟩

theorem below_exists {s : St} (v : Inv C s) {i j : Id} (h : Below s i j) : ∃ c, (j, c) ∈ s.nodes := by
  cases h with
  | child h => exact (kids_exists v h).2
  | deeper _ h => exact (kids_exists v h).2

/-- Everything `move_node` counts as a descendant is one. -/
theorem descendants_below {s : St} (v : Inv C s) (hs : Synced s) (i : Id) (fuel : Nat) : ∀ (pending acc : List Id),
    (∀ d ∈ pending, Below s i d) → (∀ d ∈ acc, Below s i d) → ∀ d ∈ descendants s fuel pending acc, Below s i d := by
  induction fuel with
  | zero => intro _ acc _ h; exact h
  | succ fuel ih =>
    intro pending acc hp ha
    cases pending with
    | nil => exact ha
    | cons d pending =>
      unfold descendants
      split
      · exact ih pending acc (fun x hx => hp x (by simp [hx])) ha
      · have hd := hp d (by simp)
        refine ih _ _ ?_ ?_
        · intro x hx
          rcases List.mem_append.1 hx with hx | hx
          · obtain ⟨c, hc⟩ := below_exists v hd
            rw [List.mem_reverse] at hx
            have : x ∈ succs s d := hx
            rw [succs_kids v.basic.dict hs hc] at this
            exact .deeper hd this
          · exact hp x (by simp [hx])
        · intro x hx
          rcases List.mem_append.1 hx with hx | hx
          · exact ha x hx
          · rw [List.mem_singleton.1 hx]; exact hd

/-- `move_node` computes exactly the nodes below the moved node. -/
theorem descendants_exact {s : St} (v : Inv C s) (hs : Synced s) {i : Id} {r : Ref} (hr : (i, r) ∈ s.nodes) (j : Id) :
    j ∈ descendants s (descFuel s (succs s i).reverse) (succs s i).reverse [] ↔ Below s i j := by
  constructor
  · refine descendants_below v hs i _ _ _ ?_ (fun d h => by cases h) j
    intro d hd
    rw [List.mem_reverse, succs_kids v.basic.dict hs hr] at hd
    exact .child hd
  · intro h
    obtain ⟨x, hx, hab⟩ := (below_iff v hr).1 h
    have := below_found v hs.covers hr hab ⟨j, hx⟩
    rwa [v.basic.dict.key _ _ hx] at this

/-- One round of the work list of `remove_node`. -/
theorem collect_round (s : St) (l : List Id) : ∀ (pending acc : List Id),
    let r := l.foldl (fun (st : List Id × List Id) c =>
        if (dictGet s.nodes c).isSome && c ∉ st.2 then (c :: st.1, st.2 ++ [c]) else st) (pending, acc)
    ∃ new : List Id, r.1 = new ++ pending ∧ (∀ x, x ∈ r.2 ↔ x ∈ acc ∨ x ∈ new) ∧ r.2.length = acc.length + new.length ∧
      (acc.Nodup → r.2.Nodup) ∧ (∀ x ∈ new, x ∈ l ∧ (dictGet s.nodes x).isSome) ∧
      (∀ x ∈ l, (dictGet s.nodes x).isSome → x ∈ r.2) := by
  induction l with
  | nil => intro pending acc; exact ⟨[], rfl, by simp, by simp, id, by simp, by simp⟩
  | cons c l ih =>
    intro pending acc
    simp only [List.foldl_cons]
    by_cases hc : (dictGet s.nodes c).isSome && decide (c ∉ acc)
    · rw [if_pos hc]
      simp only [Bool.and_eq_true, decide_eq_true_eq] at hc
      obtain ⟨new, h1, h2, h3, h4, h5, h6⟩ := ih (c :: pending) (acc ++ [c])
      refine ⟨new ++ [c], by rw [h1]; simp, ?_, ?_, ?_, ?_, ?_⟩
      · intro x; rw [h2]; simp only [List.mem_append, List.mem_singleton]
        constructor
        · rintro ((h | h) | h)
          · exact Or.inl h
          · exact Or.inr (Or.inr h)
          · exact Or.inr (Or.inl h)
        · rintro (h | h | h)
          · exact Or.inl (Or.inl h)
          · exact Or.inr h
          · exact Or.inl (Or.inr h)
      · rw [h3]; simp only [List.length_append, List.length_singleton]; omega
      · intro hn
        refine h4 ?_
        rw [List.nodup_append]
        refine ⟨hn, by simp, ?_⟩
        intro a ha b hb
        rw [List.mem_singleton] at hb
        subst hb
        rintro rfl
        exact hc.2 ha
      · intro x hx
        rcases List.mem_append.1 hx with hx | hx
        · exact ⟨by simp [(h5 x hx).1], (h5 x hx).2⟩
        · rw [List.mem_singleton.1 hx]; exact ⟨by simp, hc.1⟩
      · intro x hx hs
        rcases List.mem_cons.1 hx with rfl | hx
        · rw [h2]; exact Or.inl (by simp)
        · exact h6 x hx hs
    · rw [if_neg hc]
      obtain ⟨new, h1, h2, h3, h4, h5, h6⟩ := ih pending acc
      refine ⟨new, h1, h2, h3, h4, fun x hx => ⟨by simp [(h5 x hx).1], (h5 x hx).2⟩, ?_⟩
      intro x hx hs
      rcases List.mem_cons.1 hx with rfl | hx
      · simp only [Bool.and_eq_true, decide_eq_true_eq, not_and, Classical.not_not] at hc
        rw [h2]; exact Or.inl (hc hs)
      · exact h6 x hx hs

theorem subset_length {l m : List Nat} (hn : l.Nodup) (h : ∀ x ∈ l, x ∈ m) : l.length ≤ m.length := by
  induction l generalizing m with
  | nil => exact Nat.zero_le _
  | cons a l ih =>
    rw [List.nodup_cons] at hn
    have ha : a ∈ m := h a (by simp)
    have := ih (m := m.erase a) hn.2 (fun x hx => (List.mem_erase_of_ne (by rintro rfl; exact hn.1 hx)).2 (h x (by simp [hx])))
    rw [List.length_erase_of_mem ha] at this
    have : 0 < m.length := List.length_pos_of_mem ha
    simp only [List.length_cons]
    omega

/-- The work list of `remove_node` collects exactly the start and what is below it. -/
theorem collect_closed {s : St} (v : Inv C s) (hs : Synced s) (fuel : Nat) : ∀ (pending acc : List Id), acc.Nodup →
    (∀ x ∈ acc, (dictGet s.nodes x).isSome) → (∀ x ∈ pending, x ∈ acc) → s.nodes.length + pending.length ≤ fuel + acc.length →
    (∀ x ∈ acc, x ∈ pending ∨ ∀ y ∈ kids s x, y ∈ acc) →
    (∀ x ∈ acc, x ∈ collect s fuel pending acc) ∧
    (∀ x ∈ collect s fuel pending acc, ∀ y ∈ kids s x, y ∈ collect s fuel pending acc) ∧
    (∀ x ∈ collect s fuel pending acc, x ∈ acc ∨ ∃ y ∈ acc, Below s y x) := by
  induction fuel with
  | zero =>
    intro pending acc hn hreg hpa hf hc
    have hle : acc.length ≤ s.nodes.length := by
      have := subset_length (m := s.nodes.map (·.1)) hn (fun x hx => by
        obtain ⟨r, hr⟩ := dictGet_isSome.1 (hreg x hx)
        exact List.mem_map.2 ⟨_, hr, rfl⟩)
      simpa using this
    have : pending = [] := List.eq_nil_of_length_eq_zero (by omega)
    subst this
    refine ⟨fun x h => h, ?_, fun x h => Or.inl h⟩
    intro x hx y hy
    rcases hc x hx with h | h
    · cases h
    · exact h y hy
  | succ fuel ih =>
    intro pending acc hn hreg hpa hf hc
    cases pending with
    | nil =>
      refine ⟨fun x h => h, ?_, fun x h => Or.inl h⟩
      intro x hx y hy
      rcases hc x hx with h | h
      · cases h
      · exact h y hy
    | cons cur pending =>
      have hcur := hpa cur (by simp)
      obtain ⟨rc, hrc⟩ := dictGet_isSome.1 (hreg cur hcur)
      have hk : (dictGet s.adj cur).getD [] = kids s cur := succs_kids v.basic.dict hs hrc
      unfold collect
      obtain ⟨new, h1, h2, h3, h4, h5, h6⟩ := collect_round s ((dictGet s.adj cur).getD []) pending acc
      dsimp only at h1 h2 h3 h4 h5 h6 ⊢
      generalize List.foldl _ (pending, acc) _ = r at *
      rw [hk] at h5 h6
      obtain ⟨k1, k2, k3⟩ := ih r.1 r.2 (h4 hn)
        (fun x hx => by
          rcases (h2 x).1 hx with h | h
          · exact hreg x h
          · exact (h5 x h).2)
        (fun x hx => by
          rw [h1] at hx
          rw [h2]
          rcases List.mem_append.1 hx with h | h
          · exact Or.inr h
          · exact Or.inl (hpa x (by simp [h])))
        (by rw [h1, h3]; simp only [List.length_append, List.length_cons] at hf ⊢; omega)
        (fun x hx => by
          rw [h1, List.mem_append]
          rcases (h2 x).1 hx with h | h
          · rcases hc x h with h' | h'
            · rcases List.mem_cons.1 h' with rfl | h'
              · exact Or.inr fun y hy => h6 y hy (dictGet_isSome.2 (kids_exists v hy).2)
              · exact Or.inl (Or.inr h')
            · exact Or.inr fun y hy => (h2 y).2 (Or.inl (h' y hy))
          · exact Or.inl (Or.inl h))
      refine ⟨fun x hx => k1 x ((h2 x).2 (Or.inl hx)), k2, ?_⟩
      intro x hx
      rcases k3 x hx with h | ⟨y, hy, hb⟩
      · rcases (h2 x).1 h with h | h
        · exact Or.inl h
        · exact Or.inr ⟨cur, hcur, .child (h5 x h).1⟩
      · rcases (h2 y).1 hy with h | h
        · exact Or.inr ⟨y, h, hb⟩
        · exact Or.inr ⟨cur, hcur, .head (h5 y h).1 hb⟩

theorem collect_exact {s : St} (v : Inv C s) (hs : Synced s) {i : Id} {r : Ref} (hr : (i, r) ∈ s.nodes) (j : Id) :
    j ∈ collect s (s.nodes.length + 1) [i] [i] ↔ j = i ∨ Below s i j := by
  obtain ⟨k1, k2, k3⟩ := collect_closed v hs (s.nodes.length + 1) [i] [i] (by simp)
    (fun x hx => by rw [List.mem_singleton.1 hx]; exact dictGet_isSome.2 ⟨r, hr⟩) (fun x hx => hx) (by simp)
    (fun x hx => Or.inl hx)
  constructor
  · intro h
    rcases k3 j h with h | ⟨y, hy, hb⟩
    · exact Or.inl (List.mem_singleton.1 h)
    · rw [List.mem_singleton.1 hy] at hb; exact Or.inr hb
  · rintro (rfl | h)
    · exact k1 _ (by simp)
    · induction h with
      | child h => exact k2 i (k1 i (by simp)) _ h
      | deeper _ h ih => exact k2 _ ih _ h

/-! ### Moving -/

theorem addChild_ok {s : St} {p c : Ref} (a : Option Int) (h1 : (s.heap p).spec.max ≠ some (s.heap p).children.length)
    (h2 : (s.heap c).nid ∉ s.childIds p) : ∃ s', addChild s p c a = some s' := by
  unfold addChild
  dsimp only
  rw [if_neg h1, if_neg h2]
  exact ⟨_, rfl⟩

/-- Field by field effect of taking `r` out of its place and, if `to = some rp`, inserting it there. -/
structure Moved (s s' : St) (r : Ref) (to : Option Ref) (idx : Int) : Prop where
  same : Same s s'
  parent : ∀ x, (s'.heap x).parent = if x = r then to else (s.heap x).parent
  others : ∀ x, Reg s x → some x ≠ to → (s'.heap x).children = (s.heap x).children.erase r
  target : ∀ rp, to = some rp → (s'.heap rp).children =
    let l := (s.heap rp).children.erase r
    l.take (insertPos l.length (some idx)) ++ r :: l.drop (insertPos l.length (some idx))

theorem detach_ok {s : St} (v : Inv C s) {r : Ref} (hr : Reg s r) :
    ∃ s', ((s.heap r).parent = none → s' = s) ∧ (∀ q, (s.heap r).parent = some q → ∃ c, removeChild s q (s.heap r).nid = some (s', c)) ∧ Same s s' ∧
      (∀ x, (s'.heap x).parent = if x = r then none else (s.heap x).parent) ∧
      (∀ x, Reg s x → (s'.heap x).children = (s.heap x).children.erase r) := by
  cases hq : (s.heap r).parent with
  | none =>
    refine ⟨s, fun _ => rfl, (fun q h => (by cases h)), Same.refl s, ?_, ?_⟩
    · intro x; split
      · rename_i h; rw [h]; exact hq
      · rfl
    · intro x hx
      rw [List.erase_of_not_mem]
      intro hm
      have := (v.links.down x hx r hm).2
      rw [hq] at this; cases this
  | some q =>
    obtain ⟨hqr, hm⟩ := v.links.up r hr q hq
    obtain ⟨s1, c, h1⟩ := removeChild_some hm
    have hrem := removeChild_removed h1
    have := removed_eq v hrem hqr hr
    subst this
    refine ⟨s1, (fun h => (by cases h)), (fun q' h => (by cases h; exact ⟨c, h1⟩)), hrem.same, hrem.parent, ?_⟩
    intro x hx
    by_cases hxq : x = q
    · subst hxq
      obtain ⟨i, hlt, hci, hi⟩ := hrem.erased
      rw [hi, eraseIdx_erase (v.links.nodup x hx) hlt, hci]
    · rw [hrem.others x hxq, List.erase_of_not_mem]
      intro hm'
      have := (v.links.down x hx c hm').2
      rw [hq] at this
      exact hxq (Option.some.inj this).symm

/-- When nothing speaks against it, `move_node` does what it should. -/
theorem moveNode_ok {s : St} (v : Inv C s) {i p : Id} {r rp : Ref} (idx : Int) (hr : (i, r) ∈ s.nodes) (hp0 : p ≠ 0)
    (hp : (p, rp) ∈ s.nodes) (hroom : (s.heap rp).spec.max ≠ some (s.heap rp).children.length)
    (hnd : (s.heap rp).nid ∉ descendants s (descFuel s ((dictGet s.adj i).getD []).reverse) ((dictGet s.adj i).getD []).reverse []) :
    ∃ s', moveNode s (some i) (some p) idx = (sync s', .ok) ∧ Moved s s' r (some rp) idx := by
  have d := v.basic.dict
  have hR : Reg s r := ⟨i, hr⟩
  have hP : Reg s rp := ⟨p, hp⟩
  obtain ⟨s1, h1, h1', same1, par1, ch1⟩ := detach_ok v hR
  have hnr : r ∉ (s.heap rp).children.erase r := fun h => (List.Nodup.mem_erase_iff (v.links.nodup rp hP)).1 h |>.1 rfl
  obtain ⟨s2, h2⟩ := addChild_ok (s := s1) (p := rp) (c := r) (some idx)
    (by
      rw [same1.spec, ch1 rp hP]
      intro h
      by_cases hm : r ∈ (s.heap rp).children
      · have h3 := v.basic.lim rp _ h
        rw [List.length_erase_of_mem hm] at h3
        have := List.length_pos_of_mem hm
        omega
      · rw [List.erase_of_not_mem hm] at h; exact hroom h)
    (by
      intro h
      obtain ⟨c, hc, he⟩ := List.mem_map.1 h
      rw [ch1 rp hP] at hc
      rw [same1.nid, same1.nid] at he
      have := d.inj (v.links.down rp hP c (List.mem_of_mem_erase hc)).1 hR he
      subst this
      exact hnr hc)
  have a2 := addChild_added h2
  refine ⟨s2, ?_, same1.trans (addChild_relink h2).same, ?_, ?_, ?_⟩
  · unfold moveNode
    dsimp only
    rw [mem_dictGet d.keys hr]
    dsimp only
    rw [if_neg hp0, mem_dictGet d.keys hp]
    dsimp only
    rw [if_neg hroom, if_neg hnd]
    cases hq : (s.heap r).parent with
    | none =>
      dsimp only
      rw [h1 hq] at h2
      rw [h2]
    | some q =>
      obtain ⟨c, hc⟩ := h1' q hq
      dsimp only
      rw [hc]
      dsimp only [Option.map_some]
      rw [h2]
  · intro x
    rw [a2.parent]
    split
    · rfl
    · rename_i hx; rw [par1, if_neg hx]
  · intro x hx hne
    rw [a2.others x (by rintro rfl; exact hne rfl), ch1 x hx]
  · rintro rp' he
    cases he
    rw [addChild_children h2, ch1 rp hP]

theorem moveNode_root {s : St} (v : Inv C s) {i : Id} {r : Ref} (idx : Int) (hr : (i, r) ∈ s.nodes) :
    ∃ s', moveNode s (some i) (some 0) idx = (sync s', .ok) ∧ Moved s s' r none idx := by
  obtain ⟨s1, h1, h1', same1, par1, ch1⟩ := detach_ok v ⟨i, hr⟩
  refine ⟨s1, ?_, same1, par1, fun x hx _ => ch1 x hx, (fun rp h => (by cases h))⟩
  unfold moveNode
  dsimp only
  rw [mem_dictGet v.basic.dict.keys hr]
  dsimp only
  rw [if_pos rfl]
  cases hq : (s.heap r).parent with
  | none => rw [h1 hq]
  | some q =>
    obtain ⟨c, hc⟩ := h1' q hq
    dsimp only
    rw [hc]

/-- The effect in terms of ids. -/
theorem moved_ids {s s' : St} {i : Id} {r : Ref} {to : Option Ref} {idx : Int} (v : Inv C s) (hr : (i, r) ∈ s.nodes)
    (hto : ∀ rp, to = some rp → Reg s rp) (m : Moved s s' r to idx) :
    s'.wirings = s.wirings ∧ (∀ j, specOf s' j = specOf s j) ∧
    (∀ j, parentOf s' j = if j = i then to.map (fun rp => (s.heap rp).nid) else parentOf s j) ∧
    (∀ j, (∀ rp, to = some rp → (s.heap rp).nid ≠ j) → kids s' j = (kids s j).erase i) ∧
    (∀ rp, to = some rp → kids s' (s.heap rp).nid =
      let l := (kids s (s.heap rp).nid).erase i
      l.take (insertPos l.length (some idx)) ++ i :: l.drop (insertPos l.length (some idx))) := by
  have d := v.basic.dict
  have d' : Dict s' := d.same m.same
  have hkey := d.key _ _ hr
  have hR : Reg s r := ⟨i, hr⟩
  have herase : ∀ x, Reg s x → ((s.heap x).children.erase r).map (fun c => (s.heap c).nid) = (s.childIds x).erase i := by
    intro x hx
    rw [map_erase_inj (fun c hc he => d.inj (v.links.down x hx c hc).1 hR he), hkey]; rfl
  have hch : ∀ x, s'.childIds x = (s'.heap x).children.map fun c => (s.heap c).nid :=
    fun x => List.map_congr_left fun c _ => m.same.nid c
  refine ⟨m.same.wirings, ?_, ?_, ?_, ?_⟩
  · intro j
    unfold specOf
    rw [m.same.nodes]
    cases dictGet s.nodes j with
    | none => rfl
    | some x => simp only [Option.map_some, m.same.spec]
  · intro j
    unfold parentOf
    rw [m.same.nodes]
    cases hj : dictGet s.nodes j with
    | none =>
      have : j ≠ i := by rintro rfl; exact dictGet_none hj r hr
      rw [if_neg this]; rfl
    | some x =>
      simp only [Option.bind_some, m.parent, m.same.nid]
      by_cases hji : j = i
      · subst hji
        rw [mem_dictGet d.keys hr] at hj
        cases hj
        rw [if_pos rfl, if_pos rfl]
      · have : x ≠ r := by
          rintro rfl
          exact hji ((d.key _ _ (dictGet_mem hj)).symm.trans hkey)
        rw [if_neg this, if_neg hji]
  · intro j hj
    cases hg : dictGet s.nodes j with
    | none => unfold kids; rw [m.same.nodes, hg]; rfl
    | some x =>
      have hx := dictGet_mem hg
      rw [kids_reg d' (by rw [m.same.nodes]; exact hx), kids_reg d hx, hch, m.others x ⟨j, hx⟩, herase x ⟨j, hx⟩]
      rintro rfl
      exact hj x rfl (d.key _ _ hx)
  · intro rp hrp
    have hP := hto rp hrp
    obtain ⟨p, hp⟩ := hP
    rw [d.key _ _ hp, kids_reg d' (by rw [m.same.nodes]; exact hp), kids_reg d hp, hch, m.target rp hrp, ← herase rp ⟨p, hp⟩]
    simp only [List.map_append, List.map_cons, List.map_take, List.map_drop, List.length_map, hkey]

/-- The reverse: a successful `move_node` has been through one of the two ways above. -/
theorem move_cases {s : St} (v : Inv C s) {n p : Option Id} {idx : Int} (h : (moveNode s n p idx).2 = .ok) :
    ∃ i r to s', n = some i ∧ (i, r) ∈ s.nodes ∧ (moveNode s n p idx).1 = sync s' ∧ Moved s s' r to idx ∧
      ((p = some 0 ∧ to = none) ∨ ∃ j rp, p = some j ∧ j ≠ 0 ∧ (j, rp) ∈ s.nodes ∧ to = some rp) := by
  cases n with
  | none => cases h
  | some i =>
    cases p with
    | none => cases h
    | some p =>
      cases hr : dictGet s.nodes i with
      | none => unfold moveNode at h; simp only [hr] at h; cases h
      | some r =>
        by_cases hp0 : p = 0
        · subst hp0
          obtain ⟨s', h1, m⟩ := moveNode_root v idx (dictGet_mem hr)
          exact ⟨i, r, none, s', rfl, dictGet_mem hr, by rw [h1], m, Or.inl ⟨rfl, rfl⟩⟩
        · cases hp : dictGet s.nodes p with
          | none => unfold moveNode at h; simp only [hr, if_neg hp0, hp] at h; cases h
          | some rp =>
            by_cases hroom : (s.heap rp).spec.max = some (s.heap rp).children.length
            · unfold moveNode at h; simp only [hr, if_neg hp0, hp, if_pos hroom] at h; cases h
            · by_cases hnd : (s.heap rp).nid ∈ descendants s (descFuel s ((dictGet s.adj i).getD []).reverse) ((dictGet s.adj i).getD []).reverse []
              · unfold moveNode at h; simp only [hr, if_neg hp0, hp, if_neg hroom, if_pos hnd] at h; cases h
              · obtain ⟨s', h1, m⟩ := moveNode_ok v idx (dictGet_mem hr) hp0 (dictGet_mem hp) hroom hnd
                exact ⟨i, r, some rp, s', rfl, dictGet_mem hr, by rw [h1], m, Or.inr ⟨p, rp, rfl, hp0, dictGet_mem hp, rfl⟩⟩

theorem not_child {s : St} (v : Inv C s) {i j : Id} (h : parentOf s i ≠ some j) : i ∉ kids s j := by
  intro hm
  cases hg : dictGet s.nodes j with
  | none => unfold kids at hm; rw [hg] at hm; cases hm
  | some x =>
    have hx := dictGet_mem hg
    rw [kids_reg v.basic.dict hx] at hm
    obtain ⟨c, hc, rfl⟩ := List.mem_map.1 hm
    obtain ⟨⟨k, hk⟩, hp⟩ := v.links.down x ⟨j, hx⟩ c hc
    apply h
    have hk' := v.basic.dict.key _ _ hk
    rw [hk', parentOf_reg v.basic.dict hk, hp, Option.map_some, v.basic.dict.key _ _ hx]

/-- C35, `move_node`: nodes, their specs and the wirings are kept; the moved node gets the requested
parent, all others keep theirs; the moved node is put at the requested place among the children of the new
parent, leaves its old parent, and all other lists of children are kept. -/
theorem c35_move (rs : List Req) (h : Along C Req.Polite rs {}) (i p : Id) (idx : Int)
    (hok : (handle C (.move (some i) (some p) idx) (history C rs {})).2 = .ok) :
    let s := history C rs {}
    let s' := (handle C (.move (some i) (some p) idx) s).1
    s'.wirings = s.wirings ∧ (∀ j, specOf s' j = specOf s j) ∧
    parentOf s' i = (if p = 0 then none else some p) ∧ (∀ j, j ≠ i → parentOf s' j = parentOf s j) ∧
    (∀ j, (p = 0 ∨ j ≠ p) → kids s' j = (kids s j).erase i) ∧
    (∀ j, (p = 0 ∨ j ≠ p) → parentOf s i ≠ some j → kids s' j = kids s j) ∧
    (p ≠ 0 → let l := (kids s p).erase i
      ∃ k, kids s' p = l.take k ++ i :: l.drop k ∧ (∀ n : Nat, idx = n → n ≤ l.length → k = n) ∧ (idx = -1 → k = l.length)) := by
  have v := history_inv rs init_inv h
  generalize history C rs {} = s at *
  obtain ⟨i', r, to, s1, hi, hr, he, m, hto⟩ := move_cases v (n := some i) (p := some p) (idx := idx) hok
  cases hi
  have d := v.basic.dict
  have hs' : (handle C (.move (some i) (some p) idx) s).1 = sync (sync s1) := by
    show sync (moveNode s (some i) (some p) idx).1 = _
    rw [he]
  have hreg : ∀ rp, to = some rp → Reg s rp := by
    rintro rp rfl
    rcases hto with ⟨_, h⟩ | ⟨j, rp', _, _, h, h'⟩
    · cases h
    · cases h'; exact ⟨_, h⟩
  obtain ⟨k1, k2, k3, k4, k5⟩ := moved_ids v hr hreg m
  have e1 : ∀ j, specOf (sync (sync s1)) j = specOf s1 j := fun _ => rfl
  have e2 : ∀ j, parentOf (sync (sync s1)) j = parentOf s1 j := fun _ => rfl
  have e3 : ∀ j, kids (sync (sync s1)) j = kids s1 j := fun _ => rfl
  dsimp only
  rw [hs']
  simp only [e1, e2, e3]
  have hk4 : ∀ j, (p = 0 ∨ j ≠ p) → kids s1 j = (kids s j).erase i := by
    intro j hj
    apply k4
    rintro rp rfl
    rcases hto with ⟨_, h⟩ | ⟨j', rp', hp, hp0, h, h'⟩
    · cases h
    · cases h'; cases hp
      rw [d.key _ _ h]
      rcases hj with hj | hj
      · exact absurd hj hp0
      · exact fun h => hj h.symm
  refine ⟨k1, k2, ?_, ?_, hk4, ?_, ?_⟩
  · rw [k3, if_pos rfl]
    rcases hto with ⟨hp, h⟩ | ⟨j', rp', hp, hp0, h, h'⟩
    · cases hp; rw [h]; rfl
    · cases hp; rw [h', if_neg hp0, Option.map_some, d.key _ _ h]
  · intro j hj
    rw [k3, if_neg hj]
  · intro j hj hne
    rw [hk4 j hj, List.erase_of_not_mem (not_child v hne)]
  · intro hp
    rcases hto with ⟨h1, _⟩ | ⟨j', rp', hp', hp0, h, h'⟩
    · cases h1; exact absurd rfl hp
    · cases hp'
      have := k5 rp' h'
      rw [d.key _ _ h] at this
      refine ⟨_, this, ?_, ?_⟩
      · rintro n rfl hn
        exact insertPos_nat hn
      · rintro rfl
        generalize ((kids s p).erase i).length = n
        have h1 : ¬ ((-1 : Int) + n + 1 < 0) := by omega
        simp [insertPos, h1]
        omega

/-- A move is refused only for a reason: an id is bad or unknown, the new parent is full, or it lies
below the moved node. -/
theorem c35_move_refused (rs : List Req) (h : Along C Req.Careful rs {}) (i p : Id) (idx : Int)
    (hno : (handle C (.move (some i) (some p) idx) (history C rs {})).2 ≠ .ok) :
    let s := history C rs {}
    specOf s i = none ∨ (p ≠ 0 ∧ (specOf s p = none ∨ (∃ sp, specOf s p = some sp ∧ sp.max = some (kids s p).length) ∨ Below s i p)) := by
  have v3 := history_inv3 rs init_inv3 h
  have v := v3.toInv
  have hs := v3.synced
  generalize history C rs {} = s at *
  have d := v.basic.dict
  change (moveNode s (some i) (some p) idx).2 ≠ .ok at hno
  dsimp only
  cases hr : dictGet s.nodes i with
  | none => left; unfold specOf; rw [hr]; rfl
  | some r =>
    right
    have hp0 : p ≠ 0 := by
      rintro rfl
      obtain ⟨s', h1, _⟩ := moveNode_root v idx (dictGet_mem hr)
      rw [h1] at hno; exact hno rfl
    refine ⟨hp0, ?_⟩
    cases hp : dictGet s.nodes p with
    | none => left; unfold specOf; rw [hp]; rfl
    | some rp =>
      right
      have hp' := dictGet_mem hp
      by_cases hroom : (s.heap rp).spec.max = some (s.heap rp).children.length
      · left
        refine ⟨_, specOf_reg d hp', ?_⟩
        rw [kids_reg d hp', hroom]
        simp [St.childIds]
      · right
        by_cases hnd : (s.heap rp).nid ∈ descendants s (descFuel s ((dictGet s.adj i).getD []).reverse) ((dictGet s.adj i).getD []).reverse []
        · have := (descendants_exact v hs (dictGet_mem hr) _).1 hnd
          rwa [d.key _ _ hp'] at this
        · obtain ⟨s', h1, _⟩ := moveNode_ok v idx (dictGet_mem hr) hp0 hp' hroom hnd
          rw [h1] at hno; exact absurd rfl hno

/-! ### Removing -/

theorem drop_ids {s : St} (v : Inv C s) (del : List Id) :
    (∀ j, specOf (dropNodes s del) j = if j ∈ del then none else specOf s j) ∧
    (∀ j, j ∉ del → kids (dropNodes s del) j = (kids s j).filter (· ∉ del)) ∧
    (∀ j, j ∉ del → parentOf (dropNodes s del) j = (parentOf s j).filter (· ∉ del)) := by
  have d := v.basic.dict
  have v' := dropNodes_inv del v
  have d' := v'.basic.dict
  have hn : ∀ j x, (j, x) ∈ (dropNodes s del).nodes ↔ (j, x) ∈ s.nodes ∧ j ∉ del := by
    intro j x
    simp [dropNodes, List.mem_filter]
  have hget : ∀ j, dictGet (dropNodes s del).nodes j = if j ∈ del then none else dictGet s.nodes j := by
    intro j
    cases hg : dictGet (dropNodes s del).nodes j with
    | none =>
      split
      · rfl
      · rename_i hj
        cases hg' : dictGet s.nodes j with
        | none => rfl
        | some x => exact absurd ((hn j x).2 ⟨dictGet_mem hg', hj⟩) (dictGet_none hg x)
    | some x =>
      obtain ⟨h1, h2⟩ := (hn j x).1 (dictGet_mem hg)
      rw [if_neg h2, mem_dictGet d.keys h1]
  have hheap : ∀ j x, (j, x) ∈ s.nodes → j ∉ del → (dropNodes s del).heap x = { s.heap x with
      children := (s.heap x).children.filter fun c => (s.heap c).nid ∉ del
      parent := match (s.heap x).parent with
        | some p => if (s.heap p).nid ∈ del then none else some p
        | none => none } := by
    intro j x hx hj
    rw [dropNodes_heap del ⟨j, hx⟩, if_neg (by rw [d.key _ _ hx]; exact hj)]
    rfl
  refine ⟨?_, ?_, ?_⟩
  · intro j
    unfold specOf
    rw [hget]
    split
    · rfl
    · rename_i hj
      cases hg : dictGet s.nodes j with
      | none => rfl
      | some x => simp only [Option.map_some]; rw [hheap j x (dictGet_mem hg) hj]
  · intro j hj
    cases hg : dictGet s.nodes j with
    | none => unfold kids; rw [hget, if_neg hj, hg]; rfl
    | some x =>
      have hx := dictGet_mem hg
      rw [kids_reg d' ((hn j x).2 ⟨hx, hj⟩), kids_reg d hx]
      unfold St.childIds
      rw [hheap j x hx hj, List.filter_map]
      exact List.map_congr_left fun c _ => dropNodes_nid s del c
  · intro j hj
    cases hg : dictGet s.nodes j with
    | none => unfold parentOf; rw [hget, if_neg hj, hg]; rfl
    | some x =>
      have hx := dictGet_mem hg
      rw [parentOf_reg d' ((hn j x).2 ⟨hx, hj⟩), parentOf_reg d hx, hheap j x hx hj]
      dsimp only
      cases (s.heap x).parent with
      | none => rfl
      | some q =>
        dsimp only
        by_cases hq : (s.heap q).nid ∈ del
        · simp [hq, Option.filter_some]
        · simp [hq, dropNodes_nid, Option.filter_some]

theorem drop_wirings (s : St) (del : List Id) (hsrc : ∀ w ∈ s.wirings, ∃ a b, w.src = some a ∧ w.tgt = some b) (w : Wiring) :
    w ∈ (dropNodes s del).wirings ↔ w ∈ s.wirings ∧ ∀ a ∈ del, w.src ≠ some a ∧ w.tgt ≠ some a := by
  simp only [dropNodes, List.mem_filter]
  constructor
  · rintro ⟨h1, h2⟩
    refine ⟨h1, fun a ha => ?_⟩
    obtain ⟨x, y, hx, hy⟩ := hsrc w h1
    simp only [Bool.not_eq_true', List.any_eq_false] at h2
    have := h2 a ha
    unfold Wiring.hasId at this
    rw [hx, hy] at this ⊢
    simp at this
    exact ⟨fun h => this.1 (Option.some.inj h), fun h => this.2 (Option.some.inj h)⟩
  · rintro ⟨h1, h2⟩
    refine ⟨h1, ?_⟩
    simp only [Bool.not_eq_true', List.any_eq_false]
    intro a ha
    obtain ⟨x, y, hx, hy⟩ := hsrc w h1
    have := h2 a ha
    unfold Wiring.hasId
    rw [hx, hy] at this ⊢
    simp at this ⊢
    exact ⟨this.1, this.2⟩

/-- C35, `remove_node`: exactly the given node or, with `remove_children`, exactly that node and the nodes
below it disappear, together with the wirings that mention them; everything else is kept. -/
theorem c35_remove (rs : List Req) (h : Along C Req.Polite rs {}) (i : Id) (wc : Bool)
    (hok : (handle C (.remove (some i) wc) (history C rs {})).2 = .ok) :
    let s := history C rs {}
    let s' := (handle C (.remove (some i) wc) s).1
    let gone := fun j => j = i ∨ (wc = true ∧ Below s i j)
    (∀ j, gone j → specOf s' j = none) ∧ (∀ j, ¬ gone j → specOf s' j = specOf s j) ∧
    (∀ j, ¬ gone j → (∀ k ∈ kids s j, ¬ gone k) → kids s' j = kids s j) ∧
    (∀ j, ¬ gone j → (kids s' j).Sublist (kids s j) ∧ ∀ k ∈ kids s j, k ∈ kids s' j ↔ ¬ gone k) ∧
    (∀ j, ¬ gone j → ∀ k, parentOf s' j = some k ↔ parentOf s j = some k ∧ ¬ gone k) ∧
    (∀ w, w ∈ s'.wirings ↔ w ∈ s.wirings ∧ ∀ a, gone a → w.src ≠ some a ∧ w.tgt ≠ some a) := by
  have v := history_inv rs init_inv h
  generalize history C rs {} = s at *
  have vs := sync_inv v
  have d := v.basic.dict
  cases hr : dictGet s.nodes i with
  | none =>
    change (removeNode s (some i) wc).2 = .ok at hok
    unfold removeNode at hok
    simp only [hr, Option.isNone_none, if_true] at hok
    cases hok
  | some r =>
    let del := if wc then collect (sync s) ((sync s).nodes.length + 1) [i] [i] else [i]
    have he : (handle C (.remove (some i) wc) s).1 = sync (dropNodes (sync s) del) := by
      show sync (removeNode s (some i) wc).1 = _
      unfold removeNode
      simp only [hr, Option.isNone_some]
      rfl
    have hdel : ∀ j, j ∈ del ↔ (j = i ∨ (wc = true ∧ Below s i j)) := by
      intro j
      cases wc with
      | false => simp [del]
      | true =>
        have := collect_exact vs (sync_synced d) (i := i) (r := r) (dictGet_mem hr) j
        simp only [del, if_true, true_and]
        rw [this]
        constructor
        · rintro (h | h)
          · exact Or.inl h
          · exact Or.inr (h.congr fun _ => rfl)
        · rintro (h | h)
          · exact Or.inl h
          · exact Or.inr (h.congr fun _ => rfl)
    obtain ⟨k1, k2, k3⟩ := drop_ids vs del
    have e1 : ∀ j, specOf (sync s) j = specOf s j := fun _ => rfl
    have e2 : ∀ j, parentOf (sync s) j = parentOf s j := fun _ => rfl
    have e3 : ∀ j, kids (sync s) j = kids s j := fun _ => rfl
    have f1 : ∀ j, specOf (sync (dropNodes (sync s) del)) j = specOf (dropNodes (sync s) del) j := fun _ => rfl
    have f2 : ∀ j, parentOf (sync (dropNodes (sync s) del)) j = parentOf (dropNodes (sync s) del) j := fun _ => rfl
    have f3 : ∀ j, kids (sync (dropNodes (sync s) del)) j = kids (dropNodes (sync s) del) j := fun _ => rfl
    dsimp only
    rw [he]
    simp only [← hdel, f1, f2, f3, k1, e1]
    refine ⟨fun j hj => by rw [if_pos hj], fun j hj => by rw [if_neg hj], ?_, ?_, ?_, ?_⟩
    · intro j hj hk
      rw [k2 j hj, e3, List.filter_eq_self]
      intro k hkm
      simpa using hk k hkm
    · intro j hj
      rw [k2 j hj, e3]
      refine ⟨List.filter_sublist, ?_⟩
      intro k hk
      rw [List.mem_filter]
      simp [hk]
    · intro j hj k
      rw [k3 j hj, e2, Option.filter_eq_some_iff]
      simp
    · intro w
      exact drop_wirings (sync s) del (fun w hw => by
        obtain ⟨a, b, _, _, _, _, h1, h2, _⟩ := v.basic.wired w hw (fun _ h => h.elim)
        exact ⟨a, b, h1, h2⟩) w

/-! ### Exchanging -/

theorem exchanged_ids {s s' : St} {i : Id} {old : Ref} {sp : Spec} (v : Inv C s) (v' : Inv C s') (hreg : (i, old) ∈ s.nodes)
    (e : Exchanged C s s' old i sp) :
    specOf s' i = some sp ∧ (∀ j, j ≠ i → specOf s' j = specOf s j) ∧ (∀ j, parentOf s' j = parentOf s j) ∧ (∀ j, kids s' j = kids s j) := by
  have d := v.basic.dict
  have d' := v'.basic.dict
  have hR : Reg s old := ⟨i, hreg⟩
  have hnew : (i, s.next) ∈ s'.nodes := (e.mem _).2 (Or.inl rfl)
  have hget : ∀ j, j ≠ i → dictGet s'.nodes j = dictGet s.nodes j := by
    intro j hj
    cases hg : dictGet s.nodes j with
    | some x => exact mem_dictGet d'.keys ((e.mem _).2 (Or.inr ⟨dictGet_mem hg, hj⟩))
    | none =>
      cases hg' : dictGet s'.nodes j with
      | none => rfl
      | some x =>
        rcases (e.mem _).1 (dictGet_mem hg') with h | ⟨h, _⟩
        · cases h; exact absurd rfl hj
        · exact absurd h (dictGet_none hg x)
  have hother : ∀ j x, j ≠ i → (j, x) ∈ s.nodes → x ≠ old := by
    rintro j x hj hx rfl
    exact hj ((d.key _ _ hx).symm.trans (d.key _ _ hreg))
  have hren : ∀ x, Reg s x → (s'.heap (ren old s.next x)).nid = (s.heap x).nid := by
    intro x hx
    unfold ren
    split
    · rename_i h; rw [h, e.iso.nid', d.key _ _ hreg]
    · rename_i h; exact e.iso.nid x hx h
  have hpar : ∀ x, Reg s x → ((s.heap x).parent.map (ren old s.next)).map (fun p => (s'.heap p).nid) =
      (s.heap x).parent.map fun p => (s.heap p).nid := by
    intro x hx
    cases hq : (s.heap x).parent with
    | none => rfl
    | some q => simp only [Option.map_some]; rw [hren q (v.links.up x hx q hq).1]
  have hch : ∀ x, Reg s x → ((s.heap x).children.map (ren old s.next)).map (fun p => (s'.heap p).nid) = s.childIds x := by
    intro x hx
    rw [List.map_map]
    exact List.map_congr_left fun c hc => hren c (v.links.down x hx c hc).1
  refine ⟨?_, ?_, ?_, ?_⟩
  · rw [specOf_reg d' hnew, e.iso.spec']
  · intro j hj
    unfold specOf
    rw [hget j hj]
    cases hg : dictGet s.nodes j with
    | none => rfl
    | some x =>
      have hx := dictGet_mem hg
      simp only [Option.map_some]
      rw [e.iso.spec x ⟨j, hx⟩ (hother j x hj hx)]
  · intro j
    by_cases hj : j = i
    · subst hj
      rw [parentOf_reg d' hnew, parentOf_reg d hreg, e.iso.parent', hpar old hR]
    · unfold parentOf
      rw [hget j hj]
      cases hg : dictGet s.nodes j with
      | none => rfl
      | some x =>
        have hx := dictGet_mem hg
        simp only [Option.bind_some]
        rw [e.iso.parent x ⟨j, hx⟩ (hother j x hj hx), hpar x ⟨j, hx⟩]
  · intro j
    by_cases hj : j = i
    · subst hj
      rw [kids_reg d' hnew, kids_reg d hreg]
      unfold St.childIds
      rw [e.iso.children']
      exact hch old hR
    · unfold kids
      rw [hget j hj]
      cases hg : dictGet s.nodes j with
      | none => rfl
      | some x =>
        have hx := dictGet_mem hg
        simp only [Option.map_some, Option.getD_some]
        unfold St.childIds
        rw [e.iso.children x ⟨j, hx⟩ (hother j x hj hx)]
        exact hch x ⟨j, hx⟩

theorem exchanged_wires {s s' : St} {i : Id} {old : Ref} {sp : Spec} (e : Exchanged C s s' old i sp) (w : Wiring) :
    w ∈ s'.wirings ↔ w ∈ s.wirings ∧ (w.hasId i = true → validate C s' w = true) := by
  rw [e.wirings]
  simp only [List.mem_append, List.mem_filter, Bool.not_eq_true']
  constructor
  · rintro (⟨h1, h2⟩ | ⟨⟨h1, _⟩, h3⟩)
    · exact ⟨h1, fun h => by rw [h2] at h; cases h⟩
    · exact ⟨h1, fun _ => h3⟩
  · rintro ⟨h1, h2⟩
    cases h : w.hasId i with
    | false => exact Or.inl ⟨h1, rfl⟩
    | true => exact Or.inr ⟨⟨h1, rfl⟩, h2 h⟩

/-- A node is given another class or other options: `morph_node` with room for the children succeeds,
exchanges exactly the spec of that node and keeps all links, and all wirings except those of the node that
are no longer valid. -/
theorem c35_morph (rs : List Req) (h : Along C Req.Polite rs {}) (i : Id) (sp : Spec) (he : specOf (history C rs {}) i ≠ none)
    (hroom : ∀ m, sp.max = some m → (kids (history C rs {}) i).length ≤ m) :
    let s := history C rs {}
    let a := handle C (.morph (some i) (some sp)) s
    a.2 = .ok ∧ specOf a.1 i = some sp ∧ (∀ j, j ≠ i → specOf a.1 j = specOf s j) ∧ (∀ j, parentOf a.1 j = parentOf s j) ∧
    (∀ j, kids a.1 j = kids s j) ∧ ∀ w, w ∈ a.1.wirings ↔ w ∈ s.wirings ∧ (w.hasId i = true → validate C a.1 w = true) := by
  have v := history_inv rs init_inv h
  generalize history C rs {} = s at *
  cases hg : dictGet s.nodes i with
  | none => unfold specOf at he; rw [hg] at he; exact absurd rfl he
  | some old =>
    have hreg := dictGet_mem hg
    have hroom' : ∀ m, sp.max = some m → (s.heap old).children.length ≤ m := by
      intro m hm
      have := hroom m hm
      rw [kids_reg v.basic.dict hreg] at this
      simpa [St.childIds] using this
    obtain ⟨h1, h2⟩ := morphNode_ok v hreg hroom'
    have v' := handle_inv (.morph (some i) (some sp)) v (fun r m hr hm => by
      have : r = old := Option.some.inj ((mem_dictGet v.basic.dict.keys hr).symm.trans hg)
      subst this
      exact hroom' m hm)
    have e : Exchanged C s (handle C (.morph (some i) (some sp)) s).1 old i sp :=
      ⟨h2.next, h2.iso, h2.mem, h2.links, h2.wirings⟩
    obtain ⟨k1, k2, k3, k4⟩ := exchanged_ids v v' hreg e
    exact ⟨h1, k1, k2, k3, k4, exchanged_wires e⟩

/-- The same for `set_options`, which keeps the class and hence `max_children`. -/
theorem c35_set_options (rs : List Req) (h : Along C Req.Polite rs {}) (i : Id) (sp old : Spec)
    (he : specOf (history C rs {}) i = some old) :
    let s := history C rs {}
    let a := handle C (.setOptions (some i) (some sp)) s
    a.2 = .ok ∧ specOf a.1 i = some { sp with max := old.max } ∧ (∀ j, j ≠ i → specOf a.1 j = specOf s j) ∧
    (∀ j, parentOf a.1 j = parentOf s j) ∧ (∀ j, kids a.1 j = kids s j) ∧
    ∀ w, w ∈ a.1.wirings ↔ w ∈ s.wirings ∧ (w.hasId i = true → validate C a.1 w = true) := by
  have v := history_inv rs init_inv h
  generalize history C rs {} = s at *
  cases hg : dictGet s.nodes i with
  | none => unfold specOf at he; rw [hg] at he; cases he
  | some r =>
    have hreg := dictGet_mem hg
    have hspec : (s.heap r).spec = old := by
      rw [specOf_reg v.basic.dict hreg] at he
      exact Option.some.inj he
    obtain ⟨h1, h2⟩ := setOptions_ok (sp := sp) v hreg
    rw [hspec] at h2
    have v' := handle_inv (.setOptions (some i) (some sp)) v trivial
    have e : Exchanged C s (handle C (.setOptions (some i) (some sp)) s).1 r i { sp with max := old.max } :=
      ⟨h2.next, h2.iso, h2.mem, h2.links, h2.wirings⟩
    obtain ⟨k1, k2, k3, k4⟩ := exchanged_ids v v' hreg e
    exact ⟨h1, k1, k2, k3, k4, exchanged_wires e⟩

/-! ### Examples -/

example : Along exC Req.Polite (exReqs) {} ∧ (handle exC (.move (some 4) (some 2) 0) (history exC exReqs {})).2 = .ok ∧
    kids (history exC exReqs {}) 2 = [3, 4] ∧ kids (handle exC (.move (some 4) (some 2) 0) (history exC exReqs {})).1 2 = [4, 3] ∧
    (handle exC (.move (some 2) (some 0) 0) (history exC exReqs {})).2 = .ok ∧
    kids (handle exC (.move (some 2) (some 0) 0) (history exC exReqs {})).1 1 = [] := by decide +kernel

example : (handle exC (.move (some 1) (some 2) 0) (history exC exReqs {})).2 = .err ∧ Below (history exC exReqs {}) 1 2 :=
  ⟨by decide +kernel, .child (by decide +kernel)⟩

example : (handle exC (.remove (some 2) true) (history exC exReqs {})).2 = .ok ∧
    (handle exC (.remove (some 2) true) (history exC exReqs {})).1.nodes.map (·.1) = [1] ∧
    (handle exC (.remove (some 2) false) (history exC exReqs {})).1.nodes.map (·.1) = [1, 3, 4] ∧
    parentOf (handle exC (.remove (some 2) false) (history exC exReqs {})).1 3 = none := by decide +kernel

example : specOf (history exC exReqs {}) 4 ≠ none ∧ (kids (history exC exReqs {}) 4).length = 0 ∧ (history exC exReqs {}).wirings.length = 1 ∧
    (handle exC (.morph (some 4) (some exSeq)) (history exC exReqs {})).1.wirings.length = 0 ∧
    (handle exC (.morph (some 4) (some { exLeaf with cls := 4 })) (history exC exReqs {})).1.wirings.length = 1 := by decide +kernel

end Verif.Edit
