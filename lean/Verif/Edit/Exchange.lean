import Verif.Edit.Agree

/-! `morph_node` and `set_options` put a new object in the place of the old one. -/

set_option autoImplicit false

namespace Verif.Edit

variable {C : Nat → Nat → Bool}

/-- The new object stands for the old one. -/
def ren (old new x : Ref) : Ref := if x = old then new else x

/-- `h` is `s.heap` with `new` in the place of `old`. -/
structure Iso (s : St) (old new : Ref) (i : Id) (sp : Spec) (h : Ref → Obj) : Prop where
  parent : ∀ x, Reg s x → x ≠ old → (h x).parent = (s.heap x).parent.map (ren old new)
  children : ∀ x, Reg s x → x ≠ old → (h x).children = (s.heap x).children.map (ren old new)
  nid : ∀ x, Reg s x → x ≠ old → (h x).nid = (s.heap x).nid
  spec : ∀ x, Reg s x → x ≠ old → (h x).spec = (s.heap x).spec
  parent' : (h new).parent = (s.heap old).parent.map (ren old new)
  children' : (h new).children = (s.heap old).children.map (ren old new)
  nid' : (h new).nid = i
  spec' : (h new).spec = sp

theorem ren_id {old new : Ref} {l : List Ref} (h : old ∉ l) : l.map (ren old new) = l := by
  have : l.map (ren old new) = l.map id := List.map_congr_left fun x hx => by
    unfold ren
    rw [if_neg]
    · rfl
    · rintro rfl; exact h hx
  rw [this, List.map_id]

theorem ren_middle {old new : Ref} {pre post : List Ref} (h : (pre ++ old :: post).Nodup) :
    (pre ++ old :: post).map (ren old new) = pre ++ new :: post := by
  have h1 := List.perm_middle.nodup_iff.1 h
  rw [List.nodup_cons] at h1
  have h2 : old ∉ pre := fun hm => h1.1 (by simp [hm])
  have h3 : old ∉ post := fun hm => h1.1 (by simp [hm])
  rw [List.map_append, List.map_cons, ren_id h2, ren_id h3]
  simp [ren]

/-- Swapping and moving the children of a registered object to its successor. -/
theorem exchange_ok {s : St} {i : Id} {old : Ref} {sp : Spec} (v : Inv C s) (hreg : (i, old) ∈ s.nodes)
    (hroom : ∀ m, sp.max = some m → (s.heap old).children.length ≤ m) :
    ∃ s2, swapInParent (exchanged s i sp) old s.next = (s2, .ok) ∧ Same (exchanged s i sp) s2 ∧
      ∀ s2' : St, s2'.heap = s2.heap → ∃ s3, moveChildren old s.next none (s2'.childIds old) s2' = (s3, true) ∧ Same s2' s3 ∧
        Iso s old s.next i sp s3.heap ∧ LinksOn (fun r => r = s.next ∨ (Reg s r ∧ r ≠ old)) s3.heap := by
  have d := v.basic.dict
  have hR : Reg s old := ⟨i, hreg⟩
  have hne : old ≠ s.next := Nat.ne_of_lt (d.lt hR)
  have hheap : ∀ x, Reg s x → (exchanged s i sp).heap x = s.heap x := fun x hx =>
    exchanged_old s i sp x (Nat.ne_of_lt (d.lt hx))
  have hnew := exchanged_new s i sp
  have hl : LinksOn (fun r => Reg s r ∨ r = s.next) (exchanged s i sp).heap := links_with_new d v.links i sp
  have hkey := d.key _ _ hreg
  obtain ⟨s2, e1, l2, p2, pn2, po2, c2, cq2⟩ := swapInParent_ok (exchanged s i sp) old s.next hne hl (Or.inl hR) (Or.inr rfl)
    (exchanged_basic sp v.basic).lim (by rw [hnew])
    (by
      rintro a b (ha | ha) (hb | hb) h1 h2 he
      · rw [hheap a ha, hheap b hb] at he; exact d.inj ha hb he
      · exact absurd hb h2
      · exact absurd ha h1
      · exact absurd ha h1)
    (by rw [hnew, hheap old hR, hkey])
  have same2 : Same (exchanged s i sp) s2 := by
    have := (swapInParent_relink (exchanged s i sp) old s.next).same
    rw [e1] at this; exact this
  refine ⟨s2, e1, same2, ?_⟩
  intro s2' hh
  rw [hheap old hR] at pn2 c2 cq2
  have hpar_lt : ∀ x q, Reg s x → (s.heap x).parent = some q → q ≠ s.next := fun x q hx hq =>
    Nat.ne_of_lt (d.lt (v.links.up x hx q hq).1)
  have hnewch : (s2.heap s.next).children = [] := by
    rw [c2 s.next (fun h => hpar_lt old _ hR h rfl), hnew]
  have hnd := v.links.nodup old hR
  -- the children of the old object after the swap
  have holdch : (s2.heap old).children = (s.heap old).children.map (ren old s.next) := by
    by_cases hself : (s.heap old).parent = some old
    · obtain ⟨pre, post, k1, k2⟩ := cq2 old hself
      rw [hheap old hR] at k1
      rw [k2, k1, ren_middle (by rw [← k1]; exact hnd)]
    · rw [c2 old hself, hheap old hR, ren_id]
      intro hm
      exact hself (v.links.down old hR old hm).2
  obtain ⟨f1, f2, f3, f4, f5, f6⟩ := moveChildren_done (L := fun r => Reg s r ∨ r = s.next) old s.next hne (s2'.childIds old) s2'
    (by rw [hh]; exact l2) (Or.inl hR) (Or.inr rfl) rfl (by rw [hh]; exact p2)
    (by
      rw [hh]
      intro a b ha hb h1 h2 he
      rw [same2.nid, same2.nid] at he
      rcases ha with ha | rfl <;> rcases hb with hb | rfl
      · rw [hheap a ha, hheap b hb] at he; exact d.inj ha hb he
      · rw [hheap a ha, hnew] at he
        exact absurd (d.inj ha hR (by rw [he, hkey])) h1
      · rw [hheap b hb, hnew] at he
        exact absurd (d.inj hb hR (by rw [← he, hkey])) h2
      · rfl)
    (by
      intro m hm
      rw [hh, same2.spec, hnew] at hm
      have hlen : (s2'.childIds old).length = (s.heap old).children.length := by
        simp only [St.childIds, List.length_map, hh, holdch]
      rw [hh, hnewch, hlen]
      simpa using hroom m hm)
  have same3 := (moveChildren_relink old s.next none (s2'.childIds old) s2').same
  have l3 := moveChildren_links old s.next none (s2'.childIds old) s2' (by rw [hh]; exact l2) (Or.inl hR) (Or.inr rfl)
  generalize hs3 : moveChildren old s.next none (s2'.childIds old) s2' = r3 at *
  obtain ⟨s3, b⟩ := r3
  dsimp only at f1 f2 f3 f4 f5 f6 same3 l3
  subst f1
  rw [hh] at f4 f5 f6
  refine ⟨s3, rfl, same3, ?_, ?_⟩
  · refine ⟨?_, ?_, ?_, ?_, ?_, ?_, ?_, ?_⟩
    · intro x hx hxo
      have hxn : x ≠ s.next := Nat.ne_of_lt (d.lt hx)
      have hpx : (s2.heap x).parent = (s.heap x).parent := by rw [po2 x hxo hxn, hheap x hx]
      rw [f5 x]
      split
      · rename_i hm
        have := (l2.down old (Or.inl hR) x hm).2
        rw [hpx] at this
        simp [this, ren]
      · rename_i hm
        rw [hpx]
        cases hp : (s.heap x).parent with
        | none => rfl
        | some q =>
          have : q ≠ old := by
            rintro rfl
            exact hm (l2.up x (Or.inl hx) q (by rw [hpx, hp])).2
          simp [ren, this]
    · intro x hx hxo
      have hxn : x ≠ s.next := Nat.ne_of_lt (d.lt hx)
      rw [f6 x hxo hxn]
      by_cases hq : (s.heap old).parent = some x
      · obtain ⟨pre, post, k1, k2⟩ := cq2 x hq
        rw [hheap x hx] at k1
        rw [k2, k1, ren_middle (by rw [← k1]; exact v.links.nodup x hx)]
      · rw [c2 x hq, hheap x hx, ren_id]
        intro hm
        exact hq (v.links.down x hx old hm).2
    · intro x hx _
      rw [same3.nid, hh, same2.nid, hheap x hx]
    · intro x hx _
      rw [same3.spec, hh, same2.spec, hheap x hx]
    · rw [f5, pn2]
      split
      · rename_i hm
        have := (l2.down old (Or.inl hR) s.next hm).2
        rw [pn2] at this
        simp [this, ren]
      · rename_i hm
        cases hp : (s.heap old).parent with
        | none => rfl
        | some q =>
          have : q ≠ old := by
            rintro rfl
            exact hm (l2.up s.next (Or.inr rfl) q (by rw [pn2, hp])).2
          simp [ren, this]
    · rw [f4, hnewch, holdch, List.nil_append]
    · rw [same3.nid, hh, same2.nid, hnew]
    · rw [same3.spec, hh, same2.spec, hnew]
  · refine ⟨?_, ?_, ?_⟩
    · intro r hr c hc
      have hr' : Reg s r ∨ r = s.next := hr.elim Or.inr fun h => Or.inl h.1
      have hro : r ≠ old := hr.elim (fun h => h ▸ Ne.symm hne) fun h => h.2
      obtain ⟨h1, h2⟩ := l3.down r hr' c hc
      refine ⟨?_, h2⟩
      rcases h1 with h1 | h1
      · exact Or.inr ⟨h1, by rintro rfl; rw [f3] at h2; cases h2⟩
      · exact Or.inl h1
    · intro r hr p hp
      have hr' : Reg s r ∨ r = s.next := hr.elim Or.inr fun h => Or.inl h.1
      obtain ⟨h1, h2⟩ := l3.up r hr' p hp
      refine ⟨?_, h2⟩
      rcases h1 with h1 | h1
      · exact Or.inr ⟨h1, by rintro rfl; rw [f2] at h2; cases h2⟩
      · exact Or.inl h1
    · intro r hr
      exact l3.nodup r (hr.elim Or.inr fun h => Or.inl h.1)

/-- What a successful exchange leaves. -/
structure Exchanged (C : Nat → Nat → Bool) (s s' : St) (old : Ref) (i : Id) (sp : Spec) : Prop where
  next : s'.next = s.next + 1
  iso : Iso s old s.next i sp s'.heap
  mem : ∀ z, z ∈ s'.nodes ↔ z = (i, s.next) ∨ (z ∈ s.nodes ∧ z.1 ≠ i)
  links : LinksOn (Reg s') s'.heap
  wirings : s'.wirings = s.wirings.filter (fun w => !w.hasId i) ++ (s.wirings.filter (·.hasId i)).filter (validate C s')

theorem validate_congr {s s' : St} (hn : s'.nodes = s.nodes) (hs : ∀ x, (s'.heap x).spec = (s.heap x).spec) (w : Wiring) :
    validate C s' w = validate C s w := by
  unfold validate
  rw [hn]
  simp only [hs]

theorem reg_exchanged {s s' : St} {i : Id} {old : Ref} (d : Dict s) (hreg : (i, old) ∈ s.nodes)
    (hm : ∀ z, z ∈ s'.nodes ↔ z = (i, s.next) ∨ (z ∈ s.nodes ∧ z.1 ≠ i)) (r : Ref) :
    Reg s' r ↔ r = s.next ∨ (Reg s r ∧ r ≠ old) := by
  constructor
  · rintro ⟨j, hj⟩
    rcases (hm _).1 hj with h | ⟨h1, h2⟩
    · cases h; exact Or.inl rfl
    · refine Or.inr ⟨⟨j, h1⟩, ?_⟩
      rintro rfl
      exact h2 ((d.key _ _ h1).symm.trans (d.key _ _ hreg))
  · rintro (rfl | ⟨⟨j, hj⟩, hne⟩)
    · exact ⟨i, (hm _).2 (Or.inl rfl)⟩
    · refine ⟨j, (hm _).2 (Or.inr ⟨hj, ?_⟩)⟩
      rintro rfl
      exact hne (Option.some.inj ((mem_dictGet d.keys hj).symm.trans (mem_dictGet d.keys hreg)))

theorem wireData_true (s : St) (ws : List Wiring) :
    wireData C s ws true = ({ s with wirings := s.wirings ++ ws.filter (validate C s) }, .ok) := rfl

/-- `morph_node` to a class with room for the children succeeds. -/
theorem morphNode_ok {s : St} {i : Id} {old : Ref} {sp : Spec} (v : Inv C s) (hreg : (i, old) ∈ s.nodes)
    (hroom : ∀ m, sp.max = some m → (s.heap old).children.length ≤ m) :
    (morphNode C s (some i) (some sp)).2 = .ok ∧ Exchanged C s (morphNode C s (some i) (some sp)).1 old i sp := by
  have d := v.basic.dict
  obtain ⟨s2, e1, same2, hk⟩ := exchange_ok v hreg hroom
  obtain ⟨s3, e3, same3, iso, l3⟩ := hk s2 rfl
  have hne : old ≠ s.next := Nat.ne_of_lt (d.lt ⟨i, hreg⟩)
  have hnid : ((instantiate s i sp).1.heap old).nid = i := by
    simp only [instantiate, if_neg hne]; exact d.key _ _ hreg
  have ho3 : (s3.heap old).nid = i := by
    rw [same3.nid, same2.nid, exchanged_old _ _ _ _ hne, d.key _ _ hreg]
  have hn2 : (instantiate s i sp).2 = s.next := rfl
  unfold morphNode
  dsimp only
  rw [mem_dictGet d.keys hreg]
  dsimp only
  rw [hnid, edit_unwire_exchange, hn2]
  dsimp only
  rw [e1]
  dsimp only
  rw [e3]
  dsimp only [edit, wireData_true]
  simp only [Bool.not_true, Bool.false_eq_true, if_false, ho3, iso.nid']
  have hm : ∀ z, z ∈ dictSet (dictDel s3.nodes i) i s.next ↔ z = (i, s.next) ∨ (z ∈ s.nodes ∧ z.1 ≠ i) := by
    have hnodes : s3.nodes = dictSet s.nodes i s.next := by rw [same3.nodes, same2.nodes]; rfl
    intro z
    rw [hnodes, (mem_dictSet_del (dictSet_keys _ _ _ d.keys)).1, mem_dictSet d.keys]
    constructor
    · rintro (h | ⟨h | h, h2⟩)
      · exact Or.inl h
      · exact Or.inl h
      · exact Or.inr h
    · rintro (h | h)
      · exact Or.inl h
      · exact Or.inr ⟨Or.inr h, h.2⟩
  refine ⟨trivial, ?_, iso, hm, ?_, ?_⟩
  · show s3.next = _
    rw [same3.next, same2.next]; rfl
  · exact l3.congr fun r => reg_exchanged d hreg hm r
  · have hw : s3.wirings = s.wirings.filter fun w => !w.hasId i := by rw [same3.wirings, same2.wirings]; rfl
    dsimp only [sync]
    rw [hw]
    congr 1

/-- `set_options` with acceptable options succeeds. -/
theorem setOptions_ok {s : St} {i : Id} {old : Ref} {sp : Spec} (v : Inv C s) (hreg : (i, old) ∈ s.nodes) :
    (setOptions C s (some i) (some sp)).2 = .ok ∧
    Exchanged C s (setOptions C s (some i) (some sp)).1 old i { sp with max := (s.heap old).spec.max } := by
  have d := v.basic.dict
  have v' := sync_inv v
  obtain ⟨s2, e1, same2, hk⟩ := exchange_ok (sp := { sp with max := (s.heap old).spec.max }) v' hreg
    (fun m hm => v.basic.lim old m hm)
  have hi : ((sync s).heap old).nid = i := d.key _ _ hreg
  have hn2 : (instantiate (sync s) i { sp with max := (s.heap old).spec.max }).2 = s.next := rfl
  unfold setOptions
  dsimp only
  rw [mem_dictGet d.keys hreg]
  dsimp only
  rw [hi]
  have hmax : ((sync s).heap old).spec.max = (s.heap old).spec.max := rfl
  rw [hmax, edit_unwire_exchange, hn2]
  dsimp only
  have hnx : (sync s).next = s.next := rfl
  rw [hnx] at e1 hk
  rw [e1]
  dsimp only
  generalize hs4 : (edit (wireData C · _ true) { s2 with nodes := dictSet s2.nodes i s.next, adj := _ }).1 = s4
  have h4 : s4.heap = s2.heap ∧ s4.nodes = dictSet s2.nodes i s.next ∧ s4.next = s2.next := by
    rw [← hs4]; exact ⟨rfl, rfl, rfl⟩
  obtain ⟨s3, e3, same3, iso, l3⟩ := hk s4 h4.1
  rw [e3]
  simp only [if_true]
  have hm : ∀ z, z ∈ s3.nodes ↔ z = (i, s.next) ∨ (z ∈ s.nodes ∧ z.1 ≠ i) := by
    have hnodes : s3.nodes = dictSet (dictSet s.nodes i s.next) i s.next := by rw [same3.nodes, h4.2.1, same2.nodes]; rfl
    intro z
    rw [hnodes, mem_dictSet (dictSet_keys _ _ _ d.keys), mem_dictSet d.keys]
    constructor
    · rintro (h | ⟨h | h, h2⟩)
      · exact Or.inl h
      · exact Or.inl h
      · exact Or.inr h
    · rintro (h | h)
      · exact Or.inl h
      · exact Or.inr ⟨Or.inr h, h.2⟩
  refine ⟨trivial, ?_, ⟨iso.parent, iso.children, iso.nid, iso.spec, iso.parent', iso.children', iso.nid', iso.spec'⟩, hm, ?_, ?_⟩
  · show s3.next = _
    rw [same3.next, h4.2.2, same2.next]; rfl
  · exact l3.congr fun r => reg_exchanged d hreg hm r
  · show s3.wirings = _
    have hw : s2.wirings = s.wirings.filter fun w => !w.hasId i := by rw [same2.wirings]; rfl
    rw [same3.wirings, ← hs4]
    dsimp only [edit, sync, wireData_true]
    rw [hw]
    congr 1
    refine List.filter_congr fun w _ => ?_
    exact (validate_congr h4.2.1.symm (fun x => by rw [h4.1]) w).trans (validate_congr (s := s4) same3.nodes same3.spec w).symm

end Verif.Edit
