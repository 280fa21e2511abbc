import Verif.Edit.Limits

/-! C34: root discovery. -/

set_option autoImplicit false

namespace Verif.Edit

/-- `r` is a node that no node of the tree lists as child. -/
def IsRoot (s : St) (r : Ref) : Prop := Reg s r ∧ ∀ q, Reg s q → ∀ c ∈ (s.heap q).children, (s.heap c).nid ≠ (s.heap r).nid

theorem not_mem_childIds {s : St} {i : Id} :
    (i ∉ s.nodes.flatMap fun x => s.childIds x.2) ↔ ∀ q, Reg s q → ∀ c ∈ (s.heap q).children, (s.heap c).nid ≠ i := by
  simp only [List.mem_flatMap, St.childIds, List.mem_map, not_exists, not_and, Reg]
  constructor
  · rintro h q ⟨j, hj⟩ c hc he
    exact h (j, q) hj c hc he
  · intro h x hx c hc he
    exact h x.2 ⟨x.1, hx⟩ c hc he

/-- Members of a duplicate-free dictionary with one value. -/
theorem nodes_nodup {s : St} (d : Dict s) : s.nodes.Nodup := by
  have h := d.keys
  generalize s.nodes = l at h
  induction l with
  | nil => exact List.nodup_nil
  | cons a l ih =>
    rw [List.map_cons, List.nodup_cons] at h
    exact List.nodup_cons.2 ⟨fun hm => h.1 (List.mem_map.2 ⟨a, hm, rfl⟩), ih h.2⟩

/-- C34. The manager reports a root iff exactly one node is no child of any node, and then reports
that node: for every set of nodes and links, malformed ones included. -/
theorem c34_root (s : St) (d : Dict s) (r : Ref) :
    findRoot s = some (some r) ↔ IsRoot s r ∧ ∀ r', IsRoot s r' → r' = r := by
  have hf : ∀ x : Id × Ref, x ∈ (s.nodes.filter fun x => (s.heap x.2).nid ∉ s.nodes.flatMap fun x => s.childIds x.2) ↔
      x ∈ s.nodes ∧ IsRoot s x.2 := by
    intro x
    rw [List.mem_filter, decide_eq_true_eq, not_mem_childIds]
    constructor
    · rintro ⟨h1, h2⟩; exact ⟨h1, ⟨x.1, h1⟩, h2⟩
    · rintro ⟨h1, _, h2⟩; exact ⟨h1, h2⟩
  have hnd := (nodes_nodup d).sublist (List.filter_sublist (p := fun x => (s.heap x.2).nid ∉ s.nodes.flatMap fun x => s.childIds x.2))
  unfold findRoot
  split
  · rename_i he
    have : s.nodes = [] := List.isEmpty_iff.1 he
    constructor
    · intro h; cases h
    · rintro ⟨⟨⟨i, hi⟩, _⟩, _⟩
      rw [this] at hi; cases hi
  · dsimp only
    generalize (s.nodes.filter fun x => (s.heap x.2).nid ∉ s.nodes.flatMap fun x => s.childIds x.2) = l at hf hnd
    constructor
    · intro h
      match l, h with
      | [x], h =>
        simp only [Option.some.injEq] at h
        subst h
        refine ⟨((hf x).1 (List.mem_singleton.2 rfl)).2, ?_⟩
        intro r' h'
        obtain ⟨i, hi⟩ := h'.1
        have := (hf (i, r')).2 ⟨hi, h'⟩
        rw [List.mem_singleton] at this
        rw [← this]
    · rintro ⟨h1, h2⟩
      obtain ⟨i, hi⟩ := h1.1
      have hm := (hf (i, r)).2 ⟨hi, h1⟩
      have hall : ∀ x ∈ l, x = (i, r) := by
        intro x hx
        have hx2 := (hf x).1 hx
        have e2 := h2 x.2 hx2.2
        have e1 := d.key _ _ hx2.1
        have e0 := d.key _ _ hi
        rw [e2, e0] at e1
        exact Prod.ext e1.symm e2
      match l, hm, hall, hnd with
      | [x], _, hall, _ => simp [hall x (List.mem_singleton.2 rfl)]
      | x :: y :: l, _, hall, hnd =>
        have e1 := hall x (by simp)
        have e2 := hall y (by simp)
        rw [e1, e2] at hnd
        simp at hnd

/-- C34. The empty tree, and only the empty tree, has no root without being an error. -/
theorem c34_empty (s : St) : findRoot s = some none ↔ s.nodes = [] := by
  unfold findRoot
  split
  · rename_i h; exact ⟨fun _ => List.isEmpty_iff.1 h, fun _ => rfl⟩
  · rename_i h
    constructor
    · dsimp only; split <;> intro h2 <;> cases h2
    · intro h2; rw [h2] at h; exact absurd rfl h

/-- C34. If links agree, the reported root is the only node without parent. -/
theorem c34_root_parent (s : St) (d : Dict s) (hl : LinksAgree s) (r : Ref) :
    findRoot s = some (some r) ↔ (Reg s r ∧ (s.heap r).parent = none) ∧ ∀ r', Reg s r' → (s.heap r').parent = none → r' = r := by
  have key : ∀ x, IsRoot s x ↔ Reg s x ∧ (s.heap x).parent = none := by
    intro x
    constructor
    · rintro ⟨h1, h2⟩
      refine ⟨h1, ?_⟩
      cases hp : (s.heap x).parent with
      | none => rfl
      | some p =>
        obtain ⟨k1, k2⟩ := hl.parent x h1 p hp
        have : x ∈ (s.heap p).children := List.count_pos_iff.1 (by omega)
        exact absurd rfl (h2 p k1 x this)
    · rintro ⟨h1, h2⟩
      refine ⟨h1, ?_⟩
      intro q hq c hc he
      obtain ⟨⟨i, hi⟩, k2⟩ := hl.child q hq c hc
      obtain ⟨j, hj⟩ := h1
      have e1 := d.key _ _ hi
      have e2 := d.key _ _ hj
      have : i = j := by rw [← e1, ← e2, he]
      subst this
      have e := (mem_dictGet d.keys hi).symm.trans (mem_dictGet d.keys hj)
      cases e
      rw [h2] at k2; cases k2
  rw [c34_root s d]
  constructor
  · rintro ⟨h1, h2⟩
    exact ⟨(key r).1 h1, fun r' a b => h2 r' ((key r').2 ⟨a, b⟩)⟩
  · rintro ⟨h1, h2⟩
    exact ⟨(key r).2 h1, fun r' a => h2 r' ((key r').1 a).1 ((key r').1 a).2⟩

/-! ### Examples -/

example : findRoot (history exC exReqs {}) = some (some 0) ∧
    findRoot (history exC (exReqs ++ [.add 9 (some exLeaf) (some 0) 0 []]) {}) = none := by decide +kernel

end Verif.Edit
