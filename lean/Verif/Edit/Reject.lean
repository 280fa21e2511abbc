import Verif.Edit.Replace

/-! C33: what a rejected request leaves behind. -/

set_option autoImplicit false

namespace Verif.Edit

variable {C : Nat → Nat → Bool}

theorem view_sync (s : St) : view (sync s) = view s := rfl

theorem view_ext {s s' : St} (h1 : ∀ j, specOf s' j = specOf s j) (h2 : ∀ j, parentOf s' j = parentOf s j) (h3 : ∀ j, kids s' j = kids s j)
    (h4 : s'.wirings = s.wirings) : view s' = view s := by
  unfold view
  rw [h4]
  congr 1
  funext j
  have e1 := h1 j
  have e2 := h2 j
  have e3 := h3 j
  unfold specOf at e1
  unfold parentOf at e2
  unfold kids at e3
  cases hg : dictGet s.nodes j with
  | none =>
    cases hg' : dictGet s'.nodes j with
    | none => rfl
    | some x => rw [hg, hg'] at e1; cases e1
  | some y =>
    cases hg' : dictGet s'.nodes j with
    | none => rw [hg, hg'] at e1; cases e1
    | some x =>
      rw [hg, hg'] at e1 e2 e3
      simp only [Option.map_some, Option.some.injEq, Option.bind_some, Option.getD_some] at e1 e2 e3 ⊢
      rw [e1, e2, e3]

/-- Taking a node that nobody knows out again restores the view. `s2` is the tree with the new node, possibly already among the
children of another node. -/
theorem undo_add {s s2 : St} {u : Id} {new : Ref} (v : Inv C s) (v2 : Inv C s2) (hf : Fresh s u) (hw : s2.wirings = s.wirings)
    (hn : ∀ z, z ∈ s2.nodes ↔ z = (u, new) ∨ z ∈ s.nodes) (hspec : ∀ x, Reg s x → (s2.heap x).spec = (s.heap x).spec)
    (hpar : ∀ j, j ≠ u → parentOf s2 j = parentOf s j) (hkids : ∀ j, j ≠ u → (kids s2 j).filter (· ≠ u) = kids s j) :
    view (removeNode s2 (some u) false).1 = view s := by
  have d := v.basic.dict
  have d2 := v2.basic.dict
  have hu : (u, new) ∈ s2.nodes := (hn _).2 (Or.inl rfl)
  have hgu : dictGet s.nodes u = none := by
    cases h : dictGet s.nodes u with
    | none => rfl
    | some x => exact absurd (dictGet_mem h) (hf x)
  have he : (removeNode s2 (some u) false).1 = dropNodes (sync s2) [u] := by
    unfold removeNode
    simp only [mem_dictGet d2.keys hu, Option.isNone_some, Bool.false_eq_true, if_false]
  rw [he]
  have vs2 := sync_inv v2
  obtain ⟨k1, k2, k3⟩ := drop_ids vs2 [u]
  have vd := dropNodes_inv [u] vs2
  have hnone : dictGet (dropNodes (sync s2) [u]).nodes u = none := by
    have := k1 u
    rw [if_pos (by simp)] at this
    unfold specOf at this
    cases h : dictGet (dropNodes (sync s2) [u]).nodes u with
    | none => rfl
    | some x => rw [h] at this; cases this
  refine view_ext ?_ ?_ ?_ ?_
  · intro j
    rw [k1]
    by_cases hj : j = u
    · subst hj; unfold specOf; rw [if_pos (by simp), hgu]; rfl
    · rw [if_neg (by simpa using hj)]
      show specOf s2 j = _
      cases hg : dictGet s.nodes j with
      | some x =>
        have hx := dictGet_mem hg
        rw [specOf_reg d2 ((hn _).2 (Or.inr hx)), specOf_reg d hx, hspec x ⟨j, hx⟩]
      | none =>
        cases hg' : dictGet s2.nodes j with
        | none => unfold specOf; rw [hg, hg']; rfl
        | some x =>
          rcases (hn _).1 (dictGet_mem hg') with h | h
          · cases h; exact absurd rfl hj
          · exact absurd h (dictGet_none hg x)
  · intro j
    by_cases hj : j = u
    · subst hj; unfold parentOf; rw [hnone, hgu]; rfl
    · rw [k3 j (by simpa using hj)]
      show (parentOf s2 j).filter _ = _
      rw [hpar j hj]
      cases hp : parentOf s j with
      | none => rfl
      | some q =>
        have : q ≠ u := by
          rintro rfl
          obtain ⟨⟨x, hx⟩, _⟩ := kids_exists v ((mem_kids_iff v).2 hp)
          exact hf x hx
        simp [Option.filter_some, this]
  · intro j
    by_cases hj : j = u
    · subst hj; unfold kids; rw [hnone, hgu]; rfl
    · rw [k2 j (by simpa using hj)]
      show (kids s2 j).filter _ = _
      rw [← hkids j hj]
      exact List.filter_congr fun x _ => by simp
  · show (s2.wirings.filter fun w => !([u] : List Id).any w.hasId) = s.wirings
    rw [hw, List.filter_eq_self]
    intro w hm
    obtain ⟨a, b, ra, rb, _, _, h1, h2, h3, h4, _⟩ := v.basic.wired w hm (fun _ h => h.elim)
    have ha : a ≠ u := by rintro rfl; exact hf _ h3
    have hb : b ≠ u := by rintro rfl; exact hf _ h4
    simp [Wiring.hasId, h1, h2, ha, hb]

/-- A request whose rejection leaves the tree alone. The conditions exclude: a new node whose parent is full
or whose parent id does not parse; `morph_node` to a class with too little room; `replace_node` by
a node above the old one or with too little room for the children of both; loading. -/
def Req.Contained : Req → St → Prop
  | .add u _ p _ _, s => Fresh s u ∧ p ≠ none ∧ p ≠ some u ∧
      ∀ q sp, p = some q → q ≠ 0 → specOf s q = some sp → sp.max ≠ some (kids s q).length
  | .replace (some i) (some j), s => i ≠ j ∧ ¬ Below s j i ∧ parentOf s i ≠ some 0 ∧ ∀ sp, specOf s j = some sp →
      ∀ m, sp.max = some m → (kids s j).length + ((kids s i).filter (· ≠ j)).length ≤ m
  | .load (some _), _ => False
  | r, s => r.Polite s

theorem addNode_reject {s : St} {u : Id} (sp : Option Spec) (p : Option Id) (idx : Int) (cs : List Id) (v : Inv C s)
    (h : (Req.add u sp p idx cs).Contained s) (he : (addNode s u sp p idx cs).2 = .err) : view (addNode s u sp p idx cs).1 = view s := by
  obtain ⟨hf, hp, hpu, hroom⟩ := h
  have d := v.basic.dict
  cases sp with
  | none => rfl
  | some sp =>
  cases p with
  | none => exact absurd rfl hp
  | some p =>
  have v1 := instantiate_inv sp v hf
  have d1 := v1.basic.dict
  have hn1 : ∀ z, z ∈ (instantiate s u sp).1.nodes ↔ z = (u, s.next) ∨ z ∈ s.nodes := by
    intro z
    show z ∈ dictSet s.nodes u s.next ↔ _
    rw [mem_dictSet d.keys]
    constructor
    · rintro (h | h)
      · exact Or.inl h
      · exact Or.inr h.1
    · rintro (h | h)
      · exact Or.inl h
      · refine Or.inr ⟨h, ?_⟩
        rintro h'
        exact hf z.2 (by rw [← h']; exact h)
  have hold : ∀ x, Reg s x → (instantiate s u sp).1.heap x = s.heap x := by
    intro x hx
    simp [instantiate, Nat.ne_of_lt (d.lt hx)]
  have hget : ∀ j, j ≠ u → dictGet (instantiate s u sp).1.nodes j = dictGet s.nodes j := by
    intro j hj
    cases hg : dictGet s.nodes j with
    | some x => exact mem_dictGet d1.keys ((hn1 _).2 (Or.inr (dictGet_mem hg)))
    | none =>
      cases hg' : dictGet (instantiate s u sp).1.nodes j with
      | none => rfl
      | some x =>
        rcases (hn1 _).1 (dictGet_mem hg') with h | h
        · cases h; exact absurd rfl hj
        · exact absurd h (dictGet_none hg x)
  have hpar1 : ∀ j, j ≠ u → parentOf (instantiate s u sp).1 j = parentOf s j := by
    intro j hj
    unfold parentOf
    rw [hget j hj]
    cases hg : dictGet s.nodes j with
    | none => rfl
    | some x =>
      have hx := dictGet_mem hg
      simp only [Option.bind_some, hold x ⟨j, hx⟩]
      cases hq : (s.heap x).parent with
      | none => rfl
      | some q => simp only [Option.map_some]; rw [hold q (v.links.up x ⟨j, hx⟩ q hq).1]
  have hkids1 : ∀ j, j ≠ u → kids (instantiate s u sp).1 j = kids s j := by
    intro j hj
    unfold kids
    rw [hget j hj]
    cases hg : dictGet s.nodes j with
    | none => rfl
    | some x =>
      have hx := dictGet_mem hg
      simp only [Option.map_some, Option.getD_some]
      unfold St.childIds
      rw [hold x ⟨j, hx⟩]
      exact List.map_congr_left fun c hc => by rw [hold c (v.links.down x ⟨j, hx⟩ c hc).1]
  have hnou : ∀ j, u ∉ kids s j := fun j h => by
    obtain ⟨x, hx⟩ := (kids_exists v h).2
    exact hf x hx
  have undo1 : view (removeNode (instantiate s u sp).1 (some u) false).1 = view s := by
    refine undo_add v v1 hf rfl hn1 (fun x hx => by rw [hold x hx]) hpar1 ?_
    intro j hj
    rw [hkids1 j hj, List.filter_eq_self]
    intro x hx
    simp only [ne_eq, decide_eq_true_eq]
    rintro rfl
    exact hnou j hx
  -- the state with the new node in its place
  have key : ∀ s2, Inv C s2 → view (removeNode s2 (some u) false).1 = view s → (∃ x, (u, x) ∈ s2.nodes) →
      (match findCycles (if (!cs.isEmpty) = true then (edit (removeNode · (some u) false) s2).1 else s2)
          ((if (!cs.isEmpty) = true then (edit (removeNode · (some u) false) s2).1 else s2).nodes.length + 1) with
        | none => ((if (!cs.isEmpty) = true then (edit (removeNode · (some u) false) s2).1 else s2), Resp.hang)
        | some (_ :: _) =>
          ((edit (removeNode · (some u) false) (if (!cs.isEmpty) = true then (edit (removeNode · (some u) false) s2).1 else s2)).1, .err)
        | some [] => ((if (!cs.isEmpty) = true then (edit (removeNode · (some u) false) s2).1 else s2), if (!cs.isEmpty) = true then .err else .ok)).2 = .err →
      view (match findCycles (if (!cs.isEmpty) = true then (edit (removeNode · (some u) false) s2).1 else s2)
          ((if (!cs.isEmpty) = true then (edit (removeNode · (some u) false) s2).1 else s2).nodes.length + 1) with
        | none => ((if (!cs.isEmpty) = true then (edit (removeNode · (some u) false) s2).1 else s2), Resp.hang)
        | some (_ :: _) =>
          ((edit (removeNode · (some u) false) (if (!cs.isEmpty) = true then (edit (removeNode · (some u) false) s2).1 else s2)).1, .err)
        | some [] => ((if (!cs.isEmpty) = true then (edit (removeNode · (some u) false) s2).1 else s2), if (!cs.isEmpty) = true then .err else .ok)).1 = view s := by
    intro s2 v2 hv hu
    by_cases hc : (!cs.isEmpty) = true
    · simp only [hc, if_true]
      have hgone : view (edit (removeNode · (some u) false) s2).1 = view s := hv
      have hnone : dictGet (edit (removeNode · (some u) false) s2).1.nodes u = none := by
        show dictGet (removeNode s2 (some u) false).1.nodes u = none
        obtain ⟨x, hx⟩ := hu
        unfold removeNode
        simp only [mem_dictGet v2.basic.dict.keys hx, Option.isNone_some, Bool.false_eq_true, if_false]
        cases hg : dictGet (dropNodes (sync s2) [u]).nodes u with
        | none => rfl
        | some y =>
          have := dictGet_mem hg
          simp [dropNodes] at this
      split
      · intro h; cases h
      · intro _
        show view (removeNode (edit (removeNode · (some u) false) s2).1 (some u) false).1 = _
        generalize (edit (removeNode · (some u) false) s2).1 = s3 at *
        unfold removeNode
        simp only [hnone, Option.isNone_none, if_true]
        exact hgone
      · intro _; exact hgone
    · have hc' : (!cs.isEmpty) = false := by simpa using hc
      simp only [hc', Bool.false_eq_true, if_false]
      split
      · intro h; cases h
      · intro _; exact hv
      · intro h; cases h
  unfold addNode at he ⊢
  dsimp only at he ⊢
  by_cases hp0 : p = 0
  · rw [if_pos hp0] at he ⊢
    exact key _ v1 undo1 ⟨s.next, (hn1 _).2 (Or.inl rfl)⟩ he
  · rw [if_neg hp0] at he ⊢
    have hpu' : p ≠ u := fun h => hpu (by rw [h])
    rw [hget p hpu'] at he ⊢
    cases hg : dictGet s.nodes p with
    | none => exact undo1
    | some rp =>
      have hrp := dictGet_mem hg
      rw [hg] at he
      dsimp only at he ⊢
      have hinst : ((instantiate s u sp).1.heap s.next) = { nid := u, spec := sp } := by simp [instantiate]
      have hne : rp ≠ s.next := Nat.ne_of_lt (d.lt ⟨p, hrp⟩)
      have hkp : (instantiate s u sp).1.childIds rp = kids s p := by
        rw [← hkids1 p hpu', kids_reg d1 ((hn1 _).2 (Or.inr hrp))]
      obtain ⟨s2, h2⟩ := addChild_ok (s := (instantiate s u sp).1) (p := rp) (c := (instantiate s u sp).2) (some idx)
        (by
          rw [hold rp ⟨p, hrp⟩]
          have := hroom p _ rfl hp0 (specOf_reg d hrp)
          rw [kids_reg d hrp] at this
          simpa [St.childIds] using this)
        (by
          rw [hkp]
          show ((instantiate s u sp).1.heap s.next).nid ∉ _
          rw [hinst]
          exact hnou p)
      rw [h2] at he ⊢
      dsimp only at he ⊢
      have a2 := addChild_added h2
      have hi2 : (instantiate s u sp).2 = s.next := rfl
      have v2 : Inv C s2 := addChild_inv v1 h2 ⟨p, (hn1 _).2 (Or.inr hrp)⟩ ⟨u, (hn1 _).2 (Or.inl rfl)⟩ (by rw [hi2, hinst])
      have hn2 : ∀ z, z ∈ s2.nodes ↔ z = (u, s.next) ∨ z ∈ s.nodes := fun z => by rw [a2.nodes]; exact hn1 z
      refine key s2 v2 ?_ ⟨s.next, (hn2 _).2 (Or.inl rfl)⟩ he
      refine undo_add v v2 hf (by rw [a2.wirings]; rfl) hn2 (fun x hx => by rw [a2.spec, hold x hx]) ?_ ?_
      · intro j hj
        rw [← hpar1 j hj]
        unfold parentOf
        rw [a2.nodes]
        cases hgj : dictGet (instantiate s u sp).1.nodes j with
        | none => rfl
        | some x =>
          have hx : x ≠ s.next := by
            rintro rfl
            have := d1.key _ _ (dictGet_mem hgj)
            rw [hinst] at this
            exact hj this.symm
          simp only [Option.bind_some, a2.parent, hi2, if_neg hx, a2.nid]
      · intro j hj
        rw [← hkids1 j hj]
        have hfil : (kids (instantiate s u sp).1 j).filter (· ≠ u) = kids (instantiate s u sp).1 j := by
          rw [hkids1 j hj, List.filter_eq_self]
          intro x hx
          simp only [ne_eq, decide_eq_true_eq]
          rintro rfl
          exact hnou j hx
        cases hgj : dictGet (instantiate s u sp).1.nodes j with
        | none => unfold kids; rw [a2.nodes, hgj]; rfl
        | some x =>
          have hx := dictGet_mem hgj
          rw [kids_reg v2.basic.dict (by rw [a2.nodes]; exact hx)]
          have e : s2.childIds x = (s2.heap x).children.map fun c => ((instantiate s u sp).1.heap c).nid :=
            List.map_congr_left fun c _ => a2.nid c
          rw [e]
          by_cases hxp : x = rp
          · subst hxp
            obtain ⟨k, hk⟩ := a2.inserted
            rw [kids_reg d1 hx] at hfil ⊢
            rw [hk, hi2]
            simp only [List.map_append, List.map_cons, List.filter_append, hinst]
            rw [List.filter_cons_of_neg (by simp), ← List.filter_append, ← List.map_append, List.take_append_drop]
            exact hfil
          · rw [a2.others x hxp]
            rw [kids_reg d1 hx] at hfil ⊢
            exact hfil

theorem handle_reject {s : St} (r : Req) (v : Inv3 C s) (h : r.Contained s) (he : (handle C r s).2 = .err) : view (handle C r s).1 = view s := by
  have vi := v.toInv
  have d := v.basic.dict
  cases r with
  | add u sp p i cs => exact addNode_reject sp p i cs vi h he
  | remove n wc =>
    change (removeNode s n wc).2 = .err at he
    show view (removeNode s n wc).1 = _
    unfold removeNode at he ⊢
    split at he
    · rfl
    · split at he
      · rename_i h; rw [if_pos h]
      · cases he
  | morph n sp =>
    change (morphNode C s n sp).2 = .err at he
    show view (morphNode C s n sp).1 = _
    cases n with
    | none => rfl
    | some i =>
      cases hg : dictGet s.nodes i with
      | none => unfold morphNode; simp only [hg]
      | some old =>
        cases sp with
        | none => unfold morphNode; simp only [hg]
        | some sp =>
          rw [(morphNode_ok vi (dictGet_mem hg) (fun m hm => h old m (dictGet_mem hg) hm)).1] at he
          cases he
  | setOptions n sp =>
    change (setOptions C s n sp).2 = .err at he
    show view (setOptions C s n sp).1 = _
    cases n with
    | none => rfl
    | some i =>
      cases hg : dictGet s.nodes i with
      | none => unfold setOptions; simp only [hg]
      | some old =>
        cases sp with
        | none => unfold setOptions; simp only [hg]; rfl
        | some sp =>
          rw [(setOptions_ok (sp := sp) vi (dictGet_mem hg)).1] at he
          cases he
  | move n p idx =>
    change (moveNode s n p idx).2 = .err at he
    show view (moveNode s n p idx).1 = _
    cases n with
    | none => rfl
    | some i =>
      cases p with
      | none => rfl
      | some p =>
        cases hr : dictGet s.nodes i with
        | none => unfold moveNode; simp only [hr]
        | some r =>
          by_cases hp0 : p = 0
          · subst hp0
            obtain ⟨s', h1, _⟩ := moveNode_root vi idx (dictGet_mem hr)
            rw [h1] at he; cases he
          · cases hp : dictGet s.nodes p with
            | none => unfold moveNode; simp only [hr, if_neg hp0, hp]
            | some rp =>
              by_cases hroom : (s.heap rp).spec.max = some (s.heap rp).children.length
              · unfold moveNode; simp only [hr, if_neg hp0, hp, if_pos hroom]
              · by_cases hnd : (s.heap rp).nid ∈ descendants s (descFuel s ((dictGet s.adj i).getD []).reverse) ((dictGet s.adj i).getD []).reverse []
                · unfold moveNode; simp only [hr, if_neg hp0, hp, if_neg hroom, if_pos hnd]
                · obtain ⟨s', h1, _⟩ := moveNode_ok vi idx (dictGet_mem hr) hp0 (dictGet_mem hp) hroom hnd
                  rw [h1] at he; cases he
  | replace o n =>
    change (replaceNode s o n).2 = .err at he
    show view (replaceNode s o n).1 = _
    cases o with
    | none => rfl
    | some i =>
      cases n with
      | none => rfl
      | some j =>
        cases hro : dictGet s.nodes i with
        | none => unfold replaceNode; simp only [hro]
        | some ro =>
          cases hrn : dictGet s.nodes j with
          | none => unfold replaceNode; simp only [hro, hrn]
          | some rn =>
            by_cases htm : tooMany (s.heap rn).spec.max (s.heap ro).children.length = true
            · unfold replaceNode; simp only [hro, hrn, if_pos htm]
            · have hro' := dictGet_mem hro
              have hrn' := dictGet_mem hrn
              obtain ⟨hij, hnot, hq0, hroom⟩ := h
              have hok := (replace_spec v (i := i) (j := j) (sp := (s.heap rn).spec) (by rw [specOf_reg d hro']; simp) (specOf_reg d hrn') hij hnot
                (hroom _ (specOf_reg d hrn')) (fun m hm => by
                  unfold tooMany at htm
                  rw [hm] at htm
                  rw [kids_reg d hro']
                  simpa [St.childIds] using htm) hq0).1
              change (replaceNode s (some i) (some j)).2 = .ok at hok
              rw [hok] at he; cases he
  | wire ws ig =>
    change (wireData C s ws ig).2 = .err at he
    show view (wireData C s ws ig).1 = _
    unfold wireData at he ⊢
    split at he
    · cases he
    · rename_i h1
      rw [if_neg h1]
      split at he
      · cases he
      · rename_i h2; rw [if_neg h2]
  | unwire ws ig =>
    change (unwireData s ws ig).2 = .err at he
    show view (unwireData s ws ig).1 = _
    unfold unwireData at he ⊢
    split at he
    · rename_i h1; rw [if_pos h1]
    · simp only at he
      split at he <;> cases he
  | load m =>
    cases m with
    | none => rfl
    | some t => exact h.elim
  | reload =>
    change (reloadTree C s).2 = .err at he
    show view (reloadTree C s).1 = _
    unfold reloadTree at he ⊢
    split at he
    · rename_i h1; rw [if_pos h1]
    · cases he
  | clear => cases he
  | rename => cases he

/-- C33. A rejected request leaves nodes, links and wirings as they were. Partial: for the requests
excluded by `Req.Contained` (and in trees reached by careful requests); the code violates it for the others,
see below. -/
theorem c33_rejected_partial (rs : List Req) (h : Along C Req.Careful rs {}) (r : Req) (hr : r.Contained (history C rs {}))
    (he : (handle C r (history C rs {})).2 = .err) : view (handle C r (history C rs {})).1 = view (history C rs {}) :=
  handle_reject r (history_inv3 rs init_inv3 h) hr he

/-! ### Violations -/

/-- C33 is violated: a node added to a full parent is rejected, but stays in the tree as a second root. -/
theorem c33_add_leaks :
    let s := history exC [.add 1 (some exDeco) (some 0) (-1) [], .add 2 (some exLeaf) (some 1) (-1) []] {}
    let a := handle exC (.add 3 (some exLeaf) (some 1) (-1) []) s
    a.2 = .err ∧ specOf s 3 = none ∧ specOf a.1 3 = some exLeaf ∧ findRoot s ≠ none ∧ findRoot a.1 = none := by decide +kernel

/-- C33 is violated: the same for a parent id that does not parse. -/
theorem c33_add_bad_parent_leaks :
    let a := handle exC (.add 3 (some exLeaf) none (-1) []) {}
    a.2 = .err ∧ specOf {} 3 = none ∧ specOf a.1 3 = some exLeaf := by decide +kernel

/-- C33 is violated: a rejected `morph_node` tears the tree apart. -/
theorem c33_morph_breaks :
    let a := handle exC (.morph (some 1) (some exLeaf)) exPair
    a.2 = .err ∧ kids exPair 1 = [2, 3] ∧ kids a.1 1 = [] := by decide +kernel

/-- C33 is violated: a rejected `load_tree` has already cleared the tree. -/
theorem c33_load_clears :
    let a := handle exC (.load (some ⟨[⟨some 1, none, []⟩], []⟩)) exPair
    a.2 = .err ∧ exPair.nodes.length = 3 ∧ a.1.nodes = [] := by decide +kernel

/-! ### Examples -/

/-- Rejections of all kinds that do no harm. -/
example :
    let s := history exC exReqs {}
    (handle exC (.add 9 (some exLeaf) (some 2) 0 [3]) s).2 = .err ∧ (handle exC (.add 9 (some exLeaf) (some 7) 0 []) s).2 = .err ∧
    (handle exC (.move (some 1) (some 2) 0) s).2 = .err ∧ (handle exC (.remove (some 9) true) s).2 = .err ∧
    (handle exC (.morph (some 9) (some exLeaf)) s).2 = .err ∧ (handle exC (.replace (some 2) (some 3)) s).2 = .err ∧
    (handle exC (.wire [⟨some 3, 1, some 4, 1⟩] false) s).2 = .err ∧ (handle exC (.unwire [⟨some 4, 2, some 3, 1⟩] false) s).2 = .err := by
  decide +kernel

example : (Req.add 9 (some exLeaf) (some 2) 0 [3]).Contained (history exC exReqs {}) ∧ (Req.move (some 1) (some 2) 0).Contained (history exC exReqs {}) := by
  refine ⟨⟨by decide +kernel, by simp, by decide, ?_⟩, trivial⟩
  intro q sp hq _ hsp
  cases hq
  rw [show specOf (history exC exReqs {}) 2 = some exSeq by decide +kernel] at hsp
  cases hsp
  decide

end Verif.Edit
