import Verif.Edit.Shape

/-! `replace_node`: the new node takes the place of the old one and its children. -/

set_option autoImplicit false

namespace Verif.Edit

variable {C : Nat → Nat → Bool}

/-- The loop that moves the children, when there is room. -/
theorem moveChildren_skip {L : Ref → Prop} (old new : Ref) (hne : old ≠ new) :
    ∀ (cs : List Id) (s : St), LinksOn L s.heap → L old → L new → cs = s.childIds old →
      (∀ a b, L a → L b → (s.heap a).nid = (s.heap b).nid → a = b) →
      old ∉ (s.heap old).children → old ∉ (s.heap new).children →
      (∀ m, (s.heap new).spec.max = some m → (s.heap new).children.length + ((s.heap old).children.filter (· ≠ new)).length ≤ m) →
      ∃ s', moveChildren old new (some (s.heap new).nid) cs s = (s', true) ∧ Same s s' ∧
        (s'.heap old).children = [] ∧ (s'.heap new).children = (s.heap new).children ++ (s.heap old).children.filter (· ≠ new) ∧
        (∀ x, x ≠ old → x ≠ new → (s'.heap x).children = (s.heap x).children) ∧
        (∀ x, (s'.heap x).parent = if x ∈ (s.heap old).children then (if x = new then none else some new) else (s.heap x).parent) := by
  intro cs
  induction cs with
  | nil =>
    intro s _ _ _ hcs _ _ _ _
    have : (s.heap old).children = [] := by
      cases h : (s.heap old).children with
      | nil => rfl
      | cons a l => simp [St.childIds, h] at hcs
    exact ⟨s, rfl, Same.refl s, this, by rw [this]; simp, fun _ _ _ => rfl, fun x => by rw [this]; simp⟩
  | cons c cs ih =>
    intro s hl ho hn hcs hinj hself hanc hroom
    obtain ⟨rc, rest, hch⟩ : ∃ rc rest, (s.heap old).children = rc :: rest := by
      cases h : (s.heap old).children with
      | nil => simp [St.childIds, h] at hcs
      | cons a l => exact ⟨a, l, rfl⟩
    have hc : c = (s.heap rc).nid := by
      unfold St.childIds at hcs; rw [hch] at hcs; simp only [List.map_cons, List.cons.injEq] at hcs; exact hcs.1
    have hrcm : rc ∈ (s.heap old).children := by rw [hch]; simp
    obtain ⟨hLrc, hprc⟩ := hl.down old ho rc hrcm
    obtain ⟨s1, rc', h1⟩ := removeChild_some hrcm
    have r1 := removeChild_removed h1
    have : rc' = rc := hinj rc' rc (hl.down old ho rc' r1.mem).1 hLrc r1.cid
    subst this
    have hnd := hl.nodup old ho
    rw [hch, List.nodup_cons] at hnd
    have hch1 : (s1.heap old).children = rest := by
      obtain ⟨k, hlt, hck, hk⟩ := r1.erased
      have hk0 : k = 0 := by
        have h0 : 0 < (s.heap old).children.length := by rw [hch]; simp
        have e0 : (s.heap old).children[0] = rc' := by simp [hch]
        exact (List.getElem_inj (hl.nodup old ho)).1 (hck.trans e0.symm)
      rw [hk, hk0, hch]; rfl
    have hcs1 : cs = s1.childIds old := by
      have e : s1.childIds old = rest.map fun c => (s.heap c).nid := by
        unfold St.childIds; rw [hch1]; exact List.map_congr_left fun x _ => r1.nid x
      unfold St.childIds at hcs
      rw [hch] at hcs
      simp only [List.map_cons, List.cons.injEq] at hcs
      rw [e]; exact hcs.2
    have l1 := removed_links r1 hl ho
    have hnew1 : (s1.heap new).children = (s.heap new).children := r1.others new (Ne.symm hne)
    have hrest_sub : ∀ x ∈ rest, x ∈ (s.heap old).children := fun x hx => by rw [hch]; simp [hx]
    unfold moveChildren
    rw [hc, h1]
    dsimp only
    by_cases hsk : rc' = new
    · -- the new node itself is only taken out
      subst hsk
      rw [if_pos rfl]
      obtain ⟨s', k1, k2, k3, k4, k5, k6⟩ := ih s1 l1 ho hn hcs1 (fun a b ha hb h => hinj a b ha hb (by rwa [r1.nid, r1.nid] at h))
        (by rw [hch1]; exact fun h => hself (hrest_sub _ h)) (by rw [hnew1]; exact hanc) (fun m hm => by
          rw [r1.spec] at hm
          have := hroom m hm
          rw [hch] at this
          rw [hnew1, hch1]
          simpa using this)
      have hno : rest.filter (· ≠ rc') = rest := by
        rw [List.filter_eq_self]
        intro x hx
        simp only [ne_eq, decide_eq_true_eq]
        rintro rfl
        exact hnd.1 hx
      refine ⟨s', by rw [r1.nid] at k1; exact k1, r1.same.trans k2, k3, ?_, ?_, ?_⟩
      · rw [k4, hnew1, hch1, hch]; simp
      · intro x h1 h2; rw [k5 x h1 h2, r1.others x h1]
      · intro x
        rw [k6, hch1, hch, r1.parent]
        by_cases hx : x = rc'
        · subst hx; simp [hnd.1]
        · simp [hx]
    · have hnid : ¬ some (s.heap new).nid = some (s.heap rc').nid := by
        intro h
        exact hsk (hinj rc' new hLrc hn (Option.some.inj h).symm)
      rw [if_neg hnid]
      have hlen : ((s.heap old).children.filter (· ≠ new)).length = (rest.filter (· ≠ new)).length + 1 := by
        rw [hch]; simp [hsk]
      obtain ⟨s2, h2⟩ := addChild_ok (s := s1) (p := new) (c := rc') none
        (by
          rw [r1.spec, hnew1]
          intro h
          have := hroom _ h
          omega)
        (by
          intro h
          obtain ⟨y, hy, he⟩ := List.mem_map.1 h
          rw [hnew1] at hy
          rw [r1.nid, r1.nid] at he
          have := hinj y rc' (hl.down new hn y hy).1 hLrc he
          subst this
          have := (hl.down new hn y hy).2
          rw [hprc] at this
          exact hne (Option.some.inj this))
      rw [h2]
      dsimp only
      have a2 := addChild_added h2
      have hnone : (s1.heap rc').parent = none := by rw [r1.parent]; simp
      have l2 := added_links a2 l1 hn hLrc hnone
      have hold2 : (s2.heap old).children = rest := by rw [a2.others old hne, hch1]
      have hnew2 : (s2.heap new).children = (s.heap new).children ++ [rc'] := by rw [addChild_last h2, hnew1]
      have hrco : rc' ≠ old := by rintro rfl; exact hself hrcm
      obtain ⟨s', k1, k2, k3, k4, k5, k6⟩ := ih s2 l2 ho hn
        (by
          rw [hcs1]
          unfold St.childIds
          rw [hold2, hch1]
          exact List.map_congr_left fun x _ => (a2.nid x).symm)
        (fun a b ha hb h => hinj a b ha hb (by rwa [a2.nid, a2.nid, r1.nid, r1.nid] at h))
        (by rw [hold2]; exact fun h => hself (hrest_sub _ h))
        (by
          rw [hnew2, List.mem_append, List.mem_singleton]
          rintro (h | h)
          · exact hanc h
          · exact hrco h.symm)
        (fun m hm => by
          rw [a2.spec, r1.spec] at hm
          have := hroom m hm
          rw [hnew2, hold2]
          simp only [List.length_append, List.length_singleton]
          omega)
      refine ⟨s', by rw [a2.nid, r1.nid] at k1; exact k1, (r1.same.trans a2.same).trans k2, k3, ?_, ?_, ?_⟩
      · rw [k4, hnew2, hold2, hch]; simp [hsk]
      · intro x h1 h2'; rw [k5 x h1 h2', a2.others x h2', r1.others x h1]
      · intro x
        rw [k6, hold2, hch, a2.parent, r1.parent]
        by_cases hx : x = rc'
        · subst hx; simp [hnd.1, hsk]
        · simp [hx]

/-! ### Positions -/

theorem idxOf_ne {a i : Nat} (l : List Nat) (h : ¬ a = i) : (a :: l).idxOf i = l.idxOf i + 1 := by
  have : (a == i) = false := by simpa using h
  rw [List.idxOf_cons, this]; rfl

theorem idxOf_erase {i j : Nat} (hij : i ≠ j) : ∀ (l : List Nat), i ∈ l →
    (l.erase j).idxOf i = if j ∈ l ∧ l.idxOf j < l.idxOf i then l.idxOf i - 1 else l.idxOf i := by
  intro l
  induction l with
  | nil => intro h; cases h
  | cons a l ih =>
    intro h
    by_cases haj : a = j
    · subst haj
      have hai : ¬ a = i := fun h => hij h.symm
      rw [List.erase_cons_head, List.idxOf_cons_self, idxOf_ne _ hai]
      simp
    · rw [List.erase_cons_tail (by simpa using haj)]
      by_cases hai : a = i
      · subst hai
        simp [List.idxOf_cons_self]
      · have hil : i ∈ l := by
          rcases List.mem_cons.1 h with h | h
          · exact absurd h.symm hai
          · exact h
        have haj' : ¬ j = a := fun h => haj h.symm
        rw [idxOf_ne _ hai, idxOf_ne _ hai, idxOf_ne _ haj, ih hil]
        simp only [List.mem_cons, haj', false_or]
        by_cases hc : j ∈ l ∧ l.idxOf j < l.idxOf i
        · rw [if_pos hc, if_pos ⟨hc.1, by omega⟩]; omega
        · rw [if_neg hc, if_neg (fun h => hc ⟨h.1, by omega⟩)]

/-- `j` in the place of `i`. -/
def subst1 (i j x : Nat) : Nat := if x = i then j else x

theorem insert_subst {i j : Nat} : ∀ (m : List Nat), m.Nodup → i ∈ m →
    (m.erase i).take (m.idxOf i) ++ j :: (m.erase i).drop (m.idxOf i) = m.map (subst1 i j) := by
  intro m
  induction m with
  | nil => intro _ h; cases h
  | cons a m ih =>
    intro hn h
    rw [List.nodup_cons] at hn
    by_cases hai : a = i
    · subst hai
      rw [List.erase_cons_head, List.idxOf_cons_self]
      have : m.map (subst1 a j) = m := by
        have : m.map (subst1 a j) = m.map id := List.map_congr_left fun x hx => by
          unfold subst1; rw [if_neg]; · rfl
          · rintro rfl; exact hn.1 hx
        rw [this, List.map_id]
      simp [this, subst1]
    · have him : i ∈ m := by
        rcases List.mem_cons.1 h with h | h
        · exact absurd h.symm hai
        · exact h
      rw [List.erase_cons_tail (by simpa using hai), idxOf_ne _ hai, List.take_succ_cons, List.drop_succ_cons, List.map_cons,
        ← ih hn.2 him]
      simp [subst1, hai]

theorem idxOf_le_erase {i : Nat} {m : List Nat} (h : i ∈ m) : m.idxOf i ≤ (m.erase i).length := by
  rw [List.length_erase_of_mem h]
  have := List.idxOf_lt_length_of_mem h
  omega

theorem idxOf?_getD {l : List Nat} {a : Nat} (h : a ∈ l) : l.idxOf? a = some (l.idxOf a) := by
  cases hf : l.idxOf? a with
  | none => rw [List.idxOf?_eq_none_iff] at hf; exact absurd h hf
  | some k =>
    have : l.idxOf a = (l.idxOf? a).getD l.length := by
      clear hf
      induction l with
      | nil => cases h
      | cons b l ih =>
        by_cases hb : b = a
        · subst hb; simp [List.idxOf?_cons]
        · have hm : a ∈ l := by
            rcases List.mem_cons.1 h with h | h
            · exact absurd h.symm hb
            · exact h
          rw [idxOf_ne _ hb, ih hm, List.idxOf?_cons]
          have : (b == a) = false := by simpa using hb
          rw [this]
          simp only [Bool.false_eq_true, if_false]
          cases hf2 : l.idxOf? a with
          | none => rw [List.idxOf?_eq_none_iff] at hf2; exact absurd hm hf2
          | some n => simp
    rw [this, hf]; rfl

/-! ### The request -/

theorem kids_nodup {s : St} (v : Inv C s) (i : Id) : (kids s i).Nodup := by
  cases hg : dictGet s.nodes i with
  | none => unfold kids; rw [hg]; exact List.nodup_nil
  | some r =>
    have hr := dictGet_mem hg
    rw [kids_reg v.basic.dict hr]
    have : ∀ l : List Ref, l.Nodup → (∀ c ∈ l, Reg s c) → (l.map fun c => (s.heap c).nid).Nodup := by
      intro l
      induction l with
      | nil => intro _ _; exact List.nodup_nil
      | cons a l ih =>
        intro hn hl
        rw [List.nodup_cons] at hn
        rw [List.map_cons, List.nodup_cons]
        refine ⟨?_, ih hn.2 fun c hc => hl c (by simp [hc])⟩
        intro hm
        obtain ⟨c, hc, he⟩ := List.mem_map.1 hm
        have := v.basic.dict.inj (hl c (by simp [hc])) (hl a (by simp)) he
        subst this
        exact hn.1 hc
    exact this _ (v.links.nodup r ⟨i, hr⟩) fun c hc => (v.links.down r ⟨i, hr⟩ c hc).1

theorem mem_kids_iff {s : St} (v : Inv C s) {i j : Id} : j ∈ kids s i ↔ parentOf s j = some i := by
  have d := v.basic.dict
  constructor
  · intro h
    obtain ⟨⟨r, hr⟩, _⟩ := kids_exists v h
    rw [kids_reg d hr] at h
    obtain ⟨c, hc, rfl⟩ := List.mem_map.1 h
    obtain ⟨⟨k, hk⟩, hp⟩ := v.links.down r ⟨i, hr⟩ c hc
    have hk' := d.key _ _ hk
    rw [hk', parentOf_reg d hk, hp, Option.map_some, d.key _ _ hr]
  · intro h
    cases hg : dictGet s.nodes j with
    | none => unfold parentOf at h; rw [hg] at h; cases h
    | some c =>
      have hc := dictGet_mem hg
      rw [parentOf_reg d hc] at h
      cases hp : (s.heap c).parent with
      | none => rw [hp] at h; cases h
      | some r =>
        rw [hp] at h
        simp only [Option.map_some, Option.some.injEq] at h
        obtain ⟨⟨k, hk⟩, hm⟩ := v.links.up c ⟨j, hc⟩ r hp
        have hki := (d.key _ _ hk).symm.trans h
        subst hki
        rw [kids_reg d hk]
        exact List.mem_map.2 ⟨c, hm, d.key _ _ hc⟩

/-- Below oneself means cycle. -/
theorem no_below_self {s : St} (v : Inv2 C s) (i : Id) : ¬ Below s i i := by
  intro h
  obtain ⟨r, hr⟩ := below_exists v.toInv h
  obtain ⟨x, hx, hab⟩ := (below_iff v.toInv hr).1 h
  have : x = r := Option.some.inj ((mem_dictGet v.basic.dict.keys hx).symm.trans (mem_dictGet v.basic.dict.keys hr))
  subst this
  exact v.acyc x ⟨i, hx⟩ hab

/-- The tree after the children have been moved and the old node removed, by ids. -/
structure Replaced (s s2 : St) (i j : Id) : Prop where
  wirings : ∀ w, w ∈ s2.wirings ↔ w ∈ s.wirings ∧ w.src ≠ some i ∧ w.tgt ≠ some i
  spec : ∀ k, specOf s2 k = if k = i then none else specOf s k
  new : kids s2 j = kids s j ++ (kids s i).filter (· ≠ j)
  other : ∀ k, k ≠ i → k ≠ j → kids s2 k = (kids s k).erase i
  parent : ∀ k, k ≠ i → parentOf s2 k = if k ∈ kids s i then (if k = j then none else some j) else parentOf s k

/-- The first half of `replace_node`. -/
theorem replace_first {s : St} (v : Inv2 C s) {i j : Id} {ro rn : Ref} (hro : (i, ro) ∈ s.nodes) (hrn : (j, rn) ∈ s.nodes) (hij : i ≠ j)
    (hnot : ¬ Below s j i)
    (hroom : ∀ m, (s.heap rn).spec.max = some m → (kids s j).length + ((kids s i).filter (· ≠ j)).length ≤ m) :
    ∃ s1, moveChildren ro rn (some (s.heap rn).nid) (s.childIds ro) s = (s1, true) ∧
      ∃ s2, edit (removeNode · (some i) true) s1 = (s2, .ok) ∧ Inv C s2 ∧ Synced s2 ∧ Replaced s s2 i j ∧
        (∀ k x, (k, x) ∈ s2.nodes ↔ (k, x) ∈ s.nodes ∧ k ≠ i) ∧ (∀ x, (s2.heap x).spec = (s.heap x).spec) ∧
        (∀ x, (s2.heap x).nid = (s.heap x).nid) := by
  have d := v.basic.dict
  have vi := v.toInv
  have hRo : Reg s ro := ⟨i, hro⟩
  have hRn : Reg s rn := ⟨j, hrn⟩
  have hne : ro ≠ rn := by rintro rfl; exact hij ((d.key _ _ hro).symm.trans (d.key _ _ hrn))
  have hfil : ((s.heap ro).children.filter (· ≠ rn)).map (fun c => (s.heap c).nid) = (kids s i).filter (· ≠ j) := by
    rw [kids_reg d hro]
    unfold St.childIds
    rw [List.filter_map]
    congr 1
    refine List.filter_congr fun c hc => ?_
    simp only [Function.comp_apply]
    congr 1
    refine propext ⟨fun h he => h ?_, fun h he => h ?_⟩
    · exact d.inj (vi.links.down ro hRo c hc).1 hRn (he.trans (d.key _ _ hrn).symm)
    · rw [he]; exact d.key _ _ hrn
  have hself : ro ∉ (s.heap ro).children := fun h => v.acyc ro hRo (.one (vi.links.down ro hRo ro h).2)
  have hanc : ro ∉ (s.heap rn).children := fun h => hnot (.child (by
    rw [kids_reg d hrn]
    exact List.mem_map.2 ⟨ro, h, d.key _ _ hro⟩))
  obtain ⟨s1, k1, k2, k3, k4, k5, k6⟩ := moveChildren_skip ro rn hne (s.childIds ro) s vi.links hRo hRn rfl (fun a b ha hb => d.inj ha hb)
    hself hanc (fun m hm => by
      have := hroom m hm
      rw [← hfil, kids_reg d hrn] at this
      simpa [St.childIds] using this)
  have rl := moveChildren_relink ro rn (some (s.heap rn).nid) (s.childIds ro) s
  have ll := moveChildren_links ro rn (some (s.heap rn).nid) (s.childIds ro) s vi.links hRo hRn
  rw [k1] at rl ll
  have v1 : Inv C s1 := vi.relink rl ll
  have d1 := v1.basic.dict
  refine ⟨s1, k1, ?_⟩
  have hro1 : (i, ro) ∈ s1.nodes := by rw [k2.nodes]; exact hro
  have hkids1 : ∀ k x, (k, x) ∈ s.nodes → kids s1 k = (s1.heap x).children.map fun c => (s.heap c).nid := by
    intro k x hx
    rw [kids_reg d1 (by rw [k2.nodes]; exact hx)]
    exact List.map_congr_left fun c _ => k2.nid c
  have hk1i : kids s1 i = [] := by rw [hkids1 i ro hro, k3]; rfl
  have hk1j : kids s1 j = kids s j ++ (kids s i).filter (· ≠ j) := by
    rw [hkids1 j rn hrn, k4, List.map_append, hfil, kids_reg d hrn]; rfl
  have hk1o : ∀ k, k ≠ i → k ≠ j → kids s1 k = kids s k := by
    intro k hki hkj
    cases hg : dictGet s.nodes k with
    | none => unfold kids; rw [k2.nodes, hg]; rfl
    | some x =>
      have hx := dictGet_mem hg
      rw [hkids1 k x hx, k5 x (by rintro rfl; exact hki ((d.key _ _ hx).symm.trans (d.key _ _ hro)))
        (by rintro rfl; exact hkj ((d.key _ _ hx).symm.trans (d.key _ _ hrn))), kids_reg d hx]
      rfl
  have hp1 : ∀ k, parentOf s1 k = if k ∈ kids s i then (if k = j then none else some j) else parentOf s k := by
    intro k
    cases hg : dictGet s.nodes k with
    | none =>
      have : k ∉ kids s i := fun h => by
        obtain ⟨c, hc⟩ := (kids_exists vi h).2
        exact dictGet_none hg c hc
      rw [if_neg this]; unfold parentOf; rw [k2.nodes, hg]; rfl
    | some x =>
      have hx := dictGet_mem hg
      rw [parentOf_reg d1 (by rw [k2.nodes]; exact hx), k6, parentOf_reg d hx]
      have e1 : x ∈ (s.heap ro).children ↔ k ∈ kids s i := by
        rw [kids_reg d hro]
        constructor
        · exact fun h => List.mem_map.2 ⟨x, h, d.key _ _ hx⟩
        · intro h
          obtain ⟨c, hc, he⟩ := List.mem_map.1 h
          have := d.inj (vi.links.down ro hRo c hc).1 ⟨k, hx⟩ (he.trans (d.key _ _ hx).symm)
          subst this
          exact hc
      have e2 : x = rn ↔ k = j := by
        constructor
        · rintro rfl; exact (d.key _ _ hx).symm.trans (d.key _ _ hrn)
        · rintro rfl; exact Option.some.inj ((mem_dictGet d.keys hx).symm.trans (mem_dictGet d.keys hrn))
      by_cases h1 : x ∈ (s.heap ro).children
      · rw [if_pos h1, if_pos (e1.1 h1)]
        by_cases h2 : x = rn
        · rw [if_pos h2, if_pos (e2.1 h2)]; rfl
        · rw [if_neg h2, if_neg (fun h => h2 (e2.2 h)), Option.map_some, k2.nid, d.key _ _ hrn]
      · rw [if_neg h1, if_neg (fun h => h1 (e1.2 h))]
        cases (s.heap x).parent with
        | none => rfl
        | some q => simp only [Option.map_some]; rw [k2.nid]
  -- removal of the old node, which is childless now
  have vs1 := sync_inv v1
  have hnob : ∀ k, ¬ Below (sync s1) i k := by
    intro k h
    induction h with
    | child h => rw [show kids (sync s1) i = [] from hk1i] at h; cases h
    | deeper _ _ ih => exact ih
  let del := collect (sync s1) ((sync s1).nodes.length + 1) [i] [i]
  have hdel : ∀ k, k ∈ del ↔ k = i := by
    intro k
    rw [collect_exact vs1 (sync_synced d1) (r := ro) hro1 k]
    exact ⟨fun h => h.elim id fun h => absurd h (hnob k), Or.inl⟩
  have hed : edit (removeNode · (some i) true) s1 = (sync (dropNodes (sync s1) del), .ok) := by
    unfold edit removeNode
    simp only [mem_dictGet d1.keys hro1, Option.isNone_some, Bool.false_eq_true, if_false, if_true]
    rfl
  have vd := dropNodes_inv del vs1
  obtain ⟨g1, g2, g3⟩ := drop_ids vs1 del
  refine ⟨_, hed, sync_inv vd, sync_synced vd.basic.dict, ⟨?_, ?_, ?_, ?_, ?_⟩, ?_, ?_, ?_⟩
  · intro w
    show w ∈ (dropNodes (sync s1) del).wirings ↔ _
    rw [drop_wirings (sync s1) del (fun w hw => by
      obtain ⟨a, b, _, _, _, _, h1, h2, _⟩ := v1.basic.wired w hw (fun _ h => h.elim)
      exact ⟨a, b, h1, h2⟩) w]
    show w ∈ s1.wirings ∧ _ ↔ _
    rw [k2.wirings]
    constructor
    · rintro ⟨h1, h2⟩; exact ⟨h1, h2 i ((hdel i).2 rfl)⟩
    · rintro ⟨h1, h2⟩; exact ⟨h1, fun a ha => by rw [(hdel a).1 ha]; exact h2⟩
  · intro k
    show specOf (dropNodes (sync s1) del) k = _
    rw [g1]
    by_cases hk : k = i
    · rw [if_pos ((hdel k).2 hk), if_pos hk]
    · rw [if_neg (fun h => hk ((hdel k).1 h)), if_neg hk]
      show specOf s1 k = _
      unfold specOf
      rw [k2.nodes]
      cases dictGet s.nodes k with
      | none => rfl
      | some x => simp only [Option.map_some]; rw [k2.spec]
  · show kids (dropNodes (sync s1) del) j = _
    rw [g2 j (fun h => hij ((hdel j).1 h).symm)]
    show (kids s1 j).filter _ = _
    rw [hk1j, List.filter_eq_self]
    intro x hx
    simp only [decide_eq_true_eq]
    intro hd
    have := (hdel x).1 hd
    subst this
    rcases List.mem_append.1 hx with hx | hx
    · exact hnot (.child hx)
    · exact no_below_self v x (.child (List.mem_filter.1 hx).1)
  · intro k hki hkj
    show kids (dropNodes (sync s1) del) k = _
    rw [g2 k (fun h => hki ((hdel k).1 h))]
    show (kids s1 k).filter _ = _
    rw [hk1o k hki hkj, List.Nodup.erase_eq_filter (kids_nodup vi k)]
    refine List.filter_congr fun x _ => ?_
    by_cases hx : x = i
    · simp [hx, (hdel i).2 rfl]
    · have : x ∉ del := fun h => hx ((hdel x).1 h)
      simp [hx, this]
  · intro k hki
    show parentOf (dropNodes (sync s1) del) k = _
    rw [g3 k (fun h => hki ((hdel k).1 h))]
    show (parentOf s1 k).filter _ = _
    rw [hp1]
    by_cases h1 : k ∈ kids s i
    · rw [if_pos h1]
      by_cases h2 : k = j
      · rw [if_pos h2]; rfl
      · rw [if_neg h2]
        have : j ∉ del := fun h => hij ((hdel j).1 h).symm
        simp [this, Option.filter_some]
    · rw [if_neg h1]
      cases hp : parentOf s k with
      | none => rfl
      | some q =>
        have : q ∉ del := fun h => by
          have := (hdel q).1 h
          subst this
          exact h1 ((mem_kids_iff vi).2 hp)
        simp [this, Option.filter_some]
  · intro k x
    show (k, x) ∈ (dropNodes (sync s1) del).nodes ↔ _
    simp only [dropNodes, List.mem_filter]
    show ((k, x) ∈ s1.nodes ∧ _) ↔ _
    rw [k2.nodes]
    simp [hdel]
  · intro x
    show ((dropNodes (sync s1) del).heap x).spec = _
    have : ((dropNodes (sync s1) del).heap x).spec = (s1.heap x).spec := by
      simp only [dropNodes]
      split
      · split <;> rfl
      · rfl
    rw [this, k2.spec]
  · intro x
    show ((dropNodes (sync s1) del).heap x).nid = _
    rw [dropNodes_nid]
    exact k2.nid x

/-- The index computed by `replace_node` is the place of the old node once the new one has left its own. -/
theorem replaceIndex_eq {s : St} (v : Inv C s) {i j q : Id} {ro rn rq : Ref} (hro : (i, ro) ∈ s.nodes) (hrn : (j, rn) ∈ s.nodes)
    (hrq : (q, rq) ∈ s.nodes) (hij : i ≠ j) (hpar : (s.heap ro).parent = some rq) :
    replaceIndex s (s.heap ro) (s.heap rn) = ((kids s q).erase j).idxOf i := by
  have d := v.basic.dict
  have hkq := kids_reg d hrq
  have hiq : i ∈ kids s q := (mem_kids_iff v).2 (by rw [parentOf_reg d hro, hpar, Option.map_some, d.key _ _ hrq])
  have hidx : childIndex s rq (s.heap ro).nid = some ((kids s q).idxOf i) := by
    unfold childIndex
    rw [d.key _ _ hro, ← hkq]
    exact idxOf?_getD hiq
  rw [idxOf_erase hij _ hiq]
  unfold replaceIndex
  simp only [hpar, hidx, Option.getD_some]
  cases hpn : (s.heap rn).parent with
  | none =>
    have : j ∉ kids s q := fun h => by
      have := (mem_kids_iff v).1 h
      rw [parentOf_reg d hrn, hpn] at this
      cases this
    rw [if_neg (fun h => this h.1)]
  | some a =>
    have hra := (v.links.up rn ⟨j, hrn⟩ a hpn).1
    by_cases haq : (s.heap a).nid = (s.heap rq).nid
    · have := d.inj hra ⟨q, hrq⟩ haq
      subst this
      have hjq : j ∈ kids s q := (mem_kids_iff v).2 (by rw [parentOf_reg d hrn, hpn, Option.map_some, d.key _ _ hrq])
      have hidxj : childIndex s a (s.heap rn).nid = some ((kids s q).idxOf j) := by
        unfold childIndex
        rw [d.key _ _ hrn, ← hkq]
        exact idxOf?_getD hjq
      dsimp only
      rw [hidxj]
      by_cases h0 : 0 < (kids s q).idxOf i
      · rw [if_pos ⟨rfl, h0⟩]
        dsimp only
        by_cases hlt : (kids s q).idxOf j < (kids s q).idxOf i
        · rw [if_pos hlt, if_pos ⟨hjq, hlt⟩]
        · rw [if_neg hlt, if_neg (fun h => hlt h.2)]
      · rw [if_neg (fun h => h0 h.2), if_neg (fun h => h0 (by omega))]
    · have : j ∉ kids s q := fun h => by
        have := (mem_kids_iff v).1 h
        rw [parentOf_reg d hrn, hpn] at this
        simp only [Option.map_some, Option.some.injEq] at this
        exact haq (this.trans (d.key _ _ hrq).symm)
      dsimp only
      rw [if_neg (fun h => haq h.1), if_neg (fun h => this h.1)]

/-- The second half of `replace_node`, for an old node with a parent. -/
theorem replace_second {s s2 : St} (v : Inv2 C s) {i j q : Id} {ro rn rq : Ref} (hro : (i, ro) ∈ s.nodes) (hrn : (j, rn) ∈ s.nodes)
    (hrq : (q, rq) ∈ s.nodes) (hij : i ≠ j) (hnot : ¬ Below s j i) (hpar : (s.heap ro).parent = some rq) (v2 : Inv C s2) (hsy : Synced s2)
    (rp : Replaced s s2 i j) (hmem : ∀ k x, (k, x) ∈ s2.nodes ↔ (k, x) ∈ s.nodes ∧ k ≠ i) (hspec : ∀ x, (s2.heap x).spec = (s.heap x).spec) (hq0 : q ≠ 0)
    (idx : Int) :
    ∃ s3, moveNode s2 (some j) (some q) idx = (sync s3, .ok) ∧ Moved s2 s3 rn (some rq) idx := by
  have d := v.basic.dict
  have d2 := v2.basic.dict
  have hiq : i ∈ kids s q := (mem_kids_iff v.toInv).2 (by rw [parentOf_reg d hro, hpar, Option.map_some, d.key _ _ hrq])
  have hqi : q ≠ i := by rintro rfl; exact no_below_self v q (.child hiq)
  have hqj : q ≠ j := by rintro rfl; exact hnot (.child hiq)
  have hrn2 : (j, rn) ∈ s2.nodes := (hmem j rn).2 ⟨hrn, fun h => hij h.symm⟩
  have hrq2 : (q, rq) ∈ s2.nodes := (hmem q rq).2 ⟨hrq, hqi⟩
  have hbelow : ∀ k, Below s2 j k → Below s j k ∨ Below s i k := by
    have hj : ∀ k, k ∈ kids s2 j → Below s j k ∨ Below s i k := by
      intro k hk
      rw [rp.new] at hk
      rcases List.mem_append.1 hk with h | h
      · exact Or.inl (.child h)
      · exact Or.inr (.child (List.mem_filter.1 h).1)
    intro k h
    induction h with
    | child h => exact hj _ h
    | @deeper a b hab hb ih =>
      by_cases haj : a = j
      · subst haj; exact hj _ hb
      · have hai : a ≠ i := by
          rintro rfl
          obtain ⟨c, hc⟩ := below_exists v2 hab
          exact ((hmem _ c).1 hc).2 rfl
        rw [rp.other a hai haj] at hb
        have hb' := List.mem_of_mem_erase hb
        rcases ih with h | h
        · exact Or.inl (.deeper h hb')
        · exact Or.inr (.deeper h hb')
  refine moveNode_ok v2 idx hrn2 hq0 hrq2 ?_ ?_
  · rw [hspec]
    intro h
    have h1 := v.basic.lim rq _ h
    have e2 : (s2.heap rq).children.length = (kids s2 q).length := by rw [kids_reg d2 hrq2]; simp [St.childIds]
    have e1 : (s.heap rq).children.length = (kids s q).length := by rw [kids_reg d hrq]; simp [St.childIds]
    rw [e2, rp.other q hqi hqj, List.length_erase_of_mem hiq, e1] at h1
    have := List.length_pos_of_mem hiq
    omega
  · rw [d2.key _ _ hrq2]
    intro h
    have := (descendants_exact v2 hsy hrn2 q).1 h
    rcases hbelow q this with h | h
    · exact hnot (.deeper h hiq)
    · exact no_below_self v i (.deeper h hiq)

/-- What a client sees of `replace_node`. `q` is the parent of the old node. -/
structure ReplacedBy (s a : St) (i j : Id) (q : Option Id) : Prop where
  wirings : ∀ w, w ∈ a.wirings ↔ w ∈ s.wirings ∧ w.src ≠ some i ∧ w.tgt ≠ some i
  spec : ∀ k, specOf a k = if k = i then none else specOf s k
  /-- the new node gets the children of the old one, at the end -/
  new : kids a j = kids s j ++ (kids s i).filter (· ≠ j)
  /-- under the parent, it stands exactly where the old one was -/
  place : ∀ p, q = some p → kids a p = ((kids s p).erase j).map (subst1 i j)
  /-- the others keep their children, except that the new node leaves its old place if it gets a new one -/
  other : ∀ k, k ≠ i → k ≠ j → q ≠ some k → kids a k = if q = none then kids s k else (kids s k).erase j
  /-- its parent -/
  up : ∀ p, q = some p → parentOf a j = some p
  top : q = none → parentOf a j = if j ∈ kids s i then none else parentOf s j
  down : ∀ k ∈ kids s i, k ≠ j → parentOf a k = some j
  keep : ∀ k, k ≠ i → k ≠ j → k ∉ kids s i → parentOf a k = parentOf s k

theorem replace_spec {s : St} (v : Inv3 C s) {i j : Id} {sp : Spec} (hi : specOf s i ≠ none) (hj : specOf s j = some sp) (hij : i ≠ j)
    (hnot : ¬ Below s j i) (hroom : ∀ m, sp.max = some m → (kids s j).length + ((kids s i).filter (· ≠ j)).length ≤ m)
    (hroom' : ∀ m, sp.max = some m → (kids s i).length ≤ m) (hq0 : parentOf s i ≠ some 0) :
    (handle C (.replace (some i) (some j)) s).2 = .ok ∧ ReplacedBy s (handle C (.replace (some i) (some j)) s).1 i j (parentOf s i) := by
  have d := v.basic.dict
  have vi := v.toInv
  cases hgi : dictGet s.nodes i with
  | none => unfold specOf at hi; rw [hgi] at hi; exact absurd rfl hi
  | some ro =>
  cases hgj : dictGet s.nodes j with
  | none => unfold specOf at hj; rw [hgj] at hj; cases hj
  | some rn =>
  have hro := dictGet_mem hgi
  have hrn := dictGet_mem hgj
  have hsp : (s.heap rn).spec = sp := by
    rw [specOf_reg d hrn] at hj; exact Option.some.inj hj
  obtain ⟨s1, e1, s2, e2, v2, hsy, rp, hmem, hspec, hnid⟩ := replace_first v.toInv2 hro hrn hij hnot (by rw [hsp]; exact hroom)
  have htm : tooMany (s.heap rn).spec.max (s.heap ro).children.length = false := by
    rw [hsp]
    unfold tooMany
    split
    · rfl
    · rename_i m hm
      have := hroom' m hm
      rw [kids_reg d hro] at this
      have : (s.heap ro).children.length ≤ m := by simpa [St.childIds] using this
      simpa using this
  have hki := d.key _ _ hro
  have hkj := d.key _ _ hrn
  have ejj : kids s2 j = kids s j ++ (kids s i).filter (· ≠ j) := rp.new
  cases hpar : (s.heap ro).parent with
  | none =>
    have hq : parentOf s i = none := by rw [parentOf_reg d hro, hpar]; rfl
    have he : handle C (.replace (some i) (some j)) s = (sync s2, .ok) := by
      show edit (replaceNode · (some i) (some j)) s = _
      unfold edit replaceNode
      simp only [hgi, hgj, htm, Bool.false_eq_true, if_false, e1, Bool.not_true, hki, e2, hpar]
    rw [he, hq]
    refine ⟨rfl, rp.wirings, rp.spec, ejj, (fun p h => (by cases h)), ?_, (fun p h => (by cases h)), fun _ => ?_, ?_, ?_⟩
    · intro k hki hkj _
      rw [if_pos rfl]
      show kids s2 k = _
      rw [rp.other k hki hkj, List.erase_of_not_mem]
      intro h
      have := (mem_kids_iff vi).1 h
      rw [hq] at this; cases this
    · show parentOf s2 j = _
      rw [rp.parent j (fun h => hij h.symm)]
      simp
    · intro k hk hkj
      show parentOf s2 k = _
      rw [rp.parent k (by rintro rfl; exact no_below_self v.toInv2 k (.child hk)), if_pos hk, if_neg hkj]
    · intro k hki hkj hk
      show parentOf s2 k = _
      rw [rp.parent k hki, if_neg hk]
  | some rq =>
    obtain ⟨⟨q, hrq⟩, _⟩ := vi.links.up ro ⟨i, hro⟩ rq hpar
    have hq : parentOf s i = some q := by rw [parentOf_reg d hro, hpar, Option.map_some, d.key _ _ hrq]
    have hq0' : q ≠ 0 := by rintro rfl; exact hq0 hq
    obtain ⟨s3, e3, m3⟩ := replace_second v.toInv2 hro hrn hrq hij hnot hpar v2 hsy rp hmem hspec hq0'
      (Int.ofNat (replaceIndex s (s.heap ro) (s.heap rn)))
    have hkq : (s2.heap rq).nid = q := by rw [hnid, d.key _ _ hrq]
    have he : handle C (.replace (some i) (some j)) s = (sync (sync (sync s3)), .ok) := by
      show edit (replaceNode · (some i) (some j)) s = _
      unfold edit replaceNode
      have e1' := e1
      rw [hkj] at e1'
      have e3' : edit (moveNode · (some j) (some q) (Int.ofNat (replaceIndex s (s.heap ro) (s.heap rn)))) s2 = (sync (sync s3), .ok) := by
        unfold edit; dsimp only; rw [e3]
      simp only [hgi, hgj, htm, Bool.false_eq_true, if_false, Bool.not_true, hki, hpar, hkj, e1', e2, hkq, e3']
    have hiq : i ∈ kids s q := (mem_kids_iff vi).2 hq
    have hqi : q ≠ i := by rintro rfl; exact no_below_self v.toInv2 q (.child hiq)
    have hqj : q ≠ j := by rintro rfl; exact hnot (.child hiq)
    have hrn2 : (j, rn) ∈ s2.nodes := (hmem j rn).2 ⟨hrn, fun h => hij h.symm⟩
    have hrq2 : (q, rq) ∈ s2.nodes := (hmem q rq).2 ⟨hrq, hqi⟩
    obtain ⟨g1, g2, g3, g4, g5⟩ := moved_ids v2 hrn2 (by rintro x h; cases h; exact ⟨q, hrq2⟩) m3
    have hne : ∀ k, k ≠ q → kids s3 k = (kids s2 k).erase j := by
      intro k hk
      apply g4
      rintro x h; cases h
      rw [hkq]; exact fun h => hk h.symm
    rw [he, hq]
    refine ⟨rfl, ?_, ?_, ?_, ?_, ?_, ?_, (fun h => (by cases h)), ?_, ?_⟩
    · intro w
      show w ∈ s3.wirings ↔ _
      rw [g1]; exact rp.wirings w
    · intro k
      show specOf s3 k = _
      rw [g2]; exact rp.spec k
    · show kids s3 j = _
      rw [hne j (fun h => hqj h.symm), ejj, List.erase_of_not_mem]
      intro h
      rcases List.mem_append.1 h with h | h
      · exact no_below_self v.toInv2 j (.child h)
      · simp at h
    · intro p hp
      cases hp
      show kids s3 q = _
      have h5 := g5 rq rfl
      rw [hkq, rp.other q hqi hqj, replaceIndex_eq vi hro hrn hrq hij hpar, List.erase_comm i j] at h5
      rw [h5]
      have hm : i ∈ (kids s q).erase j := (List.mem_erase_of_ne hij).2 hiq
      dsimp only
      rw [insertPos_nat (idxOf_le_erase hm)]
      exact insert_subst _ ((kids_nodup vi q).erase j) hm
    · intro k hki hkj hk
      have hkq' : k ≠ q := fun h => hk (by rw [h])
      rw [if_neg (by simp)]
      show kids s3 k = _
      rw [hne k hkq', rp.other k hki hkj]
      rw [List.erase_of_not_mem (a := i)]
      intro h
      have := (mem_kids_iff vi).1 h
      rw [hq] at this
      exact hkq' (Option.some.inj this).symm
    · intro p hp
      cases hp
      show parentOf s3 j = _
      rw [g3, if_pos rfl, Option.map_some, hkq]
    · intro k hk hkj
      show parentOf s3 k = _
      rw [g3, if_neg hkj, rp.parent k (by rintro rfl; exact no_below_self v.toInv2 k (.child hk)), if_pos hk, if_neg hkj]
    · intro k hki hkj hk
      show parentOf s3 k = _
      rw [g3, if_neg hkj, rp.parent k hki, if_neg hk]

/-- C65: `replace_node` of a node by one that is not above it, with room for both families of children,
succeeds: the new node stands exactly where the old one was, the children of the old node come after its
own, everything else is kept. -/
theorem c65_replace (rs : List Req) (h : Along C Req.Careful rs {}) (i j : Id) (sp : Spec) :
    let s := history C rs {}
    specOf s i ≠ none → specOf s j = some sp → i ≠ j → ¬ Below s j i →
    (∀ m, sp.max = some m → (kids s j).length + ((kids s i).filter (· ≠ j)).length ≤ m ∧ (kids s i).length ≤ m) →
    parentOf s i ≠ some 0 →
    (handle C (.replace (some i) (some j)) s).2 = .ok ∧ ReplacedBy s (handle C (.replace (some i) (some j)) s).1 i j (parentOf s i) := by
  intro s h1 h2 h3 h4 h5 h6
  exact replace_spec (history_inv3 rs init_inv3 h) h1 h2 h3 h4 (fun m hm => (h5 m hm).1) (fun m hm => (h5 m hm).2) h6

/-! ### Violations -/

/-- Without the hypothesis that the new node is not above the old one: the request is answered with
an error after the tree has been changed. -/
theorem c65_replace_by_ancestor :
    let a := handle exC (.replace (some 3) (some 1)) exChain
    a.2 = .err ∧ kids exChain 1 = [2] ∧ kids a.1 1 = [2, 4] ∧ specOf a.1 3 = none := by decide +kernel

/-- Replacing a node by itself removes it. -/
theorem c65_replace_by_itself :
    let a := handle exC (.replace (some 1) (some 1)) exChain
    a.2 = .ok ∧ a.1.nodes = [] := by decide +kernel

/-- Without room for both families of children: an error after some children have been moved. -/
theorem c65_replace_without_room :
    let s := history exC [.add 1 (some exSeq) (some 0) (-1) [], .add 2 (some exLeaf) (some 1) (-1) [], .add 3 (some exLeaf) (some 1) (-1) [],
      .add 4 (some { exSeq with max := some 2 }) (some 0) (-1) [], .add 5 (some exLeaf) (some 4) (-1) []] {}
    let a := handle exC (.replace (some 1) (some 4)) s
    a.2 = .err ∧ kids s 4 = [5] ∧ kids a.1 4 = [5, 2] ∧ parentOf a.1 3 = none := by decide +kernel

/-! ### Examples -/

/-- Replacing node 3 (child 4) by its sibling 2 (child 5) under 1. -/
example :
    let s := history exC [.add 1 (some exSeq) (some 0) (-1) [], .add 2 (some exSeq) (some 1) (-1) [], .add 6 (some exSeq) (some 1) (-1) [],
      .add 3 (some exSeq) (some 1) (-1) [], .add 4 (some exLeaf) (some 3) (-1) [], .add 5 (some exLeaf) (some 2) (-1) []] {}
    let a := handle exC (.replace (some 3) (some 2)) s
    a.2 = .ok ∧ kids s 1 = [2, 6, 3] ∧ kids a.1 1 = [6, 2] ∧ kids a.1 2 = [5, 4] := by decide +kernel

end Verif.Edit
