import Verif.Edit.Load
import Verif.Edit.Replace

/-!
# Which edits create cycles (C30)

`Acyclic.lean` excludes some requests altogether. Here it is said exactly which requests to move a
node, which successful replacements and which loaded messages create a cycle, and the theorem about histories is extended
to all the others.
-/

set_option autoImplicit false

namespace Verif.Edit.Exactly

open Verif.Edit

variable {C : Nat → Nat → Bool}

theorem noCycle_iff {s : St} (v : Inv C s) : NoCycle s ↔ ∀ k, ¬ Below s k k := by
  constructor
  · intro h k hk
    obtain ⟨r, hr⟩ := below_exists v hk
    obtain ⟨x, hx, hab⟩ := (below_iff v hr).1 hk
    have : x = r := Option.some.inj ((mem_dictGet v.basic.dict.keys hx).symm.trans (mem_dictGet v.basic.dict.keys hr))
    subst this
    exact h x ⟨k, hx⟩ hab
  · rintro h r ⟨k, hr⟩ hab
    exact h k ((below_iff v hr).2 ⟨r, hr, hab⟩)

theorem Below.trans {s : St} {i j k : Id} (h1 : Below s i j) (h2 : Below s j k) : Below s i k := by
  induction h2 with
  | child h => exact .deeper h1 h
  | deeper _ h ih => exact .deeper ih h

/-! ## Moving -/

/-- A refused move changes nothing. -/
theorem move_refused {s : St} (v : Inv C s) (i p : Id) (idx : Int) (h : (moveNode s (some i) (some p) idx).2 ≠ .ok) :
    (moveNode s (some i) (some p) idx).1 = s := by
  cases hr : dictGet s.nodes i with
  | none => unfold moveNode; simp only [hr]
  | some r =>
    by_cases hp0 : p = 0
    · subst hp0
      obtain ⟨s', h1, _⟩ := moveNode_root v idx (dictGet_mem hr)
      rw [h1] at h
      exact absurd rfl h
    · cases hp : dictGet s.nodes p with
      | none => unfold moveNode; simp only [hr, if_neg hp0, hp]
      | some rp =>
        by_cases hroom : (s.heap rp).spec.max = some (s.heap rp).children.length
        · unfold moveNode; simp only [hr, if_neg hp0, hp, if_pos hroom]
        · by_cases hnd : (s.heap rp).nid ∈ descendants s (descFuel s ((dictGet s.adj i).getD []).reverse) ((dictGet s.adj i).getD []).reverse []
          · unfold moveNode; simp only [hr, if_neg hp0, hp, if_neg hroom, if_pos hnd]
          · obtain ⟨s', h1, _⟩ := moveNode_ok v idx (dictGet_mem hr) hp0 (dictGet_mem hp) hroom hnd
            rw [h1] at h
            exact absurd rfl h

/-- An accepted move below itself makes a node its own parent. -/
theorem self_move {s : St} (v : Inv C s) {i : Id} {idx : Int} (h0 : i ≠ 0) (hok : (moveNode s (some i) (some i) idx).2 = .ok) :
    ¬ NoCycle (moveNode s (some i) (some i) idx).1 := by
  obtain ⟨k, r, to, s', hk, hr, hs', m, hto⟩ := move_cases v hok
  cases hk
  rcases hto with ⟨h, _⟩ | ⟨j, rp, hj, hj0, hrp, rfl⟩
  · cases h
    exact absurd rfl h0
  · cases hj
    have : rp = r := Option.some.inj ((mem_dictGet v.basic.dict.keys hrp).symm.trans (mem_dictGet v.basic.dict.keys hr))
    subst this
    intro h
    rw [hs'] at h
    refine absurd (.one ?_) (h rp ((reg_same m.same).2 ⟨_, hr⟩))
    show (s'.heap rp).parent = some rp
    rw [m.parent, if_pos rfl]

theorem move_exact {s : St} (v : Inv3 C s) (i p : Id) (idx : Int) :
    NoCycle (handle C (.move (some i) (some p) idx) s).1 ↔ ¬ ((handle C (.move (some i) (some p) idx) s).2 = .ok ∧ i = p ∧ p ≠ 0) := by
  have e1 : (handle C (.move (some i) (some p) idx) s).1 = sync (moveNode s (some i) (some p) idx).1 := rfl
  have e2 : (handle C (.move (some i) (some p) idx) s).2 = (moveNode s (some i) (some p) idx).2 := rfl
  by_cases hip : i = p
  · subst hip
    by_cases hok : (moveNode s (some i) (some i) idx).2 = .ok
    · obtain ⟨k, r, to, s', hk, hr, hs', m, hto⟩ := move_cases v.toInv hok
      cases hk
      rcases hto with ⟨h0, rfl⟩ | ⟨j, rp, hj, hj0, hrp, rfl⟩
      · cases h0
        refine ⟨fun _ h => h.2.2 rfl, fun _ => ?_⟩
        rw [e1, hs']
        intro x hx hab
        have hsub : ∀ a b, Above s'.heap a b → Above s.heap a b := by
          intro a b hab
          induction hab with
          | one h =>
            rw [m.parent] at h
            split at h
            · cases h
            · exact .one h
          | more h _ ih =>
            rw [m.parent] at h
            split at h
            · cases h
            · exact .more h ih
        exact v.acyc x ((reg_same m.same).1 hx) (hsub x x hab)
      · cases hj
        have : rp = r := Option.some.inj ((mem_dictGet v.basic.dict.keys hrp).symm.trans (mem_dictGet v.basic.dict.keys hr))
        subst this
        refine ⟨fun h => ?_, fun h => absurd ⟨by rw [e2]; exact hok, rfl, hj0⟩ h⟩
        rw [e1, hs'] at h
        refine absurd (.one ?_) (h rp ((reg_same m.same).2 ⟨_, hr⟩))
        show (s'.heap rp).parent = some rp
        rw [m.parent, if_pos rfl]
    · refine ⟨fun _ h => hok (by rw [← e2]; exact h.1), fun _ => ?_⟩
      rw [e1, move_refused v.toInv _ _ _ hok]
      exact v.acyc
  · refine ⟨fun _ h => hip h.2.1, fun _ => ?_⟩
    exact (handle_inv3 (.move (some i) (some p) idx) v (Or.inr fun h => hip (Option.some.inj h))).acyc

/-- **C30.** After any history of careful requests, a request to move a node leaves a cycle exactly if it
is accepted and the node is to be moved below itself. -/
theorem c30_move_exact (rs : List Req) (h : Along C Req.Careful rs {}) (i p : Id) (idx : Int) :
    let a := handle C (.move (some i) (some p) idx) (history C rs {})
    NoCycle a.1 ↔ ¬ (a.2 = .ok ∧ i = p ∧ p ≠ 0) :=
  move_exact (history_inv3 rs init_inv3 h) i p idx

/-! ## Replacing -/

/-- The links of the result. -/
theorem edges {s a : St} {i j : Id} {q : Option Id} (h : ReplacedBy s a i j q) (x : Id) (hx : x ≠ i) :
    x = j ∨ (x ∈ kids s i ∧ parentOf a x = some j) ∨ (x ∉ kids s i ∧ parentOf a x = parentOf s x) := by
  by_cases hj : x = j
  · exact Or.inl hj
  by_cases hk : x ∈ kids s i
  · exact Or.inr (Or.inl ⟨hk, h.down x hk hj⟩)
  · exact Or.inr (Or.inr ⟨hk, h.keep x hx hj hk⟩)

/-- A node of the result is not the old one. -/
theorem ne_old {s a : St} {i j x m : Id} {q : Option Id} (va : Inv C a) (h : ReplacedBy s a i j q) (hx : x ∈ kids a m) : x ≠ i := by
  rintro rfl
  obtain ⟨_, c, hc⟩ := kids_exists va hx
  have := h.spec x
  rw [if_pos rfl, specOf_reg va.basic.dict hc] at this
  cases this

/-- A way down in the result is one in the old tree, or it passes the new node. -/
theorem way {s a : St} {i j : Id} {q : Option Id} (vs : Inv C s) (va : Inv C a) (h : ReplacedBy s a i j q) {k x : Id} (hb : Below a k x) :
    Below s k x ∨ ((k = j ∨ Below a k j) ∧ (x = j ∨ Below a j x)) := by
  induction hb with
  | @child x hx =>
    have hp := (mem_kids_iff va).1 hx
    rcases edges h x (ne_old va h hx) with e | ⟨_, e⟩ | ⟨_, e⟩
    · subst e; exact Or.inr ⟨Or.inr (.child hx), Or.inl rfl⟩
    · rw [e] at hp
      cases hp
      exact Or.inr ⟨Or.inl rfl, Or.inr (.child hx)⟩
    · exact Or.inl (.child ((mem_kids_iff vs).2 (by rw [← e]; exact hp)))
  | @deeper y x hy hx ih =>
    rcases ih with ih | ⟨h1, h2⟩
    · have hp := (mem_kids_iff va).1 hx
      rcases edges h x (ne_old va h hx) with e | ⟨_, e⟩ | ⟨_, e⟩
      · subst e; exact Or.inr ⟨Or.inr (.deeper hy hx), Or.inl rfl⟩
      · rw [e] at hp
        cases hp
        exact Or.inr ⟨Or.inr hy, Or.inr (.child hx)⟩
      · exact Or.inl (.deeper ih ((mem_kids_iff vs).2 (by rw [← e]; exact hp)))
    · refine Or.inr ⟨h1, Or.inr ?_⟩
      rcases h2 with rfl | h2
      · exact .child hx
      · exact .deeper h2 hx

/-- Above a place whose links are kept, the ways are the old ones. -/
theorem above_kept {s a : St} {i j : Id} {q : Option Id} (vs : Inv C s) (va : Inv C a) (P : Id → Prop)
    (hup : ∀ x y, P x → x ∈ kids s y → P y) (hkeep : ∀ x, P x → x ≠ i → parentOf a x = parentOf s x) (h : ReplacedBy s a i j q)
    {m x : Id} (hb : Below a m x) : P x → Below s m x := by
  induction hb with
  | @child x hx =>
    intro hP
    refine .child ((mem_kids_iff vs).2 ?_)
    rw [← hkeep x hP (ne_old va h hx)]
    exact (mem_kids_iff va).1 hx
  | @deeper y x _ hx ih =>
    intro hP
    have hx' : x ∈ kids s y := (mem_kids_iff vs).2 (by rw [← hkeep x hP (ne_old va h hx)]; exact (mem_kids_iff va).1 hx)
    exact .deeper (ih (hup x y hP hx')) hx'

theorem replaced_exact {s a : St} {i j : Id} (v : Inv2 C s) (va : Inv C a) (hij : i ≠ j) (hnot : ¬ Below s j i)
    (h : ReplacedBy s a i j (parentOf s i)) :
    NoCycle a ↔ (parentOf s i ≠ none ∨ ∀ c ∈ kids s i, ¬ Below s c j) := by
  have vs := v.toInv
  rw [noCycle_iff va]
  constructor
  · intro hno
    by_cases hq : parentOf s i = none
    · refine Or.inr fun c hc hcj => hno j ?_
      have hcj' : c ≠ j := by rintro rfl; exact no_below_self v c hcj
      have hci : ∀ x, Below s c x → x ≠ i := by
        rintro x hx rfl
        exact no_below_self v x (Below.head hc hx)
      have hcne : c ≠ i := by rintro rfl; exact no_below_self v c (.child hc)
      have hca : c ∈ kids a j := by
        rw [h.new]
        exact List.mem_append.2 (Or.inr (List.mem_filter.2 ⟨hc, by simpa using hcj'⟩))
      have hsame : ∀ k, k ≠ i → k ≠ j → kids a k = kids s k := fun k h1 h2 => by
        rw [h.other k h1 h2 (by rw [hq]; simp), if_pos hq]
      have key : ∀ x, Below s c x → Below a j x := by
        intro x hx
        induction hx with
        | child hx => exact .deeper (.child hca) (by rw [hsame c hcne hcj']; exact hx)
        | @deeper m x hm hx ih =>
          by_cases e : m = j
          · subst e
            exact .child (by rw [h.new]; exact List.mem_append.2 (Or.inl hx))
          · exact .deeper ih (by rw [hsame m (hci m hm) e]; exact hx)
      exact key j hcj
    · exact Or.inl hq
  · intro hH
    have hjj : ¬ Below a j j := by
      cases hq : parentOf s i with
      | some q =>
        intro hb
        have hiq : i ∈ kids s q := (mem_kids_iff vs).2 hq
        have hup : ∀ x y, Below s x i → x ∈ kids s y → Below s y i := fun x y hx hxy => Below.head hxy hx
        have hkeep : ∀ x, Below s x i → x ≠ i → parentOf a x = parentOf s x := by
          intro x hx hxi
          rcases edges h x hxi with e | ⟨e, _⟩ | ⟨_, e⟩
          · subst e; exact absurd hx hnot
          · exact absurd (Below.head e hx) (no_below_self v i)
          · exact e
        have hup' := h.up q hq
        cases hb with
        | child hx =>
          have := (mem_kids_iff va).1 hx
          rw [hup'] at this
          cases this
          exact hnot (.child hiq)
        | @deeper y _ hy hx =>
          have := (mem_kids_iff va).1 hx
          rw [hup'] at this
          cases this
          exact hnot (.deeper (above_kept vs va (fun x => Below s x i) hup hkeep h hy (.child hiq)) hiq)
      | none =>
        have hc := hH.resolve_left (by rw [hq]; simp)
        intro hb
        by_cases hji : j ∈ kids s i
        · have htop := h.top hq
          rw [if_pos hji] at htop
          cases hb with
          | child hx => rw [(mem_kids_iff va).1 hx] at htop; cases htop
          | deeper _ hx => rw [(mem_kids_iff va).1 hx] at htop; cases htop
        · have htop := h.top hq
          rw [if_neg hji] at htop
          refine no_below_self v j (above_kept vs va (fun x => x = j ∨ Below s x j) ?_ ?_ h hb (Or.inl rfl))
          · rintro x y (rfl | hx) hxy
            · exact Or.inr (.child hxy)
            · exact Or.inr (Below.head hxy hx)
          · rintro x (rfl | hx) hxi
            · exact htop
            · rcases edges h x hxi with e | ⟨e, _⟩ | ⟨_, e⟩
              · subst e; exact htop
              · exact absurd hx (hc x e)
              · exact e
    intro k hk
    rcases way vs va h hk with hb | ⟨h1, h2⟩
    · exact no_below_self v k hb
    · rcases h1 with rfl | h1
      · exact hjj hk
      · rcases h2 with rfl | h2
        · exact hjj hk
        · exact hjj (Below.trans h2 h1)

/-- An accepted replacement by the parent makes the parent its own parent. -/
theorem replace_parent {s : St} (v : Inv2 C s) {i j : Id} (hp : parentOf s i = some j) (h0 : j ≠ 0)
    (hok : (handle C (.replace (some i) (some j)) s).2 = .ok) : ¬ NoCycle (handle C (.replace (some i) (some j)) s).1 := by
  have d := v.basic.dict
  have e1 : (handle C (.replace (some i) (some j)) s).1 = sync (replaceNode s (some i) (some j)).1 := rfl
  have e2 : (handle C (.replace (some i) (some j)) s).2 = (replaceNode s (some i) (some j)).2 := rfl
  rw [e2] at hok
  rw [e1]
  show ¬ NoCycle (replaceNode s (some i) (some j)).1
  revert hok
  unfold replaceNode
  dsimp only
  split
  · intro h; cases h
  · intro h; cases h
  · rename_i ro rn hro hrn
    have hRo := reg_of_get hro
    have hRn := reg_of_get hrn
    have hpar : (s.heap ro).parent = some rn := by
      rw [parentOf_reg d (dictGet_mem hro)] at hp
      cases hq : (s.heap ro).parent with
      | none => rw [hq] at hp; cases hp
      | some q =>
        rw [hq, Option.map_some] at hp
        have hQ := (v.links.up ro hRo q hq).1
        rw [d.inj hQ hRn ((Option.some.inj hp).trans (d.key _ _ (dictGet_mem hrn)).symm)]
    split
    · intro h; cases h
    · have rl := moveChildren_relink ro rn (some (s.heap rn).nid) (s.childIds ro) s
      have v1 : Inv C (moveChildren ro rn (some (s.heap rn).nid) (s.childIds ro) s).1 :=
        v.toInv.relink rl (moveChildren_links ro rn _ _ s v.links hRo hRn)
      split
      · intro h; cases h
      · have v2 : Inv C (edit (removeNode · (some (s.heap ro).nid) true) (moveChildren ro rn (some (s.heap rn).nid) (s.childIds ro) s).1).1 :=
          sync_inv (removeNode_inv (some (s.heap ro).nid) true v1)
        have hnid : ∀ x, ((edit (removeNode · (some (s.heap ro).nid) true) (moveChildren ro rn (some (s.heap rn).nid) (s.childIds ro) s).1).1.heap x).nid
            = (s.heap x).nid := by
          intro x
          have : ∀ t : St, ((edit (removeNode · (some (s.heap ro).nid) true) t).1.heap x).nid = (t.heap x).nid := by
            intro t
            show ((removeNode t (some (s.heap ro).nid) true).1.heap x).nid = _
            unfold removeNode
            dsimp only
            split
            · rfl
            · exact dropNodes_nid _ _ x
          rw [this, rl.same.nid]
        split
        · rename_i s2 h2
          rw [h2] at v2 hnid
          rw [hpar]
          dsimp only
          rw [hnid, d.key _ _ (dictGet_mem hrn)]
          intro hok
          exact self_move v2 h0 hok
        · rename_i s2 e hne h2
          intro hok
          exact absurd hok hne

/-- The requests to replace a node that C65 is about: by a node that is not above it and has room
for both families of children. -/
structure Fits (s : St) (i j : Id) (sp : Spec) : Prop where
  old : specOf s i ≠ none
  new : specOf s j = some sp
  ne : i ≠ j
  notAbove : ¬ Below s j i
  room : ∀ m, sp.max = some m → (kids s j).length + ((kids s i).filter (· ≠ j)).length ≤ m ∧ (kids s i).length ≤ m
  proper : parentOf s i ≠ some 0

theorem replace_exact {s : St} (v : Inv3 C s) {i j : Id} {sp : Spec} (f : Fits s i j sp) :
    NoCycle (handle C (.replace (some i) (some j)) s).1 ↔ (parentOf s i ≠ none ∨ ∀ c ∈ kids s i, ¬ Below s c j) :=
  replaced_exact v.toInv2 (handle_inv (.replace (some i) (some j)) v.toInv trivial) f.ne f.notAbove
    (replace_spec v f.old f.new f.ne f.notAbove (fun m hm => (f.room m hm).1) (fun m hm => (f.room m hm).2) f.proper).2

/-- **C30.** After any history of careful requests, the replacement of a node by one that is not above it and has
room leaves a cycle exactly if the old node has no parent and the new one is further below it than its children. -/
theorem c30_replace_exact (rs : List Req) (h : Along C Req.Careful rs {}) (i j : Id) (sp : Spec) (f : Fits (history C rs {}) i j sp) :
    NoCycle (handle C (.replace (some i) (some j)) (history C rs {})).1 ↔
      (parentOf (history C rs {}) i ≠ none ∨ ∀ c ∈ kids (history C rs {}) i, ¬ Below (history C rs {}) c j) :=
  replace_exact (history_inv3 rs init_inv3 h) f

/-- **C30.** The same for all pairs of nodes, if the new node has room and the request is accepted: there is a
cycle exactly if the new node is the parent of the old one, or if the old one has no parent and the new one is further
below it than its children. -/
theorem c30_replace_all (rs : List Req) (h : Along C Req.Careful rs {}) (i j : Id) (sp : Spec) :
    let s := history C rs {}
    let a := handle C (.replace (some i) (some j)) s
    specOf s i ≠ none → specOf s j = some sp →
    (∀ m, sp.max = some m → (kids s j).length + ((kids s i).filter (· ≠ j)).length ≤ m ∧ (kids s i).length ≤ m) →
    parentOf s i ≠ some 0 → a.2 = .ok →
    (NoCycle a.1 ↔ parentOf s i ≠ some j ∧ (parentOf s i ≠ none ∨ ∀ c ∈ kids s i, ¬ Below s c j)) := by
  intro s a h1 h2 h3 h4 h5
  have v : Inv3 C s := history_inv3 rs init_inv3 h
  by_cases hp : parentOf s i = some j
  · have h0 : j ≠ 0 := by rintro rfl; exact h4 hp
    exact ⟨fun hn => absurd hn (replace_parent v.toInv2 hp h0 h5), fun hn => absurd hp hn.1⟩
  by_cases hb : i ≠ j ∧ ¬ Below s j i
  · rw [replace_exact v ⟨h1, h2, hb.1, hb.2, h3, h4⟩]
    exact ⟨fun h => ⟨hp, h⟩, fun h => h.2⟩
  · have hji : i = j ∨ Below s j i := by
      by_cases e : i = j
      · exact Or.inl e
      · exact Or.inr (Classical.byContradiction fun hn => hb ⟨e, hn⟩)
    have hno : ∀ c ∈ kids s i, ¬ Below s c j := by
      intro c hc hcj
      rcases hji with rfl | hji
      · exact no_below_self v.toInv2 i (Below.head hc hcj)
      · exact no_below_self v.toInv2 i (Below.trans (Below.head hc hcj) hji)
    refine ⟨fun _ => ⟨hp, Or.inr hno⟩, fun _ => (handle_inv3 (.replace (some i) (some j)) v ?_).acyc⟩
    intro ro rn hro hrn
    have d := v.basic.dict
    refine ⟨fun hq => hp (by rw [parentOf_reg d hro, hq, Option.map_some, d.key _ _ hrn]), fun c hc _ hab => ?_⟩
    obtain ⟨⟨k, hk⟩, _⟩ := v.links.down ro ⟨i, hro⟩ c hc
    have hki : k ∈ kids s i := by
      rw [kids_reg d hro]
      exact List.mem_map.2 ⟨c, hc, d.key _ _ hk⟩
    exact hno k hki ((below_iff v.toInv hk).2 ⟨rn, hrn, hab⟩)

/-! ## Loading -/

/-- The child lists of a message lead from one node to another. -/
inductive Leads (L : Listing) (i : Id) : Id → Prop
  | child {x : Id × Spec × List Id} {c : Id} : x ∈ L → x.1 = i → c ∈ x.2.2 → Leads L i c
  | deeper {x : Id × Spec × List Id} {c : Id} : Leads L i x.1 → x ∈ L → c ∈ x.2.2 → Leads L i c

theorem listed_msgs (L : Listing) (ws : List Wiring) : ({ nodes := L.msgs, wirings := ws } : TreeMsg).listed = L.flatMap (·.2.2) := by
  unfold TreeMsg.listed Listing.msgs
  induction L with
  | nil => rfl
  | cons x L ih =>
    simp only [List.map_cons, List.flatMap_cons, List.filterMap_append] at ih ⊢
    rw [ih]
    congr 1
    rw [List.filterMap_map]
    exact List.filterMap_some

/-- **C30.** A message in which everything is in order but the direction of the child lists is accepted, and leaves
a cycle exactly if its child lists have one. -/
theorem c30_load_exact (rs : List Req) (h : Along C Req.Careful rs {}) (L : Listing) (hL : L.Fine) (ws : List Wiring)
    (hw : ∀ w ∈ ws, L.Wired C w) :
    let a := handle C (.load (some { nodes := L.msgs, wirings := ws })) (history C rs {})
    a.2 = .ok ∧ (NoCycle a.1 ↔ ∀ i, ¬ Leads L i i) := by
  intro a
  obtain ⟨h1, _, h3, h4, _⟩ := c37_load (C := C) L hL ws hw (history C rs {})
  refine ⟨h1, ?_⟩
  have va : Inv C a.1 := handle_inv (.load (some { nodes := L.msgs, wirings := ws })) (history_inv3 rs init_inv3 h).toInv
    (show List.Nodup _ by rw [listed_msgs]; exact hL.once)
  rw [noCycle_iff va]
  have hmem : ∀ i c, c ∈ kids a.1 i → ∃ x ∈ L, x.1 = i ∧ c ∈ x.2.2 := by
    intro i c hc
    by_cases hi : i ∈ L.map (·.1)
    · obtain ⟨x, hx, rfl⟩ := List.mem_map.1 hi
      exact ⟨x, hx, rfl, by rw [← (h3 x hx).2.1]; exact hc⟩
    · rw [(h4 i hi).2] at hc
      cases hc
  have hiff : ∀ i j, Below a.1 i j ↔ Leads L i j := by
    intro i j
    constructor
    · intro hb
      induction hb with
      | child hc =>
        obtain ⟨x, hx, hi, hc⟩ := hmem _ _ hc
        exact .child hx hi hc
      | deeper _ hc ih =>
        obtain ⟨x, hx, hi, hc⟩ := hmem _ _ hc
        exact .deeper (by rw [hi]; exact ih) hx hc
    · intro hl
      induction hl with
      | @child x c hx hi hc => exact .child (by rw [← hi]; exact (by rw [(h3 x hx).2.1]; exact hc : c ∈ kids a.1 x.1))
      | @deeper x c _ hx hc ih => exact .deeper ih (by rw [(h3 x hx).2.1]; exact hc : c ∈ kids a.1 x.1)
  exact ⟨fun hn i hl => hn i ((hiff i i).2 hl), fun hn i hb => hn i ((hiff i i).1 hb)⟩

/-! ## Histories -/

/-- Careful, or a replacement of a node with a parent by any node that fits. -/
def Wary (r : Req) (s : St) : Prop :=
  r.Careful s ∨ ∃ i j sp, r = .replace (some i) (some j) ∧ Fits s i j sp ∧ parentOf s i ≠ none

theorem handle_wary {s : St} (r : Req) (v : Inv3 C s) (h : Wary r s) : Inv3 C (handle C r s).1 := by
  rcases h with h | ⟨i, j, sp, rfl, f, hp⟩
  · exact handle_inv3 r v h
  · have vi := handle_inv (.replace (some i) (some j)) v.toInv trivial
    exact ⟨⟨vi, (replace_exact v f).2 (Or.inl hp)⟩,
      sync_synced (Dict.same (s := (handle C (.replace (some i) (some j)) s).1) ⟨rfl, rfl, rfl, fun _ => rfl, fun _ => rfl⟩ vi.basic.dict)⟩

theorem history_wary {s : St} (rs : List Req) (v : Inv3 C s) (h : Along C Wary rs s) : Inv3 C (history C rs s) := by
  induction rs generalizing s with
  | nil => exact v
  | cons r rs ih => exact ih (handle_wary r v h.1) h.2

/-- **C30.** No history of wary requests creates a cycle: a node that has a parent may also be replaced by a node
further below it. -/
theorem c30_histories_partial (rs : List Req) (h : Along C Wary rs {}) : NoCycle (history C rs {}) :=
  (history_wary rs init_inv3 h).acyc

/-! ## Examples -/

/-- The chain 1, 2, 3, 4 of Sequences. -/
def chain : List Req :=
  [.add 1 (some exSeq) (some 0) (-1) [], .add 2 (some exSeq) (some 1) (-1) [], .add 3 (some exSeq) (some 2) (-1) [],
   .add 4 (some exSeq) (some 3) (-1) []]

theorem chain_careful : Along exC Req.Careful chain {} :=
  ⟨⟨by decide +kernel, by decide⟩, ⟨by decide +kernel, by decide⟩,
    ⟨by decide +kernel, by decide⟩, ⟨by decide +kernel, by decide⟩, trivial⟩

theorem nothing_below {s : St} {i : Id} (h : kids s i = []) (k : Id) : ¬ Below s i k := by
  intro hb
  induction hb with
  | child hx => rw [h] at hx; cases hx
  | deeper _ _ ih => exact ih

/-- Node 2 may be replaced by node 4, although 4 is below 3 which becomes a child of 4. -/
theorem chain_fits : Fits (history exC chain {}) 2 4 exSeq :=
  ⟨by decide +kernel, by decide +kernel, by decide, nothing_below (by decide +kernel) 2,
    (fun m hm => by cases hm), by decide +kernel⟩

example : parentOf (history exC chain {}) 2 ≠ none ∧ 3 ∈ kids (history exC chain {}) 2 ∧ 4 ∈ kids (history exC chain {}) 3 ∧
    (handle exC (.replace (some 2) (some 4)) (history exC chain {})).1.adj = [(1, [4]), (3, []), (4, [3])] := by decide +kernel

/-- This history is not careful, but wary. -/
example : Along exC Wary (chain ++ [.replace (some 2) (some 4)]) {} ∧
    ¬ Req.Careful (.replace (some 2) (some 4)) (history exC chain {}) := by
  have h := chain_careful
  refine ⟨⟨Or.inl h.1, Or.inl h.2.1, Or.inl h.2.2.1, Or.inl h.2.2.2.1, Or.inr ⟨2, 4, exSeq, rfl, chain_fits, by decide +kernel⟩, trivial⟩, ?_⟩
  intro hc
  exact (hc 1 3 (by decide +kernel) (by decide +kernel)).2 2 (by decide +kernel) (by decide) (.one (by decide +kernel))

/-- The root 1 may not be replaced by node 3. -/
example : Fits (history exC chain {}) 1 3 exSeq ∧ parentOf (history exC chain {}) 1 = none ∧ 2 ∈ kids (history exC chain {}) 1 ∧
    Below (history exC chain {}) 2 3 := by
  refine ⟨⟨by decide +kernel, by decide +kernel, by decide, ?_, (fun m hm => by cases hm), by decide +kernel⟩, by decide +kernel, by decide +kernel,
    .child (by decide +kernel)⟩
  have v := (history_inv3 chain init_inv3 chain_careful).toInv2
  intro hb
  exact no_below_self v 1 (Below.trans (.deeper (.child (j := 2) (by decide +kernel)) (by decide +kernel)) hb)

/-- Two messages that are in order, one of them with a cycle. -/
example : Listing.Fine [(1, exSeq, [2]), (2, exSeq, []), (3, exSeq, [4]), (4, exSeq, [3])] ∧
    Leads [(1, exSeq, [2]), (2, exSeq, []), (3, exSeq, [4]), (4, exSeq, [3])] 3 3 ∧
    Listing.Fine [(1, exSeq, [2]), (2, exSeq, [3]), (3, exSeq, [])] := by
  refine ⟨⟨by decide, by decide, by decide, by decide⟩, ?_, ⟨by decide, by decide, by decide, by decide⟩⟩
  exact .deeper (x := (4, exSeq, [3])) (.child (x := (3, exSeq, [4])) (by decide) rfl (by decide)) (by decide) (by decide)

end Verif.Edit.Exactly
