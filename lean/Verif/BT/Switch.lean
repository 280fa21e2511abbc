import Verif.BT.Config

/-!
# C17: NameSwitch and EnumSwitch
-/

set_option autoImplicit false

namespace Verif.BT

variable {N : Type}

/-! ### Specification -/

/-- Child `i` is the last child with its name. -/
def LastNamed (names : List Nat) (i : Nat) : Prop :=
  i < names.length ∧ ∀ j, i < j → j < names.length → names[j]? ≠ names[i]?

/-- Specification of a tick of a switch node that selects `key` and answers `s`, over children
with the given names. Nothing is called and the answer is FAILED if no child has the selected name.
Otherwise, after the possible resets, every child of another name is unticked exactly once (among
children of equal names: only the last one), and finally the last child of the selected name is ticked
and gives the answer. `st'`: states of the children afterwards. -/
def SwitchTick (names : List Nat) (key : Option Nat) (prev : BTState) (l : List Call) (s : BTState)
    (st' : List BTState) : Prop :=
  if ∃ nm, key = some nm ∧ nm ∈ names then
    ∃ j l₀ l₁, key = names[j]? ∧ LastNamed names j ∧ l = l₀ ++ l₁ ++ [⟨.tick, j, .ok s⟩] ∧
      Resets (finished prev) names.length l₀ ∧
      (∀ c ∈ l₁, c.op = .untick ∧ c.res.isOk = true) ∧
      (l₁.map (·.child)).Nodup ∧
      (∀ i, i ∈ l₁.map (·.child) ↔ names[i]? ≠ key ∧ LastNamed names i) ∧
      (∀ (i : Nat) (a : BTState), names[i]? ≠ key → LastNamed names i → st'[i]? = some a →
        a = .idle ∨ a = .paused)
  else s = .failed ∧ l = []

/-! ### The child map -/

theorem snoc_induction {α : Type} {P : List α → Prop} (nil : P [])
    (append_singleton : ∀ l a, P l → P (l ++ [a])) (l : List α) : P l := by
  have : ∀ l : List α, P l.reverse := by
    intro l
    induction l with
    | nil => exact nil
    | cons a l ih => rw [List.reverse_cons]; exact append_singleton _ _ ih
  simpa using this l.reverse

theorem dictInsert_keys (d : List (Nat × Nat)) (k v : Nat) (h : (d.map (·.1)).Nodup) :
    ((dictInsert d k v).map (·.1)).Nodup ∧
    ∀ a b, (a, b) ∈ dictInsert d k v ↔ (a = k ∧ b = v) ∨ (a ≠ k ∧ (a, b) ∈ d) := by
  induction d with
  | nil => simp [dictInsert]
  | cons p d ih =>
    obtain ⟨k', v'⟩ := p
    simp only [List.map_cons, List.nodup_cons, List.mem_map, Prod.exists, exists_and_right,
      exists_eq_right, not_exists] at h
    obtain ⟨h1, h2⟩ := h
    obtain ⟨ih1, ih2⟩ := ih h2
    simp only [dictInsert]
    split
    · rename_i hk
      subst hk
      refine ⟨by simpa using ⟨h1, h2⟩, ?_⟩
      intro a b
      simp only [List.mem_cons, Prod.mk.injEq]
      constructor
      · rintro (h | h)
        · exact Or.inl h
        · exact Or.inr ⟨fun e => h1 b (e ▸ h), Or.inr h⟩
      · rintro (h | ⟨h, h' | h'⟩)
        · exact Or.inl h
        · exact absurd h'.1 h
        · exact Or.inr h'
    · rename_i hk
      refine ⟨?_, ?_⟩
      · simp only [List.map_cons, List.nodup_cons, List.mem_map, Prod.exists, exists_and_right,
          exists_eq_right, not_exists]
        refine ⟨?_, ih1⟩
        intro x hx
        rcases (ih2 k' x).1 hx with ⟨e, _⟩ | ⟨_, h⟩
        · exact hk e
        · exact h1 x h
      · intro a b
        simp only [List.mem_cons, Prod.mk.injEq, ih2]
        constructor
        · rintro (⟨rfl, rfl⟩ | h | ⟨h, h'⟩)
          · exact Or.inr ⟨hk, Or.inl ⟨rfl, rfl⟩⟩
          · exact Or.inl h
          · exact Or.inr ⟨h, Or.inr h'⟩
        · rintro (h | ⟨h, h' | h'⟩)
          · exact Or.inr (Or.inl h)
          · exact Or.inl h'
          · exact Or.inr (Or.inr ⟨h, h'⟩)

theorem buildMap_append (names : List Nat) (x : Nat) :
    buildMap (names ++ [x]) = dictInsert (buildMap names) x names.length := by
  simp [buildMap, List.zipIdx_append]

theorem buildMap_spec (names : List Nat) :
    ((buildMap names).map (·.1)).Nodup ∧
    ∀ a b, (a, b) ∈ buildMap names ↔ names[b]? = some a ∧ LastNamed names b := by
  induction names using snoc_induction with
  | nil => simp [buildMap]
  | append_singleton names x ih =>
    rw [buildMap_append]
    obtain ⟨h1, h2⟩ := dictInsert_keys (buildMap names) x names.length ih.1
    refine ⟨h1, ?_⟩
    intro a b
    rw [h2, ih.2]
    simp only [LastNamed, List.length_append, List.length_singleton]
    constructor
    · rintro (⟨rfl, rfl⟩ | ⟨hne, h, hlt, hl⟩)
      · exact ⟨by simp, by omega, fun j h1 h2 => by omega⟩
      · refine ⟨by rw [List.getElem?_append_left hlt]; exact h, by omega, ?_⟩
        intro j hj hj'
        rw [List.getElem?_append_left hlt]
        by_cases hjn : j < names.length
        · rw [List.getElem?_append_left hjn]
          exact hl j hj hjn
        · have : j = names.length := by omega
          subst this
          simp only [List.getElem?_concat_length]
          rw [h]
          intro e
          exact hne (Option.some.inj e).symm
    · rintro ⟨h, hlt, hl⟩
      by_cases hb : b = names.length
      · subst hb
        simp only [List.getElem?_concat_length, Option.some.injEq] at h
        exact Or.inl ⟨h.symm, rfl⟩
      · have hlt' : b < names.length := by omega
        rw [List.getElem?_append_left hlt'] at h hl
        refine Or.inr ⟨?_, h, hlt', ?_⟩
        · have := hl names.length hlt' (by omega)
          simp only [List.getElem?_concat_length, h, ne_eq, Option.some.injEq] at this
          exact fun e => this e.symm
        · intro j hj hj'
          have := hl j hj (by omega)
          rwa [List.getElem?_append_left hj'] at this

theorem dictGet_eq (d : List (Nat × Nat)) (h : (d.map (·.1)).Nodup) (k j : Nat) :
    dictGet d k = some j ↔ (k, j) ∈ d := by
  induction d with
  | nil => simp [dictGet]
  | cons p d ih =>
    obtain ⟨k', v'⟩ := p
    simp only [List.map_cons, List.nodup_cons, List.mem_map, Prod.exists, exists_and_right,
      exists_eq_right, not_exists] at h
    by_cases hk : k' = k
    · subst hk
      simp only [dictGet, List.find?_cons, decide_true, Option.map_some, Option.some.injEq,
        List.mem_cons, Prod.mk.injEq, true_and]
      constructor
      · intro e; exact Or.inl e.symm
      · rintro (e | e)
        · exact e.symm
        · exact absurd e (h.1 j)
    · have := ih h.2
      simp only [dictGet] at this ⊢
      simp only [List.find?_cons, hk, decide_false, this, List.mem_cons, Prod.mk.injEq]
      constructor
      · exact Or.inr
      · rintro (e | e)
        · exact absurd e.1.symm hk
        · exact e

/-- The names present are the keys. -/
theorem exists_last (names : List Nat) (nm : Nat) (h : nm ∈ names) :
    ∃ j, names[j]? = some nm ∧ LastNamed names j := by
  induction names using snoc_induction with
  | nil => cases h
  | append_singleton names x ih =>
    by_cases hx : x = nm
    · subst hx
      refine ⟨names.length, by simp, by simp, ?_⟩
      intro j h1 h2
      simp at h2
      omega
    · have hm : nm ∈ names := by
        rcases List.mem_append.1 h with h | h
        · exact h
        · exact absurd (List.mem_singleton.1 h).symm hx
      obtain ⟨j, hj, hlt, hl⟩ := ih hm
      refine ⟨j, by rw [List.getElem?_append_left hlt]; exact hj, by simp; omega, ?_⟩
      intro i hi hi'
      rw [List.getElem?_append_left hlt]
      by_cases hin : i < names.length
      · rw [List.getElem?_append_left hin]; exact hl i hi hin
      · have : i = names.length := by simp at hi'; omega
        subst this
        simp only [List.getElem?_concat_length]
        rw [hj]
        intro e
        exact hx (Option.some.inj e)

/-! ### The loop over the map -/

theorem postS_untickOthers (m : Mem) (nm : Nat) (k : Prog) (d : List (Nat × Nat)) :
    ∀ (P : PostCond) (st : List BTState), (∀ p ∈ d, p.2 < st.length) →
    (∀ st' l, (∃ c ∈ l, c.res = .err) → P st' l m .err) →
    (∀ st' l, st'.length = st.length →
      l.map (fun c => (c.op, c.child)) =
        (d.filter (fun p => p.1 ≠ nm)).map (fun p => (Op.untick, p.2)) →
      (∀ c ∈ l, c.res.isOk = true) →
      (∀ (i : Nat) (a : BTState), i ∈ (d.filter (fun p => p.1 ≠ nm)).map (·.2) → st'[i]? = some a →
        a = .idle ∨ a = .paused) →
      (∀ i, i ∉ (d.filter (fun p => p.1 ≠ nm)).map (·.2) → st'[i]? = st[i]?) →
      k.PostS (fun st'' l' => P st'' (l ++ l')) st') →
    (Prog.untickOthers m nm d k).PostS P st := by
  induction d with
  | nil =>
    intro P st _ _ hk
    exact hk st [] rfl rfl (by simp) (by simp) (fun _ _ => rfl)
  | cons p d ih =>
    obtain ⟨a, j⟩ := p
    intro P st hb he hk
    simp only [Prog.untickOthers]
    split
    · rename_i ha
      have hf : (List.filter (fun p : Nat × Nat => decide (p.1 ≠ nm)) ((a, j) :: d)) =
          d.filter (fun p => p.1 ≠ nm) := by simp [ha]
      rw [hf] at hk
      exact ih P st (fun p hp => hb p (by simp [hp])) he hk
    · rename_i ha
      have hf : (List.filter (fun p : Nat × Nat => decide (p.1 ≠ nm)) ((a, j) :: d)) =
          (a, j) :: d.filter (fun p => p.1 ≠ nm) := by simp [ha]
      rw [hf] at hk
      have hj : j < st.length := hb (a, j) (by simp)
      refine ⟨hj, fun r s' hs => ?_⟩
      cases r with
      | err => exact he _ _ ⟨_, List.mem_singleton.2 rfl, rfl⟩
      | ok s =>
        obtain ⟨rfl, hal⟩ := hs s rfl
        have hal' : s' = .idle ∨ s' = .paused := by simpa [allowedAfter] using hal
        apply ih
        · intro p hp; simp; exact hb p (by simp [hp])
        · intro st' l ⟨c, hc, h⟩; exact he _ _ ⟨c, by simp [hc], h⟩
        · intro st' l h1 h2 h3 h4 h5
          have := hk st' (⟨.untick, j, .ok s'⟩ :: l) (by simpa using h1) (by simp [h2]) (by
              intro c hc
              rcases List.mem_cons.1 hc with rfl | hc
              · rfl
              · exact h3 c hc)
            (by
              intro i b hi hb'
              by_cases hin : i ∈ (d.filter (fun p => p.1 ≠ nm)).map (·.2)
              · exact h4 i b hin hb'
              · rw [h5 i hin] at hb'
                rcases List.mem_cons.1 hi with e | e
                · simp only at e
                  subst e
                  rw [List.getElem?_set_self hj] at hb'
                  cases hb'
                  exact hal'
                · exact absurd e hin)
            (by
              intro i hi
              simp only [List.map_cons, List.mem_cons, not_or] at hi
              rw [h5 i hi.2, List.getElem?_set_ne (fun e => hi.1 e.symm)])
          simpa using this

/-- The tick hook of the switch nodes. -/
theorem switch_post (m : Mem) (names : List Nat) (e : Env) (prev : BTState) (st : List BTState)
    (hm : m.childMap = buildMap names) (hl : st.length = names.length) (k : Kind)
    (hk : k = .nameSwitch ∨ k = .enumSwitch) :
    (tickHook k prev m e names).PostS
      (fun st' l _ r => match r with
        | .ok s => SwitchTick names e.key prev l s st'
        | .err => e.cfgOk = true → ∃ c ∈ l, c.res = .err) st := by
  obtain ⟨hnd, hmem⟩ := buildMap_spec names
  have key : (tickHook .nameSwitch prev m e names).PostS
      (fun st' l _ r => match r with
        | .ok s => SwitchTick names e.key prev l s st'
        | .err => e.cfgOk = true → ∃ c ∈ l, c.res = .err) st := by
    simp only [tickHook]
    split
    · rename_i hc
      cases hkey : e.key with
      | none =>
        simp only [Prog.PostS, SwitchTick]
        rw [if_neg (by simp)]
        exact ⟨trivial, trivial⟩
      | some nm =>
        simp only [hm]
        cases hg : dictGet (buildMap names) nm with
        | none =>
          have hno : nm ∉ names := by
            intro hin
            obtain ⟨j, hj, hlast⟩ := exists_last names nm hin
            have := (dictGet_eq _ hnd nm j).2 ((hmem nm j).2 ⟨hj, hlast⟩)
            rw [hg] at this
            cases this
          simp only [Prog.PostS, SwitchTick]
          rw [if_neg (by simpa using hno)]
          exact ⟨trivial, trivial⟩
        | some j =>
          obtain ⟨hj, hlast⟩ := (hmem nm j).1 ((dictGet_eq _ hnd nm j).1 hg)
          have hin : nm ∈ names := List.mem_of_getElem? hj
          simp only
          apply postS_resetIfFinished _ _ _ _ _ _ hl
          · intro st' l h _; exact h
          · intro st1 l0 hl1 hres _ _
            apply postS_untickOthers
            · rintro ⟨a, b⟩ hp
              rw [hl1]
              exact ((hmem a b).1 hp).2.1
            · intro st' l ⟨c, hc', h⟩ _
              exact ⟨c, by simp [hc'], h⟩
            · intro st2 l1 h1 h2 h3 h4 h5
              have hch : l1.map (·.child) = ((buildMap names).filter (fun p => p.1 ≠ nm)).map (·.2) := by
                have := congrArg (List.map (·.2)) h2
                simpa [List.map_map, Function.comp_def] using this
              have hop : ∀ c ∈ l1, c.op = .untick := by
                intro c hc'
                have : (c.op, c.child) ∈ l1.map (fun c => (c.op, c.child)) :=
                  List.mem_map.2 ⟨c, hc', rfl⟩
                rw [h2] at this
                obtain ⟨p, _, hp⟩ := List.mem_map.1 this
                exact (congrArg Prod.fst hp).symm
              have hiff : ∀ i, i ∈ ((buildMap names).filter (fun p => p.1 ≠ nm)).map (·.2) ↔
                  names[i]? ≠ some nm ∧ LastNamed names i := by
                intro i
                simp only [List.mem_map, List.mem_filter, Prod.exists, exists_eq_right]
                constructor
                · rintro ⟨a, ha, hne⟩
                  obtain ⟨ha1, ha2⟩ := (hmem a i).1 ha
                  refine ⟨?_, ha2⟩
                  rw [ha1]
                  simpa using hne
                · rintro ⟨hne, hla⟩
                  have hlt := hla.1
                  refine ⟨names[i], (hmem _ i).2 ⟨List.getElem?_eq_getElem hlt, hla⟩, ?_⟩
                  rw [List.getElem?_eq_getElem hlt] at hne
                  simpa using hne
              have hnodup : (((buildMap names).filter (fun p => p.1 ≠ nm)).map (·.2)).Nodup := by
                have hp : (buildMap names).Nodup := by
                  have := hnd
                  rw [List.Nodup, List.pairwise_map] at this
                  exact this.imp (fun h e => h (congrArg Prod.fst e))
                have hf := List.Pairwise.filter (fun p : Nat × Nat => decide (p.1 ≠ nm)) hp
                rw [List.Nodup, List.pairwise_map]
                refine List.Pairwise.imp_of_mem ?_ hf
                rintro ⟨a, b⟩ ⟨a', b'⟩ hin1 hin2 hne (heq : b = b')
                subst heq
                apply hne
                have e1 := ((hmem a b).1 (List.mem_filter.1 hin1).1).1
                have e2 := ((hmem a' b).1 (List.mem_filter.1 hin2).1).1
                rw [e1] at e2
                rw [Option.some.inj e2]
              refine ⟨by rw [h1, hl1]; exact hlast.1, fun r s' hs => ?_⟩
              cases r with
              | err =>
                intro _
                exact ⟨⟨.tick, j, .err⟩, by simp, rfl⟩
              | ok s =>
                simp only [Prog.PostS, SwitchTick]
                rw [if_pos ⟨nm, rfl, hin⟩]
                refine ⟨j, l0, l1, hj.symm, hlast, by simp, hres, fun c hc' => ⟨hop c hc', h3 c hc'⟩,
                  by rw [hch]; exact hnodup, fun i => by rw [hch]; exact hiff i, ?_⟩
                intro i a hne hla ha
                have hij : j ≠ i := by
                  rintro rfl
                  exact hne hj
                rw [List.getElem?_set_ne hij] at ha
                exact h4 i a ((hiff i).2 ⟨hne, hla⟩) ha
    · rename_i hc
      intro h
      exact absurd h hc
  rcases hk with rfl | rfl <;> exact key

theorem switch_setup (o : Ops N) (nd : Node N) (hk : nd.kind = .nameSwitch ∨ nd.kind = .enumSwitch)
    (h : (nd.run o .setup).res.isOk = true) :
    (nd.run o .setup).node.mem.childMap = buildMap (nd.children.map o.name) := by
  obtain ⟨s, hs⟩ : ∃ s, (nd.run o .setup).res = .ok s := by
    cases hr : (nd.run o .setup).res with
    | err => rw [hr] at h; simp at h
    | ok s => exact ⟨s, rfl⟩
  obtain ⟨x, hx, hr, hn, _, _⟩ := run_ok o .setup (by simp) nd s hs
  rw [hn]
  have := exec_post o (fun _ _ => True) (fun m _ =>
    m.childMap = buildMap (nd.children.map o.name)) (fun _ _ _ _ => trivial)
    (hookProg nd.kind .setup nd.state nd.mem (nd.env nd.ctr) (nd.children.map o.name)) nd.children
    (by rcases hk with hk | hk <;> rw [hk] <;> exact post_allThen _ _ _ _ rfl rfl)
  rw [← hx] at this
  exact this

theorem ops_name (n : Nat) (op : Op) (t : Tree n) : (ops n).name ((ops n).run op t).node = (ops n).name t := by
  cases n with
  | zero => exact Empty.elim t
  | succ n => exact (run_static (ops n) op t).2.1

theorem runs_names (n : Nat) (l : List Op) : ∀ t : Tree (n + 1),
    (rootChildren n (runs (ops (n + 1)) l t).2).map (ops n).name = (rootChildren n t).map (ops n).name := by
  induction l with
  | nil => intro t; rfl
  | cons op l ih =>
    intro t
    exact (ih ((ops (n + 1)).run op t).node).trans
      (run_children_map (ops n) (ops n).name (ops_name n) op t)

/-- **C17.** A NameSwitch or EnumSwitch is set up and then operated on in any way (other than being
set up again). A tick that then answers `Ok(s)` is a `SwitchTick` for the names of the children and the
selected name `key`. -/
theorem c17_switch (n : Nat) (t : Tree (n + 1))
    (hk : rootKind n t = .nameSwitch ∨ rootKind n t = .enumSwitch)
    (hset : ((ops (n + 1)).run .setup t).res.isOk = true) (rest : List Op) (hrest : Op.setup ∉ rest)
    (s : BTState) :
    let t' := (runs (ops (n + 1)) rest ((ops (n + 1)).run .setup t).node).2
    ((ops (n + 1)).run .tick t').res = .ok s →
    SwitchTick ((rootChildren n t).map (ops n).name) (nextEnv n t').key ((ops (n + 1)).state t')
      ((ops (n + 1)).run .tick t').log s
      ((rootChildren n ((ops (n + 1)).run .tick t').node).map (ops n).state) := by
  intro t' h
  have e1 := switch_setup (ops n) t hk hset
  have hkind := (run_static (ops n) .setup t).2.2.1
  obtain ⟨c1, c2, _⟩ := runs_cfg (ops n) rest hrest ((ops (n + 1)).run .setup t).node
  have hk' : Node.kind (N := Tree n) t' = rootKind n t := c2.trans hkind
  have hn : (Node.children (N := Tree n) t').map (ops n).name = (rootChildren n t).map (ops n).name :=
    (runs_names n rest _).trans (run_children_map (ops n) (ops n).name (ops_name n) .setup t)
  have hmap : (Node.mem (N := Tree n) t').childMap = buildMap ((rootChildren n t).map (ops n).name) :=
    (congrArg Cfg.childMap c1).trans e1
  refine (run_ok_post (ops n) (ops_sound n) .tick (by simp) t' s
    (fun st' l _ r => match r with
        | .ok s => SwitchTick ((rootChildren n t).map (ops n).name) (nextEnv n t').key
            ((ops (n + 1)).state t') l s st'
        | .err => (nextEnv n t').cfgOk = true → ∃ c ∈ l, c.res = .err) ?_ h).1
  rw [hk', hn]
  refine switch_post _ _ _ _ _ hmap ?_ _ hk
  have := congrArg List.length hn
  simp only [List.length_map] at this ⊢
  exact this

/-- **C17, distinct names.** If the names of the children are pairwise distinct, all children but the
selected one are unticked exactly once and are IDLE or PAUSED afterwards. -/
theorem c17_switch_distinct (n : Nat) (t : Tree (n + 1))
    (hk : rootKind n t = .nameSwitch ∨ rootKind n t = .enumSwitch)
    (hset : ((ops (n + 1)).run .setup t).res.isOk = true) (rest : List Op) (hrest : Op.setup ∉ rest)
    (hdist : ((rootChildren n t).map (ops n).name).Nodup) (s : BTState) (j : Nat) :
    let t' := (runs (ops (n + 1)) rest ((ops (n + 1)).run .setup t).node).2
    ((ops (n + 1)).run .tick t').res = .ok s →
    j < (rootChildren n t).length →
    (nextEnv n t').key = ((rootChildren n t).map (ops n).name)[j]? →
    let l := ((ops (n + 1)).run .tick t').log
    (l.filter (fun c => c.op = .tick)) = [⟨.tick, j, .ok s⟩] ∧
    (∀ i, i < (rootChildren n t).length → i ≠ j →
      ((l.filter (fun c => c.op = .untick)).map (·.child)).count i = 1) ∧
    (∀ i a, i ≠ j → ((rootChildren n ((ops (n + 1)).run .tick t').node).map (ops n).state)[i]? = some a →
        a = .idle ∨ a = .paused) := by
  intro t' h hj hkey l
  have hsw := c17_switch n t hk hset rest hrest s h
  generalize hnames : (rootChildren n t).map (ops n).name = names at *
  have hlen : names.length = (rootChildren n t).length := by rw [← hnames, List.length_map]
  have hlen' : (rootChildren n ((ops (n + 1)).run .tick t').node).length = (rootChildren n t).length := by
    have h1 := congrArg List.length (runs_names n (rest ++ [.tick]) ((ops (n + 1)).run .setup t).node)
    have h2 := congrArg List.length (run_children_map (ops n) (ops n).name (ops_name n) .setup t)
    have h3 : (rootChildren n ((ops (n + 1)).run .tick t').node).length =
      (rootChildren n t').length := (run_static (ops n) .tick t').2.2.2.2.2
    have h4 := congrArg List.length (runs_names n rest ((ops (n + 1)).run .setup t).node)
    simp only [List.length_map] at h2 h4
    exact h3.trans (h4.trans h2)
  have hjn : j < names.length := by omega
  rw [List.getElem?_eq_getElem hjn] at hkey
  have hlast : ∀ i, i < names.length → LastNamed names i := by
    intro i hi
    refine ⟨hi, ?_⟩
    intro k hk1 hk2 e
    rw [List.getElem?_eq_getElem hi, List.getElem?_eq_getElem hk2] at e
    have := (List.getElem_inj hdist).1 (Option.some.inj e)
    omega
  have hne : ∀ i, i < names.length → i ≠ j → names[i]? ≠ (nextEnv n t').key := by
    intro i hi hij e
    rw [hkey, List.getElem?_eq_getElem hi] at e
    exact hij ((List.getElem_inj hdist).1 (Option.some.inj e))
  unfold SwitchTick at hsw
  rw [if_pos ⟨names[j], hkey, List.getElem_mem hjn⟩] at hsw
  obtain ⟨j', l₀, l₁, hj', hlj', hl, hres, hun, hnd, hiff, hst⟩ := hsw
  have hjj : j' = j := by
    refine Decidable.byContradiction fun hc => ?_
    exact hne j' hlj'.1 hc hj'.symm
  subst hjj
  have hres_op : ∀ c ∈ l₀, c.op = .reset := by
    intro c hc
    unfold Resets at hres
    split at hres
    · have : (c.op, c.child) ∈ l₀.map (fun c => (c.op, c.child)) := List.mem_map.2 ⟨c, hc, rfl⟩
      rw [hres.1] at this
      obtain ⟨p, _, hp⟩ := List.mem_map.1 this
      exact (congrArg Prod.fst hp).symm
    · subst hres; cases hc
  have hl' : l = l₀ ++ l₁ ++ [⟨.tick, j', .ok s⟩] := hl
  have f1 : ∀ p : Call → Bool, (∀ c, c.op = .reset → p c = false) → l₀.filter p = [] := by
    intro p hp
    rw [List.filter_eq_nil_iff]
    intro c hc
    rw [hp c (hres_op c hc)]
    simp
  refine ⟨?_, ?_, ?_⟩
  · rw [hl', List.filter_append, List.filter_append, f1 _ (by intro c h; simp [h])]
    have : l₁.filter (fun c => decide (c.op = .tick)) = [] := by
      rw [List.filter_eq_nil_iff]
      intro c hc
      simp [(hun c hc).1]
    simp [this]
  · intro i hi hij
    rw [hl', List.filter_append, List.filter_append, f1 _ (by intro c h; simp [h])]
    have : l₁.filter (fun c => decide (c.op = .untick)) = l₁ := by
      rw [List.filter_eq_self]
      intro c hc
      simp [(hun c hc).1]
    rw [this]
    simp only [List.nil_append, List.map_append]
    have hmem := (hiff i).2 ⟨hne i (by omega) hij, hlast i (by omega)⟩
    simp
    rw [hnd.count, if_pos hmem]
  · intro i a hij ha
    have hi : i < names.length := by
      have := (List.getElem?_eq_some_iff.1 ha).1
      rw [List.length_map] at this
      omega
    exact hst i a (hne i hi hij) (hlast i hi) ha

/-- A NameSwitch over two children that selects child 3 first and child 2 afterwards. -/
def sampleSwitch : Tree 2 :=
  mk 1 1 .nameSwitch
    [mkLeaf 0 2 [.ok .idle, .ok .idle, .ok .succeeded],
     mkLeaf 0 3 [.ok .idle, .ok .running, .ok .idle]]
    (fun i => { key := if i = 1 then some 3 else some 2 })

example : rootKind 1 sampleSwitch = .nameSwitch ∧
    ((ops 2).run .setup sampleSwitch).res.isOk = true ∧
    ((rootChildren 1 sampleSwitch).map (ops 1).name).Nodup ∧
    let t' := (runs (ops 2) [.tick] ((ops 2).run .setup sampleSwitch).node).2
    ((ops 2).run .tick t').res = .ok .succeeded ∧
    ((ops 2).run .tick t').log = [⟨.untick, 1, .ok .idle⟩, ⟨.tick, 0, .ok .succeeded⟩] := by decide

/-- **An unknown name leaves the selected child running.** A NameSwitch answers FAILED for an unknown
name without touching the child it ticked before, which stays RUNNING (`fallback.py:64-66`). -/
theorem c17_unknown_name_leaves_running :
    ∃ t : Tree 2, rootKind 1 t = .nameSwitch ∧ Fresh 2 t ∧ WF 2 t ∧
      let r := runs (ops 2) [.setup, .tick, .tick] t
      r.1.map (·.res) = [.ok .idle, .ok .running, .ok .failed] ∧
      nodeStates 2 r.2 = [(1, .failed), (2, .running)] :=
  ⟨mk 1 1 .nameSwitch [mkLeaf 0 2 [.ok .idle, .ok .running]]
      (fun i => { key := if i = 1 then some 2 else some 7 }), by decide⟩

end Verif.BT
