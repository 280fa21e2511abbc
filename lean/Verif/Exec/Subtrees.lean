/-! C95: what is published about the trees in Subtree nodes (`subtree_manager.py`). Messages are numbers; node ids are numbers. -/

set_option autoImplicit false

namespace Verif.Exec.Subtrees

/-! ### Managers -/

/-- The three dicts of messages. -/
inductive Part
  | trees
  | states
  | data
  deriving DecidableEq

/-- A Python dict from node ids to messages, in the order of insertion. -/
abbrev Dict := List (Nat × Nat)

/-- subtree_manager.py 50-59: a manager without the nested ones. -/
structure Own where
  trees : Dict := []
  states : Dict := []
  data : Dict := []
  pubTrees : Bool := true
  pubData : Bool := false
  deriving DecidableEq

/-- subtree_manager.py 55: the dict of nested managers: an entry (its key, the manager itself, the dict of that manager) and the other entries. -/
inductive Kids
  | nil
  | cons (i : Nat) (o : Own) (k : Kids) (r : Kids)
  deriving DecidableEq

/-- A `SubtreeManager`. -/
structure Mgr where
  own : Own := {}
  kids : Kids := .nil
  deriving DecidableEq

/-- One of the dicts. -/
def Own.part (o : Own) : Part → Dict
  | .trees => o.trees
  | .states => o.states
  | .data => o.data

/-- Changes one of the dicts. -/
def Own.setPart (o : Own) (d : Dict) : Part → Own
  | .trees => { o with trees := d }
  | .states => { o with states := d }
  | .data => { o with data := d }

/-- `d[i] = x` -/
def put (i x : Nat) : Dict → Dict
  | [] => [(i, x)]
  | (j, y) :: r => if j = i then (i, x) :: r else (j, y) :: put i x r

/-- subtree_manager.py 142-145: `query_dict` -/
def drop (i : Nat) (d : Dict) : Dict := d.filter fun e => e.1 ≠ i

/-- The nested manager for a node. -/
def Kids.find (i : Nat) : Kids → Option Mgr
  | .nil => none
  | .cons j o k r => if j = i then some ⟨o, k⟩ else r.find i

/-- `d[i] = m` -/
def Kids.put (i : Nat) (m : Mgr) : Kids → Kids
  | .nil => .cons i m.own m.kids .nil
  | .cons j o k r => if j = i then .cons i m.own m.kids r else .cons j o k (r.put i m)

/-- subtree_manager.py 142-145: `query_dict` -/
def Kids.drop (i : Nat) : Kids → Kids
  | .nil => .nil
  | .cons j o k r => if j = i then r.drop i else .cons j o k (r.drop i)

/-- A change of the nested manager for a node. -/
def Kids.change (i : Nat) (f : Mgr → Mgr) : Kids → Kids
  | .nil => .nil
  | .cons j o k r => if j = i then .cons j (f ⟨o, k⟩).own (f ⟨o, k⟩).kids r else .cons j o k (r.change i f)

/-- subtree_manager.py 70-74: the setter of `publish_subtrees` for the managers in a dict. -/
def Kids.publish (b : Bool) : Kids → Kids
  | .nil => .nil
  | .cons j o k r => .cons j { o with pubTrees := b } (k.publish b) (r.publish b)

/-- subtree_manager.py 70-74: the setter of `publish_subtrees`. -/
def Mgr.publish (b : Bool) (m : Mgr) : Mgr := ⟨{ m.own with pubTrees := b }, m.kids.publish b⟩

/-- subtree_manager.py 80-84: `set_publish_data` for the managers in a dict. -/
def Kids.setData (b : Bool) : Kids → Kids
  | .nil => .nil
  | .cons j o k r => .cons j { o with pubData := b } (k.setData b) (r.setData b)

/-- subtree_manager.py 80-84: `set_publish_data` -/
def Mgr.setData (b : Bool) (m : Mgr) : Mgr := ⟨{ m.own with pubData := b }, m.kids.setData b⟩

/-- subtree_manager.py 86-111: `get_subtree_structures`, `get_subtree_states`, `get_subtree_data` of the managers in a dict. -/
def Kids.list (w : Part) : Kids → List Nat
  | .nil => []
  | .cons _ o k r => (if o.pubTrees then (o.part w).map (·.2) ++ k.list w else []) ++ r.list w

/-- subtree_manager.py 86-111: `get_subtree_structures`, `get_subtree_states`, `get_subtree_data` -/
def Mgr.list (w : Part) (m : Mgr) : List Nat := if m.own.pubTrees then (m.own.part w).map (·.2) ++ m.kids.list w else []

/-- subtree_manager.py 113-125: `add_subtree_structure`, `add_subtree_state`, `add_subtree_data` -/
def Mgr.add (w : Part) (i x : Nat) (m : Mgr) : Mgr := { m with own := m.own.setPart (Subtrees.put i x (m.own.part w)) w }

/-- subtree_manager.py 127-131: `add_nested_manager` -/
def Mgr.nest (i : Nat) (n : Mgr) (m : Mgr) : Mgr := { m with kids := m.kids.put i ((n.publish m.own.pubTrees).setData m.own.pubData) }

/-- subtree_manager.py 133-138: `clear_subtrees` -/
def Mgr.clear (m : Mgr) : Mgr := ⟨{ m.own with trees := [], states := [], data := [] }, .nil⟩

/-- subtree_manager.py 140-151: `remove_subtree` -/
def Mgr.remove (i : Nat) (m : Mgr) : Mgr :=
  ⟨{ m.own with trees := Subtrees.drop i m.own.trees, states := Subtrees.drop i m.own.states, data := Subtrees.drop i m.own.data }, m.kids.drop i⟩

/-- A call of a method of a nested manager, which is given by the nodes on the way to it. A manager that is not in the dicts can be called too, but that shows nowhere. -/
def Mgr.on : List Nat → (Mgr → Mgr) → Mgr → Mgr
  | [], f, m => f m
  | i :: p, f, m => { m with kids := m.kids.change i (Mgr.on p f) }

/-- All managers that can come about. The flags can be set in any manager before it is nested, and in the outermost one. -/
inductive Built : Mgr → Prop
  | fresh : Built {}
  | add (m : Mgr) (p : List Nat) (w : Part) (i x : Nat) : Built m → Built (m.on p (Mgr.add w i x))
  | clear (m : Mgr) (p : List Nat) : Built m → Built (m.on p Mgr.clear)
  | remove (m : Mgr) (p : List Nat) (i : Nat) : Built m → Built (m.on p (Mgr.remove i))
  | nest (m n : Mgr) (p : List Nat) (i : Nat) : Built m → Built n → Built (m.on p (Mgr.nest i n))
  | publish (m : Mgr) (b : Bool) : Built m → Built (m.publish b)
  | setData (m : Mgr) (b : Bool) : Built m → Built (m.setData b)

/-! ### What one sees -/

/-- The manager at the end of a way. -/
def Mgr.at : List Nat → Mgr → Option Mgr
  | [], m => some m
  | i :: p, m => (m.kids.find i).bind (Mgr.at p)

/-- The message for a node in the tree at the end of a way. -/
def Mgr.look (m : Mgr) (w : Part) (p : List Nat) (i : Nat) : Option Nat := (m.at p).bind fun n => (n.own.part w).lookup i

/-! ### Dicts -/

theorem lookup_put (i x : Nat) (d : Dict) (j : Nat) : (put i x d).lookup j = if j = i then some x else d.lookup j := by
  induction d with
  | nil =>
    simp only [put, List.lookup]
    by_cases h : j = i
    · simp [h]
    · have : (j == i) = false := by simpa using h
      simp [h, this]
  | cons e r ih =>
    obtain ⟨k, y⟩ := e
    simp only [put]
    split
    · rename_i hk
      subst hk
      by_cases h : j = k
      · simp [h]
      · have : (j == k) = false := by simpa using h
        simp [List.lookup, this, h]
    · rename_i hk
      by_cases h : j = k
      · subst h
        simp [List.lookup, hk]
      · have : (j == k) = false := by simpa using h
        simp only [List.lookup, this]
        exact ih

theorem lookup_drop (i : Nat) (d : Dict) (j : Nat) : (drop i d).lookup j = if j = i then none else d.lookup j := by
  unfold drop
  induction d with
  | nil => simp
  | cons e r ih =>
    obtain ⟨k, y⟩ := e
    by_cases hk : k = i
    · subst hk
      simp only [List.filter_cons, ne_eq, not_true, decide_false, Bool.false_eq_true, if_false]
      rw [ih]
      by_cases h : j = k
      · simp [h]
      · have : (j == k) = false := by simpa using h
        simp [List.lookup, this, h]
    · simp only [List.filter_cons, ne_eq, hk, not_false_eq_true, decide_true, if_true]
      by_cases h : j = k
      · subst h; simp [List.lookup, hk]
      · have : (j == k) = false := by simpa using h
        simp only [List.lookup, this]
        exact ih

theorem find_put (i : Nat) (m : Mgr) (k : Kids) (j : Nat) : (k.put i m).find j = if j = i then some m else k.find j := by
  induction k with
  | nil =>
    simp only [Kids.put, Kids.find]
    by_cases h : i = j
    · simp [h]
    · rw [if_neg h, if_neg (fun e => h e.symm)]
  | cons a o k r _ ih =>
    simp only [Kids.put]
    split
    · rename_i h
      subst h
      simp only [Kids.find]
      by_cases h : a = j
      · subst h; simp
      · rw [if_neg h, if_neg (fun e => h e.symm), if_neg h]
    · rename_i h
      simp only [Kids.find]
      by_cases h2 : a = j
      · subst h2; rw [if_pos rfl, if_neg h, if_pos rfl]
      · rw [if_neg h2, if_neg h2]; exact ih

theorem find_drop (i : Nat) (k : Kids) (j : Nat) : (k.drop i).find j = if j = i then none else k.find j := by
  induction k with
  | nil => simp [Kids.drop, Kids.find]
  | cons a o k r _ ih =>
    simp only [Kids.drop]
    split
    · rename_i h
      subst h
      rw [ih]
      by_cases h : j = a
      · simp [h]
      · rw [if_neg h, if_neg h]; simp only [Kids.find]; rw [if_neg (fun e => h e.symm)]
    · rename_i h
      simp only [Kids.find]
      by_cases h2 : a = j
      · subst h2; rw [if_pos rfl, if_neg h, if_pos rfl]
      · rw [if_neg h2, if_neg h2]; exact ih

theorem find_change (i : Nat) (f : Mgr → Mgr) (k : Kids) (j : Nat) : (k.change i f).find j = if j = i then (k.find i).map f else k.find j := by
  induction k with
  | nil => simp [Kids.change, Kids.find]
  | cons a o k r _ ih =>
    simp only [Kids.change]
    split
    · rename_i h
      subst h
      simp only [Kids.find]
      by_cases h : a = j
      · subst h; simp
      · rw [if_neg h, if_neg (fun e => h e.symm), if_neg h]
    · rename_i h
      simp only [Kids.find]
      by_cases h2 : a = j
      · subst h2; rw [if_pos rfl, if_neg h, if_pos rfl]
      · rw [if_neg h2, if_neg h2, if_neg h]; exact ih

theorem find_publish (b : Bool) (k : Kids) (j : Nat) : (k.publish b).find j = (k.find j).map (Mgr.publish b) := by
  induction k with
  | nil => rfl
  | cons a o k r _ ih =>
    simp only [Kids.publish, Kids.find]
    split
    · rfl
    · exact ih

theorem find_setData (b : Bool) (k : Kids) (j : Nat) : (k.setData b).find j = (k.find j).map (Mgr.setData b) := by
  induction k with
  | nil => rfl
  | cons a o k r _ ih =>
    simp only [Kids.setData, Kids.find]
    split
    · rfl
    · exact ih

theorem part_setPart (o : Own) (d : Dict) (w v : Part) : (o.setPart d w).part v = if v = w then d else o.part v := by
  cases w <;> cases v <;> rfl

theorem flags_setPart (o : Own) (d : Dict) (w : Part) : (o.setPart d w).pubTrees = o.pubTrees ∧ (o.setPart d w).pubData = o.pubData := by
  cases w <;> exact ⟨rfl, rfl⟩

/-! ### Ways -/

/-- What a call of a nested manager changes: the manager itself and what is below it. -/
theorem at_on (f : Mgr → Mgr) : ∀ (p : List Nat) (m : Mgr) (q : List Nat), p <+: q → (m.on p f).at q = (m.at p).bind fun n => (f n).at (q.drop p.length)
  | [], m, q, _ => by simp [Mgr.on, Mgr.at]
  | i :: p, m, [], h => by simp at h
  | i :: p, m, j :: q, h => by
    obtain ⟨rfl, hq⟩ := List.cons_prefix_cons.1 h
    show (((m.kids.change i (Mgr.on p f)).find i).bind (Mgr.at q)) = _
    rw [find_change, if_pos rfl]
    simp only [Mgr.at, List.length_cons, List.drop_succ_cons]
    cases m.kids.find i with
    | none => rfl
    | some n => exact at_on f p n q hq

/-- Above and beside it, all messages stay. -/
theorem look_on_other (f : Mgr → Mgr) (w : Part) (i : Nat) : ∀ (p : List Nat) (m : Mgr) (q : List Nat), ¬ p <+: q → (m.on p f).look w q i = m.look w q i
  | [], _, _, h => absurd (List.nil_prefix) h
  | _ :: _, _, [], _ => rfl
  | j :: p, m, k :: q, h => by
    show (((m.kids.change j (Mgr.on p f)).find k).bind (Mgr.at q)).bind _ = ((m.kids.find k).bind (Mgr.at q)).bind _
    rw [find_change]
    by_cases hk : k = j
    · subst hk
      rw [if_pos rfl]
      have h : ¬ p <+: q := fun e => h (List.cons_prefix_cons.2 ⟨rfl, e⟩)
      cases m.kids.find k with
      | none => rfl
      | some n => exact look_on_other f w i p n q h
    · rw [if_neg hk]

theorem look_at (m : Mgr) (w : Part) (i : Nat) : ∀ (p r : List Nat), m.look w (p ++ r) i = (m.at p).bind fun n => n.look w r i := by
  intro p
  induction p generalizing m with
  | nil => intro r; rfl
  | cons j p ih =>
    intro r
    show ((m.kids.find j).bind (Mgr.at (p ++ r))).bind _ = ((m.kids.find j).bind (Mgr.at p)).bind _
    cases m.kids.find j with
    | none => rfl
    | some n => exact ih n r

theorem look_on (f : Mgr → Mgr) (w : Part) (i : Nat) (p r : List Nat) (m : Mgr) : (m.on p f).look w (p ++ r) i = (m.at p).bind fun n => (f n).look w r i := by
  unfold Mgr.look
  rw [at_on f p m (p ++ r) (List.prefix_append p r), List.drop_left]
  cases m.at p <;> rfl

/-! ### C95: what the calls do -/

/-- C95: adding a message for a node in a tree (at any depth) sets that message and no other; if there is no such tree, nothing changes. -/
theorem c95_add (m : Mgr) (p : List Nat) (w : Part) (i x : Nat) (v : Part) (q : List Nat) (j : Nat) :
    (m.on p (Mgr.add w i x)).look v q j = if v = w ∧ q = p ∧ j = i ∧ (m.at p).isSome then some x else m.look v q j := by
  by_cases h : p <+: q
  · obtain ⟨r, rfl⟩ := h
    rw [look_on, look_at]
    cases m.at p with
    | none => simp
    | some n =>
      simp only [Option.bind_some, Option.isSome_some, and_true]
      cases r with
      | nil =>
        show ((n.own.setPart (put i x (n.own.part w)) w).part v).lookup j = _
        rw [part_setPart, List.append_nil]
        by_cases hv : v = w
        · subst hv
          rw [if_pos rfl, lookup_put]
          by_cases hj : j = i
          · simp [hj]
          · simp [hj]; rfl
        · simp [hv]; rfl
      | cons k r =>
        rw [if_neg (by simp)]
        rfl
  · rw [look_on_other _ _ _ _ _ _ h, if_neg]
    rintro ⟨_, rfl, _⟩
    exact h (List.prefix_refl _)

/-- C95: clearing a manager takes away the messages of its tree and of all trees below, and no other. -/
theorem c95_clear (m : Mgr) (p : List Nat) (v : Part) (q : List Nat) (j : Nat) :
    (m.on p Mgr.clear).look v q j = if p <+: q then none else m.look v q j := by
  by_cases h : p <+: q
  · rw [if_pos h]
    obtain ⟨r, rfl⟩ := h
    rw [look_on]
    cases m.at p with
    | none => rfl
    | some n =>
      cases r with
      | nil => cases v <;> rfl
      | cons k r => rfl
  · rw [look_on_other _ _ _ _ _ _ h, if_neg h]

/-- C95: removing a node takes away its message and those of the trees in it, and no other. -/
theorem c95_remove (m : Mgr) (p : List Nat) (i : Nat) (v : Part) (q : List Nat) (j : Nat) :
    (m.on p (Mgr.remove i)).look v q j = if q = p ∧ j = i ∨ (p ++ [i]) <+: q then none else m.look v q j := by
  by_cases h : p <+: q
  · obtain ⟨r, rfl⟩ := h
    rw [look_on, look_at]
    cases hm : m.at p with
    | none => simp
    | some n =>
      simp only [Option.bind_some]
      cases r with
      | nil =>
        have hp : ¬ (p ++ [i]) <+: (p ++ []) := by
          intro e
          have := e.length_le
          simp at this
          omega
        have : (n.remove i).look v [] j = if j = i then none else n.look v [] j := by
          cases v <;> exact lookup_drop i _ j
        rw [this]
        by_cases hj : j = i
        · simp [hj]
        · rw [if_neg hj, if_neg]
          rintro (⟨_, e⟩ | e)
          · exact hj e
          · exact hp e
      | cons k r =>
        have : (n.remove i).look v (k :: r) j = if k = i then none else n.look v (k :: r) j := by
          show (((n.kids.drop i).find k).bind (Mgr.at r)).bind _ = _
          rw [find_drop]
          by_cases hk : k = i
          · simp [hk]
          · rw [if_neg hk, if_neg hk]; rfl
        rw [this]
        by_cases hk : k = i
        · rw [if_pos hk, if_pos]
          exact Or.inr (by rw [List.prefix_append_right_inj, List.cons_prefix_cons]; exact ⟨hk.symm, List.nil_prefix⟩)
        · rw [if_neg hk, if_neg]
          rintro (⟨e, _⟩ | e)
          · simp at e
          · rw [List.prefix_append_right_inj, List.cons_prefix_cons] at e
            exact hk e.1.symm
  · rw [look_on_other _ _ _ _ _ _ h, if_neg]
    rintro (⟨e, _⟩ | e)
    · exact h (e ▸ List.prefix_refl _)
    · exact h ((List.prefix_append p [i]).trans e)

theorem at_publish (b : Bool) (q : List Nat) : ∀ n : Mgr, (n.publish b).at q = (n.at q).map (Mgr.publish b) := by
  induction q with
  | nil => intro n; rfl
  | cons k q ih =>
    intro n
    show ((n.kids.publish b).find k).bind (Mgr.at q) = ((n.kids.find k).bind (Mgr.at q)).map _
    rw [find_publish]
    cases n.kids.find k with
    | none => rfl
    | some x => exact ih x

theorem at_setData (b : Bool) (q : List Nat) : ∀ n : Mgr, (n.setData b).at q = (n.at q).map (Mgr.setData b) := by
  induction q with
  | nil => intro n; rfl
  | cons k q ih =>
    intro n
    show ((n.kids.setData b).find k).bind (Mgr.at q) = ((n.kids.find k).bind (Mgr.at q)).map _
    rw [find_setData]
    cases n.kids.find k with
    | none => rfl
    | some x => exact ih x

/-- C95: what is published is switched, the messages stay. -/
theorem c95_switch (m : Mgr) (b : Bool) (v : Part) (q : List Nat) (j : Nat) : (m.publish b).look v q j = m.look v q j ∧ (m.setData b).look v q j = m.look v q j := by
  unfold Mgr.look
  rw [at_publish, at_setData]
  cases m.at q with
  | none => exact ⟨rfl, rfl⟩
  | some n => cases v <;> exact ⟨rfl, rfl⟩

/-- C95: a manager that is nested brings its messages, at all depths, and takes the place of an earlier one for the same node. -/
theorem c95_nest (m n : Mgr) (p : List Nat) (i : Nat) (hp : (m.at p).isSome) (v : Part) (q : List Nat) (j : Nat) :
    (∀ r, (m.on p (Mgr.nest i n)).look v (p ++ i :: r) j = n.look v r j) ∧
    (¬ (p ++ [i]) <+: q → (m.on p (Mgr.nest i n)).look v q j = m.look v q j) := by
  obtain ⟨x, hx⟩ := Option.isSome_iff_exists.1 hp
  refine ⟨fun r => ?_, fun h => ?_⟩
  · rw [look_on, hx]
    show (((x.kids.put i _).find i).bind (Mgr.at r)).bind _ = _
    rw [find_put, if_pos rfl]
    show Mgr.look _ v r j = _
    rw [(c95_switch _ _ _ _ _).2, (c95_switch _ _ _ _ _).1]
  · by_cases h1 : p <+: q
    · obtain ⟨r, rfl⟩ := h1
      rw [look_on, look_at, hx]
      simp only [Option.bind_some]
      cases r with
      | nil => rfl
      | cons k r =>
        have hk : k ≠ i := by
          rintro rfl
          exact h (by rw [List.prefix_append_right_inj, List.cons_prefix_cons]; exact ⟨rfl, List.nil_prefix⟩)
        show (((x.kids.put i _).find k).bind (Mgr.at r)).bind _ = _
        rw [find_put, if_neg hk]
        rfl
    · exact look_on_other _ _ _ _ _ _ h1

/-! ### C95: what is published -/

/-- A property of all managers of a dict, with everything nested in them. -/
def Kids.All (P : Own → Prop) : Kids → Prop
  | .nil => True
  | .cons _ o k r => P o ∧ k.All P ∧ r.All P

theorem Kids.All.find {P : Own → Prop} {k : Kids} {i : Nat} {m : Mgr} (h : k.All P) (hf : k.find i = some m) : P m.own ∧ m.kids.All P := by
  induction k with
  | nil => cases hf
  | cons a o k r _ ih =>
    simp only [Kids.find] at hf
    split at hf
    · cases hf; exact ⟨h.1, h.2.1⟩
    · exact ih h.2.2 hf

theorem all_put {P : Own → Prop} {k : Kids} {i : Nat} {m : Mgr} (h : k.All P) (h1 : P m.own) (h2 : m.kids.All P) : (k.put i m).All P := by
  induction k with
  | nil => exact ⟨h1, h2, trivial⟩
  | cons a o k r _ ih =>
    simp only [Kids.put]
    split
    · exact ⟨h1, h2, h.2.2⟩
    · exact ⟨h.1, h.2.1, ih h.2.2⟩

theorem all_drop {P : Own → Prop} {k : Kids} {i : Nat} (h : k.All P) : (k.drop i).All P := by
  induction k with
  | nil => trivial
  | cons a o k r _ ih =>
    simp only [Kids.drop]
    split
    · exact ih h.2.2
    · exact ⟨h.1, h.2.1, ih h.2.2⟩

theorem all_change {P : Own → Prop} {k : Kids} {i : Nat} {f : Mgr → Mgr} (h : k.All P) (hf : ∀ m : Mgr, P m.own → m.kids.All P → P (f m).own ∧ (f m).kids.All P) :
    (k.change i f).All P := by
  induction k with
  | nil => trivial
  | cons a o k r _ ih =>
    simp only [Kids.change]
    split
    · have := hf ⟨o, k⟩ h.1 h.2.1
      exact ⟨this.1, this.2, h.2.2⟩
    · exact ⟨h.1, h.2.1, ih h.2.2⟩

theorem all_on {P : Own → Prop} {f : Mgr → Mgr} (hf : ∀ m : Mgr, P m.own → m.kids.All P → P (f m).own ∧ (f m).kids.All P) :
    ∀ (p : List Nat) (m : Mgr), P m.own → m.kids.All P → P (m.on p f).own ∧ (m.on p f).kids.All P
  | [], m, h1, h2 => hf m h1 h2
  | _ :: p, _, h1, h2 => ⟨h1, all_change h2 fun m k1 k2 => all_on hf p m k1 k2⟩

/-- The flags of a manager. -/
def Flags (b d : Bool) (o : Own) : Prop := o.pubTrees = b ∧ o.pubData = d

theorem all_publish {b b' d : Bool} {k : Kids} (h : k.All (Flags b d)) : (k.publish b').All (Flags b' d) := by
  induction k with
  | nil => trivial
  | cons a o k r ih1 ih2 => exact ⟨⟨rfl, h.1.2⟩, ih1 h.2.1, ih2 h.2.2⟩

theorem all_setData {b d d' : Bool} {k : Kids} (h : k.All (Flags b d)) : (k.setData d').All (Flags b d') := by
  induction k with
  | nil => trivial
  | cons a o k r ih1 ih2 => exact ⟨⟨h.1.1, rfl⟩, ih1 h.2.1, ih2 h.2.2⟩

theorem flags_built {m : Mgr} (h : Built m) : ∃ b d, Flags b d m.own ∧ m.kids.All (Flags b d) := by
  have on : ∀ {b d : Bool} {f : Mgr → Mgr} (p : List Nat) {m : Mgr}, (∀ m : Mgr, Flags b d m.own → m.kids.All (Flags b d) → Flags b d (f m).own ∧ (f m).kids.All (Flags b d)) →
      Flags b d m.own ∧ m.kids.All (Flags b d) → ∃ b d, Flags b d (m.on p f).own ∧ (m.on p f).kids.All (Flags b d) :=
    fun p m hf h => ⟨_, _, all_on hf p m h.1 h.2⟩
  induction h with
  | fresh => exact ⟨true, false, ⟨rfl, rfl⟩, trivial⟩
  | add m p w i x _ ih =>
    obtain ⟨b, d, h⟩ := ih
    exact on p (fun m h1 h2 => ⟨⟨(flags_setPart _ _ _).1.trans h1.1, (flags_setPart _ _ _).2.trans h1.2⟩, h2⟩) h
  | clear m p _ ih =>
    obtain ⟨b, d, h⟩ := ih
    exact on p (fun m h1 h2 => ⟨h1, trivial⟩) h
  | remove m p i _ ih =>
    obtain ⟨b, d, h⟩ := ih
    exact on p (fun m h1 h2 => ⟨h1, all_drop h2⟩) h
  | nest m n p i _ _ ih1 ih2 =>
    obtain ⟨b, d, h⟩ := ih1
    obtain ⟨b', d', h'⟩ := ih2
    refine on p (fun m h1 h2 => ⟨h1, ?_⟩) h
    refine all_put h2 h1 ?_
    rw [h1.1, h1.2]
    exact all_setData (all_publish h'.2)
  | publish m b _ ih =>
    obtain ⟨b', d, h⟩ := ih
    exact ⟨b, d, ⟨rfl, h.1.2⟩, all_publish h.2⟩
  | setData m d _ ih =>
    obtain ⟨b, d', h⟩ := ih
    exact ⟨b, d, ⟨h.1.1, rfl⟩, all_setData h.2⟩

theorem all_at {P : Own → Prop} : ∀ (p : List Nat) {m n : Mgr}, P m.own → m.kids.All P → m.at p = some n → P n.own
  | [], _, _, h, _, e => by cases e; exact h
  | i :: p, m, n, _, h, e => by
    simp only [Mgr.at] at e
    cases hf : m.kids.find i with
    | none => rw [hf] at e; cases e
    | some x =>
      rw [hf] at e
      exact all_at p (h.find hf).1 (h.find hf).2 e

/-- C95: all managers, at all depths, have the switches of the outermost one, whether they were nested before or after these were set. -/
theorem c95_flags (m n : Mgr) (p : List Nat) (h : Built m) (hn : m.at p = some n) : n.own.pubTrees = m.own.pubTrees ∧ n.own.pubData = m.own.pubData := by
  obtain ⟨b, d, h1, h2⟩ := flags_built h
  have := all_at p h1 h2 hn
  exact ⟨this.1.trans h1.1.symm, this.2.trans h1.2.symm⟩

/-- C95: if subtrees are switched off, no message of a subtree is published. -/
theorem c95_off (m : Mgr) (w : Part) : (m.publish false).list w = [] := rfl

/-- Dicts have no key twice. -/
def Own.Keys (o : Own) : Prop := ∀ w, ((o.part w).map (·.1)).Nodup

/-- The keys of a dict of managers. -/
def Kids.keys : Kids → List Nat
  | .nil => []
  | .cons i _ _ r => i :: r.keys

/-- No key twice in a dict of managers and all dicts in it. -/
def Kids.Keys : Kids → Prop
  | .nil => True
  | .cons i o k r => o.Keys ∧ k.Keys ∧ r.Keys ∧ i ∉ r.keys

theorem keys_put (i x : Nat) (d : Dict) : (d.map (·.1)).Nodup → ((put i x d).map (·.1)).Nodup ∧ ∀ j, j ∈ (put i x d).map (·.1) → j = i ∨ j ∈ d.map (·.1) := by
  induction d with
  | nil => intro _; simp [put]
  | cons e r ih =>
    obtain ⟨k, y⟩ := e
    intro h
    simp only [List.map_cons, List.nodup_cons] at h
    simp only [put]
    split
    · rename_i hk
      subst hk
      exact ⟨by simpa using h, fun j hj => Or.inr (by simpa using hj)⟩
    · rename_i hk
      obtain ⟨h1, h2⟩ := ih h.2
      refine ⟨?_, ?_⟩
      · simp only [List.map_cons, List.nodup_cons]
        refine ⟨fun hm => ?_, h1⟩
        rcases h2 k hm with e | e
        · exact hk e
        · exact h.1 e
      · intro j hj
        rcases List.mem_cons.1 hj with rfl | hj
        · exact Or.inr (by simp)
        · rcases h2 j hj with e | e
          · exact Or.inl e
          · exact Or.inr (List.mem_cons_of_mem _ e)

theorem keys_filter (i : Nat) (d : Dict) (h : (d.map (·.1)).Nodup) : ((drop i d).map (·.1)).Nodup :=
  ((List.filter_sublist (l := d)).map (·.1)).nodup h

theorem kkeys_put (i : Nat) (m : Mgr) (k : Kids) : k.Keys → m.own.Keys → m.kids.Keys → (k.put i m).Keys ∧ ∀ j, j ∈ (k.put i m).keys → j = i ∨ j ∈ k.keys := by
  induction k with
  | nil => intro _ h1 h2; exact ⟨⟨h1, h2, trivial, by simp [Kids.keys]⟩, by simp [Kids.put, Kids.keys]⟩
  | cons a o k r _ ih =>
    intro h h1 h2
    simp only [Kids.put]
    split
    · rename_i ha
      subst ha
      exact ⟨⟨h1, h2, h.2.2.1, h.2.2.2⟩, fun j hj => Or.inr hj⟩
    · rename_i ha
      obtain ⟨k1, k2⟩ := ih h.2.2.1 h1 h2
      refine ⟨⟨h.1, h.2.1, k1, fun hm => ?_⟩, fun j hj => ?_⟩
      · rcases k2 a hm with e | e
        · exact ha e
        · exact h.2.2.2 e
      · rcases List.mem_cons.1 hj with rfl | hj
        · exact Or.inr (List.mem_cons_self ..)
        · rcases k2 j hj with e | e
          · exact Or.inl e
          · exact Or.inr (List.mem_cons_of_mem _ e)

theorem kkeys_drop (i : Nat) (k : Kids) : k.Keys → (k.drop i).Keys ∧ ∀ j, j ∈ (k.drop i).keys → j ∈ k.keys := by
  induction k with
  | nil => intro _; exact ⟨trivial, fun _ h => h⟩
  | cons a o k r _ ih =>
    intro h
    obtain ⟨k1, k2⟩ := ih h.2.2.1
    simp only [Kids.drop]
    split
    · exact ⟨k1, fun j hj => List.mem_cons_of_mem _ (k2 j hj)⟩
    · refine ⟨⟨h.1, h.2.1, k1, fun hm => h.2.2.2 (k2 a hm)⟩, fun j hj => ?_⟩
      rcases List.mem_cons.1 hj with rfl | hj
      · exact List.mem_cons_self ..
      · exact List.mem_cons_of_mem _ (k2 j hj)

theorem kkeys_change (i : Nat) (f : Mgr → Mgr) (hf : ∀ m : Mgr, m.own.Keys → m.kids.Keys → (f m).own.Keys ∧ (f m).kids.Keys) (k : Kids) :
    k.Keys → (k.change i f).Keys ∧ (k.change i f).keys = k.keys := by
  induction k with
  | nil => intro _; exact ⟨trivial, rfl⟩
  | cons a o k r _ ih =>
    intro h
    simp only [Kids.change]
    split
    · have := hf ⟨o, k⟩ h.1 h.2.1
      exact ⟨⟨this.1, this.2, h.2.2.1, h.2.2.2⟩, rfl⟩
    · obtain ⟨k1, k2⟩ := ih h.2.2.1
      exact ⟨⟨h.1, h.2.1, k1, by rw [k2]; exact h.2.2.2⟩, by simp only [Kids.keys]; rw [k2]⟩

theorem kkeys_on {f : Mgr → Mgr} (hf : ∀ m : Mgr, m.own.Keys → m.kids.Keys → (f m).own.Keys ∧ (f m).kids.Keys) :
    ∀ (p : List Nat) (m : Mgr), m.own.Keys → m.kids.Keys → (m.on p f).own.Keys ∧ (m.on p f).kids.Keys
  | [], m, h1, h2 => hf m h1 h2
  | i :: p, _, h1, h2 => ⟨h1, (kkeys_change i _ (fun m k1 k2 => kkeys_on hf p m k1 k2) _ h2).1⟩

theorem kkeys_publish (b : Bool) (k : Kids) : k.Keys → (k.publish b).Keys ∧ (k.publish b).keys = k.keys := by
  induction k with
  | nil => intro _; exact ⟨trivial, rfl⟩
  | cons a o k r ih1 ih2 =>
    intro h
    obtain ⟨k1, k2⟩ := ih2 h.2.2.1
    exact ⟨⟨fun w => by have := h.1 w; cases w <;> exact this, (ih1 h.2.1).1, k1, by rw [k2]; exact h.2.2.2⟩, by simp only [Kids.publish, Kids.keys]; rw [k2]⟩

theorem kkeys_setData (b : Bool) (k : Kids) : k.Keys → (k.setData b).Keys ∧ (k.setData b).keys = k.keys := by
  induction k with
  | nil => intro _; exact ⟨trivial, rfl⟩
  | cons a o k r ih1 ih2 =>
    intro h
    obtain ⟨k1, k2⟩ := ih2 h.2.2.1
    exact ⟨⟨fun w => by have := h.1 w; cases w <;> exact this, (ih1 h.2.1).1, k1, by rw [k2]; exact h.2.2.2⟩, by simp only [Kids.setData, Kids.keys]; rw [k2]⟩

theorem keys_built {m : Mgr} (h : Built m) : m.own.Keys ∧ m.kids.Keys := by
  induction h with
  | fresh => exact ⟨fun w => by cases w <;> exact List.nodup_nil, trivial⟩
  | add m p w i x _ ih =>
    refine kkeys_on (f := Mgr.add w i x) (fun m h1 h2 => ⟨fun v => ?_, h2⟩) p m ih.1 ih.2
    show (((m.own.setPart (put i x (m.own.part w)) w).part v).map (·.1)).Nodup
    rw [part_setPart]
    split
    · exact (keys_put i x _ (h1 w)).1
    · exact h1 v
  | clear m p _ ih => exact kkeys_on (f := Mgr.clear) (fun m h1 h2 => ⟨fun v => by cases v <;> exact List.nodup_nil, trivial⟩) p m ih.1 ih.2
  | remove m p i _ ih => exact kkeys_on (f := Mgr.remove i) (fun m h1 h2 => ⟨fun v => by have := h1 v; cases v <;> exact keys_filter i _ this, (kkeys_drop i _ h2).1⟩) p m ih.1 ih.2
  | nest m n p i _ _ ih1 ih2 =>
    refine kkeys_on (f := Mgr.nest i n) (fun m h1 h2 => ⟨h1, ?_⟩) p m ih1.1 ih1.2
    refine (kkeys_put i _ _ h2 ?_ ?_).1
    · intro w; have := ih2.1 w; cases w <;> exact this
    · exact (kkeys_setData _ _ (kkeys_publish _ _ ih2.2).1).1
  | publish m b _ ih => exact ⟨fun w => by have := ih.1 w; cases w <;> exact this, (kkeys_publish b _ ih.2).1⟩
  | setData m b _ ih => exact ⟨fun w => by have := ih.1 w; cases w <;> exact this, (kkeys_setData b _ ih.2).1⟩

theorem find_none {k : Kids} {i : Nat} (h : i ∉ k.keys) : k.find i = none := by
  induction k with
  | nil => rfl
  | cons a o k r _ ih =>
    simp only [Kids.keys, List.mem_cons, not_or] at h
    simp only [Kids.find]
    rw [if_neg (fun e => h.1 e.symm)]
    exact ih h.2

theorem mem_values {d : Dict} (h : (d.map (·.1)).Nodup) (x : Nat) : x ∈ d.map (·.2) ↔ ∃ i, d.lookup i = some x := by
  induction d with
  | nil => simp
  | cons e r ih =>
    obtain ⟨k, y⟩ := e
    simp only [List.map_cons, List.nodup_cons] at h
    constructor
    · intro hx
      rcases List.mem_cons.1 hx with rfl | hx
      · exact ⟨k, by simp [List.lookup]⟩
      · obtain ⟨i, hi⟩ := (ih h.2).1 hx
        refine ⟨i, ?_⟩
        have : i ≠ k := by
          rintro rfl
          have : ∀ (r : Dict), i ∉ r.map (·.1) → r.lookup i = none := by
            intro r
            induction r with
            | nil => intro _; rfl
            | cons e r ih =>
              intro hn
              simp only [List.map_cons, List.mem_cons, not_or] at hn
              have : (i == e.1) = false := by simpa using hn.1
              simp only [List.lookup, this]
              exact ih hn.2
          rw [this r h.1] at hi
          cases hi
        have : (i == k) = false := by simpa using this
        simp only [List.lookup, this]
        exact hi
    · rintro ⟨i, hi⟩
      simp only [List.lookup] at hi
      split at hi
      · cases hi; exact List.mem_cons_self ..
      · exact List.mem_cons_of_mem _ ((ih h.2).2 ⟨i, hi⟩)

theorem mem_klist (w : Part) (k : Kids) : k.Keys → k.All (fun o => o.pubTrees = true) → ∀ x, x ∈ k.list w ↔ ∃ a m, k.find a = some m ∧ x ∈ m.list w := by
  induction k with
  | nil => intro _ _ x; simp [Kids.list, Kids.find]
  | cons a o k r _ ih =>
    intro h hp x
    have ih := ih h.2.2.1 hp.2.2 x
    simp only [Kids.list, List.mem_append, Kids.find]
    constructor
    · rintro (hx | hx)
      · exact ⟨a, ⟨o, k⟩, if_pos rfl, hx⟩
      · obtain ⟨b, m, hb, hm⟩ := ih.1 hx
        refine ⟨b, m, ?_, hm⟩
        rw [if_neg]
        · exact hb
        · rintro rfl
          rw [find_none h.2.2.2] at hb
          cases hb
    · rintro ⟨b, m, hb, hm⟩
      split at hb
      · cases hb; exact Or.inl hm
      · exact Or.inr (ih.2 ⟨b, m, hb, hm⟩)

theorem find_keys {k : Kids} {i : Nat} {m : Mgr} (h : k.Keys) (hf : k.find i = some m) : m.own.Keys ∧ m.kids.Keys := by
  induction k with
  | nil => cases hf
  | cons a o k r _ ih =>
    simp only [Kids.find] at hf
    split at hf
    · cases hf; exact ⟨h.1, h.2.1⟩
    · exact ih h.2.2.1 hf

/-- A measure for recursion. -/
def Kids.size : Kids → Nat
  | .nil => 0
  | .cons _ _ k r => k.size + r.size + 1

theorem find_size {k : Kids} {i : Nat} {m : Mgr} (hf : k.find i = some m) : m.kids.size < k.size := by
  induction k with
  | nil => cases hf
  | cons a o k r _ ih =>
    simp only [Kids.find] at hf
    simp only [Kids.size]
    split at hf
    · cases hf; show k.size < _; omega
    · have := ih hf; omega

theorem mem_list (w : Part) : ∀ (n : Nat) (m : Mgr), m.kids.size < n → m.own.Keys → m.kids.Keys → m.own.pubTrees = true → m.kids.All (fun o => o.pubTrees = true) →
    ∀ x, x ∈ m.list w ↔ ∃ p i, m.look w p i = some x
  | 0, _, h, _, _, _, _, _ => absurd h (by omega)
  | n + 1, m, hn, h1, h2, h3, h4, x => by
    unfold Mgr.list
    rw [if_pos h3, List.mem_append, mem_values (h1 w), mem_klist w _ h2 h4]
    constructor
    · rintro (⟨i, hi⟩ | ⟨a, k, hk, hx⟩)
      · exact ⟨[], i, hi⟩
      · have hs := find_size hk
        obtain ⟨p, i, hp⟩ := (mem_list w n k (by omega) (find_keys h2 hk).1 (find_keys h2 hk).2 (h4.find hk).1 (h4.find hk).2 x).1 hx
        refine ⟨a :: p, i, ?_⟩
        show ((m.kids.find a).bind (Mgr.at p)).bind _ = _
        rw [hk]
        exact hp
    · rintro ⟨p, i, hp⟩
      cases p with
      | nil => exact Or.inl ⟨i, hp⟩
      | cons a p =>
        right
        have hp : ((m.kids.find a).bind (Mgr.at p)).bind (fun n => (n.own.part w).lookup i) = some x := hp
        cases hk : m.kids.find a with
        | none => rw [hk] at hp; cases hp
        | some k =>
          rw [hk] at hp
          have hs := find_size hk
          exact ⟨a, k, hk, (mem_list w n k (by omega) (find_keys h2 hk).1 (find_keys h2 hk).2 (h4.find hk).1 (h4.find hk).2 x).2 ⟨p, i, hp⟩⟩

/-- C95: if subtrees are switched on, exactly the messages that there are for the nodes of all trees, at all depths, are published. -/
theorem c95_on (m : Mgr) (w : Part) (h : Built m) (hp : m.own.pubTrees = true) (x : Nat) : x ∈ m.list w ↔ ∃ p i, m.look w p i = some x := by
  obtain ⟨b, d, h1, h2⟩ := flags_built h
  obtain ⟨k1, k2⟩ := keys_built h
  obtain rfl : b = true := h1.1.symm.trans hp
  have mono : ∀ k : Kids, k.All (Flags true d) → k.All (fun o => o.pubTrees = true) := by
    intro k
    induction k with
    | nil => exact fun _ => trivial
    | cons a o k r ih1 ih2 => exact fun h => ⟨h.1.1, ih1 h.2.1, ih2 h.2.2⟩
  exact mem_list w _ m (Nat.lt_succ_self _) k1 k2 hp (mono _ h2) x

/-- The messages of a dict of managers with where they are. -/
def Kids.pairs (w : Part) : Kids → List ((List Nat × Nat) × Nat)
  | .nil => []
  | .cons a o k r => ((o.part w).map (fun e => (([a], e.1), e.2)) ++ (k.pairs w).map (fun e => ((a :: e.1.1, e.1.2), e.2))) ++ r.pairs w

/-- The messages of a manager with where they are. -/
def Mgr.pairs (w : Part) (m : Mgr) : List ((List Nat × Nat) × Nat) := (m.own.part w).map (fun e => (([], e.1), e.2)) ++ m.kids.pairs w

theorem pairs_list (w : Part) (k : Kids) : k.All (fun o => o.pubTrees = true) → k.list w = (k.pairs w).map (·.2) := by
  induction k with
  | nil => intro _; rfl
  | cons a o k r ih1 ih2 =>
    intro h
    simp only [Kids.list, Kids.pairs, List.map_append, List.map_map, if_pos h.1, ih1 h.2.1, ih2 h.2.2]
    rfl

theorem pairs_head (w : Part) (k : Kids) : ∀ e ∈ k.pairs w, ∃ a p, e.1.1 = a :: p ∧ a ∈ k.keys := by
  induction k with
  | nil => intro e he; cases he
  | cons a o k r _ ih =>
    intro e he
    simp only [Kids.pairs, List.mem_append, List.mem_map] at he
    rcases he with (⟨x, _, rfl⟩ | ⟨x, _, rfl⟩) | he
    · exact ⟨a, [], rfl, List.mem_cons_self ..⟩
    · exact ⟨a, _, rfl, List.mem_cons_self ..⟩
    · obtain ⟨b, p, h1, h2⟩ := ih e he
      exact ⟨b, p, h1, List.mem_cons_of_mem _ h2⟩

theorem nodup_map_inj {A B : Type} {f : A → B} (hf : ∀ a b, f a = f b → a = b) {l : List A} (h : l.Nodup) : (l.map f).Nodup := by
  induction l with
  | nil => exact List.nodup_nil
  | cons a l ih =>
    rw [List.nodup_cons] at h
    rw [List.map_cons, List.nodup_cons]
    refine ⟨fun hm => ?_, ih h.2⟩
    obtain ⟨b, hb, e⟩ := List.mem_map.1 hm
    exact h.1 (hf _ _ e ▸ hb)

theorem pairs_nodup (w : Part) (k : Kids) : k.Keys → ((k.pairs w).map (·.1)).Nodup := by
  induction k with
  | nil => intro _; exact List.nodup_nil
  | cons a o k r ih1 ih2 =>
    intro h
    simp only [Kids.pairs, List.map_append, List.map_map]
    rw [List.nodup_append, List.nodup_append]
    refine ⟨⟨?_, ?_, ?_⟩, ih2 h.2.2.1, ?_⟩
    · have : (o.part w).map ((fun x : (List Nat × Nat) × Nat => x.1) ∘ fun e : Nat × Nat => (([a], e.1), e.2)) = ((o.part w).map (·.1)).map fun i => ([a], i) := by
        rw [List.map_map]; rfl
      rw [this]
      exact nodup_map_inj (fun x y e => by simpa using e) (h.1 w)
    · have : (k.pairs w).map ((fun x : (List Nat × Nat) × Nat => x.1) ∘ fun e : (List Nat × Nat) × Nat => ((a :: e.1.1, e.1.2), e.2)) =
          ((k.pairs w).map (·.1)).map fun e => (a :: e.1, e.2) := by rw [List.map_map]; rfl
      rw [this]
      exact nodup_map_inj (fun x y e => by simpa [Prod.ext_iff] using e) (ih1 h.2.1)
    · intro x hx y hy e
      obtain ⟨x', _, rfl⟩ := List.mem_map.1 hx
      obtain ⟨y', hy', rfl⟩ := List.mem_map.1 hy
      obtain ⟨b, p, h1, _⟩ := pairs_head w k y' hy'
      simp only [Function.comp, Prod.mk.injEq, h1] at e
      simp at e
    · intro x hx y hy e
      obtain ⟨y', hy', rfl⟩ := List.mem_map.1 hy
      obtain ⟨b, p, h1, h2⟩ := pairs_head w r y' hy'
      have hb : b = a := by
        rcases List.mem_append.1 hx with hx | hx
        · obtain ⟨x', _, rfl⟩ := List.mem_map.1 hx
          have := congrArg Prod.fst e
          rw [h1] at this
          simp at this
          exact this.1.symm
        · obtain ⟨x', _, rfl⟩ := List.mem_map.1 hx
          have := congrArg Prod.fst e
          rw [h1] at this
          simp at this
          exact this.1.symm
      subst hb
      exact h.2.2.2 h2

theorem lookup_mem_iff {d : Dict} (h : (d.map (·.1)).Nodup) (i x : Nat) : (i, x) ∈ d ↔ d.lookup i = some x := by
  induction d with
  | nil => simp
  | cons e r ih =>
    obtain ⟨k, y⟩ := e
    simp only [List.map_cons, List.nodup_cons] at h
    by_cases hk : i = k
    · subst hk
      simp only [List.mem_cons, Prod.mk.injEq, true_and, List.lookup, beq_self_eq_true, Option.some.injEq]
      constructor
      · rintro (rfl | hm)
        · rfl
        · exact absurd (List.mem_map.2 ⟨_, hm, rfl⟩) h.1
      · rintro rfl; exact Or.inl rfl
    · have : (i == k) = false := by simpa using hk
      simp only [List.mem_cons, Prod.mk.injEq, hk, false_and, false_or, List.lookup, this]
      exact ih h.2

theorem pairs_find (w : Part) (k : Kids) : k.Keys → ∀ a p i x, ((a :: p, i), x) ∈ k.pairs w ↔ ∃ m, k.find a = some m ∧ ((p, i), x) ∈ m.pairs w := by
  induction k with
  | nil => intro _ a p i x; simp [Kids.pairs, Kids.find]
  | cons b o k r _ ih =>
    intro h a p i x
    have ih := ih h.2.2.1 a p i x
    have hr : ∀ e, e ∈ r.pairs w → e.1.1.head? ≠ some b := by
      intro e he hb
      obtain ⟨c, q, h1, h2⟩ := pairs_head w r e he
      rw [h1] at hb
      cases hb
      exact h.2.2.2 h2
    simp only [Kids.pairs, Kids.find]
    by_cases hb : b = a
    · subst hb
      rw [if_pos rfl]
      simp only [Option.some.injEq, exists_eq_left', Mgr.pairs, List.mem_append]
      constructor
      · rintro ((hm | hm) | hm)
        · obtain ⟨e, he, heq⟩ := List.mem_map.1 hm
          simp only [Prod.mk.injEq, List.cons.injEq, true_and] at heq
          obtain ⟨⟨rfl, rfl⟩, rfl⟩ := heq
          exact Or.inl (List.mem_map.2 ⟨e, he, rfl⟩)
        · obtain ⟨e, he, heq⟩ := List.mem_map.1 hm
          simp only [Prod.mk.injEq, List.cons.injEq, true_and] at heq
          obtain ⟨⟨rfl, rfl⟩, rfl⟩ := heq
          exact Or.inr he
        · exact absurd rfl (hr _ hm)
      · rintro (hm | hm)
        · obtain ⟨e, he, heq⟩ := List.mem_map.1 hm
          simp only [Prod.mk.injEq] at heq
          obtain ⟨⟨rfl, rfl⟩, rfl⟩ := heq
          exact Or.inl (Or.inl (List.mem_map.2 ⟨e, he, rfl⟩))
        · exact Or.inl (Or.inr (List.mem_map.2 ⟨_, hm, rfl⟩))
    · rw [if_neg hb, ← ih]
      simp only [List.mem_append]
      constructor
      · rintro ((hm | hm) | hm)
        · obtain ⟨e, he, heq⟩ := List.mem_map.1 hm
          simp only [Prod.mk.injEq, List.cons.injEq] at heq
          exact absurd heq.1.1.1 hb
        · obtain ⟨e, he, heq⟩ := List.mem_map.1 hm
          simp only [Prod.mk.injEq, List.cons.injEq] at heq
          exact absurd heq.1.1.1 hb
        · exact hm
      · exact Or.inr

theorem pairs_look (w : Part) : ∀ (p : List Nat) (m : Mgr) (i x : Nat), m.own.Keys → m.kids.Keys → (((p, i), x) ∈ m.pairs w ↔ m.look w p i = some x)
  | [], m, i, x, h1, h2 => by
    show _ ↔ (m.own.part w).lookup i = some x
    rw [← lookup_mem_iff (h1 w)]
    unfold Mgr.pairs
    rw [List.mem_append]
    constructor
    · rintro (hm | hm)
      · obtain ⟨e, he, heq⟩ := List.mem_map.1 hm
        simp only [Prod.mk.injEq, true_and] at heq
        obtain ⟨rfl, rfl⟩ := heq
        exact he
      · obtain ⟨a, p, h, _⟩ := pairs_head w _ _ hm
        cases h
    · intro hm
      exact Or.inl (List.mem_map.2 ⟨_, hm, rfl⟩)
  | a :: p, m, i, x, h1, h2 => by
    have : ((a :: p, i), x) ∈ m.pairs w ↔ ((a :: p, i), x) ∈ m.kids.pairs w := by
      unfold Mgr.pairs
      rw [List.mem_append]
      constructor
      · rintro (hm | hm)
        · obtain ⟨e, _, heq⟩ := List.mem_map.1 hm
          simp at heq
        · exact hm
      · exact Or.inr
    rw [this, pairs_find w _ h2]
    show _ ↔ ((m.kids.find a).bind (Mgr.at p)).bind (fun n => (n.own.part w).lookup i) = some x
    cases hf : m.kids.find a with
    | none => simp
    | some n =>
      simp only [Option.some.injEq, exists_eq_left', Option.bind_some]
      exact pairs_look w p n i x (find_keys h2 hf).1 (find_keys h2 hf).2

/-- C95: each of these messages is published exactly once: what is published is a list of the messages, with every place (a way and a node) once. -/
theorem c95_on_once (m : Mgr) (w : Part) (h : Built m) (hp : m.own.pubTrees = true) :
    ∃ l : List ((List Nat × Nat) × Nat), (l.map (·.1)).Nodup ∧ (∀ p i x, ((p, i), x) ∈ l ↔ m.look w p i = some x) ∧ m.list w = l.map (·.2) := by
  obtain ⟨b, d, h1, h2⟩ := flags_built h
  obtain ⟨k1, k2⟩ := keys_built h
  obtain rfl : b = true := h1.1.symm.trans hp
  have mono : ∀ k : Kids, k.All (Flags true d) → k.All (fun o => o.pubTrees = true) := by
    intro k
    induction k with
    | nil => exact fun _ => trivial
    | cons a o k r ih1 ih2 => exact fun h => ⟨h.1.1, ih1 h.2.1, ih2 h.2.2⟩
  refine ⟨m.pairs w, ?_, fun p i x => pairs_look w p m i x k1 k2, ?_⟩
  · unfold Mgr.pairs
    rw [List.map_append, List.nodup_append]
    refine ⟨?_, pairs_nodup w _ k2, ?_⟩
    · have : ((m.own.part w).map fun e => ((([] : List Nat), e.1), e.2)).map (·.1) = ((m.own.part w).map (·.1)).map fun i => (([] : List Nat), i) := by
        rw [List.map_map, List.map_map]; rfl
      rw [this]
      exact nodup_map_inj (fun x y e => by simpa using e) (k1 w)
    · intro x hx y hy e
      obtain ⟨y', hy', rfl⟩ := List.mem_map.1 hy
      obtain ⟨a, p, h1, _⟩ := pairs_head w _ _ hy'
      obtain ⟨x', hx', rfl⟩ := List.mem_map.1 hx
      obtain ⟨x2, _, rfl⟩ := List.mem_map.1 hx'
      have := congrArg Prod.fst e
      rw [h1] at this
      cases this
  · unfold Mgr.list Mgr.pairs
    rw [if_pos hp, List.map_append, List.map_map, pairs_list w _ (mono _ h2)]
    rfl

/-! ### C95: the Subtree nodes of a tree -/

/-- What creating a node gives: a node of another class, or a Subtree node with the structure of its tree and the manager of that. -/
inductive NodeOf
  | plain
  | sub (tree : Nat) (inner : Mgr)

/-- A tree, as far as this is concerned: its nodes and its manager. -/
structure Tree where
  nodes : List (Nat × Bool) := []
  mgr : Mgr := {}

/-- subtree.py 129-135: what the constructor of a node does to the manager. -/
def register (i : Nat) (n : NodeOf) (m : Mgr) : Mgr :=
  match n with
  | .plain => m
  | .sub t inner => Mgr.nest i inner (m.add .trees i t)

/-- Whether it is a Subtree node. -/
def NodeOf.isSub : NodeOf → Bool
  | .plain => false
  | .sub _ _ => true

/-- What happens to a tree. -/
inductive Act
  /-- tree_exec_manager.py 1347-1371: `instantiate_node_from_msg` for a node with a new id -/
  | create (i : Nat) (n : NodeOf)
  /-- The same, but the constructor fails after the tree of the Subtree node has been registered (e.g. in node.py 214-226, when the inputs and outputs are added). -/
  | createFails (i : Nat) (n : NodeOf)
  /-- tree_edit_manager.py 343-352: `remove_nodes` -/
  | remove (i : Nat)
  /-- tree_edit_manager.py 357-480: `morph_node`, and others that put a new node in the place of another with the same id -/
  | morph (i : Nat) (n : NodeOf)
  /-- tree_exec_manager.py 756-781: `clear` -/
  | clear
  /-- tree_exec_manager.py 1204-1230: the command SETUP_AND_SHUTDOWN -/
  | setupAndShutdown
  /-- subtree.py 217-236: a tick (or another call) of a Subtree node gives its state and data -/
  | tick (i state data : Nat)

/-- One such step. -/
def Tree.step (t : Tree) : Act → Tree
  | .create i n => { nodes := t.nodes.filter (fun e => e.1 ≠ i) ++ [(i, n.isSub)], mgr := register i n t.mgr }
  | .createFails i n => { t with mgr := register i n t.mgr }
  | .remove i => { nodes := t.nodes.filter (fun e => e.1 ≠ i), mgr := t.mgr.remove i }
  | .morph i n => { nodes := t.nodes.map (fun e => if e.1 = i then (i, n.isSub) else e), mgr := register i n t.mgr }
  | .clear => { nodes := [], mgr := t.mgr.clear }
  | .setupAndShutdown => { t with mgr := t.mgr.clear }
  | .tick i s d =>
    let m := t.mgr.add .states i s
    { t with mgr := if m.own.pubData then m.add .data i d else m }

/-- All of them, one after the other. -/
def Tree.run (t : Tree) (l : List Act) : Tree := l.foldl Tree.step t

/-- The published structures are those of the Subtree nodes of the tree. -/
def Tree.Right (t : Tree) : Prop := ∀ i, (t.mgr.look .trees [] i).isSome ↔ (i, true) ∈ t.nodes

/-- Steps after which they are: no failed construction, no SETUP_AND_SHUTDOWN, a node is replaced only by a Subtree node or if it is none, and created
only with a new id. -/
def Act.Fine (t : Tree) : Act → Prop
  | .create i _ => ∀ b, (i, b) ∉ t.nodes
  | .createFails _ n => n.isSub = false
  | .morph i n => (n.isSub = true ∧ ∃ b, (i, b) ∈ t.nodes) ∨ (n.isSub = false ∧ (i, true) ∉ t.nodes)
  | .setupAndShutdown => ∀ i, (i, true) ∉ t.nodes
  | _ => True

/-- All steps of a list are such steps. -/
def AllFine : Tree → List Act → Prop
  | _, [] => True
  | t, a :: r => a.Fine t ∧ AllFine (t.step a) r

theorem look_add (m : Mgr) (w v : Part) (i x j : Nat) : (m.add w i x).look v [] j = if v = w ∧ j = i then some x else m.look v [] j := by
  have := c95_add m [] w i x v [] j
  simpa [Mgr.on, Mgr.at] using this

theorem look_register (m : Mgr) (i : Nat) (n : NodeOf) (j : Nat) :
    ((register i n m).look .trees [] j).isSome ↔ (n.isSub = true ∧ j = i) ∨ (m.look .trees [] j).isSome := by
  cases n with
  | plain => simp [register, NodeOf.isSub]
  | sub t inner =>
    show ((m.add .trees i t).look .trees [] j).isSome ↔ _
    rw [look_add]
    by_cases h : j = i
    · simp [h, NodeOf.isSub]
    · simp [h, NodeOf.isSub]

/-- C95: the structures that are published are those of the Subtree nodes in the tree. `_partial`: only for the steps above; for the others see below. -/
theorem c95_nodes_partial (l : List Act) (t : Tree) (h : t.Right) (hl : AllFine t l) : (t.run l).Right := by
  induction l generalizing t with
  | nil => exact h
  | cons a l ih =>
    refine ih (t.step a) ?_ hl.2
    have ha := hl.1
    intro j
    cases a with
    | create i n =>
      show ((register i n t.mgr).look .trees [] j).isSome ↔ _
      rw [look_register, h j]
      simp only [Tree.step, List.mem_append, List.mem_filter, List.mem_singleton, Prod.mk.injEq]
      constructor
      · rintro (⟨h1, h2⟩ | h1)
        · exact Or.inr ⟨h2, h1.symm⟩
        · refine Or.inl ⟨h1, ?_⟩
          have : j ≠ i := by rintro rfl; exact ha _ h1
          simpa using this
      · rintro (⟨h1, _⟩ | ⟨h1, h2⟩)
        · exact Or.inr h1
        · exact Or.inl ⟨h2.symm, h1⟩
    | createFails i n =>
      show ((register i n t.mgr).look .trees [] j).isSome ↔ _
      have ha : n.isSub = false := ha
      rw [look_register, h j, ha]
      simp [Tree.step]
    | remove i =>
      show ((t.mgr.remove i).look .trees [] j).isSome ↔ _
      have := c95_remove t.mgr [] i .trees [] j
      simp only [Mgr.on, true_and] at this
      rw [this]
      simp only [Tree.step, List.mem_filter]
      by_cases hj : j = i
      · simp [hj]
      · have hp : ¬ ([] ++ [i]) <+: ([] : List Nat) := by simp
        rw [if_neg (by simp [hj])]
        rw [h j]
        simp [hj]
    | morph i n =>
      show ((register i n t.mgr).look .trees [] j).isSome ↔ _
      rw [look_register, h j]
      simp only [Tree.step, List.mem_map]
      constructor
      · rintro (⟨h1, rfl⟩ | h1)
        · rcases ha with ⟨_, b, hb⟩ | ⟨h2, _⟩
          · exact ⟨(j, b), hb, by simp [h1]⟩
          · rw [h1] at h2; cases h2
        · by_cases hj : j = i
          · subst hj
            rcases ha with ⟨h2, _⟩ | ⟨_, h2⟩
            · exact ⟨(j, true), h1, by simp [h2]⟩
            · exact absurd h1 h2
          · exact ⟨(j, true), h1, by simp [hj]⟩
      · rintro ⟨e, he, heq⟩
        split at heq
        · rename_i hi
          simp only [Prod.mk.injEq] at heq
          exact Or.inl ⟨heq.2, heq.1.symm⟩
        · subst heq
          exact Or.inr he
    | clear =>
      show (none : Option Nat).isSome = true ↔ _
      simp [Tree.step]
    | setupAndShutdown =>
      show (none : Option Nat).isSome = true ↔ (j, true) ∈ t.nodes
      have := ha j
      simp [this]
    | tick i s d =>
      show (Mgr.look (if (t.mgr.add .states i s).own.pubData then (t.mgr.add .states i s).add .data i d else t.mgr.add .states i s) .trees [] j).isSome ↔ (j, true) ∈ t.nodes
      rw [← h j]
      split
      · rw [look_add, if_neg (by simp), look_add, if_neg (by simp)]
      · rw [look_add, if_neg (by simp)]

/-- C95: after a tick of a Subtree node its new state is published, and its data if the publishing of data is switched on. -/
theorem c95_tick (t : Tree) (i s d : Nat) :
    (t.step (.tick i s d)).mgr.look .states [] i = some s ∧ (t.mgr.own.pubData = true → (t.step (.tick i s d)).mgr.look .data [] i = some d) := by
  have hd : (t.mgr.add .states i s).own.pubData = t.mgr.own.pubData := rfl
  simp only [Tree.step]
  constructor
  · split
    · rw [look_add, if_neg (by simp), look_add, if_pos ⟨rfl, rfl⟩]
    · rw [look_add, if_pos ⟨rfl, rfl⟩]
  · intro h
    rw [hd, if_pos h, look_add, if_pos ⟨rfl, rfl⟩]

/-! ### Samples and violations -/

/-- A Subtree node with a Subtree node in its tree. -/
def inner : Mgr := Mgr.nest 7 {} (Mgr.add .trees 7 70 {})

example : Built inner := .nest _ _ [] 7 (.add _ [] .trees 7 70 .fresh) .fresh

/-- A tree with a node of another class and two Subtree nodes. -/
def sampleActs : List Act := [.create 1 .plain, .create 2 (.sub 20 inner), .create 3 (.sub 30 {}), .tick 2 21 22, .remove 3, .morph 2 (.sub 25 {}), .create 4 (.sub 40 inner), .morph 1 .plain]

/-- For `c95_nodes_partial`, `c95_on`, `c95_tick`. -/
example : AllFine {} sampleActs ∧ (Tree.run {} sampleActs).mgr.list .trees = [25, 40, 70] ∧ (Tree.run {} sampleActs).mgr.list .states = [21] := by
  refine ⟨?_, by decide, by decide⟩
  simp [sampleActs, AllFine, Act.Fine, Tree.step, NodeOf.isSub]

/-- For `c95_flags` and `c95_off`: switching at the top reaches the managers below, and a manager that is nested afterwards. -/
example : (Mgr.nest 4 inner ((Mgr.nest 2 inner {}).publish false)).list .trees = [] ∧ ((Mgr.nest 4 inner ((Mgr.nest 2 inner {}).publish false)).at [4, 7]).isSome ∧
    ((Mgr.nest 4 inner ((Mgr.nest 2 inner {}).publish false)).publish true).list .trees = [70, 70] := by decide

/-- Violation of C95: after the command SETUP_AND_SHUTDOWN no tree of a Subtree node is published any more, though nothing has been removed; setting up and ticking
brings back the state, but neither the structure nor anything of the trees below. -/
theorem c95_setup_and_shutdown :
    ((Tree.run {} [.create 2 (.sub 20 inner)]).mgr.list .trees = [20, 70]) ∧
    (Tree.run {} [.create 2 (.sub 20 inner), .setupAndShutdown, .tick 2 21 22]).nodes = [(2, true)] ∧
    (Tree.run {} [.create 2 (.sub 20 inner), .setupAndShutdown, .tick 2 21 22]).mgr.list .trees = [] ∧
    (Tree.run {} [.create 2 (.sub 20 inner), .setupAndShutdown, .tick 2 21 22]).mgr.list .states = [21] := by decide

/-- Violation of C95: if a Subtree node is replaced by a node of another class with the same id, or the construction of a Subtree node fails late, a tree is published that is not there. -/
theorem c95_left_over :
    ((2, true) ∉ (Tree.run {} [.create 2 (.sub 20 inner), .morph 2 .plain]).nodes ∧ (Tree.run {} [.create 2 (.sub 20 inner), .morph 2 .plain]).mgr.list .trees = [20, 70]) ∧
    (Tree.run {} [.createFails 2 (.sub 20 inner)]).nodes = [] ∧ (Tree.run {} [.createFails 2 (.sub 20 inner)]).mgr.list .trees = [20, 70] := by decide

/-- Violation of C95: after the publishing of data has been switched off and on again, old data of a Subtree node is published until its next tick. -/
theorem c95_old_data (m : Mgr) (i s d s' d' : Nat) :
    let t1 := (Tree.mk [(i, true)] (m.setData true)).step (.tick i s d)
    let t2 := { t1 with mgr := t1.mgr.setData false }.step (.tick i s' d')
    (t2.mgr.setData true).look .data [] i = some d ∧ (t2.mgr.setData true).look .states [] i = some s' := by
  dsimp only
  have h1 := (c95_tick ⟨[(i, true)], m.setData true⟩ i s d).2 rfl
  rw [(c95_switch _ _ _ _ _).2, (c95_switch _ _ _ _ _).2]
  refine ⟨?_, (c95_tick _ i s' d').1⟩
  generalize (Tree.step ⟨[(i, true)], m.setData true⟩ (.tick i s d)) = t at h1
  have hd : ((t.mgr.setData false).add .states i s').own.pubData = false := rfl
  simp only [Tree.step]
  rw [hd, if_neg (by simp), look_add, if_neg (by simp), (c95_switch _ _ _ _ _).2]
  exact h1

end Verif.Exec.Subtrees
