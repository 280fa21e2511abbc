import Verif.Nodes.Getters

/-! C77, C78: list and dictionary nodes, nodes that pass values on. -/

set_option autoImplicit false

namespace Verif.Nodes

open Verif.Data
open Verif.BT (BTState Res)

/-! ### What a user sees -/

/-- An output is marked as updated. -/
def Marked (d : NodeData) (k : String) : Prop := ∃ c, d.outputs.lookup k = some c ∧ c.updated = true

/-- The tick succeeds, the output shows `v` and is marked as updated if it showed anything else before; the inputs keep their
values, other outputs as well. -/
def Yields (hook : NodeData → Out) (d : NodeData) (k : String) (v : Val) : Prop :=
  (tick hook d).res = some (.ok .succeeded) ∧ Shows (tick hook d).data k v ∧ (¬ Shows d k v → Marked (tick hook d).data k) ∧
    (∀ k', value (tick hook d).data k' = value d k') ∧ ∀ k', k' ≠ k → outputValue (tick hook d).data k' = outputValue d k'

theorem value_resetUpdated (i : List (String × Cont)) (o : List (String × Cont)) (k : String) (d : NodeData) (h : i = mapAll Cont.resetUpdated d.inputs) :
    value { inputs := i, outputs := o } k = value d k := by
  subst h
  simp only [value, lookup_mapAll]
  cases d.inputs.lookup k <;> rfl

theorem value_tick (hook : NodeData → Out) (d : NodeData) (k : String) (h : (tick hook d).data.inputs = mapAll Cont.resetUpdated d.inputs) :
    value (tick hook d).data k = value d k := value_resetUpdated _ (tick hook d).data.outputs k d h

theorem put_marks (d : NodeData) (k : String) (v : Val) (s : BTState) (h : Takes d k v) (hn : ¬ Shows d k v) : Marked (put d k v s).data k := by
  obtain ⟨c, hc, hd, hf⟩ := h
  unfold put
  rw [hc]
  refine ⟨(c.set v).1, by simp [lookup_modify, hc], ?_⟩
  unfold Cont.set Cont.assign
  rw [(check_ok _ _).mpr hf]
  simp only [hd, Bool.false_and, Bool.false_eq_true, if_false]
  cases hv : c.value with
  | none => rfl
  | some w =>
    cases he : pyEq w (clean c.ty v) with
    | false => simp [he]
    | true => exact absurd ⟨w, by simp [outputValue, hc, hv], same_clean c.ty _ _ (.inr he)⟩ hn

theorem yields_of_put (hook : NodeData → Out) (d : NodeData) (k : String) (v : Val) (hr : Ready d) (ht : Takes d k v)
    (h : hook (begun d) = put (begun d) k v .succeeded) : Yields hook d k v := by
  obtain ⟨p1, ⟨w, p2, p3⟩, p4, p5⟩ := put_spec (begun d) k v .succeeded (takes_begun d k v ht)
  obtain ⟨t1, t2, t3⟩ := tick_ok hook d .succeeded hr (by rw [h]; exact p1)
  rw [h] at t2 t3
  refine ⟨t1, ⟨w, ?_, p3⟩, ?_, ?_, ?_⟩
  · rw [outputValue, t2]; exact p2
  · intro hn
    rw [Marked, t2]
    apply put_marks _ _ _ _ (takes_begun d k v ht)
    rintro ⟨w, h1, h2⟩
    exact hn ⟨w, by rw [← outputValue_reset]; exact h1, h2⟩
  · intro k'
    apply value_tick
    rw [t3, p4]
    rfl
  · intro k' hk
    rw [outputValue, t2, p5 k' hk]
    exact outputValue_reset d k'

/-- The tick answers `s` and leaves all values as they are. -/
def Judges (hook : NodeData → Out) (d : NodeData) (s : BTState) : Prop :=
  (tick hook d).res = some (.ok s) ∧ (∀ k, value (tick hook d).data k = value d k) ∧
    ∀ k, outputValue (tick hook d).data k = outputValue d k

theorem judges_of (hook : NodeData → Out) (d : NodeData) (s : BTState) (hr : Ready d) (h : hook (begun d) = ⟨begun d, some (.ok s)⟩) :
    Judges hook d s := by
  obtain ⟨t1, t2, t3⟩ := tick_ok hook d s hr (by rw [h])
  rw [h] at t2 t3
  refine ⟨t1, fun k => value_tick _ _ _ t3, fun k => ?_⟩
  rw [outputValue, t2]
  exact outputValue_reset d k

/-! ### Lists -/

/-- C77: ListLength -/
theorem c77_length (d : NodeData) (l : List Val) (hr : Ready d) (hl : value d "list" = some (.list l))
    (ht : Takes d "length" (.int l.length)) : Yields listLength d "length" (.int l.length) := by
  apply yields_of_put _ _ _ _ hr ht
  simp [listLength, valueAs, value_begun, hl, asList, need]

/-- `m` is `l` with `v` inserted at position `i`, or at the end if `l` is shorter. -/
def Inserted (l : List Val) (i : Nat) (v : Val) (m : List Val) : Prop :=
  m.length = l.length + 1 ∧ m[min i l.length]? = some v ∧ m.eraseIdx (min i l.length) = l

theorem pyInsert_inserted (l : List Val) (i : Nat) (v : Val) : Inserted l i v (pyInsert l i v) := by
  have e : pyInsert l i v = l.take i ++ v :: l.drop i := by simp [pyInsert]
  rw [e]
  have hlen : (l.take i).length = min i l.length := List.length_take
  refine ⟨by simp; omega, ?_, ?_⟩
  · rw [← hlen]; simp
  · rw [← hlen, List.eraseIdx_append_of_length_le (Nat.le_refl _)]
    simp

theorem inserted_unique {l m m' : List Val} {i : Nat} {v : Val} (h : Inserted l i v m) (h' : Inserted l i v m') : m = m' := by
  obtain ⟨_, a2, a3⟩ := h
  obtain ⟨_, b2, b3⟩ := h'
  generalize min i l.length = p at *
  apply List.ext_getElem?
  intro j
  by_cases hj : j = p
  · rw [hj, a2, b2]
  · have key : ∀ m : List Val, m.eraseIdx p = l → m[j]? = if j < p then l[j]? else l[j - 1]? := by
      rintro m rfl
      simp only [List.getElem?_eraseIdx]
      by_cases h : j < p
      · simp [h]
      · rw [if_neg h, if_neg (by omega), show j - 1 + 1 = j by omega]
    rw [key m a3, key m' b3]

/-- C77: InsertInList -/
theorem c77_insert (d : NodeData) (l m : List Val) (v w : Val) (i : Int) (hr : Ready d) (hl : value d "list" = some (.list l))
    (hi : value d "index" = some w) (hw : Integer w i) (h0 : 0 ≤ i) (hv : value d "element" = some v)
    (hm : Inserted l i.toNat v m) (ht : Takes d "list" (.list m)) : Yields insertInList d "list" (.list m) := by
  apply yields_of_put _ _ _ _ hr ht
  have e : m = pyInsert l i v := by
    apply inserted_unique hm
    have := pyInsert_inserted l i.toNat v
    rwa [Int.toNat_of_nonneg h0] at this
  simp [insertInList, valueAs, value_begun, hl, hi, hv, asList, asInt_of hw, need, e]

/-- C77: AppendListItem -/
theorem c77_append (d : NodeData) (l : List Val) (v : Val) (hr : Ready d) (hl : value d "list" = some (.list l))
    (hv : value d "value" = some v) (ht : Takes d "new_list" (.list (l ++ [v]))) : Yields appendListItem d "new_list" (.list (l ++ [v])) := by
  apply yields_of_put _ _ _ _ hr ht
  simp [appendListItem, valueAs, value_begun, hl, hv, asList, need]

/-! ### Dictionaries -/

/-- `m` is `l` with the value `v` for `k`. -/
def Updated (l : List (String × Val)) (k : String) (v : Val) (m : List (String × Val)) : Prop :=
  m.lookup k = some v ∧ (∀ k', k' ≠ k → m.lookup k' = l.lookup k') ∧ ∀ k', (∃ w, (k', w) ∈ m) ↔ k' = k ∨ ∃ w, (k', w) ∈ l

theorem lookup_append {V : Type} (l m : List (String × V)) (k : String) : (l ++ m).lookup k = (l.lookup k).or (m.lookup k) := by
  induction l with
  | nil => simp
  | cons p l ih =>
    obtain ⟨k', v⟩ := p
    simp only [List.cons_append, List.lookup]
    cases k == k' <;> simp [ih]

theorem keys_modify (l : List (String × Val)) (k : String) (f : Val → Val) : (Data.modify k f l).map (·.1) = l.map (·.1) := by
  induction l with
  | nil => rfl
  | cons p l ih =>
    obtain ⟨k', v⟩ := p
    unfold Data.modify
    split <;> simp [ih]

theorem mem_keys (l : List (String × Val)) (k : String) : (∃ w, (k, w) ∈ l) ↔ k ∈ l.map (·.1) := by
  simp

theorem pySet_updated (l : List (String × Val)) (k : String) (v : Val) : Updated l k v (pySet l k v) := by
  unfold pySet
  split
  · rename_i h
    refine ⟨?_, ?_, ?_⟩
    · rw [lookup_modify, if_pos rfl]
      cases hl : l.lookup k with
      | none => simp [hl] at h
      | some w => rfl
    · intro k' hk
      rw [lookup_modify, if_neg hk]
    · intro k'
      rw [mem_keys, mem_keys, keys_modify]
      constructor
      · exact .inr
      · rintro (rfl | h')
        · rw [← mem_keys]
          obtain ⟨w, hw⟩ := Option.isSome_iff_exists.mp h
          exact ⟨w, by
            have := List.lookup_eq_some_iff.mp hw
            obtain ⟨a, b, e, _⟩ := this
            rw [e]; simp⟩
        · exact h'
  · rename_i h
    have hn : l.lookup k = none := Option.not_isSome_iff_eq_none.mp h
    refine ⟨?_, ?_, ?_⟩
    · rw [lookup_append, hn]; simp [List.lookup]
    · intro k' hk
      have : (k' == k) = false := by simpa using hk
      rw [lookup_append]; simp [List.lookup, this]
    · intro k'
      simp only [List.mem_append, List.mem_singleton, Prod.mk.injEq]
      constructor
      · rintro ⟨w, h | ⟨rfl, _⟩⟩
        · exact .inr ⟨w, h⟩
        · exact .inl rfl
      · rintro (rfl | ⟨w, h⟩)
        · exact ⟨v, .inr ⟨rfl, rfl⟩⟩
        · exact ⟨w, .inl h⟩

/-- C77: SetDictItem puts out the dictionary with this one entry changed or added, if the output can take it. -/
theorem c77_set_dict (d : NodeData) (l : List (String × Val)) (k : String) (v : Val) (hr : Ready d) (hl : value d "object" = some (.dict l))
    (hk : value d "attr_name" = some (.str k)) (hv : value d "attr_value" = some v) :
    ∃ m, Updated l k v m ∧ m.length ≤ l.length + 1 ∧ (Takes d "new_object" (.dict m) → Yields setDictItem d "new_object" (.dict m)) := by
  refine ⟨pySet l k v, pySet_updated l k v, ?_, fun ht => ?_⟩
  · have : (Data.modify k (fun _ => v) l).length = l.length := by
      have := congrArg List.length (keys_modify l k fun _ => v)
      simpa using this
    unfold pySet
    split <;> simp <;> omega
  · apply yields_of_put _ _ _ _ hr ht
    simp [setDictItem, valueAs, value_begun, hl, hk, hv, asDict, asStr, need]

/-- C81, violation: a SetAttr node never puts out anything, every tick is an error (it reads an input `value`, which the class does
not have). -/
theorem c81_set_attr (d : NodeData) (hk : d.inputs.map (·.1) = ["object_type", "attr_type", "attr_name", "object", "attr_value"]) :
    (tick setAttr d).res = some .err ∧ (∀ k, outputValue (tick setAttr d).data k = outputValue d k) := by
  have hv : value d "value" = none := by
    have : d.inputs.lookup "value" = none := by
      rw [List.lookup_eq_none_iff]
      intro p hp
      have : p.1 ∈ d.inputs.map (·.1) := List.mem_map.mpr ⟨p, hp, rfl⟩
      rw [hk] at this
      simp only [List.mem_cons, List.not_mem_nil, or_false] at this
      rcases this with e | e | e | e | e <;> rw [e] <;> decide
    rw [value, this]; rfl
  have e : setAttr (begun d) = ⟨begun d, some .err⟩ := by
    unfold setAttr
    rw [value_begun, value_begun, hv]
    unfold need
    split
    · rfl
    · dsimp only
      split <;> rfl
  by_cases hr : Ready d
  · rw [tick_err _ d hr (by rw [e]), e]
    exact ⟨rfl, outputValue_reset d⟩
  · have : d.inputs.all (·.2.value.isSome) = false := by
      rw [List.all_eq_false]
      simp only [Ready, ne_eq, Classical.not_forall, Classical.not_not] at hr
      obtain ⟨p, hp, h⟩ := hr
      exact ⟨p, hp, by simp [h]⟩
    simp [tick, this]

/-! ### Passing on -/

/-- C78: Constant -/
theorem c78_constant (d : NodeData) (v : Val) (hr : Ready d) (hv : value d "constant_value" = some v) (ht : Takes d "constant" v) :
    Yields constant d "constant" v := by
  apply yields_of_put _ _ _ _ hr ht
  simp [constant, forward, value_begun, hv, need]

/-- C78: IOInput, IOOutput, PassthroughNode -/
theorem c78_passthrough (d : NodeData) (v : Val) (hr : Ready d) (hv : value d "in" = some v) (ht : Takes d "out" v) :
    Yields passthrough d "out" v := by
  apply yields_of_put _ _ _ _ hr ht
  simp [passthrough, forward, value_begun, hv, need]

/-- C78: StringConcatenation -/
theorem c78_concatenate (d : NodeData) (a b : String) (hr : Ready d) (ha : value d "a" = some (.str a)) (hb : value d "b" = some (.str b))
    (ht : Takes d "formatted_string" (.str (a ++ b))) : Yields concatenate d "formatted_string" (.str (a ++ b)) := by
  apply yields_of_put _ _ _ _ hr ht
  simp [concatenate, valueAs, asStr, value_begun, ha, hb, need]

/-! ### Random numbers -/

/-- C79: RandomInt puts out a number between the limits, if they differ. -/
theorem c79_random_partial (pick : Nat → Nat) (d : NodeData) (u v : Val) (lo hi : Int) (hr : Ready d) (hu : value d "min" = some u)
    (hv : value d "max" = some v) (hl : Integer u lo) (hh : Integer v hi) (hlt : lo < hi)
    (ht : ∀ r, lo ≤ r → r ≤ hi → Takes d "random_number" (.int r)) :
    ∃ r, lo ≤ r ∧ r ≤ hi ∧ Yields (randomInt pick) d "random_number" (.int r) := by
  have hm : pick (hi + 1 - lo).toNat % (hi + 1 - lo).toNat < (hi + 1 - lo).toNat := Nat.mod_lt _ (by omega)
  refine ⟨lo + (pick (hi + 1 - lo).toNat % (hi + 1 - lo).toNat : Nat), by omega, by omega, ?_⟩
  apply yields_of_put _ _ _ _ hr (ht _ (by omega) (by omega))
  have hn : ¬ hi ≤ lo := by omega
  simp [randomInt, valueAs, value_begun, hu, hv, asInt_of hl, asInt_of hh, need, hn]

/-- C79: every number between the limits is possible. -/
theorem c79_all (d : NodeData) (u v : Val) (lo hi r : Int) (hr : Ready d) (hu : value d "min" = some u)
    (hv : value d "max" = some v) (hl : Integer u lo) (hh : Integer v hi) (hlt : lo < hi) (h1 : lo ≤ r) (h2 : r ≤ hi)
    (ht : Takes d "random_number" (.int r)) : ∃ pick, Yields (randomInt pick) d "random_number" (.int r) := by
  refine ⟨fun _ => (r - lo).toNat, ?_⟩
  apply yields_of_put _ _ _ _ hr ht
  have hn : ¬ hi ≤ lo := by omega
  have hm : (r - lo).toNat % (hi + 1 - lo).toNat = (r - lo).toNat := Nat.mod_eq_of_lt (by omega)
  have : lo + ((r - lo).toNat : Int) = r := by omega
  simp only [randomInt, valueAs, value_begun, hu, hv, Option.bind_some, asInt_of hl, asInt_of hh, need, hn, if_false, hm, this]

/-- A RandomInt node. -/
def sampleRandom (lo hi : Int) : NodeData :=
  { inputs := [("min", cont (.int (-100) 100) (.int lo)), ("max", cont (.int (-100) 100) (.int hi))],
    outputs := [("random_number", cont (.int (-100) 100) (.int 0))] }

/-- C79, violation: "min <= random_number <= max" has a solution if both are equal, but the tick is an error. -/
theorem c79_equal : ∀ pick, (tick (randomInt pick) (sampleRandom 3 3)).res = some .err := fun _ => rfl

example : (tick (randomInt fun _ => 7) (sampleRandom 1 3)).res = some (.ok .succeeded) := by decide +kernel

/-! ### Examples -/

/-- An InsertInList node. -/
def sampleInsert : NodeData :=
  { inputs := [("list", cont (.list (.int 0 100) true 10 false) (.list [.int 10, .int 20])), ("index", cont (.int 0 100) (.int 1)),
      ("element", cont (.int 0 100) (.int 15))],
    outputs := [("list", cont (.list (.int 0 100) true 10 false) (.list []))] }

example : Yields insertInList sampleInsert "list" (.list [.int 10, .int 15, .int 20]) :=
  c77_insert sampleInsert [.int 10, .int 20] _ (.int 15) (.int 1) 1 (by simp [Ready, sampleInsert, cont]) rfl rfl (.int 1) (by decide) rfl
    ⟨rfl, rfl, rfl⟩ ⟨_, rfl, rfl, .list (.list _) (by
      intro x hx
      simp only [List.mem_cons, List.not_mem_nil, or_false] at hx
      rcases hx with rfl | rfl | rfl <;> exact .int (.int _) (by decide) (by decide)) ⟨by decide, by decide⟩⟩

example : Inserted [.int 10, .int 20] 7 (.int 15) [.int 10, .int 20, .int 15] := ⟨rfl, rfl, rfl⟩

example : Updated [("a", .int 1), ("b", .int 2)] "b" (.int 3) [("a", .int 1), ("b", .int 3)] := pySet_updated _ "b" (.int 3)

/-- A SetAttr node. -/
def sampleSetAttr : NodeData :=
  { inputs := [("object_type", cont (.rosType .topic 0) (.cls "std_msgs/msg/String")), ("attr_type", cont (.string 10 none) (.str "")),
      ("attr_name", cont (.string 10 none) (.str "data")), ("object", cont (.rosMsg "std_msgs/msg/String" 0) (.msg "std_msgs/msg/String" [("data", .str "")])),
      ("attr_value", cont (.string 10 none) (.str "x"))],
    outputs := [("new_object", cont (.rosMsg "std_msgs/msg/String" 0) (.msg "std_msgs/msg/String" [("data", .str "")]))] }

example : (tick setAttr sampleSetAttr).res = some .err := (c81_set_attr sampleSetAttr rfl).1

end Verif.Nodes
