import Verif.Nodes.Model

/-! C63: getters. -/

set_option autoImplicit false

namespace Verif.Nodes

open Verif.Data
open Verif.BT (BTState Res)

/-! ### What a user sees -/

/-- `w` is what a container keeps when it is given `v`: the same value or an equal one; arrays become lists. -/
inductive Same : Val → Val → Prop
  | refl (v : Val) : Same v v
  | eq {w v : Val} : pyEq w v = true → Same w v
  | array {w : Val} {l : List Val} : Same w (.list l) → Same w (.array l)

/-- The value of an output. -/
def outputValue (d : NodeData) (k : String) : Option Val := (d.outputs.lookup k).bind (·.value)

/-- An output shows `v`. -/
def Shows (d : NodeData) (k : String) (v : Val) : Prop := ∃ w, outputValue d k = some w ∧ Same w v

/-- All inputs are there. -/
def Ready (d : NodeData) : Prop := ∀ p ∈ d.inputs, p.2.value ≠ none

/-- One of the inputs is new. -/
def New (d : NodeData) (keys : List String) : Prop := ∃ k ∈ keys, ∃ c, d.inputs.lookup k = some c ∧ c.updated = true

/-- The output exists and can take the value `v`. -/
def Takes (d : NodeData) (k : String) (v : Val) : Prop := ∃ c, d.outputs.lookup k = some c ∧ c.isStatic = false ∧ Fits true c.ty v

/-- What a getter should answer if it looks for `elem`: FAILED exactly if there is no element, otherwise the element is put out,
unless nothing is new. -/
def Answers (elem : Option Val) (new : Prop) (stale : Bool) (out : String) (before : NodeData) (o : Out) : Prop :=
  match elem with
  | none => o.res = some (.ok .failed) ∧ ∀ k, outputValue o.data k = outputValue before k
  | some v =>
    (new ∨ stale = true → o.res = some (.ok .succeeded) ∧ Shows o.data out v) ∧
    (¬ (new ∨ stale = true) → o.res = some (.ok .running) ∧ ∀ k, outputValue o.data k = outputValue before k)

/-- The data after the tick of the child. -/
def after (child : Child) (d : NodeData) : NodeData :=
  match child with
  | none => d
  | some (_, l) => deliverAll d l

/-- There is no child, or it has succeeded. -/
def Passed (child : Child) : Prop := ∀ r l, child = some (r, l) → r = .ok .succeeded

/-! ### Containers -/

theorem pyEq_float_int (w : Val) (i : Int) : pyEq w (.float (.fin i)) = pyEq w (.int i) := by
  cases w <;> simp [pyEq, pyEq.numEq, Val.num]

theorem pyEq_float_bool (w : Val) (b : Bool) : pyEq w (.float (.fin (if b then 1 else 0))) = pyEq w (.bool b) := by
  cases w <;> simp [pyEq, pyEq.numEq, Val.num]

theorem same_clean (t : Ty) (w v : Val) (h : w = clean t v ∨ pyEq w (clean t v) = true) : Same w v := by
  revert h
  unfold clean
  split
  · rintro (rfl | h)
    · exact .eq (by simp [pyEq, pyEq.numEq, Val.num, Flt.eq])
    · exact .eq (pyEq_float_int _ _ ▸ h)
  · rintro (rfl | h)
    · exact .eq (by simp [pyEq, pyEq.numEq, Val.num, Flt.eq])
    · exact .eq (pyEq_float_bool _ _ ▸ h)
  · rintro (rfl | h)
    · exact .array (.refl _)
    · exact .array (.eq h)
  · rintro (rfl | h)
    · exact .refl _
    · exact .eq h

/-- A dynamic container that is given a fitting value keeps it. -/
theorem set_same (c : Cont) (v : Val) (hd : c.isStatic = false) (h : Fits true c.ty v) :
    (c.set v).2 = .ok ∧ ∃ w, (c.set v).1.value = some w ∧ Same w v := by
  refine ⟨c47_accepts c v hd h, ?_⟩
  unfold Cont.set Cont.assign
  rw [(check_ok _ _).mpr h]
  simp only [hd, Bool.false_and, Bool.false_eq_true, if_false]
  cases hv : c.value with
  | none => exact ⟨_, by simp, same_clean c.ty _ _ (.inl rfl)⟩
  | some w =>
    cases hp : pyEq w (clean c.ty v) with
    | false => exact ⟨_, by simp [hp], same_clean c.ty _ _ (.inl rfl)⟩
    | true => exact ⟨w, by simp [hp], same_clean c.ty _ _ (.inr hp)⟩

theorem put_spec (d : NodeData) (k : String) (v : Val) (s : BTState) (h : Takes d k v) :
    (put d k v s).res = some (.ok s) ∧ Shows (put d k v s).data k v ∧ (put d k v s).data.inputs = d.inputs ∧
      ∀ k', k' ≠ k → (put d k v s).data.outputs.lookup k' = d.outputs.lookup k' := by
  obtain ⟨c, hc, hd, hf⟩ := h
  obtain ⟨h1, w, h2, h3⟩ := set_same c v hd hf
  unfold put
  rw [hc]
  refine ⟨by simp [h1, ansRes], ⟨w, ?_, h3⟩, rfl, ?_⟩
  · simp [outputValue, lookup_modify, hc, h2]
  · intro k' hk
    simp [lookup_modify, hk]

theorem outputValue_reset (d : NodeData) (k : String) :
    outputValue { d with outputs := mapAll Cont.resetUpdated d.outputs } k = outputValue d k := by
  simp only [outputValue, lookup_mapAll]
  cases d.outputs.lookup k <;> rfl

/-! ### Ticks -/

/-- The data a hook gets. -/
def begun (d : NodeData) : NodeData := { d with outputs := mapAll Cont.resetUpdated d.outputs }

theorem tick_ok (hook : NodeData → Out) (d : NodeData) (s : BTState) (hr : Ready d) (h : (hook (begun d)).res = some (.ok s)) :
    (tick hook d).res = some (.ok s) ∧ (tick hook d).data.outputs = (hook (begun d)).data.outputs ∧
      (tick hook d).data.inputs = mapAll Cont.resetUpdated (hook (begun d)).data.inputs := by
  have : d.inputs.all (·.2.value.isSome) = true := by
    rw [List.all_eq_true]
    intro p hp
    exact Option.isSome_iff_ne_none.mpr (hr p hp)
  unfold tick
  rw [if_pos this]
  change (hook { d with outputs := mapAll Cont.resetUpdated d.outputs }).res = _ at h
  simp only [h]
  exact ⟨trivial, rfl, rfl⟩

theorem tick_err (hook : NodeData → Out) (d : NodeData) (hr : Ready d) (h : (hook (begun d)).res = some .err) :
    tick hook d = hook (begun d) := by
  have : d.inputs.all (·.2.value.isSome) = true := by
    rw [List.all_eq_true]
    intro p hp
    exact Option.isSome_iff_ne_none.mpr (hr p hp)
  unfold tick
  rw [if_pos this]
  change (hook { d with outputs := mapAll Cont.resetUpdated d.outputs }).res = _ at h
  simp only [h]
  rfl

theorem takes_begun (d : NodeData) (k : String) (v : Val) (h : Takes d k v) : Takes (begun d) k v := by
  obtain ⟨c, h1, h2, h3⟩ := h
  exact ⟨c.resetUpdated, by simp [begun, lookup_mapAll, h1], h2, h3⟩

theorem deliver_outputs (d : NodeData) (k : String) (v : Val) (o : List (String × Cont)) :
    deliver { d with outputs := o } k v = { deliver d k v with outputs := o } := by
  unfold deliver
  dsimp only
  split <;> rfl

theorem deliverAll_outputs (l : List (String × Val)) (d : NodeData) (o : List (String × Cont)) :
    deliverAll { d with outputs := o } l = { deliverAll d l with outputs := o } := by
  induction l generalizing d with
  | nil => rfl
  | cons p l ih =>
    simp only [deliverAll, List.foldl_cons, deliver_outputs]
    exact ih (deliver d p.1 p.2)

theorem outputs_deliverAll (l : List (String × Val)) (d : NodeData) : (deliverAll d l).outputs = d.outputs := by
  rw [show d = { d with outputs := d.outputs } from rfl, deliverAll_outputs]

theorem after_begun (child : Child) (d : NodeData) : after child (begun d) = begun (after child d) := by
  cases child with
  | none => rfl
  | some p => simp only [after, begun, deliverAll_outputs, outputs_deliverAll]

theorem after_outputs (child : Child) (d : NodeData) : (after child d).outputs = d.outputs := by
  cases child with
  | none => rfl
  | some p => exact outputs_deliverAll _ _

theorem anyUpdated_spec (d : NodeData) (keys : List String) (h : ∀ k ∈ keys, d.inputs.lookup k ≠ none) :
    ∃ b, anyUpdated d keys = some b ∧ (b = true ↔ New d keys) := by
  induction keys with
  | nil => exact ⟨false, rfl, by simp [New]⟩
  | cons k ks ih =>
    obtain ⟨b, h1, h2⟩ := ih fun k hk => h k (by simp [hk])
    cases hc : d.inputs.lookup k with
    | none => exact absurd hc (h k (by simp))
    | some c =>
      refine ⟨c.updated || b, by simp [anyUpdated, hc, h1], ?_⟩
      rw [Bool.or_eq_true, h2]
      simp only [New, List.mem_cons]
      constructor
      · rintro (hu | ⟨k', hk', r⟩)
        · exact ⟨k, .inl rfl, c, hc, hu⟩
        · exact ⟨k', .inr hk', r⟩
      · rintro ⟨k', rfl | hk', c', r1, r2⟩
        · rw [hc] at r1
          cases r1
          exact .inl r2
        · exact .inr ⟨k', hk', c', r1, r2⟩

/-- What all getters have in common. -/
theorem getter_answers (stale : Bool) (keys : List String) (find : NodeData → Look) (out : String) (child : Child) (d : NodeData)
    (elem : Option Val) (hr : Ready d) (hp : Passed child) (hk : ∀ k ∈ keys, (after child d).inputs.lookup k ≠ none)
    (hf : find (begun (after child d)) = look elem) (ht : ∀ v, elem = some v → Takes d out v) :
    Answers elem (New (after child d) keys) stale out d (tick (getter stale keys find out child) d) := by
  have e : getter stale keys find out child (begun d) = getter.own stale keys find out (begun (after child d)) := by
    rw [← after_begun]
    unfold getter after
    cases child with
    | none => rfl
    | some p =>
      obtain ⟨r, l⟩ := p
      have := hp r l rfl
      subst this
      rfl
  obtain ⟨b, h1, h2⟩ := anyUpdated_spec (begun (after child d)) keys hk
  have h2 : b = true ↔ New (after child d) keys := h2
  have same : ∀ k, outputValue (begun (after child d)) k = outputValue d k := by
    intro k
    rw [show outputValue (begun (after child d)) k = outputValue (after child d) k from outputValue_reset _ _]
    simp only [outputValue, after_outputs]
  have own : getter.own stale keys find out (begun (after child d)) =
      match elem with
      | none => ⟨begun (after child d), some (.ok .failed)⟩
      | some v => if b || stale then put (begun (after child d)) out v .succeeded else ⟨begun (after child d), some (.ok .running)⟩ := by
    unfold getter.own
    rw [h1]
    simp only [need, hf]
    cases elem <;> rfl
  cases elem with
  | none =>
    have := tick_ok (getter stale keys find out child) d .failed hr (by rw [e, own])
    refine ⟨this.1, fun k => ?_⟩
    rw [outputValue, this.2.1, e, own]
    exact same k
  | some v =>
    constructor
    · intro hn
      have hb : (b || stale) = true := by
        rw [Bool.or_eq_true, h2]; exact hn
      dsimp only at own
      rw [if_pos hb] at own
      have ht : Takes (begun (after child d)) out v := by
        apply takes_begun
        obtain ⟨c, r⟩ := ht v rfl
        exact ⟨c, by rw [after_outputs]; exact r.1, r.2⟩
      obtain ⟨p1, p2, _⟩ := put_spec _ out v .succeeded ht
      have := tick_ok (getter stale keys find out child) d .succeeded hr (by rw [e, own]; exact p1)
      refine ⟨this.1, ?_⟩
      obtain ⟨w, q1, q2⟩ := p2
      refine ⟨w, ?_, q2⟩
      rw [outputValue, this.2.1, e, own]
      exact q1
    · intro hn
      have hb : (b || stale) = false := by
        rw [← Bool.not_eq_true, Bool.or_eq_true, h2]; exact hn
      dsimp only at own
      rw [hb, if_neg (by simp)] at own
      have := tick_ok (getter stale keys find out child) d .running hr (by rw [e, own])
      refine ⟨this.1, fun k => ?_⟩
      rw [outputValue, this.2.1, e, own]
      exact same k

/-! ### The getters -/

theorem lookup_of_value {d : NodeData} {k : String} {v : Val} (h : value d k = some v) : d.inputs.lookup k ≠ none := by
  intro e
  rw [value, e] at h
  cases h

theorem value_begun (d : NodeData) (k : String) : value (begun d) k = value d k := rfl

theorem asInt_of {v : Val} {i : Int} (h : Integer v i) : asInt v = some i := by
  cases h <;> rfl

/-- C63: GetListItem answers FAILED exactly if there is no element with this index, otherwise the element is put out; if neither
the list nor the index is new this needs `succeed_on_stale_data`, otherwise the answer is RUNNING. The index is not
negative (`IntType(min_value=0)`, C47). -/
theorem c63_list_item (stale : Bool) (child : Child) (d : NodeData) (l : List Val) (v : Val) (i : Int) (hr : Ready d) (hp : Passed child)
    (hl : value (after child d) "list" = some (.list l)) (hv : value (after child d) "index" = some v) (hi : Integer v i) (h0 : 0 ≤ i)
    (ht : ∀ x ∈ l, Takes d "item" x) :
    Answers l[i.toNat]? (New (after child d) ["list", "index"]) stale "item" d (tick (getListItem stale child) d) := by
  apply getter_answers stale _ _ _ child d _ hr hp
  · intro k hk
    simp only [List.mem_cons, List.not_mem_nil, or_false] at hk
    rcases hk with rfl | rfl
    · exact lookup_of_value hl
    · exact lookup_of_value hv
  · simp [findListItem, valueAs, value_begun, hl, hv, asList, asInt_of hi, pyIndex, h0]
  · intro x hx
    exact ht x (List.mem_of_getElem? hx)

/-- C63: GetDictItem. -/
theorem c63_dict_item (stale : Bool) (child : Child) (d : NodeData) (l : List (String × Val)) (k : String) (hr : Ready d) (hp : Passed child)
    (hl : value (after child d) "dict" = some (.dict l)) (hk : value (after child d) "key" = some (.str k))
    (ht : ∀ x, l.lookup k = some x → Takes d "value" x) :
    Answers (l.lookup k) (New (after child d) ["dict", "key"]) stale "value" d (tick (getDictItem stale child) d) := by
  apply getter_answers stale _ _ _ child d _ hr hp
  · intro k hk'
    simp only [List.mem_cons, List.not_mem_nil, or_false] at hk'
    rcases hk' with rfl | rfl
    · exact lookup_of_value hl
    · exact lookup_of_value hk
  · simp [findDictItem, valueAs, value_begun, hl, hk, asDict, asStr]
  · exact ht

/-- The values of some keys, in their order. -/
inductive Picks (l : List (String × Val)) : List Val → List Val → Prop
  | nil : Picks l [] []
  | cons {k : String} {v : Val} {ks vs : List Val} : l.lookup k = some v → Picks l ks vs → Picks l (.str k :: ks) (v :: vs)

theorem lookupAll_iff (l : List (String × Val)) (ks vs : List Val) : lookupAll l ks = some vs ↔ Picks l ks vs := by
  induction ks generalizing vs with
  | nil =>
    constructor
    · intro h
      cases h
      exact .nil
    · intro h
      cases h
      rfl
  | cons k ks ih =>
    constructor
    · intro h
      unfold lookupAll at h
      split at h
      · cases h
      · rename_i v hv
        cases k <;> simp only [asStr, Option.bind_none, Option.bind_some] at hv <;> try (cases hv; done)
        cases hr : lookupAll l ks with
        | none => simp [hr] at h
        | some ws =>
          simp only [hr, Option.map_some, Option.some.injEq] at h
          subst h
          exact .cons hv ((ih ws).mp hr)
    · intro h
      cases h with
      | cons h1 h2 => simp [lookupAll, asStr, h1, (ih _).mpr h2]

/-- C63: GetMultipleDictItems puts out the values of all keys in the order of the keys, and answers FAILED exactly if one of them
is missing. -/
theorem c63_dict_items (stale : Bool) (child : Child) (d : NodeData) (l : List (String × Val)) (ks : List Val) (hr : Ready d)
    (hp : Passed child) (hl : value (after child d) "dict" = some (.dict l)) (hk : value (after child d) "keys" = some (.list ks))
    (ht : ∀ vs, Picks l ks vs → Takes d "values" (.list vs)) :
    (∀ vs, Picks l ks vs →
      Answers (some (.list vs)) (New (after child d) ["dict", "keys"]) stale "values" d (tick (getMultipleDictItems stale child) d)) ∧
    ((¬ ∃ vs, Picks l ks vs) →
      Answers none (New (after child d) ["dict", "keys"]) stale "values" d (tick (getMultipleDictItems stale child) d)) := by
  have key : ∀ elem, (lookupAll l ks).map Val.list = elem →
      Answers elem (New (after child d) ["dict", "keys"]) stale "values" d (tick (getMultipleDictItems stale child) d) := by
    rintro elem rfl
    apply getter_answers stale _ _ _ child d _ hr hp
    · intro k hk'
      simp only [List.mem_cons, List.not_mem_nil, or_false] at hk'
      rcases hk' with rfl | rfl
      · exact lookup_of_value hl
      · exact lookup_of_value hk
    · simp [findDictItems, valueAs, value_begun, hl, hk, asDict, asList]
    · intro v hv
      cases hr : lookupAll l ks with
      | none => simp [hr] at hv
      | some vs =>
        simp only [hr, Option.map_some, Option.some.injEq] at hv
        subst hv
        exact ht vs ((lookupAll_iff l ks vs).mp hr)
  constructor
  · intro vs h
    exact key _ (by rw [(lookupAll_iff l ks vs).mpr h]; rfl)
  · intro h
    apply key
    cases hr : lookupAll l ks with
    | none => rfl
    | some vs => exact absurd ⟨vs, (lookupAll_iff l ks vs).mp hr⟩ h

/-- `v.a.b.c` is `x` -/
inductive HasAttr : Val → List String → Val → Prop
  | here (v : Val) : HasAttr v [] v
  | field {t a : String} {fields : List (String × Val)} {as : List String} {w x : Val} : fields.lookup a = some w → HasAttr w as x →
      HasAttr (.msg t fields) (a :: as) x

theorem getAttrs_iff (v : Val) (as : List String) (x : Val) : getAttrs v as = some x ↔ HasAttr v as x := by
  induction as generalizing v with
  | nil =>
    constructor
    · intro h
      have : v = x := by simpa [getAttrs] using h
      exact this ▸ .here v
    · intro h
      cases h
      simp [getAttrs]
  | cons a as ih =>
    constructor
    · intro h
      cases v <;> simp only [getAttrs] at h <;> try (cases h; done)
      split at h
      · cases h
      · rename_i w hw
        exact .field hw ((ih w).mp h)
    · intro h
      cases h with
      | field h1 h2 => simp [getAttrs, h1, (ih _).mpr h2]

/-- `a` consists of the names `as` with dots in between. -/
def Dotted (a : String) (as : List String) : Prop :=
  as ≠ [] ∧ (∀ x ∈ as, '.' ∉ x.toList) ∧ a.toList = List.intercalate ['.'] (as.map String.toList)

theorem splitChars_append (p t : List Char) (h : '.' ∉ p) : splitChars (p ++ '.' :: t) = p :: splitChars t := by
  induction p with
  | nil => simp [splitChars]
  | cons c p ih =>
    simp only [List.mem_cons, not_or] at h
    simp only [List.cons_append, splitChars, ih h.2]
    rw [if_neg fun e => h.1 e.symm]

theorem splitChars_plain (p : List Char) (h : '.' ∉ p) : splitChars p = [p] := by
  induction p with
  | nil => rfl
  | cons c p ih =>
    simp only [List.mem_cons, not_or] at h
    simp only [splitChars, ih h.2]
    rw [if_neg fun e => h.1 e.symm]

theorem splitChars_intercalate (ps : List (List Char)) (h : ps ≠ []) (hd : ∀ p ∈ ps, '.' ∉ p) :
    splitChars (List.intercalate ['.'] ps) = ps := by
  induction ps with
  | nil => exact absurd rfl h
  | cons p ps ih =>
    cases ps with
    | nil => simpa [List.intercalate] using splitChars_plain p (hd p (by simp))
    | cons q ps =>
      have e : List.intercalate ['.'] (p :: q :: ps) = p ++ '.' :: List.intercalate ['.'] (q :: ps) := by
        simp [List.intercalate, List.intersperse]
      rw [e, splitChars_append _ _ (hd p (by simp)), ih (by simp) fun x hx => hd x (by simp [hx])]

theorem splitDots_of {a : String} {as : List String} (h : Dotted a as) : splitDots a = as := by
  obtain ⟨h1, h2, h3⟩ := h
  unfold splitDots
  rw [h3, splitChars_intercalate _ (by simpa using h1) (by simpa using h2)]
  simp

/-- C63: GetAttr puts out the (nested) field, and answers FAILED exactly if there is none. -/
theorem c63_attr (stale : Bool) (child : Child) (d : NodeData) (v : Val) (a : String) (as : List String) (hr : Ready d) (hp : Passed child)
    (hv : value (after child d) "object" = some v) (ha : value (after child d) "attr_name" = some (.str a)) (hd : Dotted a as)
    (ht : ∀ x, HasAttr v as x → Takes d "attr" x) :
    (∀ x, HasAttr v as x →
      Answers (some x) (New (after child d) ["object", "attr_name"]) stale "attr" d (tick (getAttr stale child) d)) ∧
    ((¬ ∃ x, HasAttr v as x) →
      Answers none (New (after child d) ["object", "attr_name"]) stale "attr" d (tick (getAttr stale child) d)) := by
  have key : ∀ elem, getAttrs v as = elem →
      Answers elem (New (after child d) ["object", "attr_name"]) stale "attr" d (tick (getAttr stale child) d) := by
    rintro elem rfl
    apply getter_answers stale _ _ _ child d _ hr hp
    · intro k hk'
      simp only [List.mem_cons, List.not_mem_nil, or_false] at hk'
      rcases hk' with rfl | rfl
      · exact lookup_of_value hv
      · exact lookup_of_value ha
    · simp [findAttr, valueAs, value_begun, hv, ha, asStr, splitDots_of hd]
    · intro x hx
      exact ht x ((getAttrs_iff _ _ _).mp hx)
  constructor
  · intro x h
    exact key _ ((getAttrs_iff _ _ _).mpr h)
  · intro h
    apply key
    cases hr : getAttrs v as with
    | none => rfl
    | some x => exact absurd ⟨x, (getAttrs_iff _ _ _).mp hr⟩ h

/-- C63: if the child has not succeeded, all getters answer as it did and put out nothing. -/
theorem c63_child (stale : Bool) (keys : List String) (find : NodeData → Look) (out : String) (r : Res) (l : List (String × Val))
    (d : NodeData) (hr : Ready d) (h : r = .ok .failed ∨ r = .ok .running ∨ r = .err) :
    (tick (getter stale keys find out (some (r, l))) d).res = some r ∧
      ∀ k, outputValue (tick (getter stale keys find out (some (r, l))) d).data k = outputValue d k := by
  have e : getter stale keys find out (some (r, l)) (begun d) = ⟨begun (deliverAll d l), some r⟩ := by
    have := after_begun (some (r, l)) d
    simp only [after] at this
    simp only [getter, this]
    rcases h with rfl | rfl | rfl <;> rfl
  have same : ∀ k, outputValue (begun (deliverAll d l)) k = outputValue d k := by
    intro k
    rw [show outputValue (begun (deliverAll d l)) k = outputValue (deliverAll d l) k from outputValue_reset _ _]
    simp only [outputValue, outputs_deliverAll]
  cases r with
  | ok s =>
    have := tick_ok (getter stale keys find out (some (.ok s, l))) d s hr (by rw [e])
    refine ⟨this.1, fun k => ?_⟩
    rw [outputValue, this.2.1, e]
    exact same k
  | err =>
    rw [tick_err _ d hr (by rw [e]), e]
    exact ⟨rfl, same⟩

/-- Equal values are delivered: each one is equal to what the input holds. -/
def Repeats (d : NodeData) (l : List (String × Val)) : Prop :=
  ∀ p ∈ l, ∃ c w, d.inputs.lookup p.1 = some c ∧ c.value = some w ∧ pyEq w (clean c.ty p.2) = true

theorem modify_same (k : String) (c : Cont) (l : List (String × Cont)) (h : l.lookup k = some c) : modify k (fun _ => c) l = l := by
  induction l with
  | nil => rfl
  | cons p l ih =>
    obtain ⟨k', c'⟩ := p
    unfold Data.modify
    by_cases hk : k' = k
    · subst hk
      simp only [List.lookup, beq_self_eq_true, Option.some.injEq] at h
      simp [h]
    · have : (k == k') = false := by simpa using fun e => hk e.symm
      simp only [List.lookup, this] at h
      rw [if_neg hk, ih h]

theorem set_equal (c : Cont) (v w : Val) (hu : c.updated = false) (hv : c.value = some w) (he : pyEq w (clean c.ty v) = true) :
    (c.set v).1 = c := by
  unfold Cont.set Cont.assign
  split
  · obtain ⟨ty, ad, as, st, val, upd⟩ := c
    dsimp only at hu hv he
    subst hu hv
    simp [he]
  · rfl

/-- C63: after a tick nothing is new, and delivering equal values does not change that. -/
theorem c63_stale (hook : NodeData → Out) (d : NodeData) (s : BTState) (l : List (String × Val)) (keys : List String)
    (h : (tick hook d).res = some (.ok s)) (hl : Repeats (tick hook d).data l) : ¬ New (deliverAll (tick hook d).data l) keys := by
  have quiet : ∀ k c, (tick hook d).data.inputs.lookup k = some c → c.updated = false := by
    intro k c hc
    unfold tick at h hc
    split at h
    · rename_i ha
      simp only [ha, if_true] at hc
      dsimp only at h hc
      split at h
      · rename_i s' hs
        simp only [hs, lookup_mapAll, Option.map_eq_some_iff] at hc
        obtain ⟨c', _, rfl⟩ := hc
        rfl
      · rename_i hs
        exact absurd h (hs s)
    · cases h
  generalize (tick hook d).data = d at quiet hl
  have key : ∀ l, Repeats d l → deliverAll d l = d := by
    intro l
    induction l with
    | nil => intro _; rfl
    | cons p l ih =>
      intro hl
      obtain ⟨c, w, h1, h2, h3⟩ := hl p (by simp)
      have e : deliver d p.1 p.2 = d := by
        unfold deliver
        rw [h1]
        simp only [set_equal c p.2 w (quiet _ _ h1) h2 h3, modify_same _ _ _ h1]
      unfold deliverAll
      rw [List.foldl_cons, e]
      exact ih fun q hq => hl q (by simp [hq])
  rw [key l hl]
  rintro ⟨k, _, c, hc, hu⟩
  rw [quiet k c hc] at hu
  cases hu

/-! ### Examples -/

/-- A container with a value. -/
def cont (t : Ty) (v : Val) (updated : Bool := false) : Cont := ⟨t, true, true, false, some v, updated⟩

/-- A GetListItem node with the list [10, 20] and the index 1. -/
def sampleGetter (new : Bool) (index : Int) : NodeData :=
  { inputs := [("list", cont (.list (.int 0 100) true 10 false) (.list [.int 10, .int 20]) new), ("index", cont (.int 0 100) (.int index))],
    outputs := [("item", cont (.int 0 100) (.int 0))] }

example : Answers (some (.int 20)) (New (sampleGetter true 1) ["list", "index"]) false "item" (sampleGetter true 1)
    (tick (getListItem false none) (sampleGetter true 1)) :=
  c63_list_item false none (sampleGetter true 1) [.int 10, .int 20] (.int 1) 1 (by simp [Ready, sampleGetter, cont]) (by simp [Passed])
    rfl rfl (.int 1) (by decide) (by
      intro x hx
      refine ⟨_, rfl, rfl, ?_⟩
      simp only [List.mem_cons, List.not_mem_nil, or_false] at hx
      rcases hx with rfl | rfl
      · exact .int (.int 10) (by decide) (by decide)
      · exact .int (.int 20) (by decide) (by decide))

/-- The answers in the three cases: new list; nothing new; no such element (nothing new either). -/
example : (tick (getListItem false none) (sampleGetter true 1)).res = some (.ok .succeeded) ∧
    (tick (getListItem false none) (sampleGetter false 1)).res = some (.ok .running) ∧
    (tick (getListItem true none) (sampleGetter false 1)).res = some (.ok .succeeded) ∧
    (tick (getListItem false none) (sampleGetter false 2)).res = some (.ok .failed) ∧
    (tick (getListItem false (some (.ok .succeeded, [("index", .int 1)]))) (sampleGetter false 2)).res = some (.ok .succeeded) ∧
    (tick (getListItem false (some (.ok .running, []))) (sampleGetter true 1)).res = some (.ok .running) := by
  decide +kernel

/-- A GetAttr node for `stamp.sec`. -/
def sampleAttr : NodeData :=
  { inputs := [("object", cont (.rosMsg "std_msgs/msg/Header" 0)
        (.msg "std_msgs/msg/Header" [("stamp", .msg "builtin_interfaces/msg/Time" [("sec", .int 7)]), ("frame_id", .str "map")]) true),
      ("attr_name", cont (.string 100 none) (.str "stamp.sec"))],
    outputs := [("attr", cont (.int 0 100) (.int 0))] }

example : HasAttr (.msg "std_msgs/msg/Header" [("stamp", .msg "builtin_interfaces/msg/Time" [("sec", .int 7)]), ("frame_id", .str "map")])
    ["stamp", "sec"] (.int 7) := .field rfl (.field rfl (.here _))

example : Dotted "stamp.sec" ["stamp", "sec"] := ⟨by decide, by decide, by decide⟩

example : (tick (getAttr false none) sampleAttr).res = some (.ok .succeeded) := by decide +kernel

example : Picks [("a", .int 1), ("b", .int 2)] [.str "b", .str "a", .str "b"] [.int 2, .int 1, .int 2] :=
  .cons rfl (.cons rfl (.cons rfl .nil))

end Verif.Nodes
