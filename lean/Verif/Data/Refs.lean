import Verif.Data.Generic
import Verif.Data.Config
import Verif.Data.Values
import Verif.Data.Compat

/-! C107: inputs and outputs whose type is named by another input (`ReferenceContainer`, data_types.py 1519-1752), and nodes that are
created from messages (node.py 193-262, 1023-1062).

Simplifications: `Res.other` stands for failures of which the model does not say whether they are `Err` or an exception, and for type values
that are not followed (`Made.other`). The value that a service or action class would give for a message is not followed. A
dictionary is a list of pairs. -/

set_option autoImplicit false

namespace Verif.Data.Refs

open Generic

/-! ### The model -/

/-- data_types.py 1665-1670, 1704-1725, 1728-1749: `ReferenceType`, `ReferenceListType`, `ReferenceDictType`. -/
inductive RKind | plain | list | dict
  deriving DecidableEq, Repr

/-- data_types.py 1519-1548: a reference; `target` is `_reference`, `inner` is `_inner_type`. -/
structure Ref where
  kind : RKind
  target : String
  allowDynamic : Bool
  allowStatic : Bool
  isStatic : Bool
  inner : Option Cont := none

/-- Containers of all kinds. -/
inductive Item | cont (c : Cont) | gen (c : GCont) | ref (r : Ref)

/-- How something ends. -/
inductive Res (A : Type) | ok (a : A) | err | raise | other

/-- What is around: ROS interfaces, messages by name, texts of numbers, names of builtin classes. -/
structure World where
  env : Env
  isMsg : String → Bool
  tx : Texts
  builtin : String → Bool

/-- data_types.py 1168-1174, 1440-1448: `get_value_field`; a container that is no type container does not have it (data_types.py 1557-1558). -/
def valueField (w : World) : Item → Made
  | .gen g => made w.isMsg g.value
  | .cont c =>
    match c.ty, c.value with
    | .rosType k _, some (.cls n) => if k = .topic ∨ k = .component then .ty (.rosMsg n 0) else .other
    | .rosType _ _, some _ => .other
    | _, _ => .err
  | .ref _ => .err

/-- data_types.py 1713-1725, 1737-1749: the type that is imitated. The element type keeps `allow_static` of the reference (756-758). -/
def wrapTy (r : Ref) (t : Ty) : Ty :=
  match r.kind with
  | .plain => t
  | .list => .list t r.allowStatic intFloatMax false
  | .dict => .dict t r.allowStatic intFloatMax false

/-- data_types.py 1550-1567, 1713-1725, 1737-1749: a new container of the type, which then gets the flags of the reference. -/
def innerOf (w : World) (r : Ref) (t : Ty) : Cont :=
  { adjust ⟨wrapTy r t, true, true, true, some ((wrapTy r t).initial w.env.fresh), false⟩ with
    allowDynamic := r.allowDynamic, allowStatic := r.allowStatic, isStatic := r.isStatic }

/-- data_types.py 1550-1576: `set_type_map`. -/
def setTypeMap (w : World) (m : List (String × Item)) (r : Ref) : Res Ref :=
  match m.lookup r.target with
  | none => .err
  | some it =>
    match valueField w it with
    | .ty t => .ok { r with inner := some (innerOf w r t) }
    | .err => .err
    | .raise => .raise
    | .other => .other

/-- node_config.py 181-189, node.py 246-262: `set_type_map` for all references but those that are skipped; `Err` ends it. -/
def refresh (w : World) (m : List (String × Item)) (skip : String → Bool) : List (String × Item) → Res (List (String × Item))
  | [] => .ok []
  | (k, it) :: l =>
    match it with
    | .ref r =>
      if skip k then match refresh w m skip l with | .ok l => .ok ((k, it) :: l) | e => e
      else match setTypeMap w m r with
        | .ok r => match refresh w m skip l with | .ok l => .ok ((k, .ref r) :: l) | e => e
        | .err => .err
        | .raise => .raise
        | .other => .other
    | it => match refresh w m skip l with | .ok l => .ok ((k, it) :: l) | e => e

/-- node_config.py 136-170: `NodeConfig` without tags. -/
structure RConfig where
  inputs : List (String × Item)
  outputs : List (String × Item)
  maxChildren : Option Nat

/-- data_types.py 402-427: is it a type container? -/
def Item.isTypeContainer : Item → Bool
  | .cont c => c.ty.isTypeContainer
  | .gen _ => true
  | .ref _ => false

/-- node_config.py 177-179: an output is dynamic. Only for what is no type container. -/
def Item.force : Item → Item
  | .cont c => .cont { c with allowDynamic := true, allowStatic := false, isStatic := false }
  | .ref r => .ref { r with allowDynamic := true, allowStatic := false, isStatic := false }
  | it => it

/-- node_config.py 137-189: the constructor; `NodeConfigError` is `err`. -/
def RConfig.new (w : World) (inputs outputs : List (String × Item)) (maxChildren : Option Nat) : Res RConfig :=
  if outputs.any (·.2.isTypeContainer) then .err
  else
    match refresh w inputs (fun _ => false) inputs with
    | .ok i =>
      match refresh w i (fun _ => false) (mapAll Item.force outputs) with
      | .ok o => .ok ⟨i, o, maxChildren⟩
      | .err => .err
      | .raise => .raise
      | .other => .other
    | .err => .err
    | .raise => .raise
    | .other => .other

/-- data_types.py 191-213, 1147-1155, 1590-1600: `self.is_compatible(other)`. -/
def Item.isCompatible : (self other : Item) → Bool
  | .cont c, .cont d => c.isCompatible d
  | .gen c, .gen d => c.isCompatible d
  | .ref r, .ref s => r.kind = s.kind && !(r.allowDynamic && !s.allowDynamic) && !(r.allowStatic && !s.allowStatic) && r.target = s.target
  | _, _ => false

/-- node_config.py 225-229 and 231-235 -/
def absorbI (self : List (String × Item)) : List (String × Item) → List (String × Item) × List String
  | [] => (self, [])
  | (k, c) :: r =>
    if (self.lookup k).isSome then ((absorbI self r).1, k :: (absorbI self r).2)
    else absorbI (self ++ [(k, c)]) r

/-- node_config.py 211-246: `extend`; the configuration afterwards and whether the answer is `Ok`. -/
def RConfig.extend (self other : RConfig) : RConfig × Bool :=
  if self.maxChildren = other.maxChildren then
    let i := absorbI self.inputs other.inputs
    let o := absorbI self.outputs other.outputs
    ({ self with inputs := i.1, outputs := o.1 }, i.2.isEmpty && o.2.isEmpty)
  else (self, false)

/-- node.py 202-212: given inputs that are known already; the others are kept for later. `none`: `NodeConfigError`. -/
def knownInputs : List (String × Item) → List (String × Item) → Option (List (String × Item) × List (String × Item))
  | [], inputs => some (inputs, [])
  | (k, c) :: r, inputs =>
    match inputs.lookup k with
    | none => (knownInputs r inputs).map fun p => (p.1, (k, c) :: p.2)
    | some t => if t.isCompatible c then knownInputs r (modify k (fun _ => c) inputs) else none

/-- node.py 230-241: the other inputs. -/
def restInputs : List (String × Item) → List (String × Item) → Option (List (String × Item))
  | [], inputs => some inputs
  | (k, c) :: r, inputs =>
    match inputs.lookup k with
    | none => none
    | some t => if t.isCompatible c then restInputs r (modify k (fun _ => c) inputs) else none

/-- node.py 193-262: the configuration of a new node; `NodeConfigError` is `err`. `extra`: what `add_extra_inputs` and
`add_extra_outputs` answer. -/
def createNode (w : World) (cls : RConfig) (extra : List (String × Item) → Option (List (String × Item) × List (String × Item)))
    (given : List (String × Item)) : Res RConfig :=
  match RConfig.new w cls.inputs cls.outputs cls.maxChildren with
  | .ok base =>
    match knownInputs given base.inputs with
    | none => .err
    | some (inputs, rest) =>
      match extra inputs with
      | none => .err
      | some (i, o) =>
        match RConfig.new w i o base.maxChildren with
        | .ok more =>
          match ({ base with inputs := inputs } : RConfig).extend more with
          | (_, false) => .err
          | (c, true) =>
            match restInputs rest c.inputs with
            | none => .err
            | some inputs =>
              match refresh w inputs (fun k => (given.lookup k).isSome) inputs with
              | .ok i =>
                match refresh w i (fun _ => false) c.outputs with
                | .ok o => .ok ⟨i, o, c.maxChildren⟩
                | .err => .err
                | .raise => .raise
                | .other => .other
              | .err => .err
              | .raise => .raise
              | .other => .other
        | .err => .err
        | .raise => .raise
        | .other => .other
  | .err => .err
  | .raise => .raise
  | .other => .other

/-- msg/NodeDataType.msg, as it describes containers of the three kinds. -/
inductive Decl
  | cont (m : TypeMsg)
  | gen (options : List String) (allowDynamic allowStatic isStatic : Bool)
  | ref (kind : RKind) (target : String) (allowDynamic allowStatic isStatic : Bool)

/-- msg/NodeIO.msg; the value `none` is the empty string. -/
structure IoMsg where
  key : String
  decl : Decl
  value : Option Json

/-- data_types.py 384-396: `get_iotype_for_msg`, with 85-127, 409-426 and 1529-1548 for the flags. -/
def Decl.read (w : World) : Decl → Res Item
  | .cont m => match fromMsg w.env.fresh m with | some c => .ok (.cont c) | none => .other
  | .gen o ad as st =>
    if ad = false ∧ as = true ∧ st = true then match fromOptions w.builtin o with | some c => .ok (.gen c) | none => .raise
    else .raise
  | .ref k t ad as st =>
    if (ad = true ∨ as = true) ∧ (st = true → as = true) ∧ (st = false → ad = true) then .ok (.ref ⟨k, t, ad, as, st, none⟩)
    else .raise

/-- `is_static` -/
def Item.isStatic : Item → Bool
  | .cont c => c.isStatic
  | .gen _ => true
  | .ref r => r.isStatic

/-- data_types.py 344-351: `deserialize_value`; an `Err` is not looked at (node.py 1035, 1043-1045). -/
def readCont (w : World) (n : Nat) (c : Cont) (j : Json) : Res Cont :=
  match deser w.env n c.ty j with
  | none => .other
  | some v => match c.set v with
    | (_, .raise) => .raise
    | (c, _) => .ok c

/-- data_types.py 344-351 with 1164-1165 and 1660-1663: the value of an input; an empty string is no JSON, `json.loads` raises. -/
def readItem (w : World) (n : Nat) (it : Item) (value : Option Json) : Res Item :=
  match value with
  | none => .raise
  | some j =>
    match it with
    | .cont c => match readCont w n c j with | .ok c => .ok (.cont c) | .err => .err | .raise => .raise | .other => .other
    | .gen g =>
      match deserMap w.tx j.toVal with
      | none => .raise
      | some v => match g.set v with
        | (_, .raise) => .raise
        | (g, _) => .ok (.gen g)
    | .ref r =>
      match r.inner with
      | none => .ok (.ref r)
      | some c => match readCont w n c j with
        | .ok c => .ok (.ref { r with inner := some c })
        | .err => .err
        | .raise => .raise
        | .other => .other

/-- `d[k] = v` -/
def put {A : Type} (k : String) (a : A) : List (String × A) → List (String × A)
  | [] => [(k, a)]
  | (l, b) :: r => if l = k then (l, a) :: r else (l, b) :: put k a r

/-- Is it a reference? -/
def Item.isRef : Item → Bool
  | .ref _ => true
  | _ => false

/-- node.py 1023-1035: the first loop; the values of references are kept beside them. -/
def readAll (w : World) (n : Nat) : List IoMsg → List (String × Item × Option Json) → Res (List (String × Item × Option Json))
  | [], acc => .ok acc
  | m :: r, acc =>
    match m.decl.read w with
    | .ok it =>
      if it.isRef || !it.isStatic then readAll w n r (put m.key (it, m.value) acc)
      else match readItem w n it m.value with
        | .ok it => readAll w n r (put m.key (it, m.value) acc)
        | .err => .err
        | .raise => .raise
        | .other => .other
    | .err => .err
    | .raise => .raise
    | .other => .other

/-- node.py 1036-1045: one reference; the answer of `set_type_map` is not looked at. -/
def bind (w : World) (n : Nat) (m : List (String × Item)) (r : Ref) (value : Option Json) : Res Item :=
  match setTypeMap w m r with
  | .ok r => if r.isStatic then readItem w n (.ref r) value else .ok (.ref r)
  | .err => if r.isStatic then readItem w n (.ref r) value else .ok (.ref r)
  | .raise => .raise
  | .other => .other

/-- node.py 1036-1045: the second loop, for one input. -/
def bindItem (w : World) (n : Nat) (m : List (String × Item)) (it : Item) (value : Option Json) : Res Item :=
  match it with
  | .ref r => bind w n m r value
  | it => .ok it

/-- node.py 1036-1045: the second loop. References are no type containers, so it does not matter which of them have been treated. -/
def bindAll (w : World) (n : Nat) (m : List (String × Item)) : List (String × Item × Option Json) → Res (List (String × Item))
  | [] => .ok []
  | (k, it, value) :: l =>
    match bindItem w n m it value with
    | .ok it => match bindAll w n m l with | .ok l => .ok ((k, it) :: l) | e => e
    | .err => .err
    | .raise => .raise
    | .other => .other

/-- The containers alone. -/
def items (l : List (String × Item × Option Json)) : List (String × Item) := l.map fun p => (p.1, p.2.1)

/-- node.py 1023-1045: the inputs of a message. -/
def giveInputs (w : World) (n : Nat) (msgs : List IoMsg) : Res (List (String × Item)) :=
  match readAll w n msgs [] with
  | .ok l => bindAll w n (items l) l
  | .err => .err
  | .raise => .raise
  | .other => .other

/-- node.py 1023-1062: the configuration of a node created from a message. -/
def nodeFromMsg (w : World) (n : Nat) (cls : RConfig) (extra : List (String × Item) → Option (List (String × Item) × List (String × Item)))
    (msgs : List IoMsg) : Res RConfig :=
  match giveInputs w n msgs with
  | .ok given => createNode w cls extra given
  | .err => .err
  | .raise => .raise
  | .other => .other

/-! ### Specification -/

/-- An input whose value names a type. -/
inductive Names (isMsg : String → Bool) : Item → Ty → Prop
  | value {g : GCont} {t : Ty} : Means isMsg g.value t → Names isMsg (.gen g) t
  | topic {c : Cont} {i : Nat} {n : String} : c.ty = .rosType .topic i → c.value = some (.cls n) → Names isMsg (.cont c) (.rosMsg n 0)
  | component {c : Cont} {i : Nat} {n : String} : c.ty = .rosType .component i → c.value = some (.cls n) → Names isMsg (.cont c) (.rosMsg n 0)

/-- The type itself, lists of it, or dictionaries of it, of any length. -/
inductive Shaped (es : Bool) (t : Ty) : RKind → Ty → Prop
  | plain : Shaped es t .plain t
  | list : Shaped es t .list (.list t es (2 ^ 64 - 1616) false)
  | dict : Shaped es t .dict (.dict t es (2 ^ 64 - 1616) false)

/-- A reference behaves like a container of the type that its target among the inputs names. -/
structure Imitates (isMsg : String → Bool) (inputs : List (String × Item)) (r : Ref) : Prop where
  inner : ∃ it t c, inputs.lookup r.target = some it ∧ Names isMsg it t ∧ r.inner = some c ∧ Shaped r.allowStatic t r.kind c.ty ∧
    c.allowDynamic = r.allowDynamic ∧ c.allowStatic = r.allowStatic ∧ c.isStatic = r.isStatic

/-! ### Lemmas -/

theorem valueField_iff {w : World} {it : Item} {t : Ty} : valueField w it = .ty t ↔ Names w.isMsg it t := by
  cases it with
  | gen g =>
    rw [valueField, c106_meaning]
    exact ⟨.value, fun h => by cases h; assumption⟩
  | ref r =>
    constructor
    · intro h; cases h
    · intro h; cases h
  | cont c =>
    constructor
    · intro h
      unfold valueField at h
      dsimp only at h
      split at h
      · rename_i k i n hty hv
        split at h
        · rename_i hk
          cases h
          rcases hk with rfl | rfl
          · exact .topic hty hv
          · exact .component hty hv
        · cases h
      · cases h
      · cases h
    · intro h
      cases h with
      | topic h1 h2 => simp [valueField, h1, h2]
      | component h1 h2 => simp [valueField, h1, h2]

theorem adjust_ty (c : Cont) : (adjust c).ty = c.ty := by
  unfold adjust
  repeat' split
  all_goals rfl

theorem shaped (w : World) (r : Ref) (t : Ty) : Shaped r.allowStatic t r.kind (innerOf w r t).ty := by
  have : (innerOf w r t).ty = wrapTy r t := adjust_ty _
  rw [this]
  unfold wrapTy
  cases r.kind
  · exact .plain
  · exact .list
  · exact .dict

theorem setTypeMap_ok {w : World} {m : List (String × Item)} {r r' : Ref} (h : setTypeMap w m r = .ok r') :
    Imitates w.isMsg m r' ∧ r'.target = r.target ∧ ∃ it, m.lookup r.target = some it ∧ it.isRef = false := by
  unfold setTypeMap at h
  cases hl : m.lookup r.target with
  | none => rw [hl] at h; cases h
  | some it =>
    rw [hl] at h
    dsimp only at h
    cases hf : valueField w it with
    | ty t =>
      rw [hf] at h
      cases h
      have hn := valueField_iff.mp hf
      exact ⟨⟨it, t, _, hl, hn, rfl, shaped w r t, rfl, rfl, rfl⟩, rfl, it, rfl, by cases hn <;> rfl⟩
    | err => rw [hf] at h; cases h
    | raise => rw [hf] at h; cases h
    | other => rw [hf] at h; cases h

theorem lookup_memI {l : List (String × Item)} {k : String} {it : Item} (h : l.lookup k = some it) : (k, it) ∈ l := by
  induction l with
  | nil => simp at h
  | cons q l ih =>
    obtain ⟨j, x⟩ := q
    by_cases e : k = j
    · rw [e] at h ⊢; simp at h; simp [h]
    · rw [List.lookup_cons, beq_false_of_ne e] at h
      exact List.mem_cons_of_mem _ (ih h)

theorem refresh_cons {w : World} {m : List (String × Item)} {skip : String → Bool} {k : String} {it : Item} {l l' : List (String × Item)}
    (h : refresh w m skip ((k, it) :: l) = .ok l') :
    ∃ it' rest, l' = (k, it') :: rest ∧ refresh w m skip l = .ok rest ∧
      (it' = it ∧ (it.isRef = true → skip k = true) ∨ ∃ r r', it = .ref r ∧ it' = .ref r' ∧ skip k = false ∧ setTypeMap w m r = .ok r') := by
  cases it with
  | ref r =>
    rw [refresh] at h
    by_cases hs : skip k = true
    · rw [if_pos hs] at h
      cases hr : refresh w m skip l with
      | ok rest => rw [hr] at h; cases h; exact ⟨_, rest, rfl, rfl, .inl ⟨rfl, fun _ => hs⟩⟩
      | _ => rw [hr] at h; cases h
    · rw [if_neg hs] at h
      cases hm : setTypeMap w m r with
      | ok r' =>
        rw [hm] at h
        dsimp only at h
        cases hr : refresh w m skip l with
        | ok rest => rw [hr] at h; cases h; exact ⟨_, rest, rfl, rfl, .inr ⟨r, r', rfl, rfl, by simpa using hs, hm⟩⟩
        | _ => rw [hr] at h; cases h
      | _ => rw [hm] at h; cases h
  | cont c =>
    rw [refresh] at h
    cases hr : refresh w m skip l with
    | ok rest => rw [hr] at h; cases h; exact ⟨_, rest, rfl, rfl, .inl ⟨rfl, fun e => by cases e⟩⟩
    | _ => rw [hr] at h; cases h
    · intro r e; cases e
  | gen c =>
    rw [refresh] at h
    cases hr : refresh w m skip l with
    | ok rest => rw [hr] at h; cases h; exact ⟨_, rest, rfl, rfl, .inl ⟨rfl, fun e => by cases e⟩⟩
    | _ => rw [hr] at h; cases h
    · intro r e; cases e

/-- What `refresh` leaves: what is no reference is as before, and references are skipped or imitate. -/
theorem refresh_spec {w : World} {m : List (String × Item)} {skip : String → Bool} : ∀ {l l' : List (String × Item)},
    refresh w m skip l = .ok l' → l'.map (·.1) = l.map (·.1) ∧
      (∀ k it, l.lookup k = some it → it.isRef = false ∨ skip k = true → l'.lookup k = some it) ∧
      ∀ k r, (k, Item.ref r) ∈ l' → (skip k = true ∧ (k, Item.ref r) ∈ l) ∨ (skip k = false ∧ Imitates w.isMsg m r ∧
        ∃ it, m.lookup r.target = some it ∧ it.isRef = false) := by
  intro l
  induction l with
  | nil =>
    intro l' h
    cases h
    exact ⟨rfl, by simp, by simp⟩
  | cons p l ih =>
    intro l' h
    obtain ⟨k, it⟩ := p
    obtain ⟨it', rest, rfl, hr, hc⟩ := refresh_cons h
    obtain ⟨h1, h2, h3⟩ := ih hr
    refine ⟨by simp [h1], ?_, ?_⟩
    · intro k' x hx hn
      rw [List.lookup_cons] at hx ⊢
      by_cases e : k' = k
      · subst e
        simp only [beq_self_eq_true] at hx ⊢
        cases hx
        rcases hc with ⟨rfl, _⟩ | ⟨r, r', rfl, rfl, hs, hm⟩
        · rfl
        · rcases hn with hn | hn
          · cases hn
          · rw [hs] at hn; cases hn
      · rw [beq_false_of_ne e] at hx ⊢
        exact h2 k' x hx hn
    · intro k' r hm
      rcases List.mem_cons.mp hm with e | hm
      · cases e
        rcases hc with ⟨rfl, hs⟩ | ⟨r0, r', rfl, e, hs, hm⟩
        · exact .inl ⟨hs rfl, List.mem_cons_self⟩
        · cases e
          obtain ⟨a, b, c⟩ := setTypeMap_ok hm
          exact .inr ⟨hs, a, by rw [b]; exact c⟩
      · rcases h3 k' r hm with ⟨a, b⟩ | h
        · exact .inl ⟨a, List.mem_cons_of_mem _ b⟩
        · exact .inr h

/-- A reference still imitates if its target stays. -/
theorem imitates_of {isMsg : String → Bool} {m m' : List (String × Item)} {r : Ref} (h : Imitates isMsg m r)
    (hl : ∀ it, m.lookup r.target = some it → m'.lookup r.target = some it) : Imitates isMsg m' r := by
  obtain ⟨it, t, c, h1, h2⟩ := h.inner
  exact ⟨it, t, c, hl it h1, h2⟩

/-! ### References of a new node -/

theorem created_cases {w : World} {cls cfg : RConfig} {extra : List (String × Item) → Option (List (String × Item) × List (String × Item))}
    {given : List (String × Item)} (h : createNode w cls extra given = .ok cfg) :
    ∃ (base : RConfig) (inputs rest : List (String × Item)) (more c : RConfig) (inputs' : List (String × Item)), knownInputs given base.inputs = some (inputs, rest) ∧
      (({ base with inputs := inputs } : RConfig).extend more) = (c, true) ∧ restInputs rest c.inputs = some inputs' ∧
      refresh w inputs' (fun k => (given.lookup k).isSome) inputs' = .ok cfg.inputs ∧
      refresh w cfg.inputs (fun _ => false) c.outputs = .ok cfg.outputs := by
  unfold createNode at h
  split at h
  · rename_i base hb
    split at h
    · cases h
    · rename_i inputs rest hk
      split at h
      · cases h
      · split at h
        · rename_i more hm
          split at h
          · cases h
          · rename_i c hx
            split at h
            · cases h
            · rename_i inputs' hr
              split at h
              · rename_i i hi
                split at h
                · rename_i o ho
                  cases h
                  exact ⟨base, inputs, rest, more, c, inputs', hk, hx, hr, hi, ho⟩
                all_goals cases h
              all_goals cases h
        all_goals cases h
  all_goals cases h

/-- All references of a new node that were not given imitate the type that is named by the input they refer to. -/
theorem c107_created (w : World) (cls cfg : RConfig) (extra : List (String × Item) → Option (List (String × Item) × List (String × Item)))
    (given : List (String × Item)) (h : createNode w cls extra given = .ok cfg) :
    (∀ k r, (k, Item.ref r) ∈ cfg.inputs → given.lookup k = none → Imitates w.isMsg cfg.inputs r) ∧
    (∀ k r, (k, Item.ref r) ∈ cfg.outputs → Imitates w.isMsg cfg.inputs r) := by
  obtain ⟨base, inputs, rest, more, c, inputs', _, _, _, hi, ho⟩ := created_cases h
  obtain ⟨_, keep, refs⟩ := refresh_spec hi
  obtain ⟨_, _, outs⟩ := refresh_spec ho
  constructor
  · intro k r hm hg
    rcases refs k r hm with ⟨a, _⟩ | ⟨_, im, it, hl, hn⟩
    · rw [hg] at a; cases a
    · refine imitates_of im fun x hx => ?_
      rw [hl] at hx
      cases hx
      exact keep _ _ hl (.inl hn)
  · intro k r hm
    rcases outs k r hm with ⟨a, _⟩ | ⟨_, im, _⟩
    · cases a
    · exact im

/-! ### References of a node from a message -/

theorem set_inner (c : Cont) (v : Val) : (c.set v).1.ty = c.ty ∧ (c.set v).1.isStatic = c.isStatic ∧
    (c.set v).1.allowDynamic = c.allowDynamic ∧ (c.set v).1.allowStatic = c.allowStatic := set_ty c v

theorem readCont_ok {w : World} {n : Nat} {c c' : Cont} {j : Json} (h : readCont w n c j = .ok c') : ∃ v, c' = (c.set v).1 := by
  unfold readCont at h
  split at h
  · cases h
  · rename_i v hv
    split at h
    · cases h
    · rename_i c1 a hs
      cases h
      exact ⟨v, by rw [hs]⟩

theorem readItem_ref {w : World} {n : Nat} {r : Ref} {value : Option Json} {it : Item} (h : readItem w n (.ref r) value = .ok it) :
    ∃ r', it = .ref r' ∧ r'.target = r.target ∧ (r.inner = none → r' = r) ∧
      ∀ isMsg m, Imitates isMsg m r → Imitates isMsg m r' := by
  unfold readItem at h
  cases value with
  | none => cases h
  | some j =>
    dsimp only at h
    cases hi : r.inner with
    | none => rw [hi] at h; cases h; exact ⟨r, rfl, rfl, fun _ => rfl, fun _ _ h => h⟩
    | some c =>
      rw [hi] at h
      dsimp only at h
      cases hr : readCont w n c j with
      | ok c' =>
        rw [hr] at h
        cases h
        obtain ⟨v, hv⟩ := readCont_ok hr
        refine ⟨_, rfl, rfl, (fun e => by cases e), fun isMsg m him => ?_⟩
        obtain ⟨it, t, c1, h1, h2, h3, h4, h5, h6, h7⟩ := him.inner
        rw [hi] at h3
        cases h3
        obtain ⟨e1, e2, e3, e4⟩ := set_inner c v
        rw [← hv] at e1 e2 e3 e4
        exact ⟨it, t, c', h1, h2, rfl, by rw [e1]; exact h4, by rw [e3]; exact h5, by rw [e4]; exact h6, by rw [e2]; exact h7⟩
      | _ => rw [hr] at h; cases h

/-- What becomes of a reference: it is unbound, if the input it refers to is missing or names no type, or it imitates. -/
theorem bind_ok {w : World} {n : Nat} {m : List (String × Item)} {r : Ref} {value : Option Json} {it : Item} (hn : r.inner = none)
    (h : bind w n m r value = .ok it) :
    ∃ r', it = .ref r' ∧ ((r'.inner = none ∧ ∀ x t, m.lookup r'.target = some x → ¬Names w.isMsg x t) ∨
      (Imitates w.isMsg m r' ∧ ∃ x, m.lookup r'.target = some x ∧ x.isRef = false)) := by
  unfold bind at h
  cases hm : setTypeMap w m r with
  | ok r1 =>
    rw [hm] at h
    dsimp only at h
    obtain ⟨im, ht, x, hx, hr⟩ := setTypeMap_ok hm
    by_cases hs : r1.isStatic = true
    · rw [if_pos hs] at h
      obtain ⟨r', e, e2, _, k⟩ := readItem_ref h
      exact ⟨r', e, .inr ⟨k _ _ im, x, by rw [e2, ht]; exact hx, hr⟩⟩
    · rw [if_neg hs] at h
      cases h
      exact ⟨r1, rfl, .inr ⟨im, x, by rw [ht]; exact hx, hr⟩⟩
  | err =>
    rw [hm] at h
    dsimp only at h
    have no : ∀ x t, m.lookup r.target = some x → ¬Names w.isMsg x t := by
      intro x t hx hnm
      unfold setTypeMap at hm
      rw [hx] at hm
      dsimp only at hm
      rw [valueField_iff.mpr hnm] at hm
      cases hm
    by_cases hs : r.isStatic = true
    · rw [if_pos hs] at h
      obtain ⟨r', e, e2, k, _⟩ := readItem_ref h
      have k := k hn
      subst k
      exact ⟨r', e, .inl ⟨hn, no⟩⟩
    · rw [if_neg hs] at h
      cases h
      exact ⟨r, rfl, .inl ⟨hn, no⟩⟩
  | raise => rw [hm] at h; cases h
  | other => rw [hm] at h; cases h

theorem bindAll_spec {w : World} {n : Nat} {m : List (String × Item)} : ∀ {l : List (String × Item × Option Json)} {l' : List (String × Item)},
    (∀ p ∈ l, ∀ r, p.2.1 = .ref r → r.inner = none) → bindAll w n m l = .ok l' →
    l'.map (·.1) = l.map (·.1) ∧ (∀ k it, (items l).lookup k = some it → it.isRef = false → l'.lookup k = some it) ∧
    (∀ k it, (items l).lookup k = some it → it.isRef = true → ∃ r, l'.lookup k = some (.ref r)) ∧
    ∀ k r, (k, Item.ref r) ∈ l' → (r.inner = none ∧ ∀ x t, m.lookup r.target = some x → ¬Names w.isMsg x t) ∨
      (Imitates w.isMsg m r ∧ ∃ x, m.lookup r.target = some x ∧ x.isRef = false) := by
  intro l
  induction l with
  | nil => intro l' _ h; cases h; exact ⟨rfl, by simp [items], by simp [items], by simp⟩
  | cons p l ih =>
    intro l' hn h
    obtain ⟨k, it, value⟩ := p
    rw [bindAll] at h
    cases he : bindItem w n m it value with
    | ok it' =>
      rw [he] at h
      dsimp only at h
      cases hr : bindAll w n m l with
      | ok rest =>
        rw [hr] at h
        cases h
        obtain ⟨h1, h2, h4, h3⟩ := ih (fun p hp => hn p (List.mem_cons_of_mem _ hp)) hr
        refine ⟨by simp [h1], ?_, ?_, ?_⟩
        · intro k' x hx hnr
          simp only [items, List.map_cons, List.lookup_cons] at hx
          rw [List.lookup_cons]
          by_cases e : k' = k
          · subst e
            simp only [beq_self_eq_true] at hx ⊢
            cases hx
            cases it with
            | ref r => cases hnr
            | _ => cases he; rfl
          · rw [beq_false_of_ne e] at hx ⊢
            exact h2 k' x hx hnr
        · intro k' x hx hnr
          simp only [items, List.map_cons, List.lookup_cons] at hx
          rw [List.lookup_cons]
          by_cases e : k' = k
          · subst e
            simp only [beq_self_eq_true] at hx ⊢
            cases hx
            cases it with
            | ref r =>
              obtain ⟨r', e', _⟩ := bind_ok (hn _ List.mem_cons_self r rfl) he
              exact ⟨r', by rw [e']⟩
            | _ => cases hnr
          · rw [beq_false_of_ne e] at hx ⊢
            exact h4 k' x hx hnr
        · intro k' r hm
          rcases List.mem_cons.mp hm with e | hm
          · cases e
            cases it with
            | ref r0 =>
              obtain ⟨r', e', k⟩ := bind_ok (hn _ List.mem_cons_self r0 rfl) he
              cases e'
              exact k
            | _ => cases he
          · exact h3 k' r hm
      | _ => rw [hr] at h; cases h
    | _ => rw [he] at h; cases h

theorem mem_put {A : Type} {k : String} {a : A} {l : List (String × A)} {p : String × A} (h : p ∈ put k a l) : p = (k, a) ∨ p ∈ l := by
  induction l with
  | nil => simp [put] at h; exact .inl h
  | cons q l ih =>
    obtain ⟨j, b⟩ := q
    rw [put] at h
    split at h
    · rename_i e
      rcases List.mem_cons.mp h with h | h
      · left; rw [h, e]
      · exact .inr (List.mem_cons_of_mem _ h)
    · rcases List.mem_cons.mp h with h | h
      · right; rw [h]; exact List.mem_cons_self
      · rcases ih h with h | h
        · exact .inl h
        · exact .inr (List.mem_cons_of_mem _ h)

theorem put_keys {A : Type} {k : String} {a : A} {l : List (String × A)} (h : (l.map (·.1)).Nodup) : ((put k a l).map (·.1)).Nodup := by
  induction l with
  | nil => simp [put]
  | cons q l ih =>
    obtain ⟨j, b⟩ := q
    rw [List.map_cons, List.nodup_cons] at h
    rw [put]
    split
    · rw [List.map_cons, List.nodup_cons]; exact h
    · rename_i e
      rw [List.map_cons, List.nodup_cons]
      refine ⟨?_, ih h.2⟩
      intro hm
      obtain ⟨p, hp, he⟩ := List.mem_map.mp hm
      rcases mem_put hp with hp | hp
      · rw [hp] at he; exact e he.symm
      · exact h.1 (List.mem_map.mpr ⟨p, hp, he⟩)

theorem read_ref {w : World} {d : Decl} {r : Ref} (h : d.read w = .ok (.ref r)) : r.inner = none := by
  cases d with
  | cont m => rw [Decl.read] at h; split at h <;> cases h
  | gen o a b c =>
    rw [Decl.read] at h
    split at h
    · split at h <;> cases h
    · cases h
  | ref k t a b c =>
    rw [Decl.read] at h
    split at h <;> cases h
    rfl

theorem readItem_noref {w : World} {n : Nat} {it it' : Item} {value : Option Json} (hr : it.isRef = false) (h : readItem w n it value = .ok it') :
    it'.isRef = false := by
  cases it with
  | ref r => cases hr
  | cont c =>
    unfold readItem at h
    cases value with
    | none => cases h
    | some j =>
      dsimp only at h
      split at h <;> cases h
      rfl
  | gen g =>
    unfold readItem at h
    cases value with
    | none => cases h
    | some j =>
      dsimp only at h
      split at h
      · cases h
      · split at h <;> cases h
        rfl

theorem readAll_spec {w : World} {n : Nat} : ∀ {ms : List IoMsg} {acc l : List (String × Item × Option Json)},
    (acc.map (·.1)).Nodup → (∀ p ∈ acc, ∀ r, p.2.1 = .ref r → r.inner = none) → readAll w n ms acc = .ok l →
    (l.map (·.1)).Nodup ∧ ∀ p ∈ l, ∀ r, p.2.1 = .ref r → r.inner = none := by
  intro ms
  induction ms with
  | nil => intro acc l h1 h2 h; cases h; exact ⟨h1, h2⟩
  | cons m ms ih =>
    intro acc l h1 h2 h
    rw [readAll] at h
    cases hd : m.decl.read w with
    | ok it =>
      rw [hd] at h
      dsimp only at h
      split at h
      · refine ih (put_keys h1) ?_ h
        intro p hp r hr
        rcases mem_put hp with hp | hp
        · rw [hp] at hr
          dsimp only at hr
          rw [hr] at hd
          exact read_ref hd
        · exact h2 p hp r hr
      · rename_i hs
        have hs : it.isRef = false := by
          cases hx : it.isRef with
          | false => rfl
          | true => simp [hx] at hs
        split at h
        · rename_i it' hi
          refine ih (put_keys h1) ?_ h
          intro p hp r hr
          rcases mem_put hp with hp | hp
          · rw [hp] at hr
            dsimp only at hr
            have := readItem_noref hs hi
            rw [hr] at this
            cases this
          · exact h2 p hp r hr
        all_goals cases h
    | _ => rw [hd] at h; cases h

theorem items_lookup (l : List (String × Item × Option Json)) (k : String) : (items l).lookup k = (l.lookup k).map (·.1) := by
  induction l with
  | nil => rfl
  | cons p l ih =>
    obtain ⟨j, it, v⟩ := p
    simp only [items, List.map_cons, List.lookup_cons]
    cases k == j
    · exact ih
    · rfl

/-- The inputs given by a message: no key twice, and every reference is unbound or imitates. -/
theorem given_spec {w : World} {n : Nat} {ms : List IoMsg} {given : List (String × Item)} (h : giveInputs w n ms = .ok given) :
    (given.map (·.1)).Nodup ∧ ∀ k r, (k, Item.ref r) ∈ given →
      (r.inner = none ∧ ∀ x t, given.lookup r.target = some x → ¬Names w.isMsg x t) ∨ Imitates w.isMsg given r := by
  unfold giveInputs at h
  cases hr : readAll w n ms [] with
  | ok l =>
    rw [hr] at h
    dsimp only at h
    obtain ⟨h1, h2⟩ := readAll_spec (acc := []) (by simp) (by simp) hr
    obtain ⟨k1, k2, k4, k3⟩ := bindAll_spec h2 h
    refine ⟨by rw [k1]; exact h1, fun k r hm => ?_⟩
    rcases k3 k r hm with ⟨a, b⟩ | ⟨a, x, hx, hn⟩
    · refine .inl ⟨a, fun x t hx hnm => ?_⟩
      cases hi : (items l).lookup r.target with
      | none =>
        have e : r.target ∉ l.map (·.1) := by
          intro hm
          rw [items_lookup] at hi
          have := (List.lookup_eq_none_iff (l := l)).mp (by simpa using hi)
          obtain ⟨p, hp, e⟩ := List.mem_map.mp hm
          have := this p hp
          rw [e] at this
          simp at this
        rw [← k1] at e
        have : given.lookup r.target = none := List.lookup_eq_none_iff.mpr (by
          intro p hp
          have : p.1 ≠ r.target := fun h => e (List.mem_map.mpr ⟨p, hp, h⟩)
          simpa using Ne.symm this)
        rw [this] at hx
        cases hx
      | some y =>
        cases hy : y.isRef with
        | false =>
          have := k2 _ _ hi hy
          rw [hx] at this
          cases this
          exact b _ t hi hnm
        | true =>
          obtain ⟨r', hr'⟩ := k4 _ _ hi hy
          rw [hx] at hr'
          cases hr'
          cases hnm
    · refine .inr (imitates_of a fun y hy => ?_)
      rw [hx] at hy
      cases hy
      exact k2 _ _ hx hn
  | _ => rw [hr] at h; cases h

/-! ### Given inputs are kept -/

theorem knownInputs_spec : ∀ {given inputs inputs' rest : List (String × Item)}, (given.map (·.1)).Nodup →
    knownInputs given inputs = some (inputs', rest) →
    (∀ k, inputs'.lookup k = if (inputs.lookup k).isSome then (given.lookup k).or (inputs.lookup k) else none) ∧
    (∀ k, rest.lookup k = if (inputs.lookup k).isSome then none else given.lookup k) ∧ (rest.map (·.1)).Nodup ∧
    ∀ k ∈ rest.map (·.1), k ∈ given.map (·.1) := by
  intro given
  induction given with
  | nil =>
    intro inputs inputs' rest _ h
    cases h
    refine ⟨fun k => ?_, fun k => by simp, by simp, by simp⟩
    cases inputs.lookup k <;> simp
  | cons p given ih =>
    intro inputs inputs' rest hn h
    obtain ⟨j, c⟩ := p
    rw [List.map_cons, List.nodup_cons] at hn
    rw [knownInputs] at h
    have hj : given.lookup j = none := by
      rw [List.lookup_eq_none_iff]
      intro p hp
      have : p.1 ≠ j := fun h => hn.1 (List.mem_map.mpr ⟨p, hp, h⟩)
      simpa using Ne.symm this
    cases hl : inputs.lookup j with
    | none =>
      rw [hl] at h
      dsimp only at h
      cases hk : knownInputs given inputs with
      | none => rw [hk] at h; cases h
      | some q =>
        rw [hk] at h
        obtain ⟨i, r⟩ := q
        cases h
        obtain ⟨h1, h2, h3, h4⟩ := ih hn.2 hk
        refine ⟨fun k => ?_, fun k => ?_, ?_, ?_⟩
        · rw [h1, List.lookup_cons]
          by_cases e : k = j
          · subst e; simp [hl]
          · rw [beq_false_of_ne e]
        · rw [List.lookup_cons, List.lookup_cons, h2]
          by_cases e : k = j
          · subst e; simp [hl]
          · rw [beq_false_of_ne e]
        · rw [List.map_cons, List.nodup_cons]
          exact ⟨fun hm => hn.1 (h4 _ hm), h3⟩
        · intro k hk
          rcases List.mem_cons.mp hk with rfl | hk
          · exact List.mem_cons_self
          · exact List.mem_cons_of_mem _ (h4 k hk)
    | some t =>
      rw [hl] at h
      dsimp only at h
      split at h
      · obtain ⟨h1, h2, h3, h4⟩ := ih hn.2 h
        refine ⟨fun k => ?_, fun k => ?_, h3, fun k hk => List.mem_cons_of_mem _ (h4 k hk)⟩
        · rw [h1, lookup_modify, List.lookup_cons]
          by_cases e : k = j
          · subst e; simp [hl, hj]
          · rw [beq_false_of_ne e]; simp only [if_neg e]
        · rw [h2, lookup_modify, List.lookup_cons]
          by_cases e : k = j
          · subst e; simp [hl]
          · rw [beq_false_of_ne e]; simp only [if_neg e]
      · cases h

theorem restInputs_spec : ∀ {rest inputs inputs' : List (String × Item)}, (rest.map (·.1)).Nodup → restInputs rest inputs = some inputs' →
    ∀ k, inputs'.lookup k = (rest.lookup k).or (inputs.lookup k) := by
  intro rest
  induction rest with
  | nil => intro inputs inputs' _ h; cases h; simp
  | cons p rest ih =>
    intro inputs inputs' hn h k
    obtain ⟨j, c⟩ := p
    rw [List.map_cons, List.nodup_cons] at hn
    rw [restInputs] at h
    have hj : rest.lookup j = none := by
      rw [List.lookup_eq_none_iff]
      intro p hp
      have : p.1 ≠ j := fun h => hn.1 (List.mem_map.mpr ⟨p, hp, h⟩)
      simpa using Ne.symm this
    cases hl : inputs.lookup j with
    | none => rw [hl] at h; cases h
    | some t =>
      rw [hl] at h
      dsimp only at h
      split at h
      · rw [ih hn.2 h, lookup_modify, List.lookup_cons]
        by_cases e : k = j
        · subst e; simp [hl, hj]
        · rw [beq_false_of_ne e]; simp [e]
      · cases h

theorem absorbI_lookup : ∀ (e d : List (String × Item)) (k : String), (absorbI d e).1.lookup k = (d.lookup k).or (e.lookup k) := by
  intro e
  induction e with
  | nil => intro d k; simp [absorbI]
  | cons p e ih =>
    intro d k
    obtain ⟨l, c⟩ := p
    have app : (d ++ [(l, c)]).lookup k = (d.lookup k).or (List.lookup k [(l, c)]) := by
      induction d with
      | nil => simp
      | cons q d ihd =>
        obtain ⟨m, x⟩ := q
        simp only [List.cons_append, List.lookup_cons]
        cases k == m
        · exact ihd
        · rfl
    simp only [absorbI]
    by_cases hk : k = l
    · subst hk
      split
      · rename_i h
        rw [ih d k]
        obtain ⟨x, hx⟩ := Option.isSome_iff_exists.mp h
        simp [hx]
      · rename_i h
        rw [ih, app]
        have : d.lookup k = none := Option.not_isSome_iff_eq_none.mp h
        simp [this, List.lookup]
    · have hb : (k == l) = false := by simpa using hk
      split
      · rw [ih d k]; simp [List.lookup, hb]
      · rw [ih, app]; simp [List.lookup, hb]

/-- A given input is an input of the node. -/
theorem created_given {w : World} {cls cfg : RConfig} {extra : List (String × Item) → Option (List (String × Item) × List (String × Item))}
    {given : List (String × Item)} (hn : (given.map (·.1)).Nodup) (h : createNode w cls extra given = .ok cfg) {k : String} {it : Item}
    (hk : given.lookup k = some it) : cfg.inputs.lookup k = some it := by
  obtain ⟨base, inputs, rest, more, c, inputs', h1, h2, h3, h4, _⟩ := created_cases h
  obtain ⟨k1, k2, k3, _⟩ := knownInputs_spec hn h1
  have k4 := restInputs_spec k3 h3 k
  have k5 : c.inputs.lookup k = (inputs.lookup k).or (more.inputs.lookup k) := by
    unfold RConfig.extend at h2
    split at h2
    · have := (Prod.mk.inj h2).1
      rw [← this]
      exact absorbI_lookup _ _ _
    · cases h2
  have k6 : inputs'.lookup k = some it := by
    rw [k4, k2, k5, k1, hk]
    cases base.inputs.lookup k <;> simp
  exact (refresh_spec h4).2.1 k it k6 (.inr (by rw [hk]; rfl))

/-- All references of a node from a message imitate the type that is named by the input they refer to, but for those inputs whose target is
missing in the message or does not name a type there. -/
theorem c107_node_partial (w : World) (n : Nat) (cls cfg : RConfig)
    (extra : List (String × Item) → Option (List (String × Item) × List (String × Item))) (msgs : List IoMsg)
    (h : nodeFromMsg w n cls extra msgs = .ok cfg) :
    (∀ k r, cfg.inputs.lookup k = some (.ref r) → Imitates w.isMsg cfg.inputs r ∨
      (r.inner = none ∧ ∃ given, giveInputs w n msgs = .ok given ∧ given.lookup k = some (.ref r) ∧
        ∀ it t, given.lookup r.target = some it → ¬Names w.isMsg it t)) ∧
    (∀ k r, (k, Item.ref r) ∈ cfg.outputs → Imitates w.isMsg cfg.inputs r) := by
  unfold nodeFromMsg at h
  cases hg : giveInputs w n msgs with
  | ok given =>
    rw [hg] at h
    dsimp only at h
    obtain ⟨nd, sp⟩ := given_spec hg
    obtain ⟨i, o⟩ := c107_created w cls cfg extra given h
    refine ⟨fun k r hk => ?_, o⟩
    cases hl : given.lookup k with
    | none => exact .inl (i k r (lookup_memI hk) hl)
    | some it =>
      have e := created_given nd h hl
      rw [hk] at e
      cases e
      rcases sp k r (lookup_memI hl) with ⟨a, b⟩ | im
      · exact .inr ⟨a, given, rfl, hl, b⟩
      · exact .inl (imitates_of im fun it hit => created_given nd h hit)
  | _ => rw [hg] at h; cases h

/-! ### What the code does not do -/

/-- Some world. -/
def sampleWorld (tx : Texts) : World := ⟨sampleEnv, fun n => n == "m/msg/A", tx, fun _ => false⟩

/-- An input for numbers from 0 to 5. -/
def small5 (value : Option Json) : IoMsg :=
  ⟨"n", .cont { typeId := .int, allowDynamic := true, allowStatic := true, isStatic := true, min := .int 0, max := .int 5 }, value⟩

/-- A value in a message that does not fit is dropped: the node is created with the value the type starts with. -/
theorem c107_unfitting_dropped (tx : Texts) : giveInputs (sampleWorld tx) 0 [small5 (some (.int 9))] =
    .ok [("n", .cont { ty := .int 0 5, value := some (.int 0) })] := rfl

/-- An empty value for a static input raises. -/
theorem c107_empty_value_raises (tx : Texts) : giveInputs (sampleWorld tx) 0 [small5 none] = .raise := rfl

/-- A reference without the input it refers to stays without type, and no error is reported. -/
theorem c107_unbound (tx : Texts) : ∃ cls cfg r, nodeFromMsg (sampleWorld tx) 0 cls (fun _ => some ([], []))
    [⟨"v", .ref .plain "t" true true false, none⟩] = .ok cfg ∧ cfg.inputs.lookup "v" = some (.ref r) ∧ r.inner = none := by
  refine ⟨⟨[("t", .gen ⟨[.int], .dict (template .int), false⟩), ("v", .ref ⟨.plain, "t", true, true, true, none⟩)], [], none⟩, _, _, rfl, rfl, rfl⟩

/-! ### Example -/

/-- A constant: its type, and a value of this type that is put out. -/
def sampleClass : RConfig :=
  ⟨[("t", .gen ⟨[.int, .list], .dict (template .int), false⟩), ("v", .ref ⟨.plain, "t", false, true, true, none⟩)],
   [("out", .ref ⟨.list, "t", true, true, true, none⟩)], none⟩

/-- A type value as JSON: integers from 1 to 7. -/
def sampleType : Json := .obj [("type_identifier", .int 2), ("min_value", .int 1), ("max_value", .int 7)]

example (tx : Texts) : ∃ cfg r s, nodeFromMsg (sampleWorld tx) 0 sampleClass (fun _ => some ([], []))
      [⟨"v", .ref .plain "t" false true true, some (.int 5)⟩, ⟨"t", .gen ["int", "list"] false true true, some sampleType⟩] = .ok cfg ∧
    cfg.inputs.lookup "v" = some (.ref r) ∧ r.inner = some { ty := .int 1 7, allowDynamic := false, value := some (.int 5), updated := true } ∧
    cfg.outputs = [("out", .ref s)] ∧ ∃ c, s.inner = some c ∧ c.ty = .list (.int 1 7) false intFloatMax false ∧ c.isStatic = false :=
  ⟨_, _, _, rfl, rfl, rfl, rfl, _, rfl, rfl, rfl⟩

end Verif.Data.Refs
