import Verif.Data.Refs

/-! C107, second part: the inputs of a node survive being written to a message and read back (node.py 1170-1216, 1023-1045). -/

set_option autoImplicit false

namespace Verif.Data.Refs

open Generic

/-! ### The model -/

mutual

/-- `json.dumps(x, skipkeys=True, default=lambda _: "")`, then `json.loads` (data_types.py 327-331). -/
def asJson : Val → Json
  | .none => .null
  | .bool b => .bool b
  | .int i => .int i
  | .float f => .float f
  | .str s => .str s
  | .list l => .arr (asJsons l)
  | .dict l => .obj (asFields l)
  | _ => .str ""

/-- All values of a list. -/
def asJsons : List Val → List Json
  | [] => []
  | v :: l => asJson v :: asJsons l

/-- All entries of a dictionary. -/
def asFields : List (String × Val) → List (String × Json)
  | [] => []
  | (k, v) :: l => (k, asJson v) :: asFields l
end

/-- data_types.py 317-331 with 1161-1162 and 1655-1658: the value of a static input; outer `none`: an exception, inner `none`: the empty
string (node.py 1196-1198). -/
def saveValue (w : World) (n : Nat) : Item → Option (Option Json)
  | .cont c => if c.isStatic then c.serializeValue w.env n else some none
  | .gen g => some (some (asJson (serMap w.tx g.value)))
  | .ref r =>
    if r.isStatic then match r.inner with | none => some none | some c => c.serializeValue w.env n
    else some none

/-- data_types.py 216-226, 1157-1160, 1602-1609: `serialize_type`. The flags of a reference are those of what it imitates. -/
def declOf : Item → Decl
  | .cont c => .cont c.serializeType
  | .gen g => .gen (toOptions g.valid) false true true
  | .ref r => .ref r.kind r.target r.allowDynamic r.allowStatic r.isStatic

/-- node.py 1190-1201: an input as a message. -/
def saveInput (w : World) (n : Nat) (p : String × Item) : Option IoMsg := (saveValue w n p.2).map fun v => ⟨p.1, declOf p.2, v⟩

/-- node.py 1190-1201: all inputs of a node. -/
def saveInputs (w : World) (n : Nat) (inputs : List (String × Item)) : Option (List IoMsg) := inputs.mapM (saveInput w n)

/-! ### Specification -/

mutual

/-- A value that JSON can express. -/
def Plain : Val → Prop
  | .none | .bool _ | .int _ | .float _ | .str _ => True
  | .list l => Plains l
  | .dict l => PlainFields l
  | _ => False

/-- All values of a list. -/
def Plains : List Val → Prop
  | [] => True
  | v :: l => Plain v ∧ Plains l

/-- All entries of a dictionary. -/
def PlainFields : List (String × Val) → Prop
  | [] => True
  | (_, v) :: l => Plain v ∧ PlainFields l
end

/-- A container that holds a value that fits and can be written. -/
structure Holds (env : Env) (c : Cont) (v : Val) : Prop where
  value : c.value = some v
  fits : Fits true c.ty v
  clean : clean c.ty v = v
  writable : Writable env c.ty v

/-- What is needed to save an input. -/
inductive Savable (w : World) (inputs : List (String × Item)) : Item → Prop
  | cont {c : Cont} : c.WellFormed → c.ty.sane = true → c.ty.elemOk c.allowDynamic = true → c.ty.shallow = true →
      (c.isStatic = true → ∃ v, Holds w.env c v) → Savable w inputs (.cont c)
  | start {g : G} {l : List G} {u : Bool} : Written (.dict (template g)) → Plain (.dict (template g)) →
      Savable w inputs (.gen ⟨g :: l, .dict (template g), u⟩)
  | gen {g : G} {l : List G} {v : Val} {u : Bool} : Described (g :: l) v → pyEq (.dict (template g)) v = false → Written v → Plain v →
      Savable w inputs (.gen ⟨g :: l, v, u⟩)
  | ref {r : Ref} : Imitates w.isMsg inputs r → (r.isStatic = true → r.allowStatic = true) → (r.isStatic = false → r.allowDynamic = true) →
      (r.isStatic = true → ∃ c v, r.inner = some c ∧ Holds w.env c v) → Savable w inputs (.ref r)

/-- Equal values. -/
def SameValue (c c' : Cont) : Prop := ∃ v x, c.value = some v ∧ c'.value = some x ∧ (x = v ∨ pyEq x v = true)

/-- Inputs that accept the same values and, if they are static, have the same value. -/
inductive Same : Item → Item → Prop
  | cont {c c' : Cont} : c'.allowDynamic = c.allowDynamic → c'.allowStatic = c.allowStatic → c'.isStatic = c.isStatic →
      (∀ v, check c'.ty v = check c.ty v) → (c.isStatic = true → SameValue c c') → Same (.cont c) (.cont c')
  | gen {g g' : GCont} : g'.valid = g.valid → g'.value = g.value → Same (.gen g) (.gen g')
  | ref {r r' : Ref} {c c' : Cont} : r'.kind = r.kind → r'.target = r.target → r'.allowDynamic = r.allowDynamic → r'.allowStatic = r.allowStatic →
      r'.isStatic = r.isStatic → r.inner = some c → r'.inner = some c' → c'.ty = c.ty → (r.isStatic = true → SameValue c c') →
      Same (.ref r) (.ref r')

/-- Entry by entry. -/
inductive SameInputs : List (String × Item) → List (String × Item) → Prop
  | nil : SameInputs [] []
  | cons {k : String} {a b : Item} {l m : List (String × Item)} : Same a b → SameInputs l m → SameInputs ((k, a) :: l) ((k, b) :: m)

/-! ### Type values as JSON -/

mutual

theorem plain_json : ∀ v : Val, Plain v → (asJson v).toVal = v
  | .none, _ => rfl
  | .bool _, _ => rfl
  | .int _, _ => rfl
  | .float _, _ => rfl
  | .str _, _ => rfl
  | .list l, h => by rw [asJson, Json.toVal, plain_jsons l (by rw [Plain] at h; exact h)]
  | .dict l, h => by rw [asJson, Json.toVal, plain_fields l (by rw [Plain] at h; exact h)]
  | .bytes _, h => by rw [Plain] at h; exact h.elim; all_goals simp
  | .array _, h => by rw [Plain] at h; exact h.elim; all_goals simp
  | .msg _ _, h => by rw [Plain] at h; exact h.elim; all_goals simp
  | .cls _, h => by rw [Plain] at h; exact h.elim; all_goals simp

theorem plain_jsons : ∀ l : List Val, Plains l → toVals (asJsons l) = l
  | [], _ => rfl
  | v :: l, h => by
    rw [Plains] at h
    rw [asJsons, toVals, plain_json v h.1, plain_jsons l h.2]

theorem plain_fields : ∀ l : List (String × Val), PlainFields l → toFields (asFields l) = l
  | [], _ => rfl
  | (k, v) :: l, h => by
    rw [PlainFields] at h
    rw [asFields, toFields, plain_json v h.1, plain_fields l h.2]
end

mutual

theorem plain_ser (tx : Texts) : ∀ v : Val, Plain v → Plain (serMap tx v)
  | .dict l, h => by
    rw [serMap, Plain]
    exact plain_serFields tx l (by rw [Plain] at h; exact h)
  | .none, h => by rw [serMap]; exact h; simp
  | .bool _, h => by rw [serMap]; exact h; simp
  | .int _, h => by rw [serMap]; exact h; simp
  | .float _, h => by rw [serMap]; exact h; simp
  | .str _, h => by rw [serMap]; exact h; simp
  | .list l, h => by rw [serMap]; exact h; simp
  | .bytes _, h => by rw [serMap]; exact h; simp
  | .array _, h => by rw [serMap]; exact h; simp
  | .msg _ _, h => by rw [serMap]; exact h; simp
  | .cls _, h => by rw [serMap]; exact h; simp

theorem plain_serFields (tx : Texts) : ∀ l : List (String × Val), PlainFields l → PlainFields (serEntries tx l)
  | [], h => by rw [serEntries]; exact h
  | (k, v) :: l, h => by
    rw [PlainFields] at h
    rw [serEntries, PlainFields]
    refine ⟨?_, plain_serFields tx l h.2⟩
    split
    · rw [Plain]; trivial
    · split
      · exact plain_ser tx v h.1
      · exact h.1
end

/-- A type value is read as it was written. -/
theorem type_value_back (tx : Texts) (v : Val) (h : Written v) (p : Plain v) : deserMap tx (asJson (serMap tx v)).toVal = some v := by
  rw [plain_json _ (plain_ser tx v p), c106_written tx v h]

/-! ### Values -/

theorem new_updated {fresh : String → List (String × Val)} {t : Ty} {a b : Bool} {s : Option Bool} {c : Cont}
    (h : Cont.new fresh t a b s none = some c) : c.updated = false := by
  unfold Cont.new at h
  dsimp only at h
  repeat' split at h
  all_goals first
    | cases h; done
    | (cases h
       unfold adjust
       repeat' split
       all_goals rfl)

theorem fromMsg_updated {fresh : String → List (String × Val)} {m : TypeMsg} {c : Cont} (h : fromMsg fresh m = some c) : c.updated = false := by
  unfold fromMsg at h
  split at h
  · exact new_updated h
  · cases h

theorem flatten_shallow {t : Ty} (as : Bool) (h : t.shallow = true) :
    t.flatten as = match t with | .list e _ m s => .list e as m s | .dict e _ m s => .dict e as m s | t => t := by
  cases t with
  | list e es m s =>
    have : e.flat = true := h
    have hb : e.base = e := by cases e <;> first | rfl | cases this
    simp [Ty.flatten, Ty.innerLimit, this, hb]
  | dict e es m s =>
    have : e.flat = true := h
    have hb : e.base = e := by cases e <;> first | rfl | cases this
    simp [Ty.flatten, Ty.innerLimit, this, hb]
  | _ => rfl

theorem deser_flatten (env : Env) (n : Nat) {t : Ty} (as : Bool) (h : t.shallow = true) (j : Json) :
    deser env n (t.flatten as) j = deser env n t j := by
  rw [flatten_shallow as h]
  obtain ⟨f, e⟩ := deser_as env n
  rw [e]
  cases t <;> first | rfl | (cases j <;> simp [deserTy])

theorem clean_flatten {t : Ty} (as : Bool) (h : t.shallow = true) (v : Val) : clean (t.flatten as) v = clean t v := by
  rw [flatten_shallow as h]
  cases t <;> first | rfl | (cases v <;> rfl)

theorem assign_same {c c' : Cont} {v : Val} (hv : c.value = some v) (hu : c'.updated = false) : SameValue c (c'.assign v).1 := by
  unfold Cont.assign
  rw [hu]
  simp only [Bool.and_false, Bool.false_eq_true, if_false]
  cases hw' : c'.value with
  | none => exact ⟨v, v, hv, by simp, .inl rfl⟩
  | some w =>
    by_cases hp : pyEq w v = true
    · exact ⟨v, w, hv, by simp [hp], .inr hp⟩
    · exact ⟨v, v, hv, by simp [hp], .inl rfl⟩

/-- A new container reads the value that was written. -/
theorem readCont_back {w : World} {n : Nat} {c c' : Cont} {v : Val} {j : Json} (hv : c.value = some v) (hu : c'.updated = false)
    (hd : deser w.env n c'.ty j = some v) (hf : check c'.ty v = .ok) (hc : clean c'.ty v = v) :
    readCont w n c' j = .ok (c'.assign v).1 ∧ SameValue c (c'.assign v).1 := by
  refine ⟨?_, assign_same hv hu⟩
  unfold readCont
  rw [hd]
  dsimp only
  have : c'.set v = c'.assign v := by unfold Cont.set; rw [hf]; dsimp only; rw [hc]
  rw [this]
  have ok : (c'.assign v).2 = .ok := by simp [Cont.assign, hu]
  generalize c'.assign v = q at ok ⊢
  obtain ⟨x, a⟩ := q
  cases ok
  rfl

/-! ### The first loop -/

/-- What the first loop makes of an input: references are without type. -/
inductive Read : Item → Item → Prop
  | cont {c c' : Cont} : c'.allowDynamic = c.allowDynamic → c'.allowStatic = c.allowStatic → c'.isStatic = c.isStatic →
      c'.ty = c.ty.flatten c.allowStatic → c.ty.shallow = true → (c.isStatic = true → SameValue c c') → Read (.cont c) (.cont c')
  | gen {g g' : GCont} : g'.valid = g.valid → g'.value = g.value → Read (.gen g) (.gen g')
  | ref {r : Ref} : Read (.ref r) (.ref { r with inner := none })

/-- node.py 1028-1035 for one input -/
def readOne (w : World) (n : Nat) (m : IoMsg) : Res Item :=
  match m.decl.read w with
  | .ok it => if it.isRef || !it.isStatic then .ok it else readItem w n it m.value
  | .err => .err
  | .raise => .raise
  | .other => .other

theorem readAll_cons (w : World) (n : Nat) (m : IoMsg) (r : List IoMsg) (acc : List (String × Item × Option Json)) :
    readAll w n (m :: r) acc = match readOne w n m with
      | .ok it => readAll w n r (put m.key (it, m.value) acc)
      | .err => .err
      | .raise => .raise
      | .other => .other := by
  rw [readAll, readOne]
  cases m.decl.read w with
  | ok it =>
    dsimp only
    by_cases h : (it.isRef || !it.isStatic) = true
    · rw [if_pos h, if_pos h]
    · rw [if_neg h, if_neg h]
      cases readItem w n it m.value <;> rfl
  | _ => rfl

/-- An input is saved, the first loop reads it, and the value of a static reference can be read later. -/
def Good (w : World) (inputs : List (String × Item)) (p : String × Item) (n : Nat) : Prop :=
  ∃ msg it, saveInput w n p = some msg ∧ msg.key = p.1 ∧ readOne w n msg = .ok it ∧ Read p.2 it ∧
    ∀ r, p.2 = .ref r → Imitates w.isMsg inputs r ∧ (r.isStatic = true → ∃ c v j, r.inner = some c ∧ Holds w.env c v ∧ msg.value = some j ∧
      deser w.env n c.ty j = some v)

theorem good (w : World) (hc : w.env.Consistent) (inputs : List (String × Item)) (p : String × Item) (h : Savable w inputs p.2) :
    ∃ n, ∀ m, n ≤ m → Good w inputs p m := by
  obtain ⟨k, it⟩ := p
  dsimp only at h
  cases h with
  | @cont c wf sane el sh st =>
    obtain ⟨c', hf, e1, e2, e3, e4⟩ := fromMsg_toMsg w.env.fresh c c.allowDynamic c.allowStatic c.isStatic wf.1 sane el wf.2 wf.3 wf.4
    have hf : fromMsg w.env.fresh c.serializeType = some c' := hf
    have hr : (Decl.cont c.serializeType).read w = .ok (.cont c') := by rw [Decl.read, hf]
    cases hs : c.isStatic with
    | false =>
      refine ⟨0, fun m _ => ⟨⟨k, .cont c.serializeType, none⟩, .cont c', ?_, rfl, ?_, ?_, ?_⟩⟩
      · simp [saveInput, saveValue, declOf, hs]
      · rw [readOne, hr]; simp [Item.isStatic, e4, hs]
      · exact .cont e2 e3 e4 e1 sh (fun h => by rw [hs] at h; cases h)
      · intro r hr; cases hr
    | true =>
      obtain ⟨v, hv⟩ := st hs
      obtain ⟨n, hn⟩ := c50_value_partial w.env hc c.ty v hv.writable
      refine ⟨n, fun m hm => ?_⟩
      obtain ⟨j, j1, j2⟩ := hn m hm
      have hu := fromMsg_updated hf
      obtain ⟨r1, r2⟩ := readCont_back (w := w) (n := m) (c := c) (c' := c') (v := v) (j := j) hv.value hu
        (by rw [e1, deser_flatten _ _ _ sh]; exact j2) (by rw [e1, check_flatten _ sh]; exact (check_ok _ _).mpr hv.fits)
        (by rw [e1, clean_flatten _ sh]; exact hv.clean)
      have hty := set_inner c' v
      have ha : c'.set v = c'.assign v := by
        unfold Cont.set
        rw [show check c'.ty v = .ok by rw [e1, check_flatten _ sh]; exact (check_ok _ _).mpr hv.fits]
        dsimp only
        rw [e1, clean_flatten _ sh, hv.clean]
      rw [ha] at hty
      refine ⟨⟨k, .cont c.serializeType, some j⟩, .cont (c'.assign v).1, ?_, rfl, ?_, ?_, ?_⟩
      · simp [saveInput, saveValue, declOf, hs, Cont.serializeValue, hv.value, j1]
      · rw [readOne, hr]
        dsimp only
        rw [if_neg (by simp [Item.isRef, Item.isStatic, e4, hs])]
        rw [readItem]
        rw [r1]
      · exact .cont (by rw [hty.2.2.1, e2]) (by rw [hty.2.2.2, e3]) (by rw [hty.2.1, e4]) (by rw [hty.1, e1]) sh (fun _ => r2)
      · intro r hr; cases hr
  | @start g l u wr pl =>
    have hr : (Decl.gen (toOptions (g :: l)) false true true).read w = .ok (.gen ⟨g :: l, .dict (template g), false⟩) := by
      rw [Decl.read, if_pos ⟨rfl, rfl, rfl⟩, c106_options]
      rfl
    have hval : ((GCont.set ⟨g :: l, .dict (template g), false⟩ (.dict (template g))).1).value = .dict (template g) := by
      rcases set_value ⟨g :: l, .dict (template g), false⟩ (.dict (template g)) with h | ⟨h, _⟩ <;> rw [h]
    have hvd := Generic.set_valid ⟨g :: l, .dict (template g), false⟩ (.dict (template g))
    have hnr : (GCont.set ⟨g :: l, .dict (template g), false⟩ (.dict (template g))).2 ≠ .raise := by
      intro h
      have hm : matchVal (g :: l) (.dict (template g)) ≠ .raise := by
        rw [matchVal]
        rw [if_neg (by simp)]
        have e : (template g).lookup idKey = some (.int g.id) := by cases g <;> rfl
        rw [e]
        dsimp only
        rw [show ((g :: l).find? fun x => pyEq (.int x.id) (.int g.id)) = some g from find_id.mpr ⟨List.mem_cons_self, by cases g <;> rfl⟩]
        dsimp only
        rw [if_pos (by cases g <;> decide +kernel), matchElem_eq]
        have : ∀ x, matchVal (g :: l) (.dict [(idKey, .int 1)]) = x → x ≠ .raise := by
          intro x hx hr
          rw [hr] at hx
          rw [matchVal, if_neg (by simp)] at hx
          simp only [List.lookup_cons, beq_self_eq_true] at hx
          split at hx
          · cases hx
          · split at hx
            · rw [matchElem_eq] at hx
              simp [idKey, elemKey, List.lookup] at hx
            · cases hx
        cases g
        case list => exact this _ rfl
        case dict => exact this _ rfl
        all_goals (intro h; cases h)
      unfold GCont.set at h
      dsimp only at h
      split at h
      · cases hx : matchVal (g :: l) (.dict (template g)) with
        | ok => rw [hx] at h; cases h
        | err => rw [hx] at h; cases h
        | raise => exact hm hx
      · cases h
    refine ⟨0, fun m _ => ⟨⟨k, _, some (asJson (serMap w.tx (.dict (template g))))⟩,
      .gen (GCont.set ⟨g :: l, .dict (template g), false⟩ (.dict (template g))).1, rfl, rfl, ?_, ?_, ?_⟩⟩
    · unfold readOne
      dsimp only [declOf]
      rw [hr]
      dsimp only
      rw [if_neg (by simp [Item.isRef, Item.isStatic]), readItem]
      rw [type_value_back _ _ wr pl]
      dsimp only
      generalize GCont.set ⟨g :: l, .dict (template g), false⟩ (.dict (template g)) = q at hnr ⊢
      obtain ⟨x, a⟩ := q
      cases a
      · rfl
      · rfl
      · exact absurd rfl hnr
    · exact .gen hvd hval
    · intro r hr; cases hr
  | @gen g l v u de ne wr pl =>
    have hr : (Decl.gen (toOptions (g :: l)) false true true).read w = .ok (.gen ⟨g :: l, .dict (template g), false⟩) := by
      rw [Decl.read, if_pos ⟨rfl, rfl, rfl⟩, c106_options]
      rfl
    obtain ⟨hval, _⟩ := c106_first ⟨g :: l, .dict (template g), false⟩ v de rfl ne
    have hvd := Generic.set_valid ⟨g :: l, .dict (template g), false⟩ v
    have hok := (c106_accepts ⟨g :: l, .dict (template g), false⟩ v).mpr de
    refine ⟨0, fun m _ => ⟨⟨k, _, some (asJson (serMap w.tx v))⟩, .gen (GCont.set ⟨g :: l, .dict (template g), false⟩ v).1, rfl, rfl, ?_, ?_, ?_⟩⟩
    · unfold readOne
      dsimp only [declOf]
      rw [hr]
      dsimp only
      rw [if_neg (by simp [Item.isRef, Item.isStatic]), readItem]
      rw [type_value_back _ _ wr pl]
      dsimp only
      generalize GCont.set ⟨g :: l, .dict (template g), false⟩ v = q at hok ⊢
      obtain ⟨x, a⟩ := q
      cases hok
      rfl
    · exact .gen hvd hval
    · intro r hr; cases hr
  | @ref r im f1 f2 st =>
    have hr : (Decl.ref r.kind r.target r.allowDynamic r.allowStatic r.isStatic).read w = .ok (.ref { r with inner := none }) := by
      rw [Decl.read, if_pos]
      refine ⟨?_, f1, f2⟩
      cases h : r.isStatic with
      | true => exact .inr (f1 h)
      | false => exact .inl (f2 h)
    cases hs : r.isStatic with
    | false =>
      refine ⟨0, fun m _ => ⟨⟨k, declOf (.ref r), none⟩, .ref { r with inner := none }, ?_, rfl, ?_, .ref, ?_⟩⟩
      · simp [saveInput, saveValue, hs]
      · rw [readOne]; dsimp only [declOf]; rw [hr]; simp [Item.isRef]
      · intro r' e; cases e; exact ⟨im, fun h => by rw [hs] at h; cases h⟩
    | true =>
      obtain ⟨c, v, hin, hv⟩ := st hs
      obtain ⟨n, hn⟩ := c50_value_partial w.env hc c.ty v hv.writable
      refine ⟨n, fun m hm => ?_⟩
      obtain ⟨j, j1, j2⟩ := hn m hm
      refine ⟨⟨k, declOf (.ref r), some j⟩, .ref { r with inner := none }, ?_, rfl, ?_, .ref, ?_⟩
      · simp [saveInput, saveValue, hs, hin, Cont.serializeValue, hv.value, j1]
      · rw [readOne]; dsimp only [declOf]; rw [hr]; simp [Item.isRef]
      · intro r' e; cases e; exact ⟨im, fun _ => ⟨c, v, j, hin, hv, rfl, j2⟩⟩

/-! ### Both loops -/

/-- The value kept beside a static reference is that of the reference. -/
def Kept (w : World) (n : Nat) (inputs : List (String × Item)) (it : Item) (value : Option Json) : Prop :=
  ∀ r, it = .ref r → Imitates w.isMsg inputs r ∧ (r.isStatic = true → ∃ c v j, r.inner = some c ∧ Holds w.env c v ∧ value = some j ∧
    deser w.env n c.ty j = some v)

/-- The inputs and what the first loop makes of them. -/
inductive Matches (w : World) (n : Nat) (inputs : List (String × Item)) : List (String × Item) → List (String × Item × Option Json) → Prop
  | nil : Matches w n inputs [] []
  | cons {k : String} {a b : Item} {v : Option Json} {l : List (String × Item)} {m : List (String × Item × Option Json)} :
      Read a b → Kept w n inputs a v → Matches w n inputs l m → Matches w n inputs ((k, a) :: l) ((k, b, v) :: m)

theorem put_new {A : Type} {k : String} {a : A} : ∀ {l : List (String × A)}, k ∉ l.map (·.1) → put k a l = l ++ [(k, a)]
  | [], _ => rfl
  | (j, b) :: l, h => by
    simp only [List.map_cons, List.mem_cons, not_or] at h
    rw [put, if_neg (fun e => h.1 e.symm), put_new h.2]
    rfl

theorem first_loop {w : World} {n : Nat} {inputs : List (String × Item)} : ∀ (l : List (String × Item)) (acc : List (String × Item × Option Json)),
    (acc.map (·.1) ++ l.map (·.1)).Nodup → (∀ p ∈ l, Good w inputs p n) →
    ∃ msgs m, saveInputs w n l = some msgs ∧ readAll w n msgs acc = .ok (acc ++ m) ∧ Matches w n inputs l m
  | [], acc, _, _ => ⟨[], [], rfl, by rw [readAll, List.append_nil], .nil⟩
  | (k, a) :: l, acc, nd, h => by
    obtain ⟨msg, b, s, hk, hr, rd, kp⟩ := h (k, a) List.mem_cons_self
    dsimp only at hk rd kp
    have hn : k ∉ acc.map (·.1) := by
      intro hm
      rw [List.nodup_append] at nd
      exact nd.2.2 k hm k (by simp) rfl
    obtain ⟨msgs, m, e1, e2, e3⟩ := first_loop l (acc ++ [(k, b, msg.value)]) (by simpa using nd) (fun p hp => h p (List.mem_cons_of_mem _ hp))
    refine ⟨msg :: msgs, (k, b, msg.value) :: m, ?_, ?_, .cons rd kp e3⟩
    · unfold saveInputs at e1 ⊢
      rw [List.mapM_cons, s, e1]
      rfl
    · rw [readAll_cons, hr]
      dsimp only
      rw [hk, put_new hn, e2, List.append_assoc]
      rfl

theorem matches_lookup {w : World} {n : Nat} {inputs l : List (String × Item)} {m : List (String × Item × Option Json)} (h : Matches w n inputs l m)
    {k : String} {a : Item} (hl : l.lookup k = some a) : ∃ b, (items m).lookup k = some b ∧ Read a b := by
  induction h with
  | nil => cases hl
  | @cons j x y v l m rd _ _ ih =>
    simp only [items, List.map_cons, List.lookup_cons] at hl ⊢
    cases hj : k == j with
    | true => rw [hj] at hl; cases hl; exact ⟨y, rfl, rd⟩
    | false => rw [hj] at hl; exact ih hl

theorem pyEq_cls {x : Val} {n : String} (h : pyEq x (.cls n) = true) : x = .cls n := by
  cases x <;> simp [pyEq, pyEq.numEq, Val.num] at h
  rw [h]

theorem names_read {w : World} {inputs : List (String × Item)} {a b : Item} {t : Ty} (hs : Savable w inputs a) (hr : Read a b)
    (hn : Names w.isMsg a t) : Names w.isMsg b t := by
  cases hr with
  | ref => cases hn
  | gen h1 h2 => cases hn with | value m => exact .value (by rw [h2]; exact m)
  | @cont c c' e1 e2 e3 e4 sh sv =>
    have st : c.ty.isTypeContainer = true → c.isStatic = true := by
      intro ht
      cases hs with
      | cont wf =>
        cases h : c.isStatic with
        | true => rfl
        | false => exact absurd ⟨ht, wf.4 h⟩ wf.2
    cases hn with
    | topic h1 h2 =>
      obtain ⟨v, x, hv, hx, e⟩ := sv (st (by rw [h1]; rfl))
      rw [h2] at hv
      cases hv
      exact .topic (by rw [e4, h1]; rfl) (by rcases e with rfl | e; exact hx; rw [hx, pyEq_cls e])
    | component h1 h2 =>
      obtain ⟨v, x, hv, hx, e⟩ := sv (st (by rw [h1]; rfl))
      rw [h2] at hv
      cases hv
      exact .component (by rw [e4, h1]; rfl) (by rcases e with rfl | e; exact hx; rw [hx, pyEq_cls e])

theorem shaped_same {es : Bool} {t : Ty} {k : RKind} {a b : Ty} (h : Shaped es t k a) (h' : Shaped es t k b) : a = b := by
  cases h <;> cases h' <;> rfl

theorem bind_back {w : World} {n : Nat} {inputs m : List (String × Item)} {r : Ref} {value : Option Json}
    (hm : ∀ k a t, inputs.lookup k = some a → Names w.isMsg a t → ∃ b, m.lookup k = some b ∧ Names w.isMsg b t)
    (hk : Kept w n inputs (.ref r) value) : ∃ b, bind w n m { r with inner := none } value = .ok b ∧ Same (.ref r) b := by
  obtain ⟨⟨a, t, c, hl, hn, hin, sh, _⟩, st⟩ := hk r rfl
  obtain ⟨b, hb, hnb⟩ := hm _ _ _ hl hn
  have hs : setTypeMap w m { r with inner := none } = .ok { r with inner := some (innerOf w { r with inner := none } t) } := by
    unfold setTypeMap
    dsimp only
    rw [hb]
    dsimp only
    rw [valueField_iff.mpr hnb]
  have hty : (innerOf w { r with inner := none } t).ty = c.ty := shaped_same (shaped w { r with inner := none } t) sh
  have hu : (innerOf w { r with inner := none } t).updated = false := by
    unfold innerOf adjust
    dsimp only
    repeat' split
    all_goals rfl
  generalize innerOf w { r with inner := none } t = d at hs hty hu
  unfold bind
  rw [hs]
  dsimp only
  cases hst : r.isStatic with
  | false =>
    refine ⟨_, if_neg (by simp), .ref rfl rfl rfl rfl hst.symm hin rfl hty (fun h => by rw [hst] at h; cases h)⟩
  | true =>
    obtain ⟨c', v, j, hin', hv, hval, hd⟩ := st hst
    rw [hin] at hin'
    cases hin'
    obtain ⟨r1, r2⟩ := readCont_back (w := w) (n := n) (c := c) (c' := d) (v := v) (j := j) hv.value hu (by rw [hty]; exact hd)
      (by rw [hty]; exact (check_ok _ _).mpr hv.fits) (by rw [hty]; exact hv.clean)
    refine ⟨.ref { r with isStatic := true, inner := some (d.assign v).1 }, ?_,
      .ref rfl rfl rfl rfl hst.symm hin rfl ?_ (fun _ => r2)⟩
    · rw [if_pos rfl, hval, readItem]
      dsimp only
      rw [r1]
    · have e := (set_inner d v).1
      have ha : d.set v = d.assign v := by
        unfold Cont.set
        rw [show check d.ty v = .ok by rw [hty]; exact (check_ok _ _).mpr hv.fits]
        dsimp only
        rw [hty, hv.clean]
      rw [ha] at e
      rw [e, hty]

theorem second_loop {w : World} {n : Nat} {inputs m : List (String × Item)}
    (hm : ∀ k a t, inputs.lookup k = some a → Names w.isMsg a t → ∃ b, m.lookup k = some b ∧ Names w.isMsg b t)
    {l : List (String × Item)} {l' : List (String × Item × Option Json)} (h : Matches w n inputs l l') :
    ∃ given, bindAll w n m l' = .ok given ∧ SameInputs l given := by
  induction h with
  | nil => exact ⟨[], rfl, .nil⟩
  | @cons k a b v l l' rd kp _ ih =>
    obtain ⟨g, e1, e2⟩ := ih
    have : ∃ b', bindItem w n m b v = .ok b' ∧ Same a b' := by
      cases rd with
      | ref => exact bind_back hm kp
      | gen h1 h2 => exact ⟨_, rfl, .gen h1 h2⟩
      | cont h1 h2 h3 h4 h5 h6 => exact ⟨_, rfl, .cont h1 h2 h3 (fun v => by rw [h4, check_flatten _ h5]) h6⟩
    obtain ⟨b', h1, h2⟩ := this
    refine ⟨(k, b') :: g, ?_, .cons h2 e2⟩
    rw [bindAll, h1]
    dsimp only
    rw [e1]

/-! ### The theorem -/

/-- Inputs that are written to messages and read back accept the same values, and static ones have the same values; the depth to which
messages are followed only has to be large enough. -/
theorem c107_saved_partial (w : World) (hc : w.env.Consistent) (inputs : List (String × Item)) (nd : (inputs.map (·.1)).Nodup)
    (hs : ∀ p ∈ inputs, Savable w inputs p.2) :
    ∃ n, ∀ m, n ≤ m → ∃ msgs given, saveInputs w m inputs = some msgs ∧ giveInputs w m msgs = .ok given ∧ SameInputs inputs given := by
  obtain ⟨n, hn⟩ := common_depth (Good w inputs) inputs (fun p hp => good w hc inputs p (hs p hp))
  refine ⟨n, fun m hm => ?_⟩
  obtain ⟨msgs, l, e1, e2, e3⟩ := first_loop inputs [] (by simpa using nd) (hn m hm)
  obtain ⟨given, e4, e5⟩ := second_loop (m := items l) (fun k a t hl hna => by
    obtain ⟨b, hb, hr⟩ := matches_lookup e3 hl
    exact ⟨b, hb, names_read (hs _ (lookup_memI hl)) hr hna⟩) e3
  refine ⟨msgs, given, e1, ?_, e5⟩
  unfold giveInputs
  rw [e2]
  exact e4

/-! ### Example -/

/-- Integers from 1 to 7, as a type value. -/
def oneToSeven : Val := .dict [("type_identifier", .int 2), ("min_value", .int 1), ("max_value", .int 7)]

/-- A type, a number of this type, and a list of numbers of this type that is not static. -/
def sampleInputs : List (String × Item) :=
  [("v", .ref ⟨.plain, "t", false, true, true, some { ty := .int 1 7, allowDynamic := false, value := some (.int 5), updated := true }⟩),
   ("t", .gen ⟨[.int, .list], oneToSeven, true⟩),
   ("l", .ref ⟨.list, "t", true, true, false, some { ty := .list (.int 1 7) true (2 ^ 64 - 1616) false, isStatic := false, value := some (.list []) }⟩),
   ("s", .cont { ty := .string 9 none, value := some (.str "here"), updated := true })]

theorem oneToSeven_written : Written oneToSeven := by
  refine .int ((shape_iff (i := .int 2) rfl).mpr ⟨by decide +kernel, by decide +kernel⟩) ?_
  intro p hp e
  simp only [List.mem_cons, List.not_mem_nil, or_false] at hp
  rcases hp with rfl | rfl | rfl
  · exact absurd e (by decide)
  · exact ⟨_, rfl⟩
  · exact ⟨_, rfl⟩

theorem sample_savable (tx : Texts) : ∀ p ∈ sampleInputs, Savable (sampleWorld tx) sampleInputs p.2 := by
  have hn : Names (sampleWorld tx).isMsg (.gen ⟨[.int, .list], oneToSeven, true⟩) (.int 1 7) := valueField_iff.mp rfl
  intro p hp
  simp only [sampleInputs, List.mem_cons, List.not_mem_nil, or_false] at hp
  rcases hp with rfl | rfl | rfl | rfl
  · exact .ref ⟨_, _, _, rfl, hn, rfl, .plain, rfl, rfl, rfl⟩ (fun _ => rfl) (fun h => by cases h)
      (fun _ => ⟨_, .int 5, rfl, rfl, .int (.int 5) (by decide) (by decide), rfl, .int (.int 5)⟩)
  · exact .gen ((accepted _ _).mp (by decide +kernel)) (by decide +kernel) oneToSeven_written ⟨trivial, trivial, trivial, trivial⟩
  · exact .ref ⟨_, _, _, rfl, hn, rfl, .list, rfl, rfl, rfl⟩ (fun _ => rfl) (fun _ => rfl) (fun h => by cases h)
  · exact .cont ⟨rfl, by decide, fun _ => rfl, fun h => by cases h⟩ rfl rfl rfl
      (fun _ => ⟨.str "here", rfl, .string (by decide) (fun _ h => by cases h), rfl, .string _⟩)

example (tx : Texts) : ∃ n, ∀ m, n ≤ m → ∃ msgs given, saveInputs (sampleWorld tx) m sampleInputs = some msgs ∧
    giveInputs (sampleWorld tx) m msgs = .ok given ∧ SameInputs sampleInputs given :=
  c107_saved_partial (sampleWorld tx) sampleEnv_consistent sampleInputs (by decide) (sample_savable tx)

end Verif.Data.Refs
