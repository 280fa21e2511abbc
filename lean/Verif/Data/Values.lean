import Verif.Data.Permitted

/-! C50: values survive being written and read. -/

set_option autoImplicit false

namespace Verif.Data

/-! ### What can be written -/

/-- Types whose values are written as strings. -/
def Ty.stringLike : Ty → Bool
  | .string _ _ | .path _ _ | .bytes _ _ | .rosName _ _ | .rosType _ _ => true
  | _ => false

/-- What is assumed about ROS: the fields of a class have different names, and a new message has exactly these fields. -/
structure Env.Consistent (env : Env) : Prop where
  nodup : ∀ n decl, env.fields n = some decl → (decl.map (·.1)).Nodup
  fresh : ∀ n decl, env.fields n = some decl → (env.fresh n).map (·.1) = decl.map (·.1)

/-- Values that can be written: of the declared type, lists within lists are lists and not arrays, dictionaries have string-like
values, messages have the fields of their class and these can be written. -/
inductive Writable (env : Env) : Ty → Val → Prop
  | bool (b : Bool) : Writable env .bool (.bool b)
  | int {lo hi i : Int} {v : Val} : Integer v i → Writable env (.int lo hi) v
  | float {lo hi : Rat} (f : Flt) : Writable env (.float lo hi) (.float f)
  | number {lo hi : Rat} {v : Val} {r : Rat} : Number v r → Writable env (.float lo hi) v
  | string {max : Nat} {o : Option (List String)} (s : String) : Writable env (.string max o) (.str s)
  | path {max : Nat} {o : Option (List String)} (s : String) : Writable env (.path max o) (.str s)
  | bytes {max : Nat} {o : Option (List String)} (b : List UInt8) : Writable env (.bytes max o) (.bytes b)
  | list {e : Ty} {es strict : Bool} {max : Nat} {l : List Val} : (∀ x ∈ l, Writable env e x) → Writable env (.list e es max strict) (.list l)
  | dict {e : Ty} {es strict : Bool} {max : Nat} {l : List (String × Val)} : e.stringLike = true → (∀ p ∈ l, Writable env e p.2) →
      Writable env (.dict e es max strict) (.dict l)
  | noEntries {e : Ty} {es strict : Bool} {max : Nat} : Writable env (.dict e es max strict) (.dict [])
  | rosName {k : Kind} {i : Nat} (s : String) : Writable env (.rosName k i) (.str s)
  | rosMsg {n : String} {i : Nat} {decl : List (String × Ty)} {fields : List (String × Val)} : env.fields n = some decl →
      fields.map (·.1) = decl.map (·.1) → (∀ q ∈ decl.zip fields, Writable env q.1.2 q.2.2) → Writable env (.rosMsg n i) (.msg n fields)
  | rosType {k : Kind} {i : Nat} {s : String} : env.known s = true → Writable env (.rosType k i) (.cls s)

/-! ### Hexadecimal digits -/

theorem digitVal_hexDigit : ∀ n, n < 16 → digitVal (hexDigit n) = some n := by decide

theorem unhex_hex (b : List UInt8) : unhex (hex b) = some b := by
  induction b with
  | nil => rfl
  | cons x b ih =>
    have h1 := digitVal_hexDigit (x.toNat / 16) (by have := x.toNat_lt; omega)
    have h2 := digitVal_hexDigit (x.toNat % 16) (by omega)
    have h3 : 16 * (x.toNat / 16) + x.toNat % 16 = x.toNat := by omega
    show unhex (hexDigit (x.toNat / 16) :: hexDigit (x.toNat % 16) :: hex b) = _
    simp [unhex, h1, h2, ih, h3]

/-! ### Lists -/

theorem mapM_back {A B : Type} (f : A → Option B) (g : B → Option A) (l : List A) (h : ∀ x ∈ l, ∃ j, f x = some j ∧ g j = some x) :
    ∃ js, l.mapM f = some js ∧ js.mapM g = some l ∧ js.length = l.length := by
  induction l with
  | nil => exact ⟨[], rfl, rfl, rfl⟩
  | cons a l ih =>
    obtain ⟨j, h1, h2⟩ := h a (by simp)
    obtain ⟨js, h3, h4, h5⟩ := ih (fun x hx => h x (by simp [hx]))
    exact ⟨j :: js, by simp [h1, h3], by simp [h2, h4], by simp [h5]⟩

/-! ### Messages -/

theorem setField_at (k : String) (v w : Val) (done rest : List (String × Val)) (h : k ∉ done.map (·.1)) :
    setField k v (done ++ (k, w) :: rest) = done ++ (k, v) :: rest := by
  induction done with
  | nil => simp [setField]
  | cons p done ih =>
    obtain ⟨l, x⟩ := p
    simp only [List.map_cons, List.mem_cons, not_or] at h
    simp only [List.cons_append, setField]
    rw [if_neg (fun e => h.1 e.symm), ih h.2]

theorem lookup_mid {B : Type} (k : String) (b : B) (done rest : List (String × B)) (h : k ∉ done.map (·.1)) :
    (done ++ (k, b) :: rest).lookup k = some b := by
  induction done with
  | nil => simp [List.lookup]
  | cons p done ih =>
    obtain ⟨l, x⟩ := p
    simp only [List.map_cons, List.mem_cons, not_or] at h
    have : (k == l) = false := by simpa using h.1
    simp only [List.cons_append, List.lookup, this]
    exact ih h.2

/-- Writing the fields of a message and reading them into a new one. -/
theorem fields_back (sr : Ty → Val → Option Json) (dr : Ty → Json → Option Val) (dDone : List (String × Ty)) (fDone : List (String × Val)) :
    ∀ (decl : List (String × Ty)) (fields fresh : List (String × Val)),
    fields.map (·.1) = decl.map (·.1) → fresh.map (·.1) = decl.map (·.1) → fDone.map (·.1) = dDone.map (·.1) →
    ((dDone ++ decl).map (·.1)).Nodup →
    (∀ q ∈ decl.zip fields, ∃ j, sr q.1.2 q.2.2 = some j ∧ dr q.1.2 j = some q.2.2) →
    ∃ js, decl.mapM (fun p => (sr p.2 (((fDone ++ fields).lookup p.1).getD .none)).map (p.1, ·)) = some js ∧
      fillMsg (dDone ++ decl) dr js (fDone ++ fresh) = some (fDone ++ fields) := by
  intro decl
  induction decl generalizing dDone fDone with
  | nil =>
    intro fields fresh h1 h2 h3 h4 h5
    have e1 : fields = [] := by simpa using h1
    have e2 : fresh = [] := by simpa using h2
    subst e1 e2
    exact ⟨[], rfl, rfl⟩
  | cons d decl ih =>
    intro fields fresh h1 h2 h3 h4 h5
    obtain ⟨k, t⟩ := d
    cases fields with
    | nil => simp at h1
    | cons p fields =>
      cases fresh with
      | nil => simp at h2
      | cons w fresh =>
        obtain ⟨k1, v⟩ := p
        obtain ⟨k2, w⟩ := w
        simp only [List.map_cons, List.cons.injEq] at h1 h2
        obtain ⟨rfl, h1⟩ := h1
        obtain ⟨rfl, h2⟩ := h2
        obtain ⟨j, g1, g2⟩ := h5 ((k2, t), (k2, v)) (by simp)
        dsimp only at g1 g2
        have hk : k2 ∉ dDone.map (·.1) := by
          intro hm
          rw [List.map_append, List.nodup_append] at h4
          exact h4.2.2 k2 hm k2 (by simp) rfl
        have hk' : k2 ∉ fDone.map (·.1) := by rw [h3]; exact hk
        obtain ⟨js, i1, i2⟩ := ih (dDone ++ [(k2, t)]) (fDone ++ [(k2, v)]) fields fresh h1 h2 (by simp [h3]) (by simpa using h4)
          (fun q hq => h5 q (by simp [hq]))
        refine ⟨(k2, j) :: js, ?_, ?_⟩
        · simp only [List.mapM_cons]
          rw [lookup_mid _ _ _ _ hk']
          simp only [List.append_assoc, List.cons_append, List.nil_append] at i1
          simp only [Option.getD_some, g1, Option.map_some]
          simp [i1]
        · simp only [fillMsg]
          rw [lookup_mid _ _ _ _ hk]
          dsimp only
          rw [g2]
          dsimp only
          rw [setField_at _ _ _ _ _ hk']
          simpa using i2

/-! ### All values -/

theorem ser_succ (env : Env) (n : Nat) : ser env (n + 1) = serTy (serMsg env (ser env n)) := rfl

theorem ser_as (env : Env) (n : Nat) : ∃ f, ser env n = serTy f := by cases n <;> exact ⟨_, rfl⟩

theorem deser_as (env : Env) (n : Nat) : ∃ f, deser env n = deserTy env f := by cases n <;> exact ⟨_, rfl⟩

/-- A depth that is enough for all of finitely many values. -/
theorem common_depth {A : Type} (P : A → Nat → Prop) (l : List A) (h : ∀ x ∈ l, ∃ n, ∀ m, n ≤ m → P x m) : ∃ n, ∀ m, n ≤ m → ∀ x ∈ l, P x m := by
  induction l with
  | nil => exact ⟨0, by simp⟩
  | cons a l ih =>
    obtain ⟨n1, h1⟩ := h a (by simp)
    obtain ⟨n2, h2⟩ := ih (fun x hx => h x (by simp [hx]))
    refine ⟨max n1 n2, fun m hm x hx => ?_⟩
    simp only [List.mem_cons] at hx
    rcases hx with rfl | hx
    · exact h1 m (by omega)
    · exact h2 m (by omega) x hx

/-- A value of a string-like type is written as a string. -/
theorem stringLike_str {env : Env} {n : Nat} {t : Ty} {v : Val} {j : Json} (ht : t.stringLike = true) (hw : Writable env t v)
    (h : ser env n t v = some j) : j.isStr = true := by
  obtain ⟨f, hf⟩ := ser_as env n
  rw [hf] at h
  cases hw <;> simp [Ty.stringLike] at ht <;> simp [serTy, plain] at h <;> subst h <;> rfl

/-- C50, values: a value that can be written is read back as it was. -/
theorem c50_value_partial (env : Env) (hc : env.Consistent) (t : Ty) (v : Val) (h : Writable env t v) :
    ∃ n, ∀ m, n ≤ m → ∃ j, ser env m t v = some j ∧ deser env m t j = some v := by
  induction h with
  | bool b => exact ⟨0, fun m _ => ⟨.bool b, by obtain ⟨f, e⟩ := ser_as env m; rw [e]; rfl, by obtain ⟨f, e⟩ := deser_as env m; rw [e]; rfl⟩⟩
  | int h =>
    refine ⟨0, fun m _ => ?_⟩
    obtain ⟨f, e⟩ := ser_as env m
    obtain ⟨g, e'⟩ := deser_as env m
    rw [e, e']
    cases h with
    | int => exact ⟨.int _, rfl, rfl⟩
    | yes => exact ⟨.bool true, rfl, rfl⟩
    | no => exact ⟨.bool false, rfl, rfl⟩
  | float f' =>
    refine ⟨0, fun m _ => ?_⟩
    obtain ⟨f, e⟩ := ser_as env m
    obtain ⟨g, e'⟩ := deser_as env m
    rw [e, e']
    exact ⟨.float f', rfl, rfl⟩
  | number h =>
    refine ⟨0, fun m _ => ?_⟩
    obtain ⟨f, e⟩ := ser_as env m
    obtain ⟨g, e'⟩ := deser_as env m
    rw [e, e']
    cases h with
    | int => exact ⟨.int _, rfl, rfl⟩
    | yes => exact ⟨.bool true, rfl, rfl⟩
    | no => exact ⟨.bool false, rfl, rfl⟩
    | float => exact ⟨.float (.fin _), rfl, rfl⟩
  | string s =>
    refine ⟨0, fun m _ => ?_⟩
    obtain ⟨f, e⟩ := ser_as env m
    obtain ⟨g, e'⟩ := deser_as env m
    rw [e, e']
    exact ⟨.str s, rfl, rfl⟩
  | path s =>
    refine ⟨0, fun m _ => ?_⟩
    obtain ⟨f, e⟩ := ser_as env m
    obtain ⟨g, e'⟩ := deser_as env m
    rw [e, e']
    exact ⟨.str s, rfl, rfl⟩
  | rosName s =>
    refine ⟨0, fun m _ => ?_⟩
    obtain ⟨f, e⟩ := ser_as env m
    obtain ⟨g, e'⟩ := deser_as env m
    rw [e, e']
    exact ⟨.str s, rfl, rfl⟩
  | bytes b =>
    refine ⟨0, fun m _ => ?_⟩
    obtain ⟨f, e⟩ := ser_as env m
    obtain ⟨g, e'⟩ := deser_as env m
    rw [e, e']
    exact ⟨.str (String.ofList (hex b)), rfl, by simp [deserTy, unhex_hex]⟩
  | rosType hk =>
    rename_i k i s
    refine ⟨0, fun m _ => ?_⟩
    obtain ⟨f, e⟩ := ser_as env m
    obtain ⟨g, e'⟩ := deser_as env m
    rw [e, e']
    exact ⟨.str s, rfl, by simp [deserTy, hk]⟩
  | list _ ih =>
    obtain ⟨n, hn⟩ := common_depth _ _ ih
    refine ⟨n, fun m hm => ?_⟩
    have := mapM_back _ _ _ (hn m hm)
    obtain ⟨f, e⟩ := ser_as env m
    obtain ⟨g, e'⟩ := deser_as env m
    rw [e, e'] at this ⊢
    obtain ⟨js, h1, h2, _⟩ := this
    exact ⟨.arr js, by simp [serTy, h1], by simp [deserTy, h2]⟩
  | noEntries =>
    refine ⟨0, fun m _ => ?_⟩
    obtain ⟨f, e⟩ := ser_as env m
    obtain ⟨g, e'⟩ := deser_as env m
    rw [e, e']
    exact ⟨.obj [], by simp [serTy], by simp [deserTy]⟩
  | dict he hl ih =>
    rename_i t _ _ _ l
    obtain ⟨n, hn⟩ := common_depth _ _ ih
    refine ⟨n, fun m hm => ?_⟩
    have key : ∀ p ∈ l, ∃ j : String × Json, (ser env m t p.2).map (p.1, ·) = some j ∧ (deser env m t j.2).map (j.1, ·) = some p := by
      intro p hp
      obtain ⟨j, h1, h2⟩ := hn m hm p hp
      exact ⟨(p.1, j), by simp [h1], by simp [h2]⟩
    obtain ⟨js, h1, h2, h3⟩ := mapM_back (fun p : String × Val => (ser env m t p.2).map (p.1, ·)) (fun j : String × Json => (deser env m t j.2).map (j.1, ·)) l key
    have hstr : ∀ k j r, js = (k, j) :: r → j.isStr = true := by
      intro k j r hj
      subst hj
      cases l with
      | nil => simp at h3
      | cons p l =>
        have : ser env m t p.2 = some j := by
          cases hs : ser env m t p.2 with
          | none => simp [hs] at h1
          | some j' =>
            cases hr : List.mapM (fun p : String × Val => (ser env m t p.2).map (p.1, ·)) l with
            | none => simp [hs, hr] at h1
            | some r' => simp [hs, hr] at h1; rw [h1.1.2]
        exact stringLike_str he (hl p (by simp)) this
    obtain ⟨f, e⟩ := ser_as env m
    obtain ⟨g, e'⟩ := deser_as env m
    rw [e] at h1
    rw [e'] at h2
    rw [e, e']
    refine ⟨.obj js, ?_, by simp [deserTy, h2]⟩
    simp only [serTy, h1]
    cases js with
    | nil => rfl
    | cons p r => simp [hstr p.1 p.2 r rfl]
  | rosMsg hd hf hq ih =>
    rename_i n i decl fields
    obtain ⟨d, hn⟩ := common_depth _ _ ih
    refine ⟨d + 1, fun m hm => ?_⟩
    cases m with
    | zero => omega
    | succ m =>
      obtain ⟨js, h1, h2⟩ := fields_back (ser env m) (deser env m) [] [] decl fields (env.fresh n) hf (hc.fresh _ _ hd) rfl (by simpa using hc.nodup _ _ hd)
        (fun q hq => hn m (by omega) q hq)
      refine ⟨.obj js, ?_, ?_⟩
      · simp only [ser, serTy, serMsg, hd]
        simp only [List.nil_append] at h1
        rw [h1]; rfl
      · simp only [deser, deserTy, deserMsg, hd]
        simp only [List.nil_append] at h2
        rw [h2]; rfl

/-- C50, values, as a user sees it: what one container holds can be written, and another container of the same type that has not been
written to yet then holds an equal value. -/
theorem c50_container_partial (env : Env) (hc : env.Consistent) (c c' : Cont) (v : Val) (hv : c.value = some v) (ht : c'.ty = c.ty)
    (hf : Fits true c.ty v) (hk : clean c.ty v = v) (hw : Writable env c.ty v) (hu : c'.updated = false) :
    ∃ n, ∀ m, n ≤ m → ∃ j, c.serializeValue env m = some (some j) ∧ (c'.deserializeValue env m j).2 = .ok ∧
      ∃ w, (c'.deserializeValue env m j).1.value = some w ∧ (w = v ∨ pyEq w v = true) := by
  obtain ⟨n, h⟩ := c50_value_partial env hc c.ty v hw
  refine ⟨n, fun m hm => ?_⟩
  obtain ⟨j, h1, h2⟩ := h m hm
  refine ⟨j, by simp [Cont.serializeValue, hv, h1], ?_⟩
  have hcheck : check c'.ty v = .ok := by rw [ht]; exact (check_ok _ _).mpr hf
  have e : c'.deserializeValue env m j = c'.assign v := by
    unfold Cont.deserializeValue Cont.set
    rw [ht, h2]
    dsimp only
    rw [ht] at hcheck
    rw [hcheck, hk]
  rw [e]
  unfold Cont.assign
  rw [hu]
  simp only [Bool.and_false, Bool.false_eq_true, if_false, true_and]
  cases hw' : c'.value with
  | none => exact ⟨v, by simp, .inl rfl⟩
  | some w =>
    by_cases hp : pyEq w v = true
    · exact ⟨w, by simp [hp], .inr hp⟩
    · exact ⟨v, by simp [hp], .inl rfl⟩

/-- The code violates C50: a dictionary of numbers can be held but not written (the method raises an exception). -/
theorem c50_dict_raises (env : Env) (m : Nat) (lo hi : Int) (es strict : Bool) (k : String) (i : Int) (r : List (String × Val)) (max : Nat) :
    ser env m (.dict (.int lo hi) es max strict) (.dict ((k, .int i) :: r)) = none := by
  obtain ⟨f, e⟩ := ser_as env m
  rw [e]
  simp only [serTy, List.mapM_cons]
  cases List.mapM (fun p : String × Val => (plain p.2).map (p.1, ·)) r <;> simp [Json.isStr, plain]

/-- The code violates C50: a message with a numeric array (as ROS messages of the class `n` with such a field are) cannot be written. -/
theorem c50_array_raises (env : Env) (m : Nat) (n : String) (i : Nat) (k : String) (e : Ty) (es strict : Bool) (max : Nat) (l : List Val)
    (hd : env.fields n = some [(k, .list e es max strict)]) : ser env m (.rosMsg n i) (.msg n [(k, .array l)]) = none := by
  cases m with
  | zero => rfl
  | succ m =>
    obtain ⟨f, e⟩ := ser_as env m
    simp [ser, serTy, serMsg, hd, e, List.lookup]

/-! Non-trivial instances. -/

/-- A message class with a number and a list of names, and a class with one of these. -/
def sampleEnv : Env where
  fields := fun n =>
    if n = "a/msg/In" then some [("x", .int 0 9), ("names", .list (.string 5 none) true 3 false)]
    else if n = "a/msg/Out" then some [("inner", .rosMsg "a/msg/In" 0), ("raw", .bytes 4 none)]
    else none
  fresh := fun n =>
    if n = "a/msg/In" then [("x", .int 0), ("names", .list [])]
    else if n = "a/msg/Out" then [("inner", .msg "a/msg/In" [("x", .int 0), ("names", .list [])]), ("raw", .bytes [])]
    else []
  known := fun _ => true

theorem sampleEnv_consistent : sampleEnv.Consistent := by
  constructor <;> intro n decl h <;> simp only [sampleEnv] at h ⊢
  · split at h
    · cases h; decide
    · split at h
      · cases h; decide
      · cases h
  · split at h
    · cases h; rename_i h'; subst h'; rfl
    · split at h
      · cases h; rename_i h'; subst h'; rfl
      · cases h

def sampleMsg : Val := .msg "a/msg/Out" [("inner", .msg "a/msg/In" [("x", .int 7), ("names", .list [.str "u", .str "v"])]), ("raw", .bytes [255, 16])]

example : Writable sampleEnv (.rosMsg "a/msg/Out" 3) sampleMsg := by
  refine .rosMsg rfl rfl ?_
  intro q hq
  simp at hq
  rcases hq with rfl | rfl
  · refine .rosMsg rfl rfl ?_
    intro q hq
    simp at hq
    rcases hq with rfl | rfl
    · exact .int (.int 7)
    · refine .list ?_
      intro x hx
      simp at hx
      rcases hx with rfl | rfl <;> exact .string _
  · exact .bytes _

end Verif.Data
