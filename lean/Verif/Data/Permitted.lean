import Verif.Data.Spec

/-! C47: containers hold only permitted values. -/

set_option autoImplicit false

namespace Verif.Data

/-! ### `check` accepts exactly what fits, and NaN -/

theorem checkAll_ok (f : Val → Ans) (l : List Val) : checkAll f l = .ok ↔ ∀ v ∈ l, f v = .ok := by
  induction l with
  | nil => simp [checkAll]
  | cons v l ih =>
    simp only [checkAll, List.mem_cons, forall_eq_or_imp]
    cases h : f v <;> simp [ih]

theorem checkLength_ok (n max : Nat) (strict : Bool) : checkLength n max strict = .ok ↔ LengthOk n max strict := by
  unfold checkLength LengthOk
  by_cases h1 : n > max
  · simp [h1]; omega
  · rw [if_neg h1]
    cases strict
    · simp; omega
    · by_cases h2 : n < max
      · simp [h2]; omega
      · simp [h2]; omega

theorem checkString_ok (n max : Nat) (s : String) (o : Option (List String)) :
    checkString n (·.contains s) max o = .ok ↔ n ≤ max ∧ AmongOptions o s := by
  unfold checkString AmongOptions
  by_cases h1 : n > max
  · simp [h1]; omega
  · rw [if_neg h1]
    have h1 : n ≤ max := by omega
    cases o with
    | none => simp [h1]
    | some o => simp [h1]

theorem lt_fin (a b : Rat) : (Flt.fin a).lt (.fin b) = true ↔ a < b := by simp [Flt.lt]

theorem range_ok (lo hi : Rat) (f : Flt) :
    (if f.lt (.fin lo) then Ans.err else if (Flt.fin hi).lt f then .err else .ok) = .ok ↔
      f = .nan ∨ ∃ r, f = .fin r ∧ lo ≤ r ∧ r ≤ hi := by
  cases f with
  | nan => simp [Flt.lt]
  | inf b => cases b <;> simp [Flt.lt]
  | fin r =>
    simp only [Flt.lt, decide_eq_true_eq]
    by_cases h1 : r < lo
    · simp [h1]; intro h; exact absurd h1 (Rat.not_lt.mpr h)
    · by_cases h2 : hi < r
      · simp [h1, h2]; intro _; exact Rat.not_le.mpr h2
      · simp [h1, h2]; exact ⟨Rat.not_lt.mp h1, Rat.not_lt.mp h2⟩

theorem num_fin {v : Val} {r : Rat} : v.num = some (.fin r) ↔ Number v r := by
  constructor
  · intro h
    cases v with
    | bool b => cases b <;> simp [Val.num] at h <;> subst h <;> constructor
    | int i => simp [Val.num] at h; subst h; constructor
    | float f => simp [Val.num] at h; subst h; constructor
    | _ => simp [Val.num] at h
  · rintro (i | _ | _ | r) <;> simp [Val.num]

theorem num_nan {v : Val} : v.num = some .nan ↔ v = .float .nan := by
  cases v <;> simp [Val.num]

theorem check_float (lo hi : Rat) (v : Val) : check (.float lo hi) v = .ok ↔ Fits true (.float lo hi) v := by
  have e : check (.float lo hi) v = match v.num with
    | some f => if f.lt (.fin lo) then .err else if (Flt.fin hi).lt f then .err else .ok
    | none => .raise := by cases v <;> rfl
  rw [e]
  cases h : v.num with
  | none =>
    simp only [reduceCtorEq, false_iff]
    intro hf
    cases hf with
    | float hn _ _ => rw [num_fin.mpr hn] at h; cases h
    | nan _ => simp [Val.num] at h
  | some f =>
    simp only [range_ok]
    constructor
    · rintro (rfl | ⟨r, rfl, h1, h2⟩)
      · rw [num_nan.mp h]; exact .nan rfl
      · exact .float (num_fin.mp h) h1 h2
    · intro hf
      cases hf with
      | float hn h1 h2 => rw [num_fin.mpr hn] at h; cases h; exact .inr ⟨_, rfl, h1, h2⟩
      | nan _ => simp [Val.num] at h; exact .inl h.symm

theorem check_int (lo hi i : Int) (v : Val) (hi' : Integer v i) :
    check (.int lo hi) v = if i < lo then .err else if i > hi then .err else .ok := by
  cases hi' <;> rfl

theorem int_range (lo hi i : Int) : (if i < lo then Ans.err else if i > hi then .err else .ok) = .ok ↔ lo ≤ i ∧ i ≤ hi := by
  by_cases h1 : i < lo
  · simp [h1]; omega
  · by_cases h2 : i > hi
    · simp [h1, h2]
    · simp [h1, h2]; omega

theorem checkItems_ok {e : Ty} (ih : ∀ v, check e v = .ok ↔ Fits true e v) {l : List Val} {max : Nat} {strict : Bool} :
    checkItems (check e) l max strict = .ok ↔ (∀ x ∈ l, Fits true e x) ∧ LengthOk l.length max strict := by
  unfold checkItems
  cases h : checkAll (check e) l with
  | ok =>
    rw [checkAll_ok] at h
    simp only [checkLength_ok]
    exact ⟨fun hl => ⟨fun x hx => (ih x).mp (h x hx), hl⟩, fun hl => hl.2⟩
  | err | raise =>
    simp only [reduceCtorEq, false_iff]
    intro hl
    have := (checkAll_ok (check e) l).mpr fun x hx => (ih x).mpr (hl.1 x hx)
    rw [this] at h; cases h

/-- `set_value` accepts exactly the values that fit, where NaN counts as fitting. -/
theorem check_ok : ∀ (t : Ty) (v : Val), check t v = .ok ↔ Fits true t v := by
  intro t
  induction t with
  | bool =>
    intro v
    constructor
    · intro h; cases v <;> simp [check] at h; constructor
    · intro h; cases h; rfl
  | int lo hi =>
    intro v
    constructor
    · intro h
      cases v with
      | int i => rw [check_int _ _ _ _ (.int i), int_range] at h; exact .int (.int i) h.1 h.2
      | bool b =>
        cases b
        · rw [check_int _ _ _ _ .no, int_range] at h; exact .int .no h.1 h.2
        · rw [check_int _ _ _ _ .yes, int_range] at h; exact .int .yes h.1 h.2
      | _ => simp [check] at h
    · intro h
      cases h with
      | int hv h1 h2 => rw [check_int _ _ _ _ hv, int_range]; exact ⟨h1, h2⟩
  | float lo hi => exact check_float lo hi
  | string max o =>
    intro v
    constructor
    · intro h
      cases v with
      | str s => simp only [check, checkString_ok] at h; exact .string h.1 h.2
      | _ => simp [check] at h
    · intro h
      cases h with
      | string h1 h2 => simp only [check, checkString_ok]; exact ⟨h1, h2⟩
  | path max o =>
    intro v
    constructor
    · intro h
      cases v with
      | str s =>
        simp only [check] at h
        split at h
        · rename_i h0
          rw [checkString_ok] at h
          exact .path h.1 h.2 (by simpa using h0)
        · cases h
      | _ => simp [check] at h
    · intro h
      cases h with
      | path h1 h2 h3 =>
        simp only [check]
        rw [if_pos (by simpa using h3), checkString_ok]
        exact ⟨h1, h2⟩
  | bytes max o =>
    intro v
    constructor
    · intro h
      cases v with
      | bytes b =>
        simp only [check, checkString] at h
        split at h
        · cases h
        · rename_i h0
          cases o with
          | none => exact .bytes (by omega)
          | some o => simp at h
      | _ => simp [check] at h
    · intro h
      cases h with
      | bytes h1 => simp only [check, checkString]; rw [if_neg (by omega)]
  | list e es max strict ih =>
    intro v
    constructor
    · intro h
      cases v with
      | list l => rw [show check (.list e es max strict) _ = checkItems (check e) l max strict from rfl, checkItems_ok ih] at h; exact .list (.list l) h.1 h.2
      | array l => rw [show check (.list e es max strict) _ = checkItems (check e) l max strict from rfl, checkItems_ok ih] at h; exact .list (.array l) h.1 h.2
      | _ => simp [check] at h
    · intro h
      cases h with
      | list hs h1 h2 => cases hs <;> exact (checkItems_ok ih).mpr ⟨h1, h2⟩
  | dict e es max strict ih =>
    intro v
    constructor
    · intro h
      cases v with
      | dict l =>
        rw [show check (.dict e es max strict) _ = checkItems (check e) (l.map (·.2)) max strict from rfl, checkItems_ok ih] at h
        exact .dict (fun p hp => h.1 _ (List.mem_map_of_mem hp)) (by simpa using h.2)
      | _ => simp [check] at h
    · intro h
      cases h with
      | dict h1 h2 =>
        refine (checkItems_ok ih).mpr ⟨fun v hv => ?_, by simpa using h2⟩
        obtain ⟨p, hp, rfl⟩ := List.mem_map.mp hv
        exact h1 p hp
  | rosName k i =>
    intro v
    constructor
    · intro h; cases v <;> simp [check] at h; constructor
    · intro h; cases h; rfl
  | rosMsg n i =>
    intro v
    constructor
    · intro h
      cases v with
      | msg t f => simp [check] at h; subst h; constructor
      | _ => simp [check] at h
    · intro h; cases h; simp [check]
  | rosType k i =>
    intro v
    constructor
    · intro h
      cases v with
      | cls s => simp [check] at h; exact .rosType h
      | _ => simp [check] at h
    · intro h
      cases h with
      | rosType h => simp [check, h]

theorem fits_clean {nan : Bool} {t : Ty} {v : Val} (h : Fits nan t v) : Fits nan t (clean t v) := by
  cases h with
  | float hn h1 h2 =>
    cases hn with
    | int i => exact .float (.float _) h1 h2
    | yes => exact .float (.float _) h1 h2
    | no => exact .float (.float _) h1 h2
    | float r => exact .float (.float _) h1 h2
  | list hs h1 h2 => cases hs <;> exact .list (.list _) h1 h2
  | nan h => exact .nan h
  | _ => simp only [clean]; constructor <;> assumption

/-! ### C47 -/

theorem set_cases (c : Cont) (v : Val) :
    (∃ a, a ≠ .ok ∧ c.set v = (c, a)) ∨
    (check c.ty v = .ok ∧ c.set v = ({ c with updated := true, value := some (clean c.ty v) }, .ok)) ∨
    (check c.ty v = .ok ∧ ∃ w, c.value = some w ∧ pyEq w (clean c.ty v) = true ∧ c.set v = ({ c with updated := false }, .ok)) := by
  unfold Cont.set
  cases h : check c.ty v with
  | err => exact .inl ⟨.err, by simp, rfl⟩
  | raise => exact .inl ⟨.raise, by simp, rfl⟩
  | ok =>
    simp only [Cont.assign]
    by_cases h1 : (c.isStatic && c.updated) = true
    · rw [if_pos h1]; exact .inl ⟨.err, by simp, rfl⟩
    · rw [if_neg h1]
      cases h2 : c.value with
      | none => exact .inr (.inl ⟨trivial, rfl⟩)
      | some w =>
        by_cases h3 : pyEq w (clean c.ty v) = true
        · refine .inr (.inr ⟨trivial, w, rfl, h3, ?_⟩)
          simp [h3, ← h2]
        · refine .inr (.inl ⟨trivial, ?_⟩)
          simp [h3]

theorem set_ty (c : Cont) (v : Val) : (c.set v).1.ty = c.ty ∧ (c.set v).1.isStatic = c.isStatic ∧
    (c.set v).1.allowDynamic = c.allowDynamic ∧ (c.set v).1.allowStatic = c.allowStatic := by
  rcases set_cases c v with ⟨a, _, h⟩ | ⟨_, h⟩ | ⟨_, w, _, _, h⟩ <;> rw [h] <;> simp

theorem step_ty (env : Env) (c : Cont) (o : COp) : (c.step env o).1.ty = c.ty ∧ (c.step env o).1.isStatic = c.isStatic := by
  cases o with
  | set v => exact ⟨(set_ty c v).1, (set_ty c v).2.1⟩
  | deserialize n j =>
    simp only [Cont.step, Cont.deserializeValue]
    split
    · exact ⟨(set_ty c _).1, (set_ty c _).2.1⟩
    · exact ⟨rfl, rfl⟩
  | resetValue => simp only [Cont.step, Cont.resetValue]; split <;> exact ⟨rfl, rfl⟩
  | flagUpdated => exact ⟨rfl, rfl⟩
  | resetUpdated => exact ⟨rfl, rfl⟩

/-- `c` holds nothing, or something allowed by `P`. -/
def Cont.Holds (P : Val → Prop) (c : Cont) : Prop := ∀ v, c.value = some v → P v

theorem set_holds {P : Val → Prop} (c : Cont) (v : Val) (h : c.Holds P) (hp : ∀ v, Fits true c.ty v → P v) : (c.set v).1.Holds P := by
  rcases set_cases c v with ⟨a, _, e⟩ | ⟨hc, e⟩ | ⟨_, w, _, _, e⟩ <;> rw [e]
  · exact h
  · intro w hw
    cases hw
    exact hp _ (fits_clean ((check_ok _ _).mp hc))
  · exact h

theorem step_holds {P : Val → Prop} (env : Env) (c : Cont) (o : COp) (h : c.Holds P) (hp : ∀ v, Fits true c.ty v → P v) :
    (c.step env o).1.Holds P := by
  cases o with
  | set v => exact set_holds c v h hp
  | deserialize n j =>
    simp only [Cont.step, Cont.deserializeValue]
    split
    · exact set_holds c _ h hp
    · exact h
  | resetValue =>
    simp only [Cont.step, Cont.resetValue]
    split
    · exact h
    · intro v hv; cases hv
  | flagUpdated => exact h
  | resetUpdated => exact h

theorem run_holds {P : Val → Prop} (env : Env) (ops : List COp) :
    ∀ c : Cont, c.Holds P → (∀ v, Fits true c.ty v → P v) → (c.run env ops).Holds P := by
  induction ops with
  | nil => intro c h _; exact h
  | cons o ops ih =>
    intro c h hp
    refine ih _ (step_holds env c o h hp) ?_
    rw [(step_ty env c o).1]; exact hp

theorem run_ty (env : Env) (ops : List COp) : ∀ c : Cont, (c.run env ops).ty = c.ty ∧ (c.run env ops).isStatic = c.isStatic := by
  induction ops with
  | nil => intro c; exact ⟨rfl, rfl⟩
  | cons o ops ih =>
    intro c
    have := ih (c.step env o).1
    rw [(step_ty env c o).1, (step_ty env c o).2] at this
    exact this

/-- No float anywhere in the type. -/
def Ty.noFloat : Ty → Bool
  | .float _ _ => false
  | .list e _ _ _ => e.noFloat
  | .dict e _ _ _ => e.noFloat
  | _ => true

theorem fits_noFloat {t : Ty} {v : Val} (h : Fits true t v) (ht : t.noFloat = true) : Fits false t v := by
  induction h with
  | bool b => exact .bool b
  | int h1 h2 h3 => exact .int h1 h2 h3
  | float _ _ _ => simp [Ty.noFloat] at ht
  | nan _ => simp [Ty.noFloat] at ht
  | string h1 h2 => exact .string h1 h2
  | path h1 h2 h3 => exact .path h1 h2 h3
  | bytes h1 => exact .bytes h1
  | list hs _ h2 ih => exact .list hs (fun x hx => ih x hx ht) h2
  | dict _ h2 ih => exact .dict (fun p hp => ih p hp ht) h2
  | rosName s => exact .rosName s
  | rosMsg f => exact .rosMsg f
  | rosType h => exact .rosType h

/-- A container that starts empty or with a permitted value never holds anything else, whatever is done to it. Missing for the full
property: NaN counts as permitted (see `c47_nan`) and the container has to start that way (see `c47_default_float`
and the others). -/
theorem c47_permitted_partial (env : Env) (c : Cont) (ops : List COp) (h : ∀ v, c.value = some v → Fits true c.ty v) :
    ∀ v, (c.run env ops).value = some v → Fits true c.ty v :=
  run_holds env ops c h (fun _ h => h)

/-- Without floats in the type NaN plays no role. -/
theorem c47_permitted_noFloat (env : Env) (c : Cont) (ops : List COp) (ht : c.ty.noFloat = true)
    (h : ∀ v, c.value = some v → Fits false c.ty v) : ∀ v, (c.run env ops).value = some v → Fits false c.ty v :=
  run_holds env ops c h (fun _ h => fits_noFloat h ht)

/-- A dynamic container, whatever it started with, holds only permitted values once it has been reset (as `Node.setup` does). -/
theorem c47_dynamic (env : Env) (c : Cont) (before after : List COp) (hd : c.isStatic = false) :
    ∀ v, (c.run env (before ++ .resetValue :: after)).value = some v → Fits true c.ty v := by
  have e : c.run env (before ++ .resetValue :: after) = ((c.run env before).resetValue).run env after := by
    simp [Cont.run, Cont.step]
  have ht := run_ty env before c
  have e2 : (c.run env before).resetValue.value = none := by
    simp [Cont.resetValue, ht.2, hd]
  have e3 : (c.run env before).resetValue.ty = c.ty := by
    have := (step_ty env (c.run env before) .resetValue).1
    simpa [Cont.step, ht.1] using this
  rw [e]
  refine run_holds env after _ ?_ ?_
  · intro v hv; rw [e2] at hv; cases hv
  · intro v hv; rwa [e3] at hv

/-- A value is accepted only if it fits (NaN aside); a value that is not accepted changes nothing. -/
theorem c47_set (c : Cont) (v : Val) :
    ((c.set v).2 = .ok → Fits true c.ty v) ∧ ((c.set v).2 ≠ .ok → (c.set v).1 = c) := by
  rcases set_cases c v with ⟨a, ha, e⟩ | ⟨hc, e⟩ | ⟨hc, w, _, _, e⟩ <;> rw [e]
  · exact ⟨fun h => absurd h ha, fun _ => rfl⟩
  · exact ⟨fun _ => (check_ok _ _).mp hc, fun h => absurd rfl h⟩
  · exact ⟨fun _ => (check_ok _ _).mp hc, fun h => absurd rfl h⟩

/-- Conversely a dynamic container accepts every value that fits. -/
theorem c47_accepts (c : Cont) (v : Val) (hd : c.isStatic = false) (h : Fits true c.ty v) : (c.set v).2 = .ok := by
  unfold Cont.set Cont.assign
  rw [(check_ok _ _).mpr h]
  simp [hd]

/-- The automatic value of a static integer is in range. -/
theorem c47_default_int (fresh : String → List (String × Val)) (lo hi : Int) (ad as : Bool) (c : Cont)
    (h : Cont.new fresh (.int lo hi) ad as (some true) none = some c) : ∃ v, c.value = some v ∧ Fits false (.int lo hi) v := by
  simp only [Cont.new, Option.getD_some] at h
  repeat' split at h
  all_goals try (cases h; done)
  rename_i hv _ _ _ _
  simp only [Ty.valid, Bool.not_eq_true', decide_eq_false_iff_not] at hv
  have hle : lo ≤ hi := Decidable.not_not.mp hv
  cases h
  simp only [adjust, Ty.initial]
  by_cases h1 : lo > 0
  · have h2 : ¬ hi < 0 := by omega
    simp [h1, h2]
    exact .int (.int _) (by omega) (by omega)
  · by_cases h2 : hi < 0
    · simp [h1, h2]
      exact .int (.int _) (by omega) (by omega)
    · simp [h1, h2]
      exact .int (.int _) (by omega) (by omega)

/-! ### Violations -/

theorem eq_nan (f : Flt) : f.eq .nan = false := by cases f <;> rfl

theorem pyEq_nan (w : Val) : pyEq w (.float .nan) = false := by
  cases w <;> simp [pyEq, pyEq.numEq, Val.num, eq_nan]

/-- NaN passes the range check. -/
theorem c47_nan (lo hi : Rat) (ad as : Bool) (v : Option Val) :
    ((⟨.float lo hi, ad, as, false, v, false⟩ : Cont).set (.float .nan)).2 = .ok ∧
    ((⟨.float lo hi, ad, as, false, v, false⟩ : Cont).set (.float .nan)).1.value = some (.float .nan) ∧
    ¬ Fits false (.float lo hi) (.float .nan) := by
  refine ⟨c47_accepts _ _ rfl (.nan rfl), ?_, ?_⟩
  · rcases set_cases (⟨.float lo hi, ad, as, false, v, false⟩ : Cont) (.float .nan) with ⟨a, ha, e⟩ | ⟨hc, e⟩ | ⟨hc, w, _, h2, e⟩
    · have := c47_accepts (⟨.float lo hi, ad, as, false, v, false⟩ : Cont) (.float .nan) rfl (.nan rfl)
      rw [e] at this; exact absurd this ha
    · rw [e]; rfl
    · simp [clean, pyEq_nan] at h2
  · intro h
    cases h with
    | float hn _ _ => cases hn
    | nan h => cases h

/-- The automatic value 1.2 of a float need not be in range. -/
theorem c47_default_float :
    ∃ c, Cont.new (fun _ => []) (.float 0 1) true true none none = some c ∧ c.isStatic = true ∧ c.value = some (.float (.fin (6/5))) ∧
      ¬ Fits true (.float 0 1) (.float (.fin (6/5))) := by
  refine ⟨⟨.float 0 1, true, true, true, some (.float (.fin (6/5))), false⟩, ?_, rfl, rfl, ?_⟩
  · have h1 : (Ty.float 0 1).valid = true := by decide +kernel
    have h2 : ¬ ((0 : Rat) > 0) := by decide +kernel
    have h3 : ¬ ((1 : Rat) < 0) := by decide +kernel
    simp [Cont.new, h1, h2, h3, Ty.isTypeContainer, adjust, Ty.initial]
  · intro h
    cases h with
    | float hn h1 h2 => cases hn; exact absurd h2 (by decide +kernel)

/-- The automatic value "" of a string need not be among the options. -/
theorem c47_default_options :
    ∃ c, Cont.new (fun _ => []) (.string 10 (some ["a"])) true true none none = some c ∧ c.isStatic = true ∧ c.value = some (.str "") ∧
      ¬ Fits true (.string 10 (some ["a"])) (.str "") := by
  refine ⟨_, rfl, rfl, rfl, ?_⟩
  intro h
  cases h with
  | string _ h => exact absurd (h _ rfl) (by decide)

/-- The automatic value "" of a path is not a path. -/
theorem c47_default_path (max : Nat) :
    ∃ c, Cont.new (fun _ => []) (.path max none) true true none none = some c ∧ c.isStatic = true ∧ c.value = some (.str "") ∧
      ¬ Fits true (.path max none) (.str "") := by
  refine ⟨_, rfl, rfl, rfl, ?_⟩
  intro h
  have := (check_ok _ _).mpr h
  have h2 : ("".startsWith "file://" || "".startsWith "package://") = false := by decide +kernel
  simp [check, h2] at this

/-- The automatic value `[]` of a list of fixed length has the wrong length. -/
theorem c47_default_list (e : Ty) (he : e.valid = true) (es : Bool) (n : Nat) :
    ∃ c, Cont.new (fun _ => []) (.list e es (n + 1) true) true true none none = some c ∧ c.isStatic = true ∧ c.value = some (.list []) ∧
      ¬ Fits true (.list e es (n + 1) true) (.list []) := by
  refine ⟨⟨.list e es (n + 1) true, true, true, true, some (.list []), false⟩, ?_, rfl, rfl, ?_⟩
  · simp [Cont.new, Ty.valid, he, Ty.isTypeContainer, adjust, Ty.initial]
  · intro h
    cases h with
    | list hs _ h2 => cases hs; have := h2.2 rfl; simp at this

/-- A static float constructed with the value 1.2 and a positive minimum holds the minimum instead. -/
theorem c47_float_moved :
    ∃ c, Cont.new (fun _ => []) (.float 1 2) true true none (some (.float (.fin (6/5)))) = some c ∧ c.value = some (.float (.fin 1)) := by
  have h : check (.float 1 2) (.float (.fin (6/5))) = .ok := (check_ok _ _).mpr (.float (.float _) (by decide +kernel) (by decide +kernel))
  have h1 : (Ty.float 1 2).valid = true := by decide +kernel
  have h2 : ((1 : Rat) > 0) := by decide +kernel
  have h3 : ¬ ((2 : Rat) < 0) := by decide +kernel
  refine ⟨⟨.float 1 2, true, true, true, some (.float (.fin 1)), false⟩, ?_, rfl⟩
  simp [Cont.new, h1, h2, h3, Ty.isTypeContainer, adjust, Ty.initial, Cont.set, h, Cont.assign, clean, pyEq, pyEq.numEq, Val.num, Flt.eq]

/-! Non-trivial instances. -/

/-- A list of at most three short strings. -/
def sampleList : Cont := ⟨.list (.string 3 none) true 3 false, true, false, false, none, false⟩

example : ∃ v, (sampleList.run ⟨fun _ => none, fun _ => [], fun _ => false⟩
    [.set (.list [.str "ab", .str "c"]), .set (.list [.str "abcd"]), .resetUpdated, .set (.int 3)]).value = some v ∧ Fits false sampleList.ty v := by
  refine ⟨.list [.str "ab", .str "c"], rfl, ?_⟩
  exact c47_permitted_noFloat ⟨fun _ => none, fun _ => [], fun _ => false⟩ sampleList
    [.set (.list [.str "ab", .str "c"]), .set (.list [.str "abcd"]), .resetUpdated, .set (.int 3)] rfl (fun v h => by cases h) _ rfl

example : (sampleList.set (.list [.str "ab"])).2 = .ok := c47_accepts _ _ rfl
  (.list (.list _) (fun x hx => by simp at hx; subst hx; exact .string (by decide) (fun o h => by cases h)) ⟨by decide, fun h => by cases h⟩)

end Verif.Data
