import Verif.Data.Watch
import Verif.Data.Config

/-! C121: `==` on containers (data_types.py 129-146), configurations (node_config.py 199-209) and nodes (node.py 851-869). -/

set_option autoImplicit false

namespace Verif.Data.Equal

open Verif.Data

/-! ### The model -/

/-- `==` on values that may be None. -/
def eqValue (v w : Option Val) : Bool := pyEq (v.getD .none) (w.getD .none)

/-- data_types.py 129-146: `DataContainer.__eq__`. The flag `_updated` is not compared. Values are those of the model, for which `==` gives one bool. -/
def eqCont (a b : Cont) : Bool := a.isCompatible b && b.isCompatible a && a.isStatic == b.isStatic && eqValue a.value b.value

/-- `==` on dictionaries of containers. -/
def eqMap (a b : List (String × Cont)) : Bool :=
  a.length == b.length && a.all fun p => match b.lookup p.1 with | some c => eqCont p.2 c | none => false

/-- node_config.py 199-206: `NodeConfig.__eq__`. -/
def eqConfig (a b : Config) : Bool := eqMap a.inputs b.inputs && eqMap a.outputs b.outputs && a.maxChildren == b.maxChildren

/-- node_config.py 248-257: `NodeConfig.copy`. -/
def copy (c : Config) : Option Config := Config.new c.inputs c.outputs c.maxChildren

/-- A node object: `inputs` and `outputs` are the addresses of its data maps, which node.py 199-200 makes anew for every node. -/
structure Obj where
  id : Nat
  name : Nat
  parent : Option Nat := none
  state : Nat := 0
  cls : Nat := 0
  inputs : Nat
  outputs : Nat
  children : List Nat := []

/-- A bool, an AttributeError, or a RecursionError. -/
inductive Res
  | val (b : Bool)
  | attribute
  | recursion
  deriving DecidableEq

/-- Python's `and`. -/
def Res.and (r s : Res) : Res := if r = .val true then s else r

/-- `==` on lists: the lengths, then one element after the other; an object is equal to itself without a call. -/
def eqList (f : Nat → Nat → Res) : List Nat → List Nat → Res
  | [], [] => .val true
  | x :: l, y :: m => if l.length = m.length then (if x = y then .val true else f x y).and (eqList f l m) else .val false
  | _, _ => .val false

/-- `==` on parents. None has no `node_id`: Python asks the node on either side. -/
def eqParent (f : Nat → Nat → Res) : Option Nat → Option Nat → Res
  | none, none => .val true
  | some p, some q => f p q
  | _, _ => .attribute

/-- node.py 851-864: `Node.__eq__` with a stack of `k` frames. `NodeDataMap` (node_config.py 43-58) has no `__eq__`: maps are equal only to themselves. -/
def eqNode (h : Nat → Obj) : Nat → Nat → Nat → Res
  | 0, _, _ => .recursion
  | k + 1, a, b =>
    (Res.val ((h a).id == (h b).id)).and <|
    (Res.val ((h a).name == (h b).name)).and <|
    (eqParent (eqNode h k) (h a).parent (h b).parent).and <|
    (Res.val ((h a).state == (h b).state)).and <|
    (Res.val ((h a).cls == (h b).cls)).and <|
    (Res.val ((h a).inputs == (h b).inputs)).and <|
    (Res.val ((h a).outputs == (h b).outputs)).and <|
    eqList (eqNode h k) (h a).children (h b).children

/-! ### Specification -/

/-- No NaN, and dictionaries that have every key once. -/
inductive Tidy : Val → Prop
  | none : Tidy .none
  | bool (b : Bool) : Tidy (.bool b)
  | int (i : Int) : Tidy (.int i)
  | float (f : Flt) : f ≠ .nan → Tidy (.float f)
  | str (s : String) : Tidy (.str s)
  | bytes (b : List UInt8) : Tidy (.bytes b)
  | list (l : List Val) : (∀ v ∈ l, Tidy v) → Tidy (.list l)
  | array (l : List Val) : (∀ v ∈ l, Tidy v) → Tidy (.array l)
  | dict (l : List (String × Val)) : (l.map (·.1)).Nodup → (∀ p ∈ l, Tidy p.2) → Tidy (.dict l)
  | msg (t : String) (l : List (String × Val)) : (l.map (·.1)).Nodup → (∀ p ∈ l, Tidy p.2) → Tidy (.msg t l)
  | cls (n : String) : Tidy (.cls n)

/-- What is done to a container. -/
inductive Op
  | set (v : Val)
  | resetValue
  | flagUpdated
  | resetUpdated

/-- The operations of the model, with their answers. -/
def Op.apply (c : Cont) : Op → Cont × Ans
  | .set v => c.set v
  | .resetValue => (c.resetValue, .ok)
  | .flagUpdated => (c.flagUpdated, .ok)
  | .resetUpdated => (c.resetUpdated, .ok)

/-- The answers to a history. -/
def answers : List Op → Cont → List Ans
  | [], _ => []
  | o :: os, c => (o.apply c).2 :: answers os (o.apply c).1

/-- The container after a history. -/
def after : List Op → Cont → Cont
  | [], c => c
  | o :: os, c => after os (o.apply c).1

/-- Only tidy values are assigned. -/
def TidyOp : Op → Prop
  | .set v => Tidy v
  | _ => True

/-- The value of the container is tidy. -/
def TidyCont (c : Cont) : Prop := ∀ v, c.value = some v → Tidy v

/-- Two nodes are on equal paths up to where one of them is a root and the other is not. -/
inductive Clash (h : Nat → Obj) : Nat → Nat → Prop
  | here {a b : Nat} : (h a).id = (h b).id → (h a).name = (h b).name → (h a).parent.isSome ≠ (h b).parent.isSome → Clash h a b
  | up {a b p q : Nat} : (h a).id = (h b).id → (h a).name = (h b).name → (h a).parent = some p → (h b).parent = some q → Clash h p q → Clash h a b

/-- The parents of a node end after `d` steps. -/
def Depth (h : Nat → Obj) (d : Nat → Nat) : Prop := ∀ a p, (h a).parent = some p → d p < d a

/-- Every node has its own data maps. -/
def Own (h : Nat → Obj) : Prop := ∀ a b, (h a).inputs = (h b).inputs → a = b

/-! ### Values -/

theorem fields_iff (b : List (String × Val)) : ∀ a : List (String × Val), pyEqFields a b = true ↔ ∀ p ∈ a, ∃ y, b.lookup p.1 = some y ∧ pyEq p.2 y = true := by
  intro a
  induction a with
  | nil => simp [pyEqFields]
  | cons p a ih =>
    obtain ⟨k, x⟩ := p
    simp only [pyEqFields, Bool.and_eq_true, ih, List.mem_cons, forall_eq_or_imp]
    refine and_congr_left fun _ => ?_
    cases b.lookup k with
    | none => simp
    | some y => simp

theorem look_of_mem {d : List (String × Val)} {k : String} {v : Val} (hn : (d.map (·.1)).Nodup) (h : (k, v) ∈ d) : d.lookup k = some v := by
  induction d with
  | nil => cases h
  | cons p d ih =>
    obtain ⟨j, w⟩ := p
    simp only [List.map_cons, List.nodup_cons] at hn
    rcases List.mem_cons.1 h with e | h
    · cases e; simp [List.lookup_cons]
    · have : k ≠ j := fun e => hn.1 (e ▸ List.mem_map.2 ⟨_, h, rfl⟩)
      have e : (k == j) = false := by simpa using this
      rw [List.lookup_cons, e]
      exact ih hn.2 h

theorem mem_of_look {d : List (String × Val)} {k : String} {v : Val} (h : d.lookup k = some v) : (k, v) ∈ d := by
  induction d with
  | nil => cases h
  | cons p d ih =>
    obtain ⟨j, w⟩ := p
    rw [List.lookup_cons] at h
    by_cases e : k = j
    · subst e; simp at h; simp [h]
    · have e : (k == j) = false := by simpa using e
      rw [e] at h
      exact List.mem_cons_of_mem _ (ih h)

/-- A list without repetitions within a list of the same length has all its elements. -/
theorem fills {α : Type} [DecidableEq α] : ∀ (a b : List α), a.Nodup → (∀ x ∈ a, x ∈ b) → a.length = b.length → ∀ x ∈ b, x ∈ a := by
  intro a
  induction a with
  | nil => intro b _ _ hl x hx; cases b with | nil => exact hx | cons _ _ => cases hl
  | cons y a ih =>
    intro b hn hs hl x hx
    simp only [List.nodup_cons] at hn
    by_cases e : x = y
    · simp [e]
    · refine List.mem_cons_of_mem _ (ih (b.erase y) hn.2 (fun z hz => ?_) ?_ x ((List.mem_erase_of_ne e).2 hx))
      · exact (List.mem_erase_of_ne (fun e => hn.1 (by rw [← e]; exact hz))).2 (hs z (List.mem_cons_of_mem _ hz))
      · rw [List.length_erase_of_mem (hs y (by simp)), ← hl]; rfl

theorem fits_in {α : Type} [DecidableEq α] : ∀ (a b : List α), a.Nodup → (∀ x ∈ a, x ∈ b) → a.length ≤ b.length := by
  intro a
  induction a with
  | nil => intro b _ _; exact Nat.zero_le _
  | cons y a ih =>
    intro b hn hs
    simp only [List.nodup_cons] at hn
    have hy := hs y (by simp)
    have := ih (b.erase y) hn.2 fun z hz =>
      (List.mem_erase_of_ne (fun e => hn.1 (by rw [← e]; exact hz))).2 (hs z (List.mem_cons_of_mem _ hz))
    rw [List.length_erase_of_mem hy] at this
    have := List.length_pos_of_mem hy
    simp only [List.length_cons]
    omega

theorem eqs_iff : ∀ a b : List Val, pyEqs a b = true ↔ a.length = b.length ∧ ∀ p ∈ a.zip b, pyEq p.1 p.2 = true := by
  intro a
  induction a with
  | nil => intro b; cases b <;> simp [pyEqs]
  | cons x a ih =>
    intro b
    cases b with
    | nil => simp [pyEqs]
    | cons y b =>
      simp only [pyEqs, Bool.and_eq_true, ih, List.length_cons, List.zip_cons_cons, List.mem_cons, forall_eq_or_imp, Nat.add_right_cancel_iff]
      constructor
      · rintro ⟨h1, h2, h3⟩; exact ⟨h2, h1, h3⟩
      · rintro ⟨h2, h1, h3⟩; exact ⟨h1, h2, h3⟩

theorem flt_refl {f : Flt} (h : f ≠ .nan) : f.eq f = true := by
  cases f with
  | nan => exact absurd rfl h
  | inf n => simp [Flt.eq]
  | fin r => simp [Flt.eq]

theorem flt_iff {f g : Flt} : f.eq g = true ↔ f = g ∧ f ≠ .nan := by
  cases f <;> cases g <;> simp [Flt.eq]

theorem num_iff (v w : Val) : pyEq.numEq v w = true ↔ ∃ f, f ≠ .nan ∧ v.num = some f ∧ w.num = some f := by
  unfold pyEq.numEq
  cases hv : v.num with
  | none => simp
  | some f =>
    cases hw : w.num with
    | none => simp
    | some g =>
      simp only [flt_iff, Option.some.injEq]
      constructor
      · rintro ⟨rfl, h⟩; exact ⟨f, h, rfl, rfl⟩
      · rintro ⟨x, h, rfl, rfl⟩; exact ⟨rfl, h⟩

theorem pyEq_refl {v : Val} (t : Tidy v) : pyEq v v = true := by
  induction t with
  | none => simp [pyEq]
  | bool b => rw [pyEq, num_iff]; exact ⟨.fin (if b then 1 else 0), (fun h => nomatch h), rfl, rfl⟩
  | int i => rw [pyEq, num_iff]; exact ⟨.fin i, (fun h => nomatch h), rfl, rfl⟩
  | float f h => rw [pyEq, num_iff]; exact ⟨_, h, rfl, rfl⟩
  | str s => simp [pyEq]
  | bytes b => simp [pyEq]
  | cls n => simp [pyEq]
  | list l _ ih | array l _ ih =>
    rw [pyEq, eqs_iff]
    refine ⟨rfl, fun p hp => ?_⟩
    have : ∀ (l : List Val) (p : Val × Val), p ∈ l.zip l → p.1 = p.2 ∧ p.1 ∈ l := by
      intro l
      induction l with
      | nil => intro p hp; cases hp
      | cons x l ih =>
        intro p hp
        rcases List.mem_cons.1 hp with rfl | hp
        · simp
        · exact ⟨(ih p hp).1, List.mem_cons_of_mem _ (ih p hp).2⟩
    obtain ⟨e, hm⟩ := this l p hp
    rw [← e]
    exact ih _ hm
  | dict l hn _ ih | msg _ l hn _ ih =>
    simp only [pyEq, decide_true, Bool.true_and, Bool.and_true]
    rw [fields_iff]
    exact fun p hp => ⟨p.2, look_of_mem hn hp, ih p hp⟩

theorem zip_swap : ∀ (a b : List Val) (p : Val × Val), p ∈ a.zip b → (p.2, p.1) ∈ b.zip a := by
  intro a
  induction a with
  | nil => intro b p hp; simp at hp
  | cons x a ih =>
    intro b p hp
    cases b with
    | nil => simp at hp
    | cons y b =>
      rcases List.mem_cons.1 hp with rfl | hp
      · simp
      · exact List.mem_cons_of_mem _ (ih b p hp)

theorem fields_symm {l m : List (String × Val)} (hl : l.length = m.length) (nl : (l.map (·.1)).Nodup) (nm : (m.map (·.1)).Nodup)
    (ih : ∀ p ∈ l, ∀ w, Tidy w → pyEq p.2 w = true → pyEq w p.2 = true) (tm : ∀ p ∈ m, Tidy p.2) (h : pyEqFields l m = true) : pyEqFields m l = true := by
  rw [fields_iff] at h ⊢
  intro p hp
  have hk : p.1 ∈ l.map (·.1) := by
    refine fills (l.map (·.1)) (m.map (·.1)) nl (fun x hx => ?_) (by simp [hl]) p.1 (List.mem_map.2 ⟨p, hp, rfl⟩)
    obtain ⟨q, hq, rfl⟩ := List.mem_map.1 hx
    obtain ⟨y, hy, _⟩ := h q hq
    exact List.mem_map.2 ⟨_, mem_of_look hy, rfl⟩
  obtain ⟨q, hq, e⟩ := List.mem_map.1 hk
  obtain ⟨y, hy, he⟩ := h q hq
  have : y = p.2 := by
    have h2 := look_of_mem nm (k := p.1) (v := p.2) hp
    rw [e, h2] at hy
    cases hy; rfl
  subst this
  exact ⟨q.2, by rw [← e]; exact look_of_mem nl hq, ih q hq _ (tm p hp) he⟩

theorem pyEq_symm {v : Val} (t : Tidy v) : ∀ w, Tidy w → pyEq v w = true → pyEq w v = true := by
  induction t with
  | none => intro w _ h; cases w <;> simp_all [pyEq]
  | bool b | int i | float f _ =>
    intro w _ h
    rw [pyEq, num_iff] at h
    obtain ⟨g, hg, h1, h2⟩ := h
    cases w with
    | bool _ | int _ | float _ => rw [pyEq, num_iff]; exact ⟨g, hg, h2, h1⟩
    | _ => cases h2
  | str s | bytes b | cls n => intro w _ h; cases w <;> simp_all [pyEq]
  | list l _ ih | array l _ ih =>
    intro w tw h
    cases tw with
    | list m tm | array m tm =>
      first
        | (rw [pyEq, eqs_iff] at h ⊢
           exact ⟨h.1.symm, fun p hp => ih p.2 (List.of_mem_zip hp).2 p.1 (tm _ (List.of_mem_zip hp).1) (h.2 _ (zip_swap _ _ _ hp))⟩)
        | simp [pyEq] at h
    | _ => simp [pyEq] at h
  | dict l hn _ ih =>
    intro w tw h
    cases tw with
    | dict m nm tm =>
      simp only [pyEq, Bool.and_eq_true, decide_eq_true_eq] at h ⊢
      exact ⟨h.1.symm, fields_symm h.1 hn nm ih tm h.2⟩
    | _ => simp [pyEq] at h
  | msg t l hn _ ih =>
    intro w tw h
    cases tw with
    | msg t' m nm tm =>
      simp only [pyEq, Bool.and_eq_true, decide_eq_true_eq] at h ⊢
      exact ⟨⟨h.1.1.symm, h.1.2.symm⟩, fields_symm h.1.2 hn nm ih tm h.2⟩
    | _ => simp [pyEq] at h

theorem eqs_trans : ∀ (l m n : List Val), (∀ v ∈ l, ∀ w x, pyEq v w = true → pyEq w x = true → pyEq v x = true) → pyEqs l m = true → pyEqs m n = true →
    pyEqs l n = true := by
  intro l
  induction l with
  | nil => intro m n _ h1 h2; cases m <;> cases n <;> simp_all [pyEqs]
  | cons x l ih =>
    intro m n ht h1 h2
    cases m with
    | nil => simp [pyEqs] at h1
    | cons y m =>
      cases n with
      | nil => simp [pyEqs] at h2
      | cons z n =>
        simp only [pyEqs, Bool.and_eq_true] at h1 h2 ⊢
        exact ⟨ht x (by simp) y z h1.1 h2.1, ih m n (fun v hv => ht v (List.mem_cons_of_mem _ hv)) h1.2 h2.2⟩

theorem fields_trans {l m n : List (String × Val)} (ht : ∀ p ∈ l, ∀ w x, pyEq p.2 w = true → pyEq w x = true → pyEq p.2 x = true)
    (h1 : pyEqFields l m = true) (h2 : pyEqFields m n = true) : pyEqFields l n = true := by
  rw [fields_iff] at *
  intro p hp
  obtain ⟨y, hy, e1⟩ := h1 p hp
  obtain ⟨z, hz, e2⟩ := h2 _ (mem_of_look hy)
  exact ⟨z, hz, ht p hp y z e1 e2⟩

theorem pyEq_trans {v : Val} (t : Tidy v) : ∀ w x, pyEq v w = true → pyEq w x = true → pyEq v x = true := by
  induction t with
  | none =>
    intro w x h1 h2
    cases w with
    | none => exact h2
    | _ => simp [pyEq] at h1
  | bool b | int i | float f _ =>
    intro w x h1 h2
    rw [pyEq, num_iff] at h1 ⊢
    obtain ⟨g, hg, e1, e2⟩ := h1
    refine ⟨g, hg, e1, ?_⟩
    cases w with
    | bool _ | int _ | float _ =>
      rw [pyEq, num_iff] at h2
      obtain ⟨g', _, e3, e4⟩ := h2
      rw [e2] at e3
      cases e3
      exact e4
    | _ => cases e2
  | str s | bytes b | cls n =>
    intro w x h1 h2
    cases w with
    | str _ | bytes _ | cls _ =>
      first
        | (simp only [pyEq, decide_eq_true_eq] at h1; subst h1; exact h2)
        | simp [pyEq] at h1
    | _ => simp [pyEq] at h1
  | list l _ ih | array l _ ih =>
    intro w x h1 h2
    cases w with
    | list m | array m =>
      cases x with
      | list n | array n =>
        first
          | (simp [pyEq] at h1; done)
          | (simp [pyEq] at h2; done)
          | (rw [pyEq] at h1 h2 ⊢; exact eqs_trans _ _ _ ih h1 h2)
      | _ => simp [pyEq] at h2
    | _ => simp [pyEq] at h1
  | dict l _ _ ih =>
    intro w x h1 h2
    cases w with
    | dict m =>
      cases x with
      | dict n =>
        simp only [pyEq, Bool.and_eq_true, decide_eq_true_eq] at h1 h2 ⊢
        exact ⟨h1.1.trans h2.1, fields_trans ih h1.2 h2.2⟩
      | _ => simp [pyEq] at h2
    | _ => simp [pyEq] at h1
  | msg t l _ _ ih =>
    intro w x h1 h2
    cases w with
    | msg _ m =>
      cases x with
      | msg _ n =>
        simp only [pyEq, Bool.and_eq_true, decide_eq_true_eq] at h1 h2 ⊢
        exact ⟨⟨h1.1.1.trans h2.1.1, h1.1.2.trans h2.1.2⟩, fields_trans ih h1.2 h2.2⟩
      | _ => simp [pyEq] at h2
    | _ => simp [pyEq] at h1

/-! ### Types -/

theorem strings_refl (max : Nat) (o : Option (List String)) : compatTy.strings max o max o = true := by
  cases o with
  | none => simp [compatTy.strings]
  | some l => simp [compatTy.strings]

theorem compat_refl : ∀ t : Ty, compatTy t t = true := by
  intro t
  induction t with
  | list e es max strict ih | dict e es max strict ih => simp [compatTy, compatTy.lengths, ih]
  | string max o | path max o | bytes max o => simp [compatTy, strings_refl]
  | int lo hi => simp [compatTy]
  | float lo hi => simp [compatTy]
  | _ => simp [compatTy]

theorem strings_trans {m m' m'' : Nat} {o o' o'' : Option (List String)} (h1 : compatTy.strings m o m' o' = true)
    (h2 : compatTy.strings m' o' m'' o'' = true) : compatTy.strings m o m'' o'' = true := by
  simp only [compatTy.strings, Bool.and_eq_true, Bool.not_eq_true', decide_eq_false_iff_not] at *
  refine ⟨by omega, ?_⟩
  cases o with
  | none => rfl
  | some l =>
    cases o' with
    | none => simp at h1
    | some l' =>
      cases o'' with
      | none => simp at h2
      | some l'' =>
        simp only [List.all_eq_true, List.contains_iff_mem] at *
        exact fun x hx => h2.2 x (h1.2 x hx)

theorem lengths_trans {m m' m'' : Nat} {s s' s'' : Bool} (h1 : compatTy.lengths m s m' s' = true) (h2 : compatTy.lengths m' s' m'' s'' = true) :
    compatTy.lengths m s m'' s'' = true := by
  simp only [compatTy.lengths, Bool.and_eq_true, Bool.not_eq_true', decide_eq_false_iff_not, Bool.or_eq_true, decide_eq_true_eq] at *
  refine ⟨by omega, ?_⟩
  cases s
  · simp
  · obtain ⟨_, h1⟩ := h1
    obtain ⟨_, h2⟩ := h2
    simp at h1
    rw [h1.1] at h2
    simp at h2
    simp [h2.1]; omega

theorem compat_trans : ∀ t u w : Ty, compatTy t u = true → compatTy u w = true → compatTy t w = true := by
  intro t
  induction t with
  | list e es max strict ih | dict e es max strict ih =>
    intro u w h1 h2
    cases u <;> simp only [compatTy, Bool.false_eq_true, Bool.and_eq_true] at h1
    cases w <;> simp only [compatTy, Bool.false_eq_true, Bool.and_eq_true] at h2 ⊢
    refine ⟨⟨lengths_trans h1.1.1 h2.1.1, ?_⟩, ih _ _ h1.2 h2.2⟩
    have a := h1.1.2
    have b := h2.1.2
    revert a b
    cases es <;> simp
    intro a b
    simpa [a] using b
  | string max o | path max o | bytes max o =>
    intro u w h1 h2
    cases u <;> simp only [compatTy, Bool.false_eq_true] at h1
    cases w <;> simp only [compatTy, Bool.false_eq_true] at h2 ⊢
    exact strings_trans h1 h2
  | int lo hi =>
    intro u w h1 h2
    cases u <;> simp [compatTy] at h1
    cases w <;> simp [compatTy] at h2 ⊢
    omega
  | float lo hi =>
    intro u w h1 h2
    cases u <;> simp [compatTy, Rat.not_lt] at h1
    cases w <;> simp [compatTy, Rat.not_lt] at h2 ⊢
    exact ⟨Rat.le_trans h1.1 h2.1, Rat.le_trans h2.2 h1.2⟩
  | _ =>
    intro u w h1 h2
    cases u <;> simp [compatTy] at h1
    cases w <;> simp [compatTy] at h2 ⊢
    try simp_all

theorem strings_check {m m' : Nat} {o o' : Option (List String)} (h1 : compatTy.strings m o m' o' = true) (h2 : compatTy.strings m' o' m o = true)
    (n : Nat) (f g : List String → Bool) (hf : ∀ l l' : List String, (∀ x, x ∈ l ↔ x ∈ l') → f l = g l') : checkString n f m o = checkString n g m' o' := by
  simp only [compatTy.strings, Bool.and_eq_true, Bool.not_eq_true', decide_eq_false_iff_not] at h1 h2
  have : m = m' := by omega
  subst this
  cases o with
  | none => cases o' with | none => rfl | some _ => simp at h2
  | some l =>
    cases o' with
    | none => simp at h1
    | some l' =>
      simp only [List.all_eq_true, List.contains_iff_mem] at h1 h2
      simp only [checkString]
      rw [hf l l' fun x => ⟨h1.2 x, h2.2 x⟩]

theorem contains_congr (s : String) (l l' : List String) (h : ∀ x, x ∈ l ↔ x ∈ l') : l.contains s = l'.contains s := by
  rw [Bool.eq_iff_iff, List.contains_iff_mem, List.contains_iff_mem]
  exact h s

theorem lengths_eq {m m' : Nat} {s s' : Bool} (h1 : compatTy.lengths m s m' s' = true) (h2 : compatTy.lengths m' s' m s = true) : m = m' ∧ s = s' := by
  simp only [compatTy.lengths, Bool.and_eq_true, Bool.not_eq_true', decide_eq_false_iff_not, Bool.or_eq_true, decide_eq_true_eq] at h1 h2
  refine ⟨by omega, ?_⟩
  cases s <;> cases s' <;> simp_all

/-- Types that are compatible in both directions accept the same values. -/
theorem check_mutual : ∀ t u : Ty, compatTy t u = true → compatTy u t = true → ∀ v, check t v = check u v := by
  intro t
  induction t with
  | list e es max strict ih | dict e es max strict ih =>
    intro u h1 h2 v
    cases u <;> simp only [compatTy, Bool.false_eq_true, Bool.and_eq_true] at h1 h2
    obtain ⟨rfl, rfl⟩ := lengths_eq h1.1.1 h2.1.1
    have : check e = check _ := funext (ih _ h1.2 h2.2)
    cases v <;> simp only [check, this]
  | string max o =>
    intro u h1 h2 v
    cases u <;> simp only [compatTy, Bool.false_eq_true] at h1 h2
    cases v <;> simp only [check]
    exact strings_check h1 h2 _ _ _ (contains_congr _)
  | path max o =>
    intro u h1 h2 v
    cases u <;> simp only [compatTy, Bool.false_eq_true] at h1 h2
    cases v <;> simp only [check]
    rw [strings_check h1 h2 _ _ _ (contains_congr _)]
  | bytes max o =>
    intro u h1 h2 v
    cases u <;> simp only [compatTy, Bool.false_eq_true] at h1 h2
    cases v <;> simp only [check]
    exact strings_check h1 h2 _ _ _ fun _ _ _ => rfl
  | int lo hi =>
    intro u h1 h2 v
    cases u <;> simp [compatTy] at h1 h2
    rename_i lo' hi'
    have e1 : lo = lo' := by omega
    have e2 : hi = hi' := by omega
    rw [e1, e2]
  | float lo hi =>
    intro u h1 h2 v
    cases u <;> simp [compatTy, Rat.not_lt] at h1 h2
    rename_i lo' hi'
    have e1 : lo = lo' := Rat.le_antisymm h1.1 h2.1
    have e2 : hi = hi' := Rat.le_antisymm h2.2 h1.2
    rw [e1, e2]
  | _ =>
    intro u h1 h2 v
    cases u <;> simp [compatTy] at h1 h2
    first | rfl | (obtain ⟨e1, e2⟩ := h1; rw [e1, e2])

/-! ### Containers -/

theorem compatible_refl (c : Cont) : c.isCompatible c = true := by
  unfold Cont.isCompatible
  rw [compat_refl]
  cases c.allowDynamic <;> cases c.allowStatic <;> rfl

theorem compatible_trans {a b c : Cont} (h1 : a.isCompatible b = true) (h2 : b.isCompatible c = true) : a.isCompatible c = true := by
  simp only [Cont.isCompatible, Bool.and_eq_true, Bool.not_eq_true'] at *
  refine ⟨⟨?_, ?_⟩, compat_trans _ _ _ h1.2 h2.2⟩
  · revert h1 h2; cases a.allowDynamic <;> cases b.allowDynamic <;> cases c.allowDynamic <;> simp
  · revert h1 h2; cases a.allowStatic <;> cases b.allowStatic <;> cases c.allowStatic <;> simp

theorem eq_iff (a b : Cont) : eqCont a b = true ↔ (a.isCompatible b = true ∧ b.isCompatible a = true) ∧ a.isStatic = b.isStatic ∧
    pyEq (a.value.getD .none) (b.value.getD .none) = true := by
  simp [eqCont, eqValue, and_assoc]

theorem tidy_getD {c : Cont} (t : TidyCont c) : Tidy (c.value.getD .none) := by
  cases h : c.value with
  | none => exact .none
  | some v => exact t v h

/-- `==` on containers is an equivalence. -/
theorem c121_equivalence_partial : (∀ a, TidyCont a → eqCont a a = true) ∧ (∀ a b, TidyCont a → TidyCont b → eqCont a b = true → eqCont b a = true) ∧
    ∀ a b c, TidyCont a → eqCont a b = true → eqCont b c = true → eqCont a c = true := by
  refine ⟨fun a t => ?_, fun a b ta tb h => ?_, fun a b c ta h1 h2 => ?_⟩
  · exact (eq_iff _ _).2 ⟨⟨compatible_refl a, compatible_refl a⟩, rfl, pyEq_refl (tidy_getD t)⟩
  · rw [eq_iff] at h ⊢
    exact ⟨⟨h.1.2, h.1.1⟩, h.2.1.symm, pyEq_symm (tidy_getD ta) _ (tidy_getD tb) h.2.2⟩
  · rw [eq_iff] at h1 h2 ⊢
    exact ⟨⟨compatible_trans h1.1.1 h2.1.1, compatible_trans h2.1.2 h1.1.2⟩, h1.2.1.trans h2.2.1, pyEq_trans (tidy_getD ta) _ _ h1.2.2 h2.2.2⟩

theorem check_none (t : Ty) : check t .none ≠ .ok := by cases t <;> simp [check, Val.num]

theorem clean_tidy (t : Ty) {v : Val} (h : Tidy v) : Tidy (clean t v) := by
  unfold clean
  split
  · exact .float _ (fun h => nomatch h)
  · exact .float _ (fun h => nomatch h)
  · cases h with | array _ h => exact .list _ h
  · exact h

theorem clean_none (t : Ty) {v : Val} (h : v ≠ .none) : clean t v ≠ .none := by
  unfold clean
  split <;> first | exact h | exact fun h => nomatch h

theorem none_eq {v : Val} (h : v ≠ .none) : pyEq .none v = false := by
  cases v <;> first | exact absurd rfl h | simp [pyEq]

theorem assign_eq (c : Cont) {v : Val} (h : v ≠ .none) : c.assign v = if c.isStatic && c.updated then (c, .err) else
    ({ c with updated := !pyEq (c.value.getD .none) v, value := if pyEq (c.value.getD .none) v then c.value else some v }, .ok) := by
  unfold Cont.assign
  split
  · rfl
  · cases hc : c.value with
    | none => simp [none_eq h]
    | some w =>
      simp only [Option.getD_some]
      by_cases e : pyEq w v = true
      · simp [e]
      · simp [e]

/-- Equal, with the same flag, and tidy. -/
structure Twins (a b : Cont) : Prop where
  eq : eqCont a b = true
  updated : a.updated = b.updated
  left : TidyCont a
  right : TidyCont b

theorem assign_twins {a b : Cont} (h : Twins a b) {v : Val} (tv : Tidy v) (hv : v ≠ .none) :
    (a.assign v).2 = (b.assign v).2 ∧ Twins (a.assign v).1 (b.assign v).1 := by
  obtain ⟨h1, h2, h3⟩ := (eq_iff a b).1 h.eq
  have e : pyEq (a.value.getD .none) v = pyEq (b.value.getD .none) v := by
    rw [Bool.eq_iff_iff]
    refine ⟨fun h' => ?_, fun h' => pyEq_trans (tidy_getD h.left) _ _ h3 h'⟩
    exact pyEq_trans (tidy_getD h.right) _ _ (pyEq_symm (tidy_getD h.left) _ (tidy_getD h.right) h3) h'
  rw [assign_eq a hv, assign_eq b hv, ← e]
  by_cases hs : (a.isStatic && a.updated) = true
  · have hs' : (b.isStatic && b.updated) = true := by rw [← h2, ← h.updated]; exact hs
    rw [if_pos hs, if_pos hs']
    exact ⟨rfl, h⟩
  · have hs' : ¬ (b.isStatic && b.updated) = true := by rw [← h2, ← h.updated]; exact hs
    rw [if_neg hs, if_neg hs']
    refine ⟨rfl, ?_, rfl, ?_, ?_⟩
    · rw [eq_iff]
      refine ⟨h1, h2, ?_⟩
      dsimp only
      split
      · exact h3
      · exact pyEq_refl tv
    · intro w hw
      dsimp only at hw
      split at hw
      · exact h.left w hw
      · cases hw; exact tv
    · intro w hw
      dsimp only at hw
      split at hw
      · exact h.right w hw
      · cases hw; exact tv

theorem apply_twins {a b : Cont} (h : Twins a b) (o : Op) (ho : TidyOp o) : (o.apply a).2 = (o.apply b).2 ∧ Twins (o.apply a).1 (o.apply b).1 := by
  obtain ⟨h1, h2, h3⟩ := (eq_iff a b).1 h.eq
  have c1 : compatTy a.ty b.ty = true := by have := h1.1; simp only [Cont.isCompatible, Bool.and_eq_true] at this; exact this.2
  have c2 : compatTy b.ty a.ty = true := by have := h1.2; simp only [Cont.isCompatible, Bool.and_eq_true] at this; exact this.2
  cases o with
  | set v =>
    simp only [Op.apply, Cont.set]
    rw [check_mutual _ _ c1 c2 v, clean_compat _ _ c1 v]
    cases hc : check b.ty v with
    | ok =>
      refine assign_twins h (clean_tidy _ ho) (clean_none _ fun e => ?_)
      rw [e] at hc
      exact check_none _ hc
    | err => exact ⟨rfl, h⟩
    | raise => exact ⟨rfl, h⟩
  | resetValue =>
    refine ⟨rfl, ?_⟩
    simp only [Op.apply, Cont.resetValue]
    by_cases hs : a.isStatic = true
    · rw [if_pos hs, if_pos (h2 ▸ hs)]
      exact h
    · rw [if_neg hs, if_neg (h2 ▸ hs)]
      exact ⟨(eq_iff _ _).2 ⟨h1, h2, by simp [pyEq]⟩, h.updated, fun v hv => (nomatch hv), fun v hv => (nomatch hv)⟩
  | flagUpdated => exact ⟨rfl, (eq_iff _ _).2 ⟨h1, h2, h3⟩, rfl, h.left, h.right⟩
  | resetUpdated => exact ⟨rfl, (eq_iff _ _).2 ⟨h1, h2, h3⟩, rfl, h.left, h.right⟩

/-- Equal containers cannot be told apart: they give the same answers to every history, and are equal after it. Partial: only if they are both updated or both
not, see `c121_updated`. -/
theorem c121_alike_partial (a b : Cont) (ta : TidyCont a) (tb : TidyCont b) (h : eqCont a b = true) (hu : a.updated = b.updated) (os : List Op)
    (ho : ∀ o ∈ os, TidyOp o) : answers os a = answers os b ∧ eqCont (after os a) (after os b) = true := by
  have : ∀ (os : List Op), (∀ o ∈ os, TidyOp o) → ∀ a b, Twins a b → answers os a = answers os b ∧ Twins (after os a) (after os b) := by
    intro os
    induction os with
    | nil => intro _ a b h; exact ⟨rfl, h⟩
    | cons o os ih =>
      intro ho a b h
      obtain ⟨e, h'⟩ := apply_twins h o (ho o (by simp))
      obtain ⟨e', h''⟩ := ih (fun o h => ho o (List.mem_cons_of_mem _ h)) _ _ h'
      exact ⟨by simp [answers, e, e'], h''⟩
  obtain ⟨e, h'⟩ := this os ho a b ⟨h, hu, ta, tb⟩
  exact ⟨e, h'.eq⟩

/-- Two containers that differ in `_updated` are equal, but only one of them accepts a value. -/
theorem c121_updated : ∃ a b : Cont, eqCont a b = true ∧ ∃ v, (a.set v).2 = .ok ∧ (b.set v).2 = .err :=
  ⟨⟨.int 0 9, true, true, true, some (.int 3), false⟩, ⟨.int 0 9, true, true, true, some (.int 3), true⟩, by decide +kernel, .int 4, by decide +kernel, by decide +kernel⟩

/-- A container with NaN is not equal to itself. -/
theorem c121_nan : eqCont ⟨.float 0 1, true, true, true, some (.float .nan), false⟩ ⟨.float 0 1, true, true, true, some (.float .nan), false⟩ = false := by
  decide +kernel

/-! ### Configurations -/

/-- The values of all containers are tidy. -/
def TidyConfig (c : Config) : Prop := (∀ p ∈ c.inputs, TidyCont p.2) ∧ ∀ p ∈ c.outputs, TidyCont p.2

theorem eqMap_refl {d : List (String × Cont)} (hn : (d.map (·.1)).Nodup) (t : ∀ p ∈ d, TidyCont p.2) : eqMap d d = true := by
  simp only [eqMap, beq_self_eq_true, Bool.true_and, List.all_eq_true]
  intro p hp
  rw [lookup_of_mem hn (show (p.1, p.2) ∈ d from hp)]
  exact c121_equivalence_partial.1 _ (t p hp)

/-- Both have the key with equal containers, or none has it. -/
def Agree : Option Cont → Option Cont → Prop
  | some a, some b => eqCont a b = true
  | none, none => True
  | _, _ => False

theorem eqMap_iff {d e : List (String × Cont)} (hd : (d.map (·.1)).Nodup) (he : (e.map (·.1)).Nodup) :
    eqMap d e = true ↔ ∀ k, Agree (d.lookup k) (e.lookup k) := by
  simp only [eqMap, Bool.and_eq_true, beq_iff_eq, List.all_eq_true]
  constructor
  · rintro ⟨hl, h⟩ k
    cases hk : d.lookup k with
    | some c =>
      have := h _ (mem_of_lookup hk)
      dsimp only at this
      cases hk' : e.lookup k with
      | some c' => rw [hk'] at this; exact this
      | none => rw [hk'] at this; cases this
    | none =>
      cases hk' : e.lookup k with
      | none => trivial
      | some c' =>
        refine absurd ?_ (lookup_none.1 hk)
        refine fills (d.map (·.1)) (e.map (·.1)) hd (fun x hx => ?_) (by simp [hl]) k (List.mem_map.2 ⟨_, mem_of_lookup hk', rfl⟩)
        obtain ⟨p, hp, rfl⟩ := List.mem_map.1 hx
        have := h p hp
        cases hq : e.lookup p.1 with
        | none => rw [hq] at this; cases this
        | some c => exact List.mem_map.2 ⟨_, mem_of_lookup hq, rfl⟩
  · intro h
    have sub : ∀ (d e : List (String × Cont)), (∀ k, Agree (d.lookup k) (e.lookup k)) → ∀ x ∈ d.map (·.1), x ∈ e.map (·.1) := by
      intro d e h x hx
      have h' := h x
      rw [← lookup_mem] at hx ⊢
      cases h1 : d.lookup x with
      | none => rw [h1] at hx; cases hx
      | some c =>
        cases h2 : e.lookup x with
        | none => rw [h1, h2] at h'; exact h'.elim
        | some c' => rfl
    have sub' : ∀ x ∈ e.map (·.1), x ∈ d.map (·.1) := by
      intro x hx
      have h' := h x
      rw [← lookup_mem] at hx ⊢
      cases h2 : e.lookup x with
      | none => rw [h2] at hx; cases hx
      | some c =>
        cases h1 : d.lookup x with
        | none => rw [h1, h2] at h'; exact h'.elim
        | some c' => rfl
    refine ⟨?_, fun p hp => ?_⟩
    · have h1 := fits_in _ _ hd (sub d e h)
      have h2 := fits_in _ _ he sub'
      simp at h1 h2
      omega
    · have h' := h p.1
      rw [lookup_of_mem hd (show (p.1, p.2) ∈ d from hp)] at h'
      cases hq : e.lookup p.1 with
      | none => rw [hq] at h'; exact h'.elim
      | some c => rw [hq] at h'; exact h'

/-- Two configurations are equal exactly if they have the same inputs and outputs, in any order, with equal containers, and the same number of children. -/
theorem c121_config (a b : Config) (ha : a.Dict) (hb : b.Dict) : eqConfig a b = true ↔ (∀ k, Agree (a.inputs.lookup k) (b.inputs.lookup k)) ∧
    (∀ k, Agree (a.outputs.lookup k) (b.outputs.lookup k)) ∧ a.maxChildren = b.maxChildren := by
  simp only [eqConfig, Bool.and_eq_true, beq_iff_eq, eqMap_iff ha.inputs hb.inputs, eqMap_iff ha.outputs hb.outputs, and_assoc]

/-- A copy of a configuration can be made and is equal to it. -/
theorem c121_copy_partial (inputs outputs : List (String × Cont)) (m : Option Nat) (c : Config) (hc : Config.new inputs outputs m = some c) (hd : c.Dict)
    (t : TidyConfig c) : ∃ c', copy c = some c' ∧ eqConfig c c' = true ∧ eqConfig c' c = true := by
  have hcc : copy c = some c := by
    unfold Config.new at hc
    split at hc
    · cases hc
    · rename_i hany
      cases hc
      unfold copy Config.new
      have h1 : ∀ (f g : Cont → Cont) (d : List (String × Cont)), mapAll f (mapAll g d) = mapAll (fun c => f (g c)) d := by
        intro f g d; simp [mapAll, List.map_map, Function.comp_def]
      have h2 : (mapAll (fun c => { c with allowDynamic := true, allowStatic := false, isStatic := false }) outputs).any (·.2.ty.isTypeContainer) =
          outputs.any (·.2.ty.isTypeContainer) := by
        simp [mapAll, List.any_map, Function.comp_def]
      dsimp only
      rw [h2, if_neg hany, h1]
  have e : eqConfig c c = true := by
    simp [eqConfig, eqMap_refl hd.inputs t.1, eqMap_refl hd.outputs t.2]
  exact ⟨c, hcc, e, e⟩

/-! ### Nodes -/

variable {h : Nat → Obj}

theorem and_true {r s : Res} : r.and s = .val true ↔ r = .val true ∧ s = .val true := by
  unfold Res.and
  split <;> simp_all

theorem and_pass {b : Bool} (e : b = true) (s : Res) : (Res.val b).and s = s := by
  subst e; rfl

theorem eqList_refl (f : Nat → Nat → Res) (l : List Nat) : eqList f l l = .val true := by
  induction l with
  | nil => rfl
  | cons x l ih => simp [eqList, ih, Res.and]

/-- A node is equal to itself. -/
theorem c121_self (d : Nat → Nat) (hd : Depth h d) : ∀ k a, d a < k → eqNode h k a a = .val true := by
  intro k
  induction k with
  | zero => intro a ha; omega
  | succ k ih =>
    intro a ha
    have e : eqParent (eqNode h k) (h a).parent (h a).parent = .val true := by
      cases hp : (h a).parent with
      | none => rfl
      | some p => exact ih p (by have := hd a p hp; omega)
    simp [eqNode, e, Res.and, eqList_refl]

/-- C121 is violated: two node objects are never equal, whatever their attributes and however deep the stack. -/
theorem c121_never (own : Own h) (k a b : Nat) (hab : a ≠ b) : eqNode h k a b ≠ .val true := by
  cases k with
  | zero => simp [eqNode]
  | succ k =>
    intro e
    rw [eqNode] at e
    simp only [and_true] at e
    obtain ⟨_, _, _, _, _, e, _⟩ := e
    exact hab (own a b (by simpa using e))

theorem clash_self (d : Nat → Nat) (hd : Depth h d) : ∀ n a, d a < n → ¬ Clash h a a := by
  intro n
  induction n with
  | zero => intro a ha; omega
  | succ n ih =>
    intro a ha c
    cases c with
    | here _ _ h3 => exact h3 rfl
    | up _ _ hp hq c =>
      rw [hp] at hq
      cases hq
      exact ih _ (by have := hd _ _ hp; omega) c

/-- Comparing two node objects raises AttributeError exactly if they are on equal paths up to where one is a root and the other is not; else the answer is no. -/
theorem c121_raises (own : Own h) (d : Nat → Nat) (hd : Depth h d) : ∀ k a b, d a < k → a ≠ b →
    (Clash h a b → eqNode h k a b = .attribute) ∧ (¬ Clash h a b → eqNode h k a b = .val false) := by
  intro k
  induction k with
  | zero => intro a b ha; omega
  | succ k ih =>
    intro a b ha hab
    have hin : ((h a).inputs == (h b).inputs) = false := by
      simpa using fun e => hab (own a b e)
    have hrest : ∀ s, ((Res.val ((h a).state == (h b).state)).and <| (Res.val ((h a).cls == (h b).cls)).and <|
        (Res.val ((h a).inputs == (h b).inputs)).and s) = .val false := by
      intro s
      rw [hin]
      cases (h a).state == (h b).state <;> cases (h a).cls == (h b).cls <;> simp [Res.and]
    rw [eqNode, hrest]
    by_cases h1 : (h a).id = (h b).id
    · by_cases h2 : (h a).name = (h b).name
      · rw [and_pass (by simpa using h1), and_pass (by simpa using h2)]
        cases hp : (h a).parent with
        | none =>
          cases hq : (h b).parent with
          | none =>
            refine ⟨fun c => ?_, fun _ => rfl⟩
            cases c with
            | here _ _ h3 => simp [hp, hq] at h3
            | up _ _ hp' _ _ => rw [hp] at hp'; cases hp'
          | some q => exact ⟨fun _ => rfl, fun c => absurd (.here h1 h2 (by simp [hp, hq])) c⟩
        | some p =>
          cases hq : (h b).parent with
          | none => exact ⟨fun _ => rfl, fun c => absurd (.here h1 h2 (by simp [hp, hq])) c⟩
          | some q =>
            have hlt : d p < k := by have := hd a p hp; omega
            have hcl : Clash h a b ↔ Clash h p q := by
              refine ⟨fun c => ?_, fun c => .up h1 h2 hp hq c⟩
              cases c with
              | here _ _ h3 => simp [hp, hq] at h3
              | up _ _ hp' hq' c =>
                rw [hp] at hp'; rw [hq] at hq'
                cases hp'; cases hq'
                exact c
            rw [hcl]
            by_cases hpq : p = q
            · subst hpq
              refine ⟨fun c => absurd c (clash_self d hd (d p + 1) p (by omega)), fun _ => ?_⟩
              simp only [eqParent, c121_self d hd k p hlt]
              rfl
            · obtain ⟨i1, i2⟩ := ih p q hlt hpq
              refine ⟨fun c => ?_, fun c => ?_⟩
              · simp only [eqParent, i1 c]; rfl
              · simp only [eqParent, i2 c]; rfl
      · have e : ((h a).name == (h b).name) = false := by simpa using h2
        rw [and_pass (by simpa using h1), e]
        refine ⟨fun c => ?_, fun _ => rfl⟩
        cases c with
        | here _ h3 _ => exact absurd h3 h2
        | up _ h3 _ _ _ => exact absurd h3 h2
    · have e : ((h a).id == (h b).id) = false := by simpa using h1
      rw [e]
      refine ⟨fun c => ?_, fun _ => rfl⟩
      cases c with
      | here h3 _ _ => exact absurd h3 h1
      | up h3 _ _ _ _ => exact absurd h3 h1

/-! ### Examples -/

example : TidyCont ⟨.string 9 (some ["a", "b"]), true, true, true, some (.str "a"), false⟩ ∧
    eqCont ⟨.string 9 (some ["a", "b"]), true, true, true, some (.str "a"), false⟩ ⟨.string 9 (some ["b", "a"]), true, true, true, some (.str "a"), false⟩ = true ∧
    eqCont ⟨.int 0 9, true, true, false, some (.int 1), false⟩ ⟨.int 0 8, true, true, false, some (.int 1), false⟩ = false := by
  refine ⟨fun v hv => ?_, by decide +kernel, by decide +kernel⟩
  cases hv; exact .str _

/-- Two answers, of which the second is an error, on equal containers. -/
example : answers [.set (.int 4), .set (.int 5)] ⟨.int 0 9, true, true, true, some (.int 3), false⟩ = [.ok, .err] := by decide +kernel

example : ∃ c, Config.new [("n", small 0 9)] [("out", small 0 9)] (some 1) = some c ∧ c.Dict ∧ TidyConfig c := by
  refine ⟨_, rfl, ⟨by decide, by decide⟩, fun p hp v hv => ?_, fun p hp v hv => ?_⟩
  · rw [List.mem_singleton.1 hp] at hv; cases hv
  · rw [List.mem_singleton.1 hp] at hv; cases hv

/-- The order of the keys does not matter, a further key does. -/
example : (⟨[("n", small 0 9), ("m", small 0 5)], [], some 1⟩ : Config).Dict ∧ (⟨[("m", small 0 5), ("n", small 0 9)], [], some 1⟩ : Config).Dict ∧
    eqConfig ⟨[("n", small 0 9), ("m", small 0 5)], [], some 1⟩ ⟨[("m", small 0 5), ("n", small 0 9)], [], some 1⟩ = true ∧
    eqConfig ⟨[("n", small 0 9)], [], some 1⟩ ⟨[("n", small 0 9), ("m", small 0 5)], [], some 1⟩ = false := by
  refine ⟨⟨by decide, by decide⟩, ⟨by decide, by decide⟩, by decide +kernel, by decide +kernel⟩

/-- A root 0 with child 1; copies 2 and 3 of them; 4 is a copy of the child without parent. Further objects are roots. -/
def sampleObj (i : Nat) : Obj :=
  if i = 0 then { id := 10, name := 1, inputs := 0, outputs := 0, children := [1] }
  else if i = 1 then { id := 11, name := 2, parent := some 0, inputs := 1, outputs := 1 }
  else if i = 2 then { id := 10, name := 1, inputs := 2, outputs := 2, children := [3] }
  else if i = 3 then { id := 11, name := 2, parent := some 2, inputs := 3, outputs := 3 }
  else { id := 11, name := 2, inputs := i, outputs := i }

example : Own sampleObj ∧ Depth sampleObj (fun i => i) ∧ eqNode sampleObj 9 1 1 = .val true ∧ eqNode sampleObj 9 0 2 = .val false ∧
    eqNode sampleObj 9 1 3 = .val false ∧ eqNode sampleObj 9 1 4 = .attribute ∧ Clash sampleObj 1 4 := by
  refine ⟨fun a b e => ?_, fun a p e => ?_, by decide, by decide, by decide, by decide, .here rfl rfl (by decide)⟩
  · have : ∀ i, (sampleObj i).inputs = i := by
      intro i
      unfold sampleObj
      split <;> (try split) <;> (try split) <;> (try split) <;> simp_all
    rw [this, this] at e
    exact e
  · unfold sampleObj at e
    split at e <;> (try split at e) <;> (try split at e) <;> (try split at e) <;> simp_all <;> omega

end Verif.Data.Equal
