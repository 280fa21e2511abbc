import Verif.Nodes.Lists

/-! C64: comparisons; C77: IsInList. -/

set_option autoImplicit false

namespace Verif.Nodes

open Verif.Data
open Verif.BT (BTState Res)

/-! ### What a user sees -/

/-- Python's `==`. Numbers of different types are equal if they are the same number; "not a number" is equal to nothing; lists are
compared element by element; dictionaries and messages by their entries. -/
inductive Equal : Val → Val → Prop
  | none : Equal .none .none
  | number {a b : Val} {r : Rat} : Number a r → Number b r → Equal a b
  | inf (negative : Bool) : Equal (.float (.inf negative)) (.float (.inf negative))
  | str (s : String) : Equal (.str s) (.str s)
  | bytes (s : List UInt8) : Equal (.bytes s) (.bytes s)
  | cls (s : String) : Equal (.cls s) (.cls s)
  | list {l m : List Val} : l.length = m.length → (∀ p ∈ l.zip m, Equal p.1 p.2) → Equal (.list l) (.list m)
  | array {l m : List Val} : l.length = m.length → (∀ p ∈ l.zip m, Equal p.1 p.2) → Equal (.array l) (.array m)
  | dict {l m : List (String × Val)} (f : String → Val) : l.length = m.length → (∀ p ∈ l, m.lookup p.1 = some (f p.1)) →
      (∀ p ∈ l, Equal p.2 (f p.1)) → Equal (.dict l) (.dict m)
  | msg {t : String} {l m : List (String × Val)} (f : String → Val) : l.length = m.length → (∀ p ∈ l, m.lookup p.1 = some (f p.1)) →
      (∀ p ∈ l, Equal p.2 (f p.1)) → Equal (.msg t l) (.msg t m)

theorem num_of {v : Val} {r : Rat} (h : Number v r) : v.num = some (.fin r) := by
  cases h <;> simp [Val.num]

theorem number_of {v : Val} {r : Rat} (h : v.num = some (.fin r)) : Number v r := by
  cases v <;> simp only [Val.num] at h <;> try (cases h; done)
  · rename_i b
    cases b
    · simp at h; subst h; exact .no
    · simp at h; subst h; exact .yes
  · rename_i i
    simp at h
    subst h
    exact .int i
  · rename_i f
    cases h
    exact .float r

theorem inf_of {v : Val} {n : Bool} (h : v.num = some (.inf n)) : v = .float (.inf n) := by
  cases v <;> simp [Val.num] at h
  rw [h]

theorem numEq_iff (a b : Val) : pyEq.numEq a b = true ↔
    (∃ r, Number a r ∧ Number b r) ∨ ∃ n, a = .float (.inf n) ∧ b = .float (.inf n) := by
  constructor
  · intro h
    unfold pyEq.numEq at h
    split at h
    · rename_i x y hx hy
      cases x with
      | nan => cases h
      | inf n =>
        cases y <;> simp [Flt.eq] at h
        subst h
        exact .inr ⟨n, inf_of hx, inf_of hy⟩
      | fin r =>
        cases y <;> simp [Flt.eq] at h
        subst h
        exact .inl ⟨r, number_of hx, number_of hy⟩
    · cases h
  · rintro (⟨r, h1, h2⟩ | ⟨n, rfl, rfl⟩)
    · simp [pyEq.numEq, num_of h1, num_of h2, Flt.eq]
    · simp [pyEq.numEq, Val.num, Flt.eq]

theorem equal_num {a b : Val} (ha : a.num ≠ none) : Equal a b ↔
    (∃ r, Number a r ∧ Number b r) ∨ ∃ n, a = .float (.inf n) ∧ b = .float (.inf n) := by
  constructor
  · intro h
    cases h <;> simp [Val.num] at ha
    · rename_i r h1 h2
      exact .inl ⟨r, h1, h2⟩
    · rename_i n
      exact .inr ⟨n, rfl, rfl⟩
  · rintro (⟨r, h1, h2⟩ | ⟨n, rfl, rfl⟩)
    · exact .number h1 h2
    · exact .inf n

mutual

theorem pyEq_iff : ∀ a b : Val, pyEq a b = true ↔ Equal a b
  | .bool x, b => by rw [equal_num (by simp [Val.num]), ← numEq_iff]; simp [pyEq]
  | .int x, b => by rw [equal_num (by simp [Val.num]), ← numEq_iff]; simp [pyEq]
  | .float x, b => by rw [equal_num (by simp [Val.num]), ← numEq_iff]; simp [pyEq]
  | .none, b => by
    constructor
    · intro h
      cases b <;> simp [pyEq] at h
      exact .none
    · intro h
      cases h with
      | none => simp [pyEq]
      | number h1 => cases h1
  | .str x, b => by
    constructor
    · intro h
      cases b <;> simp [pyEq] at h
      subst h
      exact .str _
    · intro h
      cases h with
      | str => simp [pyEq]
      | number h1 => cases h1
  | .bytes x, b => by
    constructor
    · intro h
      cases b <;> simp [pyEq] at h
      subst h
      exact .bytes _
    · intro h
      cases h with
      | bytes => simp [pyEq]
      | number h1 => cases h1
  | .cls x, b => by
    constructor
    · intro h
      cases b <;> simp [pyEq] at h
      subst h
      exact .cls _
    · intro h
      cases h with
      | cls => simp [pyEq]
      | number h1 => cases h1
  | .list x, b => by
    constructor
    · intro h
      cases b <;> simp [pyEq] at h
      obtain ⟨h1, h2⟩ := (pyEqs_iff x _).mp h
      exact .list h1 h2
    · intro h
      cases h with
      | list h1 h2 => simpa [pyEq] using (pyEqs_iff x _).mpr ⟨h1, h2⟩
      | number h1 => cases h1
  | .array x, b => by
    constructor
    · intro h
      cases b <;> simp [pyEq] at h
      obtain ⟨h1, h2⟩ := (pyEqs_iff x _).mp h
      exact .array h1 h2
    · intro h
      cases h with
      | array h1 h2 => simpa [pyEq] using (pyEqs_iff x _).mpr ⟨h1, h2⟩
      | number h1 => cases h1
  | .dict x, b => by
    constructor
    · intro h
      cases b <;> simp [pyEq] at h
      rename_i y
      have h2 := (pyEqFields_iff x y).mp h.2
      refine .dict (fun k => (y.lookup k).getD .none) h.1 ?_ ?_
      · intro p hp
        obtain ⟨w, hw, _⟩ := h2 p hp
        simp [hw]
      · intro p hp
        obtain ⟨w, hw, he⟩ := h2 p hp
        simpa [hw] using he
    · intro h
      cases h with
      | dict f h1 h2 h3 =>
        simp only [pyEq, h1, decide_true, Bool.true_and]
        exact (pyEqFields_iff x _).mpr fun p hp => ⟨f p.1, h2 p hp, h3 p hp⟩
      | number h1 => cases h1
  | .msg t x, b => by
    constructor
    · intro h
      cases b <;> simp [pyEq] at h
      rename_i y
      obtain ⟨⟨rfl, h1⟩, h⟩ := h
      have h2 := (pyEqFields_iff x y).mp h
      refine .msg (fun k => (y.lookup k).getD .none) h1 ?_ ?_
      · intro p hp
        obtain ⟨w, hw, _⟩ := h2 p hp
        simp [hw]
      · intro p hp
        obtain ⟨w, hw, he⟩ := h2 p hp
        simpa [hw] using he
    · intro h
      cases h with
      | msg f h1 h2 h3 =>
        simp only [pyEq, h1, decide_true, Bool.true_and]
        exact (pyEqFields_iff x _).mpr fun p hp => ⟨f p.1, h2 p hp, h3 p hp⟩
      | number h1 => cases h1

theorem pyEqs_iff : ∀ l m : List Val, pyEqs l m = true ↔ l.length = m.length ∧ ∀ p ∈ l.zip m, Equal p.1 p.2
  | [], m => by cases m <;> simp [pyEqs]
  | x :: l, m => by
    cases m with
    | nil => simp [pyEqs]
    | cons y m =>
      simp only [pyEqs, Bool.and_eq_true, pyEq_iff x y, pyEqs_iff l m, List.length_cons, Nat.add_right_cancel_iff, List.zip_cons_cons,
        List.mem_cons, forall_eq_or_imp]
      exact and_left_comm

theorem pyEqFields_iff : ∀ l m : List (String × Val), pyEqFields l m = true ↔ ∀ p ∈ l, ∃ w, m.lookup p.1 = some w ∧ Equal p.2 w
  | [], m => by simp [pyEqFields]
  | (k, x) :: l, m => by
    simp only [pyEqFields, Bool.and_eq_true, List.mem_cons, forall_eq_or_imp, pyEqFields_iff l m]
    refine and_congr_left' ?_
    cases m.lookup k with
    | none => simp
    | some y => simp [pyEq_iff x y]

end

/-- C64: Compare answers SUCCEEDED if the inputs are equal, otherwise FAILED. -/
theorem c64_compare (d : NodeData) (a b : Val) (hr : Ready d) (ha : value d "a" = some a) (hb : value d "b" = some b) :
    (Equal a b → Judges compare d .succeeded) ∧ (¬ Equal a b → Judges compare d .failed) := by
  have key : ∀ r, pyEq a b = r → Judges compare d (verdict r) := by
    rintro r rfl
    apply judges_of _ _ _ hr
    simp [compare, value_begun, ha, hb, need]
  constructor
  · intro h
    exact key true ((pyEq_iff a b).mpr h)
  · intro h
    exact key false (by rwa [← Bool.not_eq_true, pyEq_iff])

/-- C64: CompareNewOnly answers RUNNING if nothing is new, otherwise as Compare. -/
theorem c64_new_only (d : NodeData) (a b : Val) (hr : Ready d) (ha : value d "a" = some a) (hb : value d "b" = some b) :
    (¬ New d ["a", "b"] → Judges compareNewOnly d .running) ∧
    (New d ["a", "b"] → Equal a b → Judges compareNewOnly d .succeeded) ∧
    (New d ["a", "b"] → ¬ Equal a b → Judges compareNewOnly d .failed) := by
  obtain ⟨n, h1, h2⟩ := anyUpdated_spec (begun d) ["a", "b"] (by
    intro k hk
    simp only [List.mem_cons, List.not_mem_nil, or_false] at hk
    rcases hk with rfl | rfl
    · exact lookup_of_value ha
    · exact lookup_of_value hb)
  have h2 : n = true ↔ New d ["a", "b"] := h2
  have key : ∀ r, pyEq a b = r → n = true → Judges compareNewOnly d (verdict r) := by
    rintro r rfl rfl
    apply judges_of _ _ _ hr
    simp [compareNewOnly, h1, compare, value_begun, ha, hb, need]
  refine ⟨?_, ?_, ?_⟩
  · intro h
    apply judges_of _ _ _ hr
    have : n = false := by rwa [← Bool.not_eq_true, h2]
    simp [compareNewOnly, h1, need, this]
  · intro hn h
    exact key true ((pyEq_iff a b).mpr h) (h2.mpr hn)
  · intro hn h
    exact key false (by rwa [← Bool.not_eq_true, pyEq_iff]) (h2.mpr hn)

/-- A value is a number, infinite or not a number at all. -/
inductive IsNumber : Val → Flt → Prop
  | fin {v : Val} {r : Rat} : Number v r → IsNumber v (.fin r)
  | inf (negative : Bool) : IsNumber (.float (.inf negative)) (.inf negative)
  | nan : IsNumber (.float .nan) .nan

/-- The order of numbers. -/
inductive Less : Flt → Flt → Prop
  | fin {x y : Rat} : x < y → Less (.fin x) (.fin y)
  | bottom {y : Flt} : y ≠ .nan → y ≠ .inf true → Less (.inf true) y
  | top {x : Flt} : x ≠ .nan → x ≠ .inf false → Less x (.inf false)

theorem lt_iff (x y : Flt) : x.lt y = true ↔ Less x y := by
  constructor
  · intro h
    cases x with
    | nan => cases h
    | inf m =>
      cases m with
      | true =>
        refine .bottom ?_ ?_
        · rintro rfl; cases h
        · rintro rfl; cases h
      | false => cases y <;> simp [Flt.lt] at h
    | fin r =>
      cases y with
      | nan => cases h
      | inf m =>
        cases m with
        | true => cases h
        | false => exact .top (by simp) (by simp)
      | fin r' => exact .fin (by simpa [Flt.lt] using h)
  · intro h
    cases h with
    | fin h => simpa [Flt.lt] using h
    | bottom h1 h2 =>
      cases y with
      | nan => exact absurd rfl h1
      | inf m => cases m with
        | true => exact absurd rfl h2
        | false => rfl
      | fin => rfl
    | top h1 h2 =>
      cases x with
      | nan => exact absurd rfl h1
      | inf m => cases m with
        | true => rfl
        | false => exact absurd rfl h2
      | fin => rfl

/-- C64: ALessThanB answers SUCCEEDED if `a` is less than `b`, otherwise FAILED. -/
theorem c64_less (d : NodeData) (a b : Val) (x y : Flt) (hr : Ready d) (ha : value d "a" = some a) (hb : value d "b" = some b)
    (hx : IsNumber a x) (hy : IsNumber b y) :
    (Less x y → Judges aLessThanB d .succeeded) ∧ (¬ Less x y → Judges aLessThanB d .failed) := by
  have num : ∀ v f, IsNumber v f → v.num = some f := by
    intro v f h
    cases h with
    | fin h => exact num_of h
    | inf => rfl
    | nan => rfl
  have key : ∀ r, x.lt y = r → Judges aLessThanB d (verdict r) := by
    rintro r rfl
    apply judges_of _ _ _ hr
    simp [aLessThanB, value_begun, ha, hb, need, pyLt, num a x hx, num b y hy]
  constructor
  · intro h
    exact key true ((lt_iff x y).mpr h)
  · intro h
    exact key false (by rwa [← Bool.not_eq_true, lt_iff])

/-- C64: CompareNewOnly answers RUNNING after any other answer, as long as only equal values arrive. -/
theorem c64_again (d : NodeData) (s : BTState) (l : List (String × Val)) (a b : Val) (h : (tick compareNewOnly d).res = some (.ok s))
    (hl : Repeats (tick compareNewOnly d).data l) (hr : Ready (deliverAll (tick compareNewOnly d).data l))
    (ha : value (deliverAll (tick compareNewOnly d).data l) "a" = some a) (hb : value (deliverAll (tick compareNewOnly d).data l) "b" = some b) :
    (tick compareNewOnly (deliverAll (tick compareNewOnly d).data l)).res = some (.ok .running) :=
  ((c64_new_only _ a b hr ha hb).1 (c63_stale compareNewOnly d s l _ h hl)).1

/-- C77: IsInList answers SUCCEEDED if an element is equal to the value, FAILED if none is. -/
theorem c77_is_in (d : NodeData) (l : List Val) (v : Val) (hr : Ready d) (hl : value d "list" = some (.list l)) (hv : value d "in" = some v) :
    ((∃ x ∈ l, Equal x v) → Judges isInList d .succeeded) ∧ ((¬ ∃ x ∈ l, Equal x v) → Judges isInList d .failed) := by
  have key : ∀ b, l.any (pyEq · v) = b → Judges isInList d (verdict b) := by
    rintro b rfl
    apply judges_of _ _ _ hr
    simp [isInList, valueAs, value_begun, hl, hv, asList, need]
  constructor
  · intro h
    exact key true (by simpa [List.any_eq_true, pyEq_iff] using h)
  · intro h
    apply key false
    rw [List.any_eq_false]
    intro x hx he
    exact h ⟨x, hx, (pyEq_iff x v).mp he⟩

/-! ### Examples -/

/-- A comparison of an integer and a float. -/
def sampleCompare (a : Int) (b : Flt) (new : Bool) : NodeData :=
  { inputs := [("a", cont (.int 0 100) (.int a) new), ("b", cont (.float 0 100) (.float b))], outputs := [] }

example : Judges compare (sampleCompare 1 (.fin 1) true) .succeeded :=
  (c64_compare _ (.int 1) (.float (.fin 1)) (by simp [Ready, sampleCompare, cont]) rfl rfl).1 (.number (.int 1) (.float 1))

example : (tick compare (sampleCompare 2 (.fin 1) true)).res = some (.ok .failed) ∧
    (tick compareNewOnly (sampleCompare 2 (.fin 1) true)).res = some (.ok .failed) ∧
    (tick compareNewOnly (sampleCompare 2 (.fin 1) false)).res = some (.ok .running) ∧
    (tick aLessThanB (sampleCompare 2 (.fin 3) true)).res = some (.ok .succeeded) ∧
    (tick aLessThanB (sampleCompare 2 (.fin 2) true)).res = some (.ok .failed) ∧
    (tick aLessThanB (sampleCompare 2 .nan true)).res = some (.ok .failed) := by
  decide +kernel

example : Equal (.dict [("a", .list [.bool true]), ("b", .none)]) (.dict [("b", .none), ("a", .list [.int 1])]) :=
  (pyEq_iff _ _).mp (by decide +kernel)

/-- An IsInList node. -/
def sampleIsIn (v : Int) : NodeData :=
  { inputs := [("list", cont (.list (.float 0 100) true 10 false) (.list [.float (.fin 10), .float (.fin 20)])), ("in", cont (.int 0 100) (.int v))],
    outputs := [] }

example : Judges isInList (sampleIsIn 20) .succeeded :=
  (c77_is_in _ _ (.int 20) (by simp [Ready, sampleIsIn, cont]) rfl rfl).1 ⟨.float (.fin 20), by simp, .number (.float 20) (.int 20)⟩

example : (tick isInList (sampleIsIn 15)).res = some (.ok .failed) := by decide +kernel

end Verif.Nodes
