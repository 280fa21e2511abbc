/-!
# C131: nodes do not share data

Elsewhere in this project the data of nodes are mathematical values. In Python they are objects, and lists, dictionaries and messages can be changed in
place (`setters.py` does so). Here they are objects on a heap, and it is proved that containers hold what they have been given nevertheless.
-/

set_option autoImplicit false

namespace Verif.Data.Shared

/-! ### The model -/

/-- An object: one that cannot be changed (number, string, ...), or one with items (list, dictionary, message), which are references. The keys of a
list are its indices. -/
inductive Obj
  | atom (n : Int)
  | cell (items : List (Nat × Nat))
  deriving DecidableEq, Repr

/-- The memory: the object at each address. -/
abbrev Heap := List Obj

/-- What an object refers to. -/
def Obj.refs : Obj → List Nat
  | .atom _ => []
  | .cell xs => xs.map (·.2)

/-- What an address refers to. -/
def refs (h : Heap) (a : Nat) : List Nat :=
  match h[a]? with
  | none => []
  | some o => o.refs

/-- `b` can be reached from `a` by following references. -/
inductive Reach (h : Heap) (a : Nat) : Nat → Prop
  | here : Reach h a a
  | next {b c : Nat} : Reach h a b → c ∈ refs h b → Reach h a c

/-- Values: an immutable one, a list or dictionary, and (`nil`, `cons`) its items. -/
inductive V
  | atom (n : Int)
  | box (items : V)
  | nil
  | cons (k : Nat) (v : V) (items : V)
  deriving DecidableEq, Repr

/-- An object (`inl`, by its address) or a list of items (`inr`) has a value. Objects that contain themselves have none. -/
inductive Reads (h : Heap) : Nat ⊕ List (Nat × Nat) → V → Prop
  | atom {a : Nat} {n : Int} : h[a]? = some (.atom n) → Reads h (.inl a) (.atom n)
  | cell {a : Nat} {xs : List (Nat × Nat)} {v : V} : h[a]? = some (.cell xs) → Reads h (.inr xs) v → Reads h (.inl a) (.box v)
  | nil : Reads h (.inr []) .nil
  | cons {k a : Nat} {xs : List (Nat × Nat)} {v w : V} : Reads h (.inl a) v → Reads h (.inr xs) w → Reads h (.inr ((k, a) :: xs)) (.cons k v w)

/-- What is required of `copy.deepcopy` (Python's standard library): old objects stay as they are, the copy consists of new objects only, and has
the value of the original. -/
structure Copies (copy : Heap → Nat → Heap × Nat) : Prop where
  old : ∀ h a b, b < h.length → (copy h a).1[b]? = h[b]?
  grows : ∀ h a, h.length ≤ (copy h a).1.length
  fresh : ∀ h a b, Reach (copy h a).1 (copy h a).2 b → h.length ≤ b
  valid : ∀ h a, (∀ b, Reach h a b → b < h.length) → ∀ b, Reach (copy h a).1 (copy h a).2 b → b < (copy h a).1.length
  same : ∀ h a v, Reads h (.inl a) v → Reads (copy h a).1 (.inl (copy h a).2) v

/-- The memory, the object in `_value` of each container (`data_types.py:81`; `none`: `None`), and the objects that hooks of nodes and other code have
got hold of. -/
structure State where
  heap : Heap
  box : Nat → Option Nat
  hands : List Nat

/-- Code outside of the containers can get at the object. -/
def Held (s : State) (a : Nat) : Prop := ∃ r ∈ s.hands, Reach s.heap r a

/-- What happens, as far as containers are concerned. -/
inductive Ev
  | code
  | got (c : Nat) (a : Nat)
  | set (c : Nat) (v : V)
  | reset (c : Nat)

/-- Replace the value of a container. -/
def put (box : Nat → Option Nat) (c : Nat) (x : Option Nat) : Nat → Option Nat := fun d => if d = c then x else box d

/-- One step. Code may create objects and change those that it has got hold of in place, in any way. `eq` is Python's `==` on values. Values that are
refused (wrong type, static containers) change nothing and are left out. -/
inductive Step (copy : Heap → Nat → Heap × Nat) (eq : V → V → Bool) : State → Ev → State → Prop
  /-- a new object -/
  | create {s : State} (o : Obj) : (∀ b ∈ o.refs, Held s b) → Step copy eq s .code ⟨s.heap ++ [o], s.box, s.heap.length :: s.hands⟩
  /-- an object is changed in place, e.g. `dir[key] = val` (setters.py 148-150), `rsetattr(obj, attr, val)` (setters.py 104-106) -/
  | change {s : State} (a : Nat) (xs ys : List (Nat × Nat)) : Held s a → s.heap[a]? = some (.cell xs) → (∀ b ∈ ys.map (·.2), Held s b) →
      Step copy eq s .code ⟨s.heap.set a (.cell ys), s.box, s.hands⟩
  /-- `get_value` (data_types.py 271-279) -/
  | get {s : State} (c a : Nat) : s.box c = some a →
      Step copy eq s (.got c (copy s.heap a).2) ⟨(copy s.heap a).1, s.box, (copy s.heap a).2 :: s.hands⟩
  /-- `set_value` with another value (data_types.py 250-269) -/
  | setNew {s : State} (c a : Nat) (v : V) : Held s a → Reads s.heap (.inl a) v →
      (∀ b w, s.box c = some b → Reads s.heap (.inl b) w → eq w v = false) →
      Step copy eq s (.set c v) ⟨(copy s.heap a).1, put s.box c (some (copy s.heap a).2), s.hands⟩
  /-- `set_value` with an equal value: `_value` stays -/
  | setSame {s : State} (c a b : Nat) (v w : V) : Held s a → Reads s.heap (.inl a) v → s.box c = some b → Reads s.heap (.inl b) w → eq w v = true →
      Step copy eq s (.set c v) s
  /-- `reset_value` (data_types.py 296-298) -/
  | reset {s : State} (c : Nat) : Step copy eq s (.reset c) ⟨s.heap, put s.box c none, s.hands⟩

/-- Executions and what has happened, latest first. -/
inductive Exec (copy : Heap → Nat → Heap × Nat) (eq : V → V → Bool) (s₀ : State) : List Ev → State → Prop
  | start : Exec copy eq s₀ [] s₀
  | step {h : List Ev} {s s' : State} {e : Ev} : Exec copy eq s₀ h s → Step copy eq s e s' → Exec copy eq s₀ (e :: h) s'

/-- In the beginning nobody has got hold of anything. The initial values (`_value = {}` and the like, data_types.py) may be shared by all containers
of a class. -/
def Initial (s : State) (v₀ : Nat → Option V) : Prop :=
  s.hands = [] ∧ ∀ c, (s.box c = none ∧ v₀ c = none) ∨ ∃ a v, s.box c = some a ∧ v₀ c = some v ∧ Reads s.heap (.inl a) v

/-! ### Specification -/

/-- What a container holds if data are values. -/
def content (eq : V → V → Bool) (v₀ : Option V) (c : Nat) : List Ev → Option V
  | [] => v₀
  | .set d v :: h =>
    if d = c then
      match content eq v₀ c h with
      | none => some v
      | some w => if eq w v then some w else some v
    else content eq v₀ c h
  | .reset d :: h => if d = c then none else content eq v₀ c h
  | _ :: h => content eq v₀ c h

/-! ### Lemmas -/

theorem Reach.trans {h : Heap} {a b c : Nat} (h1 : Reach h a b) (h2 : Reach h b c) : Reach h a c := by
  induction h2 with
  | here => exact h1
  | next _ hc ih => exact .next ih hc

theorem reach_closed {h : Heap} {P : Nat → Prop} (hP : ∀ x, P x → ∀ y ∈ refs h x, P y) {a b : Nat} (ha : P a) (hr : Reach h a b) : P b := by
  induction hr with
  | here => exact ha
  | next _ hc ih => exact hP _ ih _ hc

theorem refs_congr {h h' : Heap} {a : Nat} (he : h'[a]? = h[a]?) : refs h' a = refs h a := by unfold refs; rw [he]

theorem reach_agree {h h' : Heap} {a : Nat} (he : ∀ b, Reach h a b → h'[b]? = h[b]?) {b : Nat} (hr : Reach h' a b) : Reach h a b := by
  induction hr with
  | here => exact .here
  | next _ hc ih => exact .next ih (by rwa [refs_congr (he _ ih)] at hc)

/-- The value depends on what can be reached only. -/
theorem reads_agree {h h' : Heap} {x : Nat ⊕ List (Nat × Nat)} {v : V} (hv : Reads h x v) :
    (match x with
      | .inl a => ∀ b, Reach h a b → h'[b]? = h[b]?
      | .inr xs => ∀ a ∈ xs.map (·.2), ∀ b, Reach h a b → h'[b]? = h[b]?) → Reads h' x v := by
  induction hv with
  | atom ha => exact fun he => .atom ((he _ .here).trans ha)
  | cell ha _ ih =>
    refine fun he => .cell ((he _ .here).trans ha) (ih fun a hm b hb => he b (Reach.trans (.next .here ?_) hb))
    unfold refs
    rw [ha]
    exact hm
  | nil => exact fun _ => .nil
  | cons _ _ ih1 ih2 => exact fun he => .cons (ih1 (he _ (by simp))) (ih2 fun a ha => he a (by simp at ha ⊢; exact .inr ha))

/-- An object has at most one value. -/
theorem reads_unique {h : Heap} {x : Nat ⊕ List (Nat × Nat)} {v w : V} (hv : Reads h x v) (hw : Reads h x w) : v = w := by
  induction hv generalizing w with
  | atom ha =>
    cases hw with
    | atom hb => rw [ha] at hb; cases hb; rfl
    | cell hb _ => rw [ha] at hb; cases hb
  | cell ha _ ih =>
    cases hw with
    | atom hb => rw [ha] at hb; cases hb
    | cell hb hb' => rw [ha] at hb; cases hb; rw [ih hb']
  | nil => cases hw; rfl
  | cons _ _ ih1 ih2 =>
    cases hw with
    | cons hb hb' => rw [ih1 hb, ih2 hb']

/-- Readable objects lead to valid addresses only. -/
theorem reads_valid {h : Heap} {x : Nat ⊕ List (Nat × Nat)} {v : V} (hv : Reads h x v) :
    (match x with
      | .inl a => ∀ b, Reach h a b → b < h.length
      | .inr xs => ∀ a ∈ xs.map (·.2), ∀ b, Reach h a b → b < h.length) := by
  have split : ∀ {a b : Nat}, Reach h a b → b = a ∨ ∃ c ∈ refs h a, Reach h c b := by
    intro a b hr
    induction hr with
    | here => exact .inl rfl
    | next _ hc ih =>
      rcases ih with rfl | ⟨d, hd, hdb⟩
      · exact .inr ⟨_, hc, .here⟩
      · exact .inr ⟨d, hd, .next hdb hc⟩
  have lt : ∀ {a : Nat} {o : Obj}, h[a]? = some o → a < h.length := fun ha => (List.getElem?_eq_some_iff.1 ha).1
  induction hv with
  | atom ha =>
    intro b hb
    rcases split hb with rfl | ⟨c, hc, _⟩
    · exact lt ha
    · unfold refs at hc; rw [ha] at hc; cases hc
  | cell ha _ ih =>
    intro b hb
    rcases split hb with rfl | ⟨c, hc, hcb⟩
    · exact lt ha
    · unfold refs at hc; rw [ha] at hc; exact ih c hc b hcb
  | nil => intro a ha; cases ha
  | cons _ _ ih1 ih2 =>
    intro a ha b hb
    rcases List.mem_cons.1 ha with rfl | ha
    · exact ih1 b hb
    · exact ih2 a ha b hb

/-! ### The invariant -/

/-- No code can get at what is in a container. -/
structure Inv (s : State) : Prop where
  apart : ∀ c a, s.box c = some a → ∀ b, Reach s.heap a b → b < s.heap.length ∧ ¬ Held s b
  held : ∀ b, Held s b → b < s.heap.length

/-- The containers hold these values. -/
def Holds (s : State) (v : Nat → Option V) : Prop :=
  ∀ c, (s.box c = none ∧ v c = none) ∨ ∃ a w, s.box c = some a ∧ v c = some w ∧ Reads s.heap (.inl a) w

theorem held_ref {s : State} {x y : Nat} (hx : Held s x) (hy : y ∈ refs s.heap x) : Held s y := by
  obtain ⟨r, hr, hrx⟩ := hx
  exact ⟨r, hr, .next hrx hy⟩

/-- The memory grows. -/
theorem held_grow {s : State} (hi : Inv s) {h' : Heap} (hold : ∀ b, b < s.heap.length → h'[b]? = s.heap[b]?) {r b : Nat} (hr : r ∈ s.hands)
    (hb : Reach h' r b) : Held s b := by
  refine reach_closed (P := Held s) ?_ ⟨r, hr, .here⟩ hb
  intro x hx y hy
  rw [refs_congr (hold x (hi.held x hx))] at hy
  exact held_ref hx hy

theorem inv_initial {s : State} {v₀ : Nat → Option V} (h : Initial s v₀) : Inv s ∧ Holds s v₀ := by
  obtain ⟨h1, h2⟩ := h
  have hno : ∀ b, ¬ Held s b := by rintro b ⟨r, hr, _⟩; rw [h1] at hr; cases hr
  refine ⟨⟨fun c a hc b hb => ⟨?_, hno b⟩, fun b hb => absurd hb (hno b)⟩, h2⟩
  rcases h2 c with ⟨hn, _⟩ | ⟨a', v, ha, _, hr⟩
  · rw [hn] at hc; cases hc
  · rw [ha] at hc; cases hc
    exact reads_valid hr b hb

/-- Unchanged containers hold what they held. -/
theorem holds_agree {s : State} {v : Nat → Option V} (hv : Holds s v) {h' : Heap} {hands' : List Nat}
    (he : ∀ c a, s.box c = some a → ∀ b, Reach s.heap a b → h'[b]? = s.heap[b]?) : Holds ⟨h', s.box, hands'⟩ v := by
  intro c
  rcases hv c with h | ⟨a, w, h1, h2, h3⟩
  · exact .inl h
  · exact .inr ⟨a, w, h1, h2, reads_agree h3 (he c a h1)⟩

theorem step_inv {copy : Heap → Nat → Heap × Nat} {eq : V → V → Bool} (hc : Copies copy) {s s' : State} {e : Ev} {h : List Ev} {v₀ : Nat → Option V}
    (hs : Step copy eq s e s') (hi : Inv s) (hv : Holds s fun c => content eq (v₀ c) c h) :
    Inv s' ∧ Holds s' fun c => content eq (v₀ c) c (e :: h) := by
  have grow : ∀ (h' : Heap), (∀ b, b < s.heap.length → h'[b]? = s.heap[b]?) → ∀ c a, s.box c = some a → ∀ b, Reach s.heap a b → h'[b]? = s.heap[b]? :=
    fun h' ho c a hb b hr => ho b (hi.apart c a hb b hr).1
  cases hs with
  | create o ho =>
    have hold : ∀ b, b < s.heap.length → (s.heap ++ [o])[b]? = s.heap[b]? := fun b hb => List.getElem?_append_left hb
    have hheld : ∀ b, Held ⟨s.heap ++ [o], s.box, s.heap.length :: s.hands⟩ b → Held s b ∨ b = s.heap.length := by
      rintro b ⟨r, hr, hb⟩
      rcases List.mem_cons.1 hr with rfl | hr
      · refine reach_closed (P := fun b => Held s b ∨ b = s.heap.length) ?_ (.inr rfl) hb
        rintro x (hx | rfl) y hy
        · rw [refs_congr (hold x (hi.held x hx))] at hy
          exact .inl (held_ref hx hy)
        · have : refs (s.heap ++ [o]) s.heap.length = o.refs := by unfold refs; simp
          rw [this] at hy
          exact .inl (ho y hy)
      · exact .inl (held_grow hi hold hr hb)
    refine ⟨⟨fun c a hb b hr => ?_, fun b hb => ?_⟩, holds_agree hv (grow _ hold)⟩
    · have hr' := reach_agree (grow _ hold c a hb) hr
      obtain ⟨k1, k2⟩ := hi.apart c a hb b hr'
      refine ⟨(by simp; omega), fun hh => ?_⟩
      rcases hheld b hh with hh | rfl
      · exact k2 hh
      · exact absurd k1 (Nat.lt_irrefl _)
    · rcases hheld b hb with hh | rfl
      · have := hi.held b hh
        simp; omega
      · simp
  | change a xs ys ha hx hy =>
    have hagree : ∀ c d, s.box c = some d → ∀ b, Reach s.heap d b → (s.heap.set a (.cell ys))[b]? = s.heap[b]? := by
      intro c d hb b hr
      refine List.getElem?_set_ne ?_
      rintro rfl
      exact (hi.apart c d hb _ hr).2 ha
    have hheld : ∀ b, Held ⟨s.heap.set a (.cell ys), s.box, s.hands⟩ b → Held s b := by
      rintro b ⟨r, hr, hb⟩
      refine reach_closed (P := Held s) ?_ ⟨r, hr, .here⟩ hb
      intro x hx' y hy'
      by_cases hxa : a = x
      · subst hxa
        have : refs (s.heap.set a (.cell ys)) a = ys.map (·.2) := by
          unfold refs
          rw [List.getElem?_set_self (hi.held a ha)]
          rfl
        rw [this] at hy'
        exact hy y hy'
      · rw [refs_congr (List.getElem?_set_ne hxa)] at hy'
        exact held_ref hx' hy'
    refine ⟨⟨fun c d hb b hr => ?_, fun b hb => ?_⟩, holds_agree hv hagree⟩
    · have hr' := reach_agree (hagree c d hb) hr
      obtain ⟨k1, k2⟩ := hi.apart c d hb b hr'
      exact ⟨(by simpa using k1), fun hh => k2 (hheld b hh)⟩
    · simpa using hi.held b (hheld b hb)
  | get c a hb =>
    have hold := hc.old s.heap a
    have hval := hc.valid s.heap a fun b hr => (hi.apart c a hb b hr).1
    have hheld : ∀ b, Held ⟨(copy s.heap a).1, s.box, (copy s.heap a).2 :: s.hands⟩ b → Held s b ∨ s.heap.length ≤ b ∧ b < (copy s.heap a).1.length := by
      rintro b ⟨r, hr, hrb⟩
      rcases List.mem_cons.1 hr with rfl | hr
      · exact .inr ⟨hc.fresh _ _ b hrb, hval b hrb⟩
      · exact .inl (held_grow hi hold hr hrb)
    refine ⟨⟨fun d x hd b hr => ?_, fun b hb => ?_⟩, holds_agree hv (grow _ hold)⟩
    · have hr' := reach_agree (grow _ hold d x hd) hr
      obtain ⟨k1, k2⟩ := hi.apart d x hd b hr'
      refine ⟨Nat.lt_of_lt_of_le k1 (hc.grows _ _), fun hh => ?_⟩
      rcases hheld b hh with hh | hh
      · exact k2 hh
      · omega
    · rcases hheld b hb with hh | hh
      · exact Nat.lt_of_lt_of_le (hi.held b hh) (hc.grows _ _)
      · exact hh.2
  | setNew c a v ha hread hne =>
    have hold := hc.old s.heap a
    have hval := hc.valid s.heap a (reads_valid hread)
    have hheld : ∀ b, Held ⟨(copy s.heap a).1, put s.box c (some (copy s.heap a).2), s.hands⟩ b → Held s b := by
      rintro b ⟨r, hr, hrb⟩
      exact held_grow hi hold hr hrb
    refine ⟨⟨fun d x hd b hr => ?_, fun b hb => Nat.lt_of_lt_of_le (hi.held b (hheld b hb)) (hc.grows _ _)⟩, fun d => ?_⟩
    · simp only [put] at hd
      split at hd
      · cases hd
        refine ⟨hval b hr, fun hh => ?_⟩
        have h1 := hi.held b (hheld b hh)
        have h2 := hc.fresh _ _ b hr
        omega
      · have hr' := reach_agree (grow _ hold d x hd) hr
        obtain ⟨k1, k2⟩ := hi.apart d x hd b hr'
        exact ⟨Nat.lt_of_lt_of_le k1 (hc.grows _ _), fun hh => k2 (hheld b hh)⟩
    · by_cases hdc : d = c
      · subst hdc
        refine .inr ⟨(copy s.heap a).2, v, (by simp [put]), ?_, hc.same _ _ _ hread⟩
        simp only [content, if_pos]
        rcases hv d with ⟨_, h2⟩ | ⟨b, w, h1, h2, h3⟩
        · dsimp only at h2
          rw [h2]
        · dsimp only at h2
          rw [h2]
          dsimp only
          rw [hne b w h1 h3]
          rfl
      · have := holds_agree (hands' := s.hands) hv (grow _ hold) d
        simpa [put, content, hdc, Ne.symm hdc] using this
  | setSame c a b v w ha hread hb hw heq =>
    refine ⟨hi, fun d => ?_⟩
    by_cases hdc : d = c
    · subst hdc
      rcases hv d with ⟨h1, _⟩ | ⟨b', w', h1, h2, h3⟩
      · rw [h1] at hb; cases hb
      · rw [h1] at hb; cases hb
        have := reads_unique hw h3
        subst this
        refine .inr ⟨_, w, h1, ?_, h3⟩
        simp only [content, if_pos, h2, heq]
    · simpa [content, hdc, Ne.symm hdc] using hv d
  | reset c =>
    refine ⟨⟨fun d x hd b hr => ?_, hi.held⟩, fun d => ?_⟩
    · simp only [put] at hd
      split at hd
      · cases hd
      · exact hi.apart d x hd b hr
    · by_cases hdc : d = c
      · subst hdc
        exact .inl (by simp [put, content])
      · simpa [put, content, hdc, Ne.symm hdc] using hv d

theorem exec_inv {copy : Heap → Nat → Heap × Nat} {eq : V → V → Bool} (hc : Copies copy) {s₀ s : State} {v₀ : Nat → Option V} (h0 : Initial s₀ v₀)
    {h : List Ev} (he : Exec copy eq s₀ h s) : Inv s ∧ Holds s fun c => content eq (v₀ c) c h := by
  induction he with
  | start => exact inv_initial h0
  | step _ hs ih => exact step_inv hc hs ih.1 ih.2

/-! ### C131 -/

/-- C131: at any time every container holds the value that it was given last, whatever code does with the objects that it has handed in and the ones
that it has got. -/
theorem c131_contents {copy : Heap → Nat → Heap × Nat} (hc : Copies copy) (eq : V → V → Bool) {s₀ s : State} {v₀ : Nat → Option V} (h0 : Initial s₀ v₀)
    {h : List Ev} (he : Exec copy eq s₀ h s) (c : Nat) :
    match s.box c with
    | none => content eq (v₀ c) c h = none
    | some a => ∃ v, content eq (v₀ c) c h = some v ∧ Reads s.heap (.inl a) v := by
  rcases (exec_inv hc h0 he).2 c with ⟨h1, h2⟩ | ⟨a, v, h1, h2, h3⟩
  · rw [h1]; exact h2
  · rw [h1]; exact ⟨v, h2, h3⟩

/-- C131: `get_value` answers with this value. The object is new: nobody else has got hold of any part of it. -/
theorem c131_get {copy : Heap → Nat → Heap × Nat} (hc : Copies copy) (eq : V → V → Bool) {s₀ s s' : State} {v₀ : Nat → Option V} (h0 : Initial s₀ v₀)
    {h : List Ev} (he : Exec copy eq s₀ h s) (c a : Nat) (hs : Step copy eq s (.got c a) s') :
    (∃ v, content eq (v₀ c) c h = some v ∧ Reads s'.heap (.inl a) v) ∧
      ∀ b, Reach s'.heap a b → (∀ r ∈ s.hands, ¬ Reach s'.heap r b) ∧ ∀ d x, s'.box d = some x → ¬ Reach s'.heap x b := by
  obtain ⟨hi, hv⟩ := exec_inv hc h0 he
  obtain ⟨hi', _⟩ := step_inv (v₀ := v₀) hc hs hi hv
  cases hs with
  | get _ x hb =>
    refine ⟨?_, fun b hr => ⟨fun r hr' hrb => ?_, fun d y hd hyb => ?_⟩⟩
    · rcases hv c with ⟨h1, _⟩ | ⟨y, v, h1, h2, h3⟩
      · rw [h1] at hb; cases hb
      · rw [h1] at hb; cases hb
        exact ⟨v, h2, hc.same _ _ _ h3⟩
    · have h1 := hi.held b (held_grow hi (hc.old _ _) hr' hrb)
      have h2 := hc.fresh _ _ b hr
      omega
    · exact (hi'.apart d y hd b hyb).2 ⟨_, List.mem_cons_self, hr⟩

/-! ### A `deepcopy` -/

/-- Shift all references. -/
def Obj.shift (n : Nat) : Obj → Obj
  | .atom x => .atom x
  | .cell xs => .cell (xs.map fun p => (p.1, p.2 + n))

/-- A copy of everything, in which objects that are shared within a value stay shared (as `copy.deepcopy` does with its `memo`). -/
def copyAll (h : Heap) (a : Nat) : Heap × Nat := (h ++ h.map (Obj.shift h.length), a + h.length)

theorem copyAll_get (h : Heap) (a b : Nat) : (copyAll h a).1[b + h.length]? = (h[b]?).map (Obj.shift h.length) := by
  simp [copyAll, List.getElem?_append_right]

theorem copyAll_reach {h : Heap} {a b : Nat} (hr : Reach (copyAll h a).1 (copyAll h a).2 b) : ∃ c, b = c + h.length ∧ Reach h a c := by
  induction hr with
  | here => exact ⟨a, rfl, .here⟩
  | next _ hc ih =>
    obtain ⟨c, rfl, hr⟩ := ih
    unfold refs at hc
    rw [copyAll_get] at hc
    cases ho : h[c]? with
    | none => rw [ho] at hc; cases hc
    | some o =>
      rw [ho] at hc
      cases o with
      | atom n => cases hc
      | cell xs =>
        simp only [Option.map_some, Obj.shift, Obj.refs, List.map_map, List.mem_map, Function.comp] at hc
        obtain ⟨p, hp, rfl⟩ := hc
        refine ⟨p.2, rfl, .next hr ?_⟩
        unfold refs
        rw [ho]
        exact List.mem_map_of_mem hp

theorem copyAll_copies : Copies copyAll := by
  refine ⟨fun h a b hb => List.getElem?_append_left hb, fun h a => by simp [copyAll], fun h a b hr => ?_, fun h a hv b hr => ?_, fun h a v hv => ?_⟩
  · obtain ⟨c, rfl, _⟩ := copyAll_reach hr
    omega
  · obtain ⟨c, rfl, hc⟩ := copyAll_reach hr
    have := hv c hc
    simp [copyAll]
    omega
  · suffices hs : ∀ x v, Reads h x v →
        match x with
        | .inl b => Reads (copyAll h a).1 (.inl (b + h.length)) v
        | .inr xs => Reads (copyAll h a).1 (.inr (xs.map fun p => (p.1, p.2 + h.length))) v from hs _ _ hv
    intro x v hv
    induction hv with
    | atom ha => exact .atom (by rw [copyAll_get, ha]; rfl)
    | cell ha _ ih => exact .cell (by rw [copyAll_get, ha]; rfl) ih
    | nil => exact .nil
    | cons _ _ ih1 ih2 => exact .cons ih1 ih2

/-! ### A node that changes its input in place

`SetDictItem._do_tick` (setters.py 147-161): `d` is what `get_value_as("object", dict)` answers (a copy, data_types.py 281-296), and is changed in
place before it is put to the output. -/

/-- `dir[key] = val` -/
def setKey (k a : Nat) : List (Nat × Nat) → List (Nat × Nat)
  | [] => [(k, a)]
  | (k', b) :: xs => if k' = k then (k, a) :: xs else (k', b) :: setKey k a xs

/-- What it means for values. -/
def setItem (k : Nat) (u : V) : V → V
  | .cons k' v w => if k' = k then .cons k u w else .cons k' v (setItem k u w)
  | _ => .cons k u .nil

/-- The size of a value. -/
def V.size : V → Nat
  | .atom _ => 0
  | .box v => v.size + 1
  | .nil => 0
  | .cons _ v w => v.size + w.size + 1

/-- Parts of an object are smaller. -/
theorem reads_part {h : Heap} {x : Nat ⊕ List (Nat × Nat)} {v : V} (hv : Reads h x v) :
    match x with
    | .inl a => ∀ b, Reach h a b → ∃ w, Reads h (.inl b) w ∧ w.size ≤ v.size
    | .inr xs => ∀ a ∈ xs.map (·.2), ∀ b, Reach h a b → ∃ w, Reads h (.inl b) w ∧ w.size ≤ v.size := by
  have split : ∀ {a b : Nat}, Reach h a b → b = a ∨ ∃ c ∈ refs h a, Reach h c b := by
    intro a b hr
    induction hr with
    | here => exact .inl rfl
    | next _ hc ih =>
      rcases ih with rfl | ⟨d, hd, hdb⟩
      · exact .inr ⟨_, hc, .here⟩
      · exact .inr ⟨d, hd, .next hdb hc⟩
  induction hv with
  | atom ha =>
    intro b hb
    rcases split hb with rfl | ⟨c, hc, _⟩
    · exact ⟨_, .atom ha, Nat.le_refl _⟩
    · unfold refs at hc; rw [ha] at hc; cases hc
  | cell ha hr ih =>
    intro b hb
    rcases split hb with rfl | ⟨c, hc, hcb⟩
    · exact ⟨_, .cell ha hr, Nat.le_refl _⟩
    · unfold refs at hc
      rw [ha] at hc
      obtain ⟨w, h1, h2⟩ := ih c hc b hcb
      exact ⟨w, h1, Nat.le_succ_of_le h2⟩
  | nil => intro a ha; cases ha
  | cons _ _ ih1 ih2 =>
    intro a ha b hb
    rcases List.mem_cons.1 ha with rfl | ha
    · obtain ⟨w, h1, h2⟩ := ih1 b hb
      exact ⟨w, h1, (by simp only [V.size]; omega)⟩
    · obtain ⟨w, h1, h2⟩ := ih2 a ha b hb
      exact ⟨w, h1, (by simp only [V.size]; omega)⟩

/-- An item of an object does not contain the object. -/
theorem no_cycle {h : Heap} {a : Nat} {xs : List (Nat × Nat)} {w : V} (ha : h[a]? = some (.cell xs)) (hw : Reads h (.inr xs) w) :
    ∀ b ∈ xs.map (·.2), ¬ Reach h b a := by
  intro b hb hr
  obtain ⟨u, h1, h2⟩ := reads_part hw b hb a hr
  have := reads_unique h1 (.cell ha hw)
  subst this
  simp only [V.size] at h2
  omega

theorem reads_setKey {h : Heap} {k a : Nat} {u : V} (ha : Reads h (.inl a) u) {xs : List (Nat × Nat)} :
    ∀ {w : V}, Reads h (.inr xs) w → Reads h (.inr (setKey k a xs)) (setItem k u w) := by
  induction xs with
  | nil => intro w hw; cases hw; exact .cons ha .nil
  | cons p xs ih =>
    intro w hw
    cases hw with
    | cons h1 h2 =>
      simp only [setKey, setItem]
      split
      · exact .cons ha h2
      · exact .cons h1 (ih h2)

/-- C131: a hook that gets a dictionary and another value from two containers, sets an item of the dictionary in place and puts it to a third
container, computes the new dictionary from the contents of the first two and leaves all other containers alone. -/
theorem c131_set_item {copy : Heap → Nat → Heap × Nat} (hc : Copies copy) (eq : V → V → Bool) {s₀ s s₁ s₂ s₃ s₄ : State} {v₀ : Nat → Option V}
    (h0 : Initial s₀ v₀) {h : List Ev} (he : Exec copy eq s₀ h s) (i j o k d x : Nat) (w u v : V) (xs : List (Nat × Nat))
    (hw : content eq (v₀ i) i h = some (.box w)) (hu : content eq (v₀ j) j h = some u)
    (h1 : Step copy eq s (.got i d) s₁) (h2 : Step copy eq s₁ (.got j x) s₂) (hd : s₂.heap[d]? = some (.cell xs))
    (h3 : s₃ = ⟨s₂.heap.set d (.cell (setKey k x xs)), s₂.box, s₂.hands⟩) (hv : Reads s₃.heap (.inl d) v) (h4 : Step copy eq s₃ (.set o v) s₄) :
    v = .box (setItem k u w) ∧ Exec copy eq s₀ (.set o v :: .code :: .got j x :: .got i d :: h) s₄ ∧
      ∀ c, c ≠ o → content eq (v₀ c) c (.set o v :: .code :: .got j x :: .got i d :: h) = content eq (v₀ c) c h := by
  have e1 := Exec.step he h1
  have e2 := Exec.step e1 h2
  obtain ⟨⟨w1, hw1, r1⟩, _⟩ := c131_get hc eq h0 he i d h1
  obtain ⟨⟨u1, hu1, r2⟩, sep⟩ := c131_get hc eq h0 e1 j x h2
  have hw1' : w1 = .box w := by rw [hw] at hw1; exact (Option.some.inj hw1).symm
  have hu1' : u1 = u := by
    have : content eq (v₀ j) j h = some u1 := hu1
    rw [hu] at this; exact (Option.some.inj this).symm
  subst hw1' hu1'
  have hand1 : d ∈ s₁.hands := by cases h1; exact List.mem_cons_self
  have hand2 : d ∈ s₂.hands ∧ x ∈ s₂.hands := by cases h2; exact ⟨List.mem_cons_of_mem _ hand1, List.mem_cons_self⟩
  -- the dictionary is still the same after the second `get_value`
  have r1' : Reads s₂.heap (.inl d) (.box w) := by
    refine reads_agree r1 fun b hb => ?_
    have hlt := (exec_inv hc h0 e1).1.held b ⟨d, hand1, hb⟩
    cases h2
    exact hc.old _ _ b hlt
  cases r1' with
  | cell ha hr =>
    rw [hd] at ha
    cases ha
    -- the copy of the other value does not contain the dictionary
    have hxd : ¬ Reach s₂.heap x d := fun hr => (sep d hr).1 d hand1 .here
    have hread : Reads s₃.heap (.inl d) (.box (setItem k u1 w)) := by
      have hlt := (exec_inv hc h0 e2).1.held d ⟨d, hand2.1, .here⟩
      subst h3
      refine .cell (List.getElem?_set_self hlt) ?_
      refine reads_setKey (reads_agree r2 fun b hb => List.getElem?_set_ne (fun hdb : d = b => hxd (hdb ▸ hb))) (reads_agree hr fun a ha b hb => ?_)
      exact List.getElem?_set_ne (fun hdb : d = b => no_cycle hd hr a ha (hdb ▸ hb))
    refine ⟨reads_unique hv hread, .step (.step e2 ?_) h4, fun c hco => ?_⟩
    · subst h3
      refine .change d xs _ ⟨d, hand2.1, .here⟩ hd fun b hb => ?_
      have hk : ∀ xs : List (Nat × Nat), b ∈ (setKey k x xs).map (·.2) → b = x ∨ b ∈ xs.map (·.2) := by
        intro xs
        induction xs with
        | nil => intro hb; exact .inl (by simpa [setKey] using hb)
        | cons p xs ih =>
          intro hb
          simp only [setKey] at hb
          split at hb
          · rcases List.mem_cons.1 hb with rfl | hb
            · exact .inl rfl
            · exact .inr (List.mem_cons_of_mem _ hb)
          · rcases List.mem_cons.1 hb with rfl | hb
            · exact .inr List.mem_cons_self
            · exact (ih hb).imp id (List.mem_cons_of_mem _)
      rcases hk xs hb with rfl | hb
      · exact ⟨b, hand2.2, .here⟩
      · refine ⟨d, hand2.1, .next .here ?_⟩
        unfold refs
        rw [hd]
        exact hb
    · simp [content, Ne.symm hco]

/-! ### Examples -/

/-- `{1: 5}` is in container 0, `6` in container 1. -/
def begun : State := ⟨[.atom 5, .cell [(1, 0)], .atom 6], fun c => if c = 0 then some 1 else if c = 1 then some 2 else none, []⟩

/-- The values. -/
def beginning (c : Nat) : Option V := if c = 0 then some (.box (.cons 1 (.atom 5) .nil)) else if c = 1 then some (.atom 6) else none

example : Initial begun beginning := by
  refine ⟨rfl, fun c => ?_⟩
  by_cases h0 : c = 0
  · subst h0; exact .inr ⟨1, _, rfl, rfl, .cell rfl (.cons (.atom rfl) .nil)⟩
  by_cases h1 : c = 1
  · subst h1; exact .inr ⟨2, _, rfl, rfl, .atom rfl⟩
  · exact .inl (by simp [begun, beginning, h0, h1])

/-- After the two `get_value`s of SetDictItem. -/
def taken : State :=
  let x := copyAll begun.heap 1
  let y := copyAll x.1 2
  ⟨y.1, begun.box, [y.2, x.2]⟩

/-- The item is set, and the dictionary is put to container 2. -/
def changed : State := ⟨taken.heap.set 4 (.cell (setKey 1 8 [(1, 3)])), taken.box, taken.hands⟩

example : Step copyAll (fun a b => decide (a = b)) begun (.got 0 4) ⟨(copyAll begun.heap 1).1, begun.box, [4]⟩ ∧
    Step copyAll (fun a b => decide (a = b)) ⟨(copyAll begun.heap 1).1, begun.box, [4]⟩ (.got 1 8) taken ∧ taken.heap[4]? = some (.cell [(1, 3)]) ∧
    Reads changed.heap (.inl 4) (.box (.cons 1 (.atom 6) .nil)) ∧
    Step copyAll (fun a b => decide (a = b)) changed (.set 2 (.box (.cons 1 (.atom 6) .nil)))
      ⟨(copyAll changed.heap 4).1, put changed.box 2 (some (copyAll changed.heap 4).2), changed.hands⟩ := by
  have hr : Reads changed.heap (.inl 4) (.box (.cons 1 (.atom 6) .nil)) := .cell rfl (.cons (.atom rfl) .nil)
  exact ⟨.get 0 1 rfl, .get 1 2 rfl, rfl, hr, .setNew 2 4 _ ⟨4, by decide, .here⟩ hr fun b w hb _ => by cases hb⟩

/-- The copies are needed: if containers handed out their objects, SetDictItem would change the data of the node that it got them from. -/
theorem c131_without_copies : ∃ s h, Exec (fun h a => (h, a)) (fun a b => decide (a = b)) begun h s ∧
    content (fun a b => decide (a = b)) (beginning 0) 0 h = some (.box (.cons 1 (.atom 5) .nil)) ∧
    s.box 0 = some 1 ∧ Reads s.heap (.inl 1) (.box (.cons 1 (.atom 6) .nil)) :=
  ⟨_, _, .step (.step (.step .start (.get 0 1 rfl)) (.get 1 2 rfl)) (.change 1 [(1, 0)] [(1, 2)] ⟨1, by simp [begun], .here⟩ rfl
    (fun b hb => by simp at hb; subst hb; exact ⟨2, by simp, .here⟩)), rfl, rfl, .cell rfl (.cons (.atom rfl) .nil)⟩

end Verif.Data.Shared
