import Verif.Edit.Limits

/-! C38: the cycle search of the editor terminates, with the exact result, unless some node hangs
below a cycle without being on it; then it does not terminate. -/

set_option autoImplicit false

namespace Verif.Edit

/-! ### Specification -/

/-- `j` is the id of the parent of the node with id `i`, both in the tree. -/
def Up (s : St) (i j : Id) : Prop :=
  ∃ r p r', (i, r) ∈ s.nodes ∧ (s.heap r).parent = some p ∧ (s.heap p).nid = j ∧ (j, r') ∈ s.nodes

/-- `UpPlus s i j`: `j` is reached from `i` in one or more steps. -/
inductive UpPlus (s : St) : Id → Id → Prop
  | one {i j : Id} : Up s i j → UpPlus s i j
  | more {i j k : Id} : Up s i j → UpPlus s j k → UpPlus s i k

/-- The node with id `i` lies on a parent cycle. -/
def OnCycle (s : St) (i : Id) : Prop := UpPlus s i i

/-- Following parents from `i` comes to an end. -/
inductive Ends (s : St) : Id → Prop
  | stop {i : Id} : (∀ j, ¬ Up s i j) → Ends s i
  | step {i j : Id} : Up s i j → Ends s j → Ends s i

/-! ### Iterating a partial function -/

/-- `k` steps of `f`. -/
def iter (f : Id → Option Id) : Nat → Id → Option Id
  | 0, i => some i
  | k + 1, i => (f i).bind (iter f k)

theorem iter_add (f : Id → Option Id) (a b : Nat) (i : Id) : iter f (a + b) i = (iter f a i).bind (iter f b) := by
  induction a generalizing i with
  | zero => simp [iter]
  | succ a ih =>
    rw [Nat.succ_add]
    show (f i).bind (iter f (a + b)) = ((f i).bind (iter f a)).bind (iter f b)
    cases f i with
    | none => rfl
    | some j => exact ih j

theorem nodup_length_le {l m : List Nat} (hl : l.Nodup) (h : ∀ x ∈ l, x ∈ m) : l.length ≤ m.length := by
  induction l generalizing m with
  | nil => exact Nat.zero_le _
  | cons a l ih =>
    rw [List.nodup_cons] at hl
    have ha := h a (by simp)
    have := ih (m := m.erase a) hl.2 (fun x hx => by
      rw [List.mem_erase_of_ne]
      · exact h x (by simp [hx])
      · rintro rfl; exact hl.1 hx)
    rw [List.length_erase_of_mem ha] at this
    have : 0 < m.length := List.length_pos_of_mem ha
    simp only [List.length_cons]; omega

/-- If the first `k` iterates are different elements of `m`, then `k ≤ m.length`. -/
theorem iter_bound (f : Id → Option Id) (m : List Id) (i : Id) (k : Nat)
    (hs : ∀ a, a < k → ∃ x ∈ m, iter f a i = some x)
    (hd : ∀ a b, a < b → b < k → iter f a i ≠ iter f b i) : k ≤ m.length := by
  have hlen : ((List.range k).map fun a => (iter f a i).getD 0).length = k := by simp
  rw [← hlen]
  refine nodup_length_le ?_ ?_
  · unfold List.Nodup
    rw [List.pairwise_map]
    refine List.Pairwise.imp_of_mem ?_ (List.pairwise_lt_range (n := k))
    intro a b ha hb hab he
    obtain ⟨x, _, hx⟩ := hs a (List.mem_range.1 ha)
    obtain ⟨y, _, hy⟩ := hs b (List.mem_range.1 hb)
    rw [hx, hy] at he
    exact hd a b hab (List.mem_range.1 hb) (by rw [hx, hy]; exact congrArg some he)
  · intro x hx
    obtain ⟨a, ha, rfl⟩ := List.mem_map.1 hx
    obtain ⟨y, hy, h2⟩ := hs a (List.mem_range.1 ha)
    rw [h2]; exact hy

theorem least {p : Nat → Prop} [DecidablePred p] : ∀ n, p n → ∃ k, k ≤ n ∧ p k ∧ ∀ a, a < k → ¬ p a := by
  intro n
  induction n using Nat.strongRecOn with
  | ind n ih =>
    intro hn
    by_cases h : ∃ a, a < n ∧ p a
    · obtain ⟨a, ha, hp⟩ := h
      obtain ⟨k, hk, h2⟩ := ih a ha hp
      exact ⟨k, Nat.le_trans hk (Nat.le_of_lt ha), h2⟩
    · exact ⟨n, Nat.le_refl _, hn, fun a ha hp => h ⟨a, ha, hp⟩⟩

/-- A chain that ends does so within `m.length` steps. -/
theorem iter_ends_bound (f : Id → Option Id) (m : List Id) (i : Id) (hi : i ∈ m) (hf : ∀ x y, f x = some y → y ∈ m)
    (n : Nat) (h : iter f n i = none) : iter f m.length i = none := by
  obtain ⟨k, _, hk, hmin⟩ := least (p := fun k => iter f k i = none) n h
  have hk0 : k ≠ 0 := by rintro rfl; cases hk
  have hmem : ∀ a x, iter f a i = some x → x ∈ m := by
    intro a
    cases a with
    | zero => intro x hx; cases hx; exact hi
    | succ a =>
      intro x hx
      rw [iter_add f a 1] at hx
      cases hy : iter f a i with
      | none => rw [hy] at hx; cases hx
      | some y =>
        rw [hy] at hx
        simp only [iter, Option.bind_some] at hx
        cases hz : f y with
        | none => rw [hz] at hx; cases hx
        | some z =>
          rw [hz] at hx
          simp only [Option.bind_some, Option.some.injEq] at hx
          subst hx
          exact hf y z hz
  have hb : k ≤ m.length := by
    refine iter_bound f m i k ?_ ?_
    · intro a ha
      cases hx : iter f a i with
      | none => exact absurd hx (hmin a ha)
      | some x => exact ⟨x, hmem a x hx, rfl⟩
    · intro a b hab hb he
      have h1 : iter f (b + (k - b)) i = none := by rw [show b + (k - b) = k by omega]; exact hk
      rw [iter_add, ← he, ← iter_add] at h1
      exact hmin _ (by omega) h1
  have : m.length = k + (m.length - k) := by omega
  rw [this, iter_add, hk]; rfl

/-- A cycle closes within `m.length` steps. -/
theorem iter_cycle_bound (f : Id → Option Id) (m : List Id) (i : Id) (hi : i ∈ m) (hf : ∀ x y, f x = some y → y ∈ m)
    (n : Nat) (h : iter f (n + 1) i = some i) :
    ∃ k, k < m.length ∧ iter f (k + 1) i = some i ∧ ∀ a, a < k → iter f (a + 1) i ≠ some i := by
  obtain ⟨k, _, hk, hmin⟩ := least (p := fun k => iter f (k + 1) i = some i) n h
  refine ⟨k, ?_, hk, hmin⟩
  have hsome : ∀ a, a ≤ k + 1 → ∃ x, iter f a i = some x := by
    intro a ha
    cases hx : iter f a i with
    | some x => exact ⟨x, rfl⟩
    | none =>
      have : iter f (a + (k + 1 - a)) i = none := by rw [iter_add, hx]; rfl
      rw [show a + (k + 1 - a) = k + 1 by omega, hk] at this
      cases this
  have hmem : ∀ a x, iter f a i = some x → x ∈ m := by
    intro a
    cases a with
    | zero => intro x hx; cases hx; exact hi
    | succ a =>
      intro x hx
      rw [iter_add f a 1] at hx
      cases hy : iter f a i with
      | none => rw [hy] at hx; cases hx
      | some y =>
        rw [hy] at hx
        simp only [iter, Option.bind_some] at hx
        cases hz : f y with
        | none => rw [hz] at hx; cases hx
        | some z =>
          rw [hz] at hx
          simp only [Option.bind_some, Option.some.injEq] at hx
          subst hx
          exact hf y z hz
  refine iter_bound f m i (k + 1) ?_ ?_
  · intro a ha
    obtain ⟨x, hx⟩ := hsome a (by omega)
    exact ⟨x, hmem a x hx, hx⟩
  · intro a b hab hb he
    have h1 : iter f (b + (k + 1 - b)) i = some i := by rw [show b + (k + 1 - b) = k + 1 by omega]; exact hk
    rw [iter_add, ← he, ← iter_add] at h1
    have h2 := hmin (a + (k + 1 - b) - 1) (by omega)
    rw [show a + (k + 1 - b) - 1 + 1 = a + (k + 1 - b) by omega] at h2
    exact h2 h1

/-! ### The parent function -/

/-- Id of the parent, if both are in the tree. -/
def nextId (s : St) (i : Id) : Option Id :=
  match dictGet s.nodes i with
  | none => none
  | some r =>
    match (s.heap r).parent with
    | none => none
    | some p => if (dictGet s.nodes (s.heap p).nid).isSome then some (s.heap p).nid else none

theorem up_iff {s : St} (d : Dict s) (i j : Id) : Up s i j ↔ nextId s i = some j := by
  constructor
  · rintro ⟨r, p, r', h1, h2, h3, h4⟩
    unfold nextId
    rw [mem_dictGet d.keys h1]
    simp only [h2, h3]
    rw [mem_dictGet d.keys h4]; rfl
  · intro h
    unfold nextId at h
    split at h
    · cases h
    · rename_i r hr
      split at h
      · cases h
      · rename_i p hp
        split at h
        · rename_i hg
          obtain ⟨r', hr'⟩ := dictGet_isSome.1 hg
          simp only [Option.some.injEq] at h
          subst h
          exact ⟨r, p, r', dictGet_mem hr, hp, rfl, hr'⟩
        · cases h

theorem upPlus_iff {s : St} (d : Dict s) (i j : Id) : UpPlus s i j ↔ ∃ n, iter (nextId s) (n + 1) i = some j := by
  constructor
  · intro h
    induction h with
    | one h => exact ⟨0, by simp [iter, (up_iff d _ _).1 h]⟩
    | more h _ ih =>
      obtain ⟨n, hn⟩ := ih
      refine ⟨n + 1, ?_⟩
      show (nextId s _).bind _ = _
      rw [(up_iff d _ _).1 h]; exact hn
  · rintro ⟨n, hn⟩
    induction n generalizing i with
    | zero =>
      have : nextId s i = some j := by
        cases h : nextId s i with
        | none => simp [iter, h] at hn
        | some k => simp only [iter, h, Option.bind_some, Option.some.injEq] at hn; rw [hn]
      exact .one ((up_iff d _ _).2 this)
    | succ n ih =>
      cases h : nextId s i with
      | none => rw [show iter (nextId s) (n + 1 + 1) i = (nextId s i).bind (iter (nextId s) (n + 1)) from rfl, h] at hn; cases hn
      | some k =>
        rw [show iter (nextId s) (n + 1 + 1) i = (nextId s i).bind (iter (nextId s) (n + 1)) from rfl, h] at hn
        exact .more ((up_iff d _ _).2 h) (ih k hn)

theorem ends_iff {s : St} (d : Dict s) (i : Id) : Ends s i ↔ ∃ n, iter (nextId s) n i = none := by
  constructor
  · intro h
    induction h with
    | @stop i h =>
      refine ⟨1, ?_⟩
      cases hn : nextId s i with
      | none => simp [iter, hn]
      | some j => exact absurd ((up_iff d _ _).2 hn) (h j)
    | @step i j h _ ih =>
      obtain ⟨n, hn⟩ := ih
      refine ⟨n + 1, ?_⟩
      show (nextId s i).bind _ = _
      rw [(up_iff d _ _).1 h]; exact hn
  · rintro ⟨n, hn⟩
    induction n generalizing i with
    | zero => cases hn
    | succ n ih =>
      cases h : nextId s i with
      | none => exact .stop fun j hj => by rw [(up_iff d _ _).1 hj] at h; cases h
      | some k =>
        rw [show iter (nextId s) (n + 1) i = (nextId s i).bind (iter (nextId s) n) from rfl, h] at hn
        exact .step ((up_iff d _ _).2 h) (ih k hn)

theorem Ends.next {s : St} (d : Dict s) {i j : Id} (h : Ends s i) (hn : nextId s i = some j) : Ends s j := by
  cases h with
  | stop h => exact absurd ((up_iff d _ _).2 hn) (h j)
  | step h h2 =>
    rw [(up_iff d _ _).1 h] at hn
    cases hn; exact h2

theorem OnCycle.not_ends {s : St} (d : Dict s) {i : Id} (h : OnCycle s i) : ¬ Ends s i := by
  intro he
  obtain ⟨n, hn⟩ := (upPlus_iff d i i).1 h
  have hall : ∀ q, iter (nextId s) (q * (n + 1)) i = some i := by
    intro q
    induction q with
    | zero => simp [iter]
    | succ q ih => rw [Nat.succ_mul, iter_add, ih]; exact hn
  obtain ⟨m, hm⟩ := (ends_iff d i).1 he
  have := hall m
  have h2 : m * (n + 1) = m + m * n := by rw [Nat.mul_add]; omega
  rw [h2, iter_add, hm] at this
  cases this

theorem UpPlus.trans {s : St} {i j k : Id} (h : UpPlus s i j) (h2 : UpPlus s j k) : UpPlus s i k := by
  induction h with
  | one h => exact .more h h2
  | more h _ ih => exact .more h (ih h2)

/-- One round of the inner loop. -/
theorem chase_step {s : St} (d : Dict s) {start c : Id} {safe : List Id} {fuel : Nat} {r : Ref} {cand : List Id} (hr : (c, r) ∈ s.nodes) :
    (nextId s c = none → chase s start safe (fuel + 1) r cand = some (true, cand)) ∧
    (∀ e, nextId s c = some e → ∃ r', (e, r') ∈ s.nodes ∧ chase s start safe (fuel + 1) r cand =
      if e = start then some (false, cand ++ [e]) else if e ∈ safe then some (true, cand ++ [e])
      else chase s start safe fuel r' (cand ++ [e])) ∧
    (∀ e, nextId s c = some e → chase s start safe 0 r cand = none) := by
  unfold nextId
  rw [mem_dictGet d.keys hr]
  simp only
  refine ⟨?_, ?_, ?_⟩
  · intro h
    unfold chase
    split at h
    · rename_i hp; simp only [hp]
    · rename_i p hp
      simp only [hp]
      split at h
      · cases h
      · rename_i hg
        rw [Option.not_isSome_iff_eq_none] at hg
        simp only [hg]
  · intro e h
    split at h
    · cases h
    · rename_i p hp
      split at h
      · rename_i hg
        obtain ⟨r', hr'⟩ := Option.isSome_iff_exists.1 hg
        simp only [Option.some.injEq] at h
        subst h
        have hm := dictGet_mem hr'
        refine ⟨r', hm, ?_⟩
        rw [chase]
        simp only [hp, hr', d.key _ _ hm]
      · cases h
  · intro e h
    split at h
    · cases h
    · rename_i p hp
      unfold chase
      simp only [hp]

/-- The inner loop on a cycle. -/
theorem chase_cycle {s : St} (d : Dict s) {start : Id} {safe : List Id} (hsafe : ∀ x ∈ safe, Ends s x) (n : Nat) :
    ∀ {c : Id} {r : Ref} {cand : List Id} (fuel : Nat), (c, r) ∈ s.nodes → iter (nextId s) (n + 1) c = some start →
      (∀ a, a < n → iter (nextId s) (a + 1) c ≠ some start) → n < fuel → (∀ x ∈ cand, OnCycle s x) → OnCycle s c → OnCycle s start →
      ∃ cand', chase s start safe fuel r cand = some (false, cand') ∧ (∀ x ∈ cand', OnCycle s x) ∧ start ∈ cand' := by
  have hnx : ∀ c e, OnCycle s c → nextId s c = some e → OnCycle s e := by
    intro c e hc hn
    have hup := (up_iff d _ _).2 hn
    cases hc with
    | one h =>
      have := (up_iff d _ _).1 h
      rw [hn] at this; cases this; exact .one hup
    | more h h2 =>
      have := (up_iff d _ _).1 h
      rw [hn] at this; cases this; exact h2.trans (.one hup)
  induction n with
  | zero =>
    intro c r cand fuel hr h _ hf hcand _ hst
    obtain ⟨fuel, rfl⟩ : ∃ f, fuel = f + 1 := ⟨fuel - 1, by omega⟩
    obtain ⟨_, h2, _⟩ := chase_step d (start := start) (safe := safe) (fuel := fuel) (cand := cand) hr
    cases hn : nextId s c with
    | none => simp [iter, hn] at h
    | some e =>
      simp only [iter, hn, Option.bind_some, Option.some.injEq] at h
      subst h
      obtain ⟨r', hr', he⟩ := h2 e hn
      rw [he, if_pos rfl]
      refine ⟨_, rfl, ?_, by simp⟩
      intro x hx
      rcases List.mem_append.1 hx with hx | hx
      · exact hcand x hx
      · rw [List.mem_singleton.1 hx]; exact hst
  | succ n ih =>
    intro c r cand fuel hr h hmin hf hcand hc hst
    obtain ⟨fuel, rfl⟩ : ∃ f, fuel = f + 1 := ⟨fuel - 1, by omega⟩
    obtain ⟨_, h2, _⟩ := chase_step d (start := start) (safe := safe) (fuel := fuel) (cand := cand) hr
    cases hn : nextId s c with
    | none =>
      rw [show iter (nextId s) (n + 1 + 1) c = (nextId s c).bind (iter (nextId s) (n + 1)) from rfl, hn] at h
      cases h
    | some e =>
      obtain ⟨r', hr', he⟩ := h2 e hn
      have hit : ∀ k, iter (nextId s) (k + 1) c = iter (nextId s) k e := by
        intro k
        rw [show iter (nextId s) (k + 1) c = (nextId s c).bind (iter (nextId s) k) from rfl, hn]; rfl
      have hne : e ≠ start := by
        rintro rfl
        exact hmin 0 (by omega) (by rw [hit]; rfl)
      have hEe : OnCycle s e := hnx c e hc hn
      have hns : e ∉ safe := fun hm => hEe.not_ends d (hsafe e hm)
      rw [he, if_neg hne, if_neg hns]
      refine ih fuel hr' (by rw [← hit]; exact h) (fun a ha => by rw [← hit]; exact hmin (a + 1) (by omega)) (by omega) ?_ hEe hst
      intro x hx
      rcases List.mem_append.1 hx with hx | hx
      · exact hcand x hx
      · rw [List.mem_singleton.1 hx]; exact hEe

/-- The inner loop on a chain that runs into a cycle that does not contain the start. -/
theorem chase_hangs {s : St} (d : Dict s) {start : Id} {safe : List Id} (hsafe : ∀ x ∈ safe, Ends s x) (hcyc : ¬ OnCycle s start) (fuel : Nat) :
    ∀ {c : Id} {r : Ref} {cand : List Id}, (c, r) ∈ s.nodes → ¬ Ends s c → (c = start ∨ UpPlus s start c) →
      chase s start safe fuel r cand = none := by
  induction fuel with
  | zero =>
    intro c r cand hr hc _
    obtain ⟨_, _, h3⟩ := chase_step d (start := start) (safe := safe) (fuel := 0) (cand := cand) hr
    cases hn : nextId s c with
    | none => exact absurd ((ends_iff d c).2 ⟨1, by simp [iter, hn]⟩) hc
    | some e => exact h3 e hn
  | succ fuel ih =>
    intro c r cand hr hc hs
    obtain ⟨_, h2, _⟩ := chase_step d (start := start) (safe := safe) (fuel := fuel) (cand := cand) hr
    cases hn : nextId s c with
    | none => exact absurd ((ends_iff d c).2 ⟨1, by simp [iter, hn]⟩) hc
    | some e =>
      obtain ⟨r', hr', he⟩ := h2 e hn
      have hup := (up_iff d _ _).2 hn
      have hse : UpPlus s start e := by
        rcases hs with rfl | hs
        · exact .one hup
        · exact hs.trans (.one hup)
      have hEe : ¬ Ends s e := fun h => hc (.step hup h)
      have hne : e ≠ start := by rintro rfl; exact hcyc hse
      rw [he, if_neg hne, if_neg (fun hm => hEe (hsafe e hm))]
      exact ih hr' hEe (Or.inr hse)

theorem nextId_mem {s : St} {x y : Id} (h : nextId s x = some y) : y ∈ s.nodes.map (·.1) := by
  unfold nextId at h
  split at h
  · cases h
  · split at h
    · cases h
    · split at h
      · rename_i hg
        simp only [Option.some.injEq] at h
        subst h
        obtain ⟨r, hr⟩ := dictGet_isSome.1 hg
        exact List.mem_map.2 ⟨_, hr, rfl⟩
      · cases h

/-- The outer loop when every chain ends or is a cycle. -/
theorem loop_exact {s : St} (d : Dict s) (fuel : Nat) (hf : s.nodes.length ≤ fuel)
    (h : ∀ i, (∃ r, (i, r) ∈ s.nodes) → Ends s i ∨ OnCycle s i) (l : List (Id × Ref)) :
    ∀ (safe cyc : List Id), (∀ x ∈ l, x ∈ s.nodes) → (∀ x ∈ safe, Ends s x) → (∀ x ∈ cyc, OnCycle s x) →
      ∃ res, findCyclesLoop s fuel l safe cyc = some res ∧ (∀ x ∈ res, OnCycle s x) ∧ (∀ x ∈ cyc, x ∈ res) ∧
        ∀ x ∈ l, OnCycle s x.1 → x.1 ∈ res := by
  induction l with
  | nil =>
    intro safe cyc _ _ h3
    exact ⟨cyc, rfl, h3, fun _ h => h, fun _ h => by cases h⟩
  | cons x l ih =>
    obtain ⟨i, r⟩ := x
    intro safe cyc h1 h2 h3
    have hr := h1 (i, r) (by simp)
    have hi : i ∈ s.nodes.map (·.1) := List.mem_map.2 ⟨_, hr, rfl⟩
    have hnf : ∀ x y, nextId s x = some y → y ∈ s.nodes.map (·.1) := fun x y => nextId_mem
    unfold findCyclesLoop
    rcases h i ⟨r, hr⟩ with he | hc
    · have hnot : ¬ OnCycle s i := fun hc => hc.not_ends d he
      obtain ⟨n, hn⟩ := (ends_iff d i).1 he
      have hb := iter_ends_bound (nextId s) _ i hi hnf n hn
      rw [List.length_map] at hb
      have hst : ∀ j, UpPlus s i j → ¬ Up s j i := fun j hj hu => hnot (hj.trans (.one hu))
      -- the chain never returns to `i`
      have : ∃ cand', chase s i safe fuel r [i] = some (true, cand') ∧ ∀ x ∈ cand', Ends s x := by
        have gen : ∀ (n : Nat) {c : Id} {r : Ref} {cand : List Id} (fuel : Nat), (c, r) ∈ s.nodes → iter (nextId s) n c = none →
            n ≤ fuel → (c = i ∨ UpPlus s i c) → (∀ x ∈ cand, Ends s x) →
            ∃ cand', chase s i safe fuel r cand = some (true, cand') ∧ (∀ x ∈ cand', Ends s x) := by
          intro n
          induction n with
          | zero => intro c r cand fuel hr h; cases h
          | succ n ihn =>
            intro c r cand fuel hr h hf hic hcand
            obtain ⟨fuel, rfl⟩ : ∃ f, fuel = f + 1 := ⟨fuel - 1, by omega⟩
            obtain ⟨h1, h2, _⟩ := chase_step d (start := i) (safe := safe) (fuel := fuel) (cand := cand) hr
            cases hn : nextId s c with
            | none => exact ⟨cand, h1 hn, hcand⟩
            | some e =>
              obtain ⟨r', hr', he⟩ := h2 e hn
              rw [show iter (nextId s) (n + 1) c = (nextId s c).bind (iter (nextId s) n) from rfl, hn] at h
              have hEe : Ends s e := (ends_iff d e).2 ⟨n, h⟩
              have hup := (up_iff d _ _).2 hn
              have hie : UpPlus s i e := by
                rcases hic with rfl | hic
                · exact .one hup
                · exact hic.trans (.one hup)
              have hne : e ≠ i := by rintro rfl; exact hnot hie
              have hc2 : ∀ x ∈ cand ++ [e], Ends s x := by
                intro x hx
                rcases List.mem_append.1 hx with hx | hx
                · exact hcand x hx
                · rw [List.mem_singleton.1 hx]; exact hEe
              rw [he, if_neg hne]
              split
              · exact ⟨_, rfl, hc2⟩
              · exact ihn fuel hr' h (by omega) (Or.inr hie) hc2
        exact gen _ fuel hr hb hf (Or.inl rfl) (by intro x hx; rw [List.mem_singleton.1 hx]; exact he)
      obtain ⟨cand', hch, hcE⟩ := this
      rw [hch]
      obtain ⟨res, e1, e2, e3, e4⟩ := ih (safe ++ cand') cyc (fun x hx => h1 x (by simp [hx]))
        (fun x hx => (List.mem_append.1 hx).elim (h2 x) (hcE x)) h3
      refine ⟨res, e1, e2, e3, ?_⟩
      intro x hx hxc
      rcases List.mem_cons.1 hx with rfl | hx
      · exact absurd hxc hnot
      · exact e4 x hx hxc
    · obtain ⟨n, hn⟩ := (upPlus_iff d i i).1 hc
      obtain ⟨k, hk, hk2, hmin⟩ := iter_cycle_bound (nextId s) _ i hi hnf n hn
      rw [List.length_map] at hk
      obtain ⟨cand', hch, hcC, hin⟩ := chase_cycle d (start := i) h2 k (cand := [i]) fuel hr hk2 hmin (by omega)
        (by intro x hx; rw [List.mem_singleton.1 hx]; exact hc) hc hc
      rw [hch]
      obtain ⟨res, e1, e2, e3, e4⟩ := ih safe (cyc ++ cand') (fun x hx => h1 x (by simp [hx])) h2
        (fun x hx => (List.mem_append.1 hx).elim (h3 x) (hcC x))
      refine ⟨res, e1, e2, fun x hx => e3 x (by simp [hx]), ?_⟩
      intro x hx hxc
      rcases List.mem_cons.1 hx with rfl | hx
      · exact e3 _ (by simp [hin])
      · exact e4 x hx hxc

/-- C38. If every chain of parents ends or returns to its start, the search terminates (`nodes.length`
rounds per node are enough) and returns exactly the nodes on parent cycles. Partial: chains that run
into a cycle they did not start on are excluded; see `c38_hangs`. -/
theorem c38_exact_partial (s : St) (d : Dict s) (h : ∀ i, (∃ r, (i, r) ∈ s.nodes) → Ends s i ∨ OnCycle s i) (fuel : Nat)
    (hf : s.nodes.length ≤ fuel) :
    ∃ res, findCycles s fuel = some res ∧ ∀ i, i ∈ res ↔ (∃ r, (i, r) ∈ s.nodes) ∧ OnCycle s i := by
  obtain ⟨res, e1, e2, _, e4⟩ := loop_exact d fuel hf h s.nodes [] [] (fun _ h => h) (fun _ h => by cases h) (fun _ h => by cases h)
  refine ⟨res, e1, fun i => ⟨fun hi => ?_, fun ⟨⟨r, hr⟩, hc⟩ => e4 (i, r) hr hc⟩⟩
  have hc := e2 i hi
  refine ⟨?_, hc⟩
  cases hc with
  | one h => obtain ⟨r, _, _, h, _⟩ := h; exact ⟨r, h⟩
  | more h _ => obtain ⟨r, _, _, h, _⟩ := h; exact ⟨r, h⟩

/-- C38 is violated: if some node hangs below a cycle without being on it, the search never
terminates. -/
theorem c38_hangs (s : St) (d : Dict s) (i : Id) (r : Ref) (hr : (i, r) ∈ s.nodes) (he : ¬ Ends s i) (hc : ¬ OnCycle s i) (fuel : Nat) :
    findCycles s fuel = none := by
  have gen : ∀ (l : List (Id × Ref)) (safe cyc : List Id), (∀ x ∈ l, x ∈ s.nodes) → (∀ x ∈ safe, Ends s x) → (i, r) ∈ l →
      findCyclesLoop s fuel l safe cyc = none := by
    intro l
    induction l with
    | nil => intro _ _ _ _ h; cases h
    | cons x l ih =>
      obtain ⟨j, q⟩ := x
      intro safe cyc h1 h2 hm
      unfold findCyclesLoop
      rcases List.mem_cons.1 hm with heq | hm
      · cases heq
        rw [chase_hangs d h2 hc fuel hr he (Or.inl rfl)]
      · have hj := h1 (j, q) (by simp)
        by_cases hej : Ends s j
        · by_cases hcj : OnCycle s j
          · exact absurd hej (hcj.not_ends d)
          · -- the result, if any, is safe and its candidates end
            have : ∀ (fuel : Nat) (c : Id) (q : Ref) (cand : List Id) (b : Bool) (cand' : List Id), (c, q) ∈ s.nodes → Ends s c →
                (c = j ∨ UpPlus s j c) → (∀ x ∈ cand, Ends s x) → chase s j safe fuel q cand = some (b, cand') →
                b = true ∧ ∀ x ∈ cand', Ends s x := by
              intro fuel
              induction fuel with
              | zero =>
                intro c q cand b cand' hq hE hjc hcand hch
                obtain ⟨_, _, h3⟩ := chase_step d (start := j) (safe := safe) (fuel := 0) (cand := cand) hq
                cases hn : nextId s c with
                | some e => rw [h3 e hn] at hch; cases hch
                | none =>
                  unfold chase at hch
                  split at hch
                  · cases hch; exact ⟨rfl, hcand⟩
                  · cases hch
              | succ fuel ihf =>
                intro c q cand b cand' hq hE hjc hcand hch
                obtain ⟨k1, k2, _⟩ := chase_step d (start := j) (safe := safe) (fuel := fuel) (cand := cand) hq
                cases hn : nextId s c with
                | none => rw [k1 hn] at hch; cases hch; exact ⟨rfl, hcand⟩
                | some e =>
                  obtain ⟨r', hr', hee⟩ := k2 e hn
                  have hup := (up_iff d _ _).2 hn
                  have hie : UpPlus s j e := by
                    rcases hjc with rfl | hjc
                    · exact .one hup
                    · exact hjc.trans (.one hup)
                  have hne : e ≠ j := by rintro rfl; exact hcj hie
                  have hEe := hE.next d hn
                  have hc2 : ∀ x ∈ cand ++ [e], Ends s x := by
                    intro x hx
                    rcases List.mem_append.1 hx with hx | hx
                    · exact hcand x hx
                    · rw [List.mem_singleton.1 hx]; exact hEe
                  rw [hee, if_neg hne] at hch
                  split at hch
                  · cases hch; exact ⟨rfl, hc2⟩
                  · exact ihf e r' _ b cand' hr' hEe (Or.inr hie) hc2 hch
            split
            · rfl
            · rename_i cand hch
              have hx := this fuel j q [j] true cand hj hej (Or.inl rfl) (by intro x hx; rw [List.mem_singleton.1 hx]; exact hej) hch
              exact ih _ _ (fun x hx => h1 x (by simp [hx])) (fun x hx' => (List.mem_append.1 hx').elim (h2 x) (hx.2 x)) hm
            · rename_i cand hch
              have hx := this fuel j q [j] false cand hj hej (Or.inl rfl) (by intro x hx; rw [List.mem_singleton.1 hx]; exact hej) hch
              cases hx.1
        · by_cases hcj : OnCycle s j
          · -- the result, if any, is a cycle
            have : ∀ (fuel : Nat) (c : Id) (q : Ref) (cand : List Id) (cand' : List Id), (c, q) ∈ s.nodes → ¬ Ends s c →
                chase s j safe fuel q cand ≠ some (true, cand') := by
              intro fuel
              induction fuel with
              | zero =>
                intro c q cand cand' hq hE hch
                obtain ⟨_, _, h3⟩ := chase_step d (start := j) (safe := safe) (fuel := 0) (cand := cand) hq
                cases hn : nextId s c with
                | some e => rw [h3 e hn] at hch; cases hch
                | none => exact hE ((ends_iff d c).2 ⟨1, by simp [iter, hn]⟩)
              | succ fuel ihf =>
                intro c q cand cand' hq hE hch
                obtain ⟨_, k2, _⟩ := chase_step d (start := j) (safe := safe) (fuel := fuel) (cand := cand) hq
                cases hn : nextId s c with
                | none => exact hE ((ends_iff d c).2 ⟨1, by simp [iter, hn]⟩)
                | some e =>
                  obtain ⟨r', hr', hee⟩ := k2 e hn
                  have hEe : ¬ Ends s e := fun h => hE (.step ((up_iff d _ _).2 hn) h)
                  rw [hee] at hch
                  split at hch
                  · cases hch
                  · rw [if_neg (fun hm => hEe (h2 e hm))] at hch
                    exact ihf e r' _ cand' hr' hEe hch
            split
            · rfl
            · rename_i cand hch
              exact absurd hch (this fuel j q [j] cand hj hej)
            · exact ih _ _ (fun x hx => h1 x (by simp [hx])) h2 hm
          · rw [chase_hangs d h2 hcj fuel hj hej (Or.inl rfl)]
  exact gen s.nodes [] [] (fun _ h => h) (fun _ h => by cases h) hr

/-- C38. Termination is decided within `nodes.length` rounds per node: if the search has not finished
then, it never does. So `addNode` of the model, which allows one more, answers `hang` exactly if the
code does not return. -/
theorem c38_fuel (s : St) (d : Dict s) : findCycles s s.nodes.length = none → ∀ fuel, findCycles s fuel = none := by
  intro h fuel
  by_cases hall : ∀ i, (∃ r, (i, r) ∈ s.nodes) → Ends s i ∨ OnCycle s i
  · obtain ⟨res, e, _⟩ := c38_exact_partial s d hall s.nodes.length (Nat.le_refl _)
    rw [h] at e; cases e
  · apply Classical.byContradiction
    intro hne
    apply hall
    rintro i ⟨r, hr⟩
    by_cases he : Ends s i
    · exact Or.inl he
    · by_cases hc : OnCycle s i
      · exact Or.inr hc
      · exact absurd (c38_hangs s d i r hr he hc fuel) hne

/-- C38 is violated in a history of service calls: after `move_node(n, n)` has made `n` its own
parent, and another node has been moved below `n`, every `add_node` runs forever. -/
theorem c38_add_node_hangs :
    let s := history exC [.add 1 (some exSeq) (some 0) (-1) [], .add 2 (some exSeq) (some 0) (-1) [],
      .move (some 1) (some 1) 0, .move (some 2) (some 1) 0] {}
    (handle exC (.add 3 (some exLeaf) (some 0) (-1) []) s).2 = .hang ∧
    (∀ fuel, findCycles s fuel = none) := by
  refine ⟨by decide +kernel, ?_⟩
  refine c38_fuel _ ?_ (by decide +kernel)
  exact c32_dict _ (by decide +kernel)

/-! ### Examples -/

/-- A tree, and a node that is its own parent: exactly that node is found. -/
example : let s := history exC (exReqs ++ [.add 8 (some exSeq) (some 0) 0 [], .move (some 8) (some 8) 0]) {}
    findCycles s s.nodes.length = some [8, 8] := by decide +kernel

end Verif.Edit
