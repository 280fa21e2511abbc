import Verif.Data.Flow

/-! C53 and C67: node configurations, classes and the creation of nodes (`node_config.py`, `node.py`). References between inputs
(`ReferenceContainer`) are in Refs.lean. A dictionary is a list of pairs; what a user sees is the value under a key. -/

set_option autoImplicit false

namespace Verif.Data

/-! ### The model -/

/-- node_config.py 136-170: `NodeConfig` without tags. -/
structure Config where
  inputs : List (String × Cont)
  outputs : List (String × Cont)
  maxChildren : Option Nat

/-- node_config.py 225-229 and 231-235: copies what has a new key; also gives the keys that are not new. -/
def absorb (self : List (String × Cont)) : List (String × Cont) → List (String × Cont) × List String
  | [] => (self, [])
  | (k, c) :: r =>
    if (self.lookup k).isSome then ((absorb self r).1, k :: (absorb self r).2)
    else absorb (self ++ [(k, c)]) r

/-- node_config.py 211-246: `extend`; the configuration afterwards and whether the answer is `Ok`. -/
def Config.extend (self other : Config) : Config × Bool :=
  if self.maxChildren = other.maxChildren then
    let i := absorb self.inputs other.inputs
    let o := absorb self.outputs other.outputs
    ({ self with inputs := i.1, outputs := o.1 }, i.2.isEmpty && o.2.isEmpty)
  else (self, false)

/-- node_config.py 172-179: the constructor; `none`: an exception. -/
def Config.new (inputs outputs : List (String × Cont)) (maxChildren : Option Nat) : Option Config :=
  if outputs.any (·.2.ty.isTypeContainer) then none
  else some ⟨inputs, mapAll (fun c => { c with allowDynamic := true, allowStatic := false, isStatic := false }) outputs, maxChildren⟩

/-- node.py 1239-1252: the configuration of a class is extended by those of its bases in turn; `none`: the class is not registered. -/
def define : Config → List Config → Option Config
  | own, [] => some own
  | own, b :: bs => match own.extend b with
    | (c, true) => define c bs
    | (_, false) => none

/-- node.py 202-212: given inputs that are known already replace those of the class; the others are kept for later. `none`: an
exception. -/
def replaceKnown : List (String × Cont) → List (String × Cont) → Option (List (String × Cont) × List (String × Cont))
  | [], inputs => some (inputs, [])
  | (k, c) :: r, inputs =>
    match inputs.lookup k with
    | none => (replaceKnown r inputs).map fun p => (p.1, (k, c) :: p.2)
    | some t => if t.isCompatible c then replaceKnown r (modify k (fun _ => c) inputs) else none

/-- node.py 230-241: the other inputs, after those that depend on static values have been added. -/
def replaceRest : List (String × Cont) → List (String × Cont) → Option (List (String × Cont))
  | [], inputs => some inputs
  | (k, c) :: r, inputs =>
    match inputs.lookup k with
    | none => none
    | some t => if t.isCompatible c then replaceRest r (modify k (fun _ => c) inputs) else none

/-- node.py 193-241: the configuration of a new node. `extra` is what `add_extra_inputs` and `add_extra_outputs` answer, which depends
on the inputs; `none`: an error. -/
def create (cls : Config) (extra : List (String × Cont) → Option (List (String × Cont) × List (String × Cont))) (given : List (String × Cont)) :
    Option Config :=
  match replaceKnown given cls.inputs with
  | none => none
  | some (inputs, rest) =>
    match extra inputs with
    | none => none
    | some (i, o) =>
      match Config.new i o cls.maxChildren with
      | none => none
      | some more =>
        match ({ cls with inputs := inputs } : Config).extend more with
        | (_, false) => none
        | (c, true) => (replaceRest rest c.inputs).map fun inputs => { c with inputs := inputs }

/-! ### C53 -/

/-- No key in common. -/
def Apart (d e : List (String × Cont)) : Prop := ∀ k, d.lookup k = none ∨ e.lookup k = none

theorem lookup_append {d e : List (String × Cont)} {k : String} : (d ++ e).lookup k = (d.lookup k).or (e.lookup k) := by
  induction d with
  | nil => simp
  | cons p d ih =>
    obtain ⟨l, c⟩ := p
    simp only [List.cons_append, List.lookup]
    split
    · rfl
    · exact ih

theorem lookup_mem {d : List (String × Cont)} {k : String} : (d.lookup k).isSome = true ↔ k ∈ d.map (·.1) := by
  induction d with
  | nil => simp
  | cons p d ih =>
    obtain ⟨l, c⟩ := p
    simp only [List.lookup, List.map_cons, List.mem_cons]
    by_cases h : k = l
    · subst h; simp
    · have : (k == l) = false := by simpa using h
      simp only [this, h, false_or]
      exact ih

theorem lookup_none {d : List (String × Cont)} {k : String} : d.lookup k = none ↔ k ∉ d.map (·.1) := by
  rw [← lookup_mem]; cases d.lookup k <;> simp

theorem mem_of_lookup {d : List (String × Cont)} {k : String} {c : Cont} (h : d.lookup k = some c) : (k, c) ∈ d := by
  induction d with
  | nil => cases h
  | cons p d ih =>
    obtain ⟨l, x⟩ := p
    simp only [List.lookup] at h
    split at h
    · rename_i e; cases h; rw [beq_iff_eq.mp e]; simp
    · exact List.mem_cons_of_mem _ (ih h)

theorem lookup_of_mem {d : List (String × Cont)} {k : String} {c : Cont} (hn : (d.map (·.1)).Nodup) (h : (k, c) ∈ d) : d.lookup k = some c := by
  induction d with
  | nil => cases h
  | cons p d ih =>
    obtain ⟨l, x⟩ := p
    simp only [List.map_cons, List.nodup_cons] at hn
    rcases List.mem_cons.mp h with e | h
    · cases e; simp [List.lookup]
    · have hk : k ≠ l := fun e => hn.1 (List.mem_map.mpr ⟨(k, c), h, e⟩)
      have hb : (k == l) = false := by simpa using hk
      simp only [List.lookup, hb]
      exact ih hn.2 h

/-- What is under a key after absorbing another dictionary. -/
theorem absorb_lookup : ∀ (e d : List (String × Cont)) (k : String), (absorb d e).1.lookup k = (d.lookup k).or (e.lookup k) := by
  intro e
  induction e with
  | nil => intro d k; simp [absorb]
  | cons p e ih =>
    intro d k
    obtain ⟨l, c⟩ := p
    simp only [absorb]
    by_cases hk : k = l
    · subst hk
      split
      · rename_i h
        rw [ih d k]
        obtain ⟨x, hx⟩ := Option.isSome_iff_exists.mp h
        simp [hx]
      · rename_i h
        rw [ih, lookup_append]
        have : d.lookup k = none := Option.not_isSome_iff_eq_none.mp h
        simp [this, List.lookup]
    · have hb : (k == l) = false := by simpa using hk
      split
      · rw [ih d k]; simp [List.lookup, hb]
      · rw [ih, lookup_append]; simp [List.lookup, hb]

theorem absorb_dups : ∀ (e d : List (String × Cont)), (e.map (·.1)).Nodup → ∀ k, k ∈ (absorb d e).2 ↔ k ∈ e.map (·.1) ∧ (d.lookup k).isSome = true := by
  intro e
  induction e with
  | nil => intro d _ k; simp [absorb]
  | cons p e ih =>
    intro d hn k
    obtain ⟨l, c⟩ := p
    simp only [List.map_cons, List.nodup_cons] at hn
    simp only [absorb, List.map_cons, List.mem_cons]
    split
    · rename_i h
      rw [List.mem_cons, ih d hn.2 k]
      constructor
      · rintro (rfl | ⟨h1, h2⟩)
        · exact ⟨.inl rfl, h⟩
        · exact ⟨.inr h1, h2⟩
      · rintro ⟨rfl | h1, h2⟩
        · exact .inl rfl
        · exact .inr ⟨h1, h2⟩
    · rename_i h
      rw [ih _ hn.2 k, lookup_append]
      constructor
      · rintro ⟨h1, h2⟩
        have hk : k ≠ l := fun e => hn.1 (e ▸ h1)
        have hb : (k == l) = false := by simpa using hk
        simp only [List.lookup, hb, Option.or_none] at h2
        exact ⟨.inr h1, h2⟩
      · rintro ⟨rfl | h1, h2⟩
        · exact absurd h2 h
        · exact ⟨h1, by rw [Option.isSome_or, h2]; rfl⟩

theorem absorb_apart {d e : List (String × Cont)} (hn : (e.map (·.1)).Nodup) : (absorb d e).2.isEmpty = true ↔ Apart d e := by
  rw [List.isEmpty_iff]
  constructor
  · intro h k
    cases hd : d.lookup k with
    | none => exact .inl rfl
    | some x =>
      refine .inr (lookup_none.mpr fun hm => ?_)
      have := (absorb_dups e d hn k).mpr ⟨hm, by rw [hd]; rfl⟩
      rw [h] at this; cases this
  · intro h
    cases hl : (absorb d e).2 with
    | nil => rfl
    | cons k r =>
      have := (absorb_dups e d hn k).mp (by rw [hl]; simp)
      rcases h k with g | g
      · rw [g] at this; exact absurd this.2 (by simp)
      · exact absurd this.1 (lookup_none.mp g)

/-- The keys of a dictionary differ. -/
structure Config.Dict (c : Config) : Prop where
  inputs : (c.inputs.map (·.1)).Nodup
  outputs : (c.outputs.map (·.1)).Nodup

/-- C53: merging succeeds iff no key is in both and the numbers of children agree. -/
theorem c53_succeeds (self other : Config) (ho : other.Dict) :
    (self.extend other).2 = true ↔ self.maxChildren = other.maxChildren ∧ Apart self.inputs other.inputs ∧ Apart self.outputs other.outputs := by
  unfold Config.extend
  split
  · rename_i h
    simp only [Bool.and_eq_true, absorb_apart ho.inputs, absorb_apart ho.outputs, h, true_and]
  · rename_i h
    simp [h]

/-- C53: the result has exactly the entries of both. -/
theorem c53_union (self other : Config) (ho : other.Dict) (h : (self.extend other).2 = true) :
    (∀ k c, (self.extend other).1.inputs.lookup k = some c ↔ self.inputs.lookup k = some c ∨ other.inputs.lookup k = some c) ∧
    (∀ k c, (self.extend other).1.outputs.lookup k = some c ↔ self.outputs.lookup k = some c ∨ other.outputs.lookup k = some c) ∧
    (self.extend other).1.maxChildren = self.maxChildren := by
  obtain ⟨hm, hi, hout⟩ := (c53_succeeds self other ho).mp h
  have key : ∀ d e : List (String × Cont), Apart d e → ∀ k c, (absorb d e).1.lookup k = some c ↔ d.lookup k = some c ∨ e.lookup k = some c := by
    intro d e ha k c
    rw [absorb_lookup]
    rcases ha k with g | g <;> rw [g] <;> simp
  unfold Config.extend
  rw [if_pos hm]
  exact ⟨key _ _ hi, key _ _ hout, rfl⟩

/-- C53, failure: a configuration that allows another number of children leaves the original alone. In any case what was there stays; what
is new comes from the other configuration. -/
theorem c53_failure_partial (self other : Config) :
    (self.maxChildren ≠ other.maxChildren → self.extend other = (self, false)) ∧
    (∀ k c, self.inputs.lookup k = some c → (self.extend other).1.inputs.lookup k = some c) ∧
    (∀ k c, self.outputs.lookup k = some c → (self.extend other).1.outputs.lookup k = some c) ∧
    (∀ k, self.inputs.lookup k = none → (self.extend other).1.inputs.lookup k = none ∨ (self.extend other).1.inputs.lookup k = other.inputs.lookup k) ∧
    ∀ k, self.outputs.lookup k = none → (self.extend other).1.outputs.lookup k = none ∨ (self.extend other).1.outputs.lookup k = other.outputs.lookup k := by
  refine ⟨fun h => by unfold Config.extend; rw [if_neg h], ?_⟩
  unfold Config.extend
  split
  · simp only [absorb_lookup]
    refine ⟨fun k c h => by rw [h]; rfl, fun k c h => by rw [h]; rfl, fun k h => .inr (by rw [h]; rfl), fun k h => .inr (by rw [h]; rfl)⟩
  · exact ⟨fun _ _ h => h, fun _ _ h => h, fun _ h => .inl h, fun _ h => .inl h⟩

/-- An entry for examples. -/
def small (lo hi : Int) : Cont := { ty := .int lo hi, isStatic := false }

/-- The code violates C53: merging fails because of one key in common, but the other keys have been copied. -/
theorem c53_half_merged :
    let self : Config := ⟨[("a", small 0 1)], [], none⟩
    let other : Config := ⟨[("b", small 0 2), ("a", small 0 3)], [("o", small 0 4)], none⟩
    (self.extend other).2 = false ∧ self.inputs.lookup "b" = none ∧ ((self.extend other).1.inputs.lookup "b").isSome = true ∧
    ((self.extend other).1.outputs.lookup "o").isSome = true := by decide

/-- The keys of the result differ. -/
theorem extend_dict {self other : Config} (h : self.Dict) : (self.extend other).1.Dict := by
  have key : ∀ e d : List (String × Cont), (d.map (·.1)).Nodup → ((absorb d e).1.map (·.1)).Nodup := by
    intro e
    induction e with
    | nil => intro d h; exact h
    | cons p e ih =>
      intro d h
      obtain ⟨l, c⟩ := p
      simp only [absorb]
      split
      · exact ih d h
      · rename_i hl
        apply ih
        rw [List.map_append, List.nodup_append]
        refine ⟨h, by simp, fun a ha b hb => ?_⟩
        simp at hb
        rw [hb]
        intro e
        exact lookup_none.mp (Option.not_isSome_iff_eq_none.mp hl) (e ▸ ha)
  unfold Config.extend
  split
  · exact ⟨key _ _ h.inputs, key _ _ h.outputs⟩
  · exact h

/-- No two of the dictionaries have a key in common. -/
def AllApart : List (List (String × Cont)) → Prop
  | [] => True
  | d :: ds => (∀ e ∈ ds, Apart d e) ∧ AllApart ds

/-- C53 for classes: a class is registered iff it and its bases allow the same number of children and no two of them share a key; it then
has the inputs and outputs of all of them. -/
theorem c53_classes (own : Config) (bases : List Config) (hb : ∀ b ∈ bases, b.Dict) :
    ((define own bases).isSome = true ↔ (∀ b ∈ bases, own.maxChildren = b.maxChildren) ∧ AllApart ((own :: bases).map (·.inputs)) ∧
      AllApart ((own :: bases).map (·.outputs))) ∧
    ∀ c, define own bases = some c → c.maxChildren = own.maxChildren ∧
      (∀ k x, c.inputs.lookup k = some x ↔ ∃ b ∈ own :: bases, b.inputs.lookup k = some x) ∧
      ∀ k x, c.outputs.lookup k = some x ↔ ∃ b ∈ own :: bases, b.outputs.lookup k = some x := by
  induction bases generalizing own with
  | nil => simp [define, AllApart]
  | cons b bs ih =>
    have hbd := hb b (by simp)
    cases he : own.extend b with
    | mk c a =>
      have hs := c53_succeeds own b hbd
      rw [he] at hs
      cases a with
      | false =>
        simp only [define, he]
        refine ⟨⟨fun h => (by cases h), fun ⟨h1, h2, h3⟩ => ?_⟩, fun _ h => (by cases h)⟩
        simp only [List.map_cons, AllApart, List.mem_cons, List.mem_map] at h2 h3
        exact absurd (hs.mpr ⟨h1 b (by simp), h2.1 _ (.inl rfl), h3.1 _ (.inl rfl)⟩) (by simp)
      | true =>
        have hu := c53_union own b hbd
        rw [he] at hu
        obtain ⟨u1, u2, u3⟩ := hu rfl
        obtain ⟨g1, g2, g3⟩ := hs.mp rfl
        obtain ⟨i1, i2⟩ := ih c (fun x hx => hb x (List.mem_cons_of_mem _ hx))
        dsimp only at u1 u2 u3
        have hapart : ∀ (p q r : List (String × Cont)), (∀ k x, p.lookup k = some x ↔ q.lookup k = some x ∨ r.lookup k = some x) →
            ∀ e, Apart p e ↔ Apart q e ∧ Apart r e := by
          intro p q r h e
          have hn : ∀ k, p.lookup k = none ↔ q.lookup k = none ∧ r.lookup k = none := by
            intro k
            cases hp : p.lookup k with
            | none =>
              cases hq : q.lookup k with
              | none =>
                cases hr : r.lookup k with
                | none => simp
                | some x => have := (h k x).mpr (.inr hr); rw [hp] at this; cases this
              | some x => have := (h k x).mpr (.inl hq); rw [hp] at this; cases this
            | some x => rcases (h k x).mp hp with g | g <;> simp [g]
          constructor
          · intro ha
            exact ⟨fun k => (ha k).elim (fun g => .inl ((hn k).mp g).1) .inr, fun k => (ha k).elim (fun g => .inl ((hn k).mp g).2) .inr⟩
          · rintro ⟨ha, hb⟩ k
            rcases ha k with g | g
            · rcases hb k with g' | g'
              · exact .inl ((hn k).mpr ⟨g, g'⟩)
              · exact .inr g'
            · exact .inr g
        have hall : ∀ (f : Config → List (String × Cont)), (∀ k x, (f c).lookup k = some x ↔ (f own).lookup k = some x ∨ (f b).lookup k = some x) →
            Apart (f own) (f b) → (AllApart ((c :: bs).map f) ↔ AllApart ((own :: b :: bs).map f)) := by
          intro f hf ha
          simp only [List.map_cons, AllApart, List.mem_map, List.mem_cons]
          constructor
          · rintro ⟨h1, h2⟩
            refine ⟨?_, fun e he => ((hapart _ _ _ hf e).mp (h1 e he)).2, h2⟩
            rintro e (rfl | he)
            · exact ha
            · exact ((hapart _ _ _ hf e).mp (h1 e he)).1
          · rintro ⟨h1, h2, h3⟩
            exact ⟨fun e he => (hapart _ _ _ hf e).mpr ⟨h1 e (.inr he), h2 e he⟩, h3⟩
        simp only [define, he]
        constructor
        · rw [i1, hall _ u1 g2, hall _ u2 g3]
          constructor
          · rintro ⟨h1, h2⟩
            refine ⟨fun x hx => ?_, h2⟩
            rcases List.mem_cons.mp hx with rfl | hx
            · exact g1
            · rw [← u3]; exact h1 x hx
          · rintro ⟨h1, h2⟩
            exact ⟨fun x hx => by rw [u3]; exact h1 x (List.mem_cons_of_mem _ hx), h2⟩
        · intro r hr
          obtain ⟨j1, j2, j3⟩ := i2 r hr
          have hex : ∀ (f : Config → List (String × Cont)) (k : String) (x : Cont), ((f c).lookup k = some x ↔ (f own).lookup k = some x ∨ (f b).lookup k = some x) →
              ((∃ y ∈ c :: bs, (f y).lookup k = some x) ↔ ∃ y ∈ own :: b :: bs, (f y).lookup k = some x) := by
            intro f k x hf
            simp only [List.mem_cons]
            constructor
            · rintro ⟨y, rfl | hy, h⟩
              · rcases hf.mp h with h | h
                · exact ⟨own, .inl rfl, h⟩
                · exact ⟨b, .inr (.inl rfl), h⟩
              · exact ⟨y, .inr (.inr hy), h⟩
            · rintro ⟨y, rfl | rfl | hy, h⟩
              · exact ⟨c, .inl rfl, hf.mpr (.inl h)⟩
              · exact ⟨c, .inl rfl, hf.mpr (.inr h)⟩
              · exact ⟨y, .inr hy, h⟩
          exact ⟨j1.trans u3, fun k x => (j2 k x).trans (hex _ k x (u1 k x)), fun k x => (j3 k x).trans (hex _ k x (u2 k x))⟩

example : (define ⟨[("a", small 0 1)], [], some 0⟩ [⟨[("b", small 0 2)], [("o", small 0 3)], some 0⟩, ⟨[], [("p", small 0 3)], some 0⟩]).isSome = true := by decide

/-! ### C67: the inputs of a new node -/

/-- What `replaceKnown` and `replaceRest` do to the entry of a key, for different given keys. -/
theorem replaceRest_iff : ∀ (given : List (String × Cont)) (inputs : List (String × Cont)), (given.map (·.1)).Nodup →
    ((replaceRest given inputs).isSome = true ↔ ∀ k c, (k, c) ∈ given → ∃ t, inputs.lookup k = some t ∧ t.isCompatible c = true) ∧
    ∀ r, replaceRest given inputs = some r → ∀ k, r.lookup k = ((inputs.lookup k).map fun t => (given.lookup k).getD t) := by
  intro given
  induction given with
  | nil => intro inputs _; refine ⟨by simp [replaceRest], fun r h k => ?_⟩; cases h; cases inputs.lookup k <;> rfl
  | cons p given ih =>
    intro inputs hn
    obtain ⟨l, d⟩ := p
    simp only [List.map_cons, List.nodup_cons] at hn
    simp only [replaceRest]
    cases hl : inputs.lookup l with
    | none =>
      refine ⟨⟨fun h => by simp at h, fun h => ?_⟩, fun r h => by simp at h⟩
      obtain ⟨t, h1, _⟩ := h l d (by simp)
      rw [hl] at h1; cases h1
    | some t =>
      dsimp only
      by_cases hc : t.isCompatible d = true
      · rw [if_pos hc]
        obtain ⟨i1, i2⟩ := ih (modify l (fun _ => d) inputs) hn.2
        constructor
        · rw [i1]
          constructor
          · intro h k c hk
            rcases List.mem_cons.mp hk with e | hk
            · cases e; exact ⟨t, hl, hc⟩
            · obtain ⟨t', h1, h2⟩ := h k c hk
              have hkl : k ≠ l := fun e => hn.1 (List.mem_map.mpr ⟨(k, c), hk, e⟩)
              rw [lookup_modify, if_neg hkl] at h1
              exact ⟨t', h1, h2⟩
          · intro h k c hk
            have hkl : k ≠ l := fun e => hn.1 (List.mem_map.mpr ⟨(k, c), hk, e⟩)
            obtain ⟨t', h1, h2⟩ := h k c (List.mem_cons_of_mem _ hk)
            exact ⟨t', by rw [lookup_modify, if_neg hkl]; exact h1, h2⟩
        · intro r hr k
          rw [i2 r hr k, lookup_modify]
          by_cases hkl : k = l
          · subst hkl
            have : given.lookup k = none := lookup_none.mpr hn.1
            simp [hl, List.lookup, this]
          · have hb : (k == l) = false := by simpa using hkl
            rw [if_neg hkl]
            simp only [List.lookup, hb]
      · rw [if_neg hc]
        refine ⟨⟨fun h => by simp at h, fun h => ?_⟩, fun r h => by simp at h⟩
        obtain ⟨t', h1, h2⟩ := h l d (by simp)
        rw [hl] at h1; cases h1
        exact absurd h2 hc

theorem replaceKnown_iff : ∀ (given : List (String × Cont)) (inputs : List (String × Cont)), (given.map (·.1)).Nodup →
    ((replaceKnown given inputs).isSome = true ↔ ∀ k c t, (k, c) ∈ given → inputs.lookup k = some t → t.isCompatible c = true) ∧
    ∀ r rest, replaceKnown given inputs = some (r, rest) → (∀ k, r.lookup k = ((inputs.lookup k).map fun t => (given.lookup k).getD t)) ∧
      rest = given.filter (fun p => (inputs.lookup p.1).isNone) := by
  intro given
  induction given with
  | nil => intro inputs _; refine ⟨by simp [replaceKnown], fun r rest h => ?_⟩; cases h; exact ⟨fun k => by cases inputs.lookup k <;> rfl, rfl⟩
  | cons p given ih =>
    intro inputs hn
    obtain ⟨l, d⟩ := p
    simp only [List.map_cons, List.nodup_cons] at hn
    simp only [replaceKnown]
    cases hl : inputs.lookup l with
    | none =>
      obtain ⟨i1, i2⟩ := ih inputs hn.2
      dsimp only
      constructor
      · rw [Option.isSome_map, i1]
        constructor
        · intro h k c t hk ht
          rcases List.mem_cons.mp hk with e | hk
          · cases e; rw [hl] at ht; cases ht
          · exact h k c t hk ht
        · intro h k c t hk
          exact h k c t (List.mem_cons_of_mem _ hk)
      · intro r rest h
        cases hr : replaceKnown given inputs with
        | none => rw [hr] at h; cases h
        | some q =>
          obtain ⟨q1, q2⟩ := q
          rw [hr] at h
          cases h
          obtain ⟨j1, j2⟩ := i2 _ _ hr
          refine ⟨fun k => ?_, ?_⟩
          · rw [j1 k]
            by_cases hkl : k = l
            · subst hkl; simp [hl]
            · have hb : (k == l) = false := by simpa using hkl
              simp only [List.lookup, hb]
          · rw [List.filter_cons, if_pos (by simp [hl]), j2]
    | some t =>
      dsimp only
      by_cases hc : t.isCompatible d = true
      · rw [if_pos hc]
        obtain ⟨i1, i2⟩ := ih (modify l (fun _ => d) inputs) hn.2
        have hne : ∀ k c, (k, c) ∈ given → k ≠ l := fun k c hk e => hn.1 (List.mem_map.mpr ⟨(k, c), hk, e⟩)
        constructor
        · rw [i1]
          constructor
          · intro h k c t' hk ht
            rcases List.mem_cons.mp hk with e | hk
            · cases e; rw [hl] at ht; cases ht; exact hc
            · exact h k c t' hk (by rw [lookup_modify, if_neg (hne k c hk)]; exact ht)
          · intro h k c t' hk ht
            rw [lookup_modify, if_neg (hne k c hk)] at ht
            exact h k c t' (List.mem_cons_of_mem _ hk) ht
        · intro r rest h
          obtain ⟨j1, j2⟩ := i2 r rest h
          refine ⟨fun k => ?_, ?_⟩
          · rw [j1 k, lookup_modify]
            by_cases hkl : k = l
            · subst hkl
              have : given.lookup k = none := lookup_none.mpr hn.1
              simp [hl, List.lookup, this]
            · have hb : (k == l) = false := by simpa using hkl
              rw [if_neg hkl]
              simp only [List.lookup, hb]
          · rw [List.filter_cons, if_neg (by simp [hl]), j2]
            apply List.filter_congr
            intro q hq
            rw [lookup_modify, if_neg (hne q.1 q.2 hq)]
      · rw [if_neg hc]
        refine ⟨⟨fun h => by simp at h, fun h => ?_⟩, fun r rest h => by simp at h⟩
        exact absurd (h l d t (by simp) hl) hc

/-- The input that is declared under a key: by the class, or by the node itself once its static inputs are known. -/
def Declared (cls : Config) (more : List (String × Cont)) (k : String) (t : Cont) : Prop := cls.inputs.lookup k = some t ∨ more.lookup k = some t

/-- C67: a node that has been created has exactly the declared inputs. Those that were given are the given ones; each of them is declared and
compatible with its declaration; the others are as declared. Its outputs are those of the class and its own, the latter dynamic. -/
theorem c67_created (cls : Config) (extra : List (String × Cont) → Option (List (String × Cont) × List (String × Cont))) (given : List (String × Cont))
    (hg : (given.map (·.1)).Nodup) (hx : ∀ d i o, extra d = some (i, o) → (i.map (·.1)).Nodup ∧ (o.map (·.1)).Nodup) (c : Config)
    (h : create cls extra given = some c) :
    ∃ now i o, extra now = some (i, o) ∧
      (∀ k x, now.lookup k = some x ↔ ∃ t, cls.inputs.lookup k = some t ∧ x = (given.lookup k).getD t) ∧
      Apart cls.inputs i ∧ Apart cls.outputs o ∧
      (∀ k x, c.inputs.lookup k = some x ↔ ∃ t, Declared cls i k t ∧ x = (given.lookup k).getD t) ∧
      (∀ k g, given.lookup k = some g → ∃ t, Declared cls i k t ∧ t.isCompatible g = true) ∧
      (∀ k x, c.outputs.lookup k = some x ↔ cls.outputs.lookup k = some x ∨
        ∃ t, o.lookup k = some t ∧ x = { t with allowDynamic := true, allowStatic := false, isStatic := false }) ∧
      c.maxChildren = cls.maxChildren := by
  unfold create at h
  cases hr : replaceKnown given cls.inputs with
  | none => rw [hr] at h; cases h
  | some q =>
    obtain ⟨now, rest⟩ := q
    rw [hr] at h
    dsimp only at h
    obtain ⟨k1, k2⟩ := replaceKnown_iff given cls.inputs hg
    have hcomp := k1.mp (by rw [hr]; rfl)
    obtain ⟨n1, n2⟩ := k2 _ _ hr
    cases he : extra now with
    | none => rw [he] at h; cases h
    | some q =>
      obtain ⟨i, o⟩ := q
      rw [he] at h
      dsimp only at h
      unfold Config.new at h
      split at h
      · cases h
      · rename_i more hm
        split at hm
        · cases hm
        · cases hm
          split at h
          · cases h
          · rename_i c1 hc1
            have hd : (⟨i, mapAll (fun c => { c with allowDynamic := true, allowStatic := false, isStatic := false }) o, cls.maxChildren⟩ : Config).Dict := by
              refine ⟨(hx _ _ _ he).1, ?_⟩
              have : ∀ (g : Cont → Cont) (l : List (String × Cont)), (mapAll g l).map (·.1) = l.map (·.1) := by
                intro g l; simp [mapAll, Function.comp_def]
              rw [this]
              exact (hx _ _ _ he).2
            have hs := (c53_succeeds _ _ hd).mp (by rw [hc1])
            have hu := c53_union _ _ hd (by rw [hc1])
            rw [hc1] at hu
            obtain ⟨u1, u2, u3⟩ := hu
            obtain ⟨_, s1, s2⟩ := hs
            dsimp only at u1 u2 u3 s1 s2
            have hrest : (rest.map (·.1)).Nodup := by rw [n2]; exact (List.filter_sublist.map _).nodup hg
            obtain ⟨r1, r2⟩ := replaceRest_iff rest c1.inputs hrest
            cases hfin : replaceRest rest c1.inputs with
            | none => rw [hfin] at h; cases h
            | some fin =>
              rw [hfin] at h
              cases h
              have hrc := r1.mp (by rw [hfin]; rfl)
              have hfl := r2 _ hfin
              have nowSome : ∀ k x, now.lookup k = some x ↔ ∃ t, cls.inputs.lookup k = some t ∧ x = (given.lookup k).getD t := by
                intro k x
                rw [n1 k]
                cases cls.inputs.lookup k <;> simp [eq_comm]
              have apartI : Apart cls.inputs i := by
                intro k
                rcases s1 k with g | g
                · rw [n1 k] at g; exact .inl (by simpa using g)
                · exact .inr g
              have apartO : Apart cls.outputs o := by
                intro k
                rcases s2 k with g | g
                · exact .inl g
                · rw [lookup_mapAll] at g; exact .inr (by simpa using g)
              -- the entries of `rest` are those that the class does not know
              have hlk : ∀ k, rest.lookup k = if cls.inputs.lookup k = none then given.lookup k else none := by
                intro k
                rw [n2]
                clear n2 hrest r1 r2 hfl hrc hfin hr
                clear k1 k2 hcomp n1 nowSome
                induction given with
                | nil => simp
                | cons p given ih =>
                  obtain ⟨l, d⟩ := p
                  simp only [List.map_cons, List.nodup_cons] at hg
                  rw [List.filter_cons]
                  by_cases hkl : k = l
                  · subst hkl
                    split
                    · rename_i g
                      simp only [Option.isNone_iff_eq_none] at g
                      simp [List.lookup, g]
                    · rename_i g
                      rw [ih hg.2]
                      simp only [Option.isNone_iff_eq_none] at g
                      rw [if_neg g, if_neg g]
                  · have hb : (k == l) = false := by simpa using hkl
                    split
                    · simp only [List.lookup, hb]; exact ih hg.2
                    · rw [ih hg.2]; simp only [List.lookup, hb]
              refine ⟨now, i, o, he, nowSome, apartI, apartO, fun k x => ?_, fun k g hkg => ?_, fun k x => ?_, u3⟩
              · rw [hfl k]
                cases hcl : cls.inputs.lookup k with
                | some t =>
                  have hnow := (nowSome k _).mpr ⟨t, hcl, rfl⟩
                  have h1 := (u1 k _).mpr (.inl hnow)
                  have h2 : rest.lookup k = none := by rw [hlk, hcl]; simp
                  have hi : i.lookup k = none := (apartI k).resolve_left (by rw [hcl]; simp)
                  rw [h1, h2]
                  simp only [Option.map_some, Option.getD_none, Option.some.injEq, Declared, hcl, hi]
                  constructor
                  · rintro rfl; exact ⟨t, .inl rfl, rfl⟩
                  · rintro ⟨t', e | e, rfl⟩
                    · cases e; rfl
                    · cases e
                | none =>
                  have h2 : rest.lookup k = given.lookup k := by rw [hlk, hcl]; simp
                  have hc : c1.inputs.lookup k = i.lookup k := by
                    have hnow : now.lookup k = none := by rw [n1 k, hcl]; rfl
                    cases hi : i.lookup k with
                    | some t => exact (u1 k t).mpr (.inr hi)
                    | none =>
                      cases hcc : c1.inputs.lookup k with
                      | none => rfl
                      | some t =>
                        rcases (u1 k t).mp hcc with g | g
                        · rw [hnow] at g; cases g
                        · rw [hi] at g; cases g
                  rw [hc, h2]
                  simp only [Declared, hcl]
                  cases i.lookup k <;> simp [eq_comm]
              · cases hcl : cls.inputs.lookup k with
                | some t =>
                  exact ⟨t, .inl hcl, hcomp k g t (mem_of_lookup hkg) hcl⟩
                | none =>
                  have h2 : rest.lookup k = some g := by rw [hlk, hcl]; simpa using hkg
                  obtain ⟨t, h3, h4⟩ := hrc k g (mem_of_lookup h2)
                  refine ⟨t, .inr ?_, h4⟩
                  rcases (u1 k t).mp h3 with e | e
                  · rw [n1 k, hcl] at e; cases e
                  · exact e
              · rw [u2 k x, lookup_mapAll]
                cases o.lookup k <;> simp [eq_comm]

/-- C67: a node is created iff its own inputs can be determined and have new keys, and every given input is declared and compatible. -/
theorem c67_accepted (cls : Config) (extra : List (String × Cont) → Option (List (String × Cont) × List (String × Cont))) (given : List (String × Cont))
    (hg : (given.map (·.1)).Nodup) (i o : List (String × Cont)) (hi : (i.map (·.1)).Nodup) (ho : (o.map (·.1)).Nodup)
    (hx : ∀ now, (∀ k, now.lookup k = (cls.inputs.lookup k).map fun t => (given.lookup k).getD t) → extra now = some (i, o))
    (hm : o.any (·.2.ty.isTypeContainer) = false) :
    (create cls extra given).isSome = true ↔ Apart cls.inputs i ∧ Apart cls.outputs o ∧
      ∀ k g, given.lookup k = some g → ∃ t, Declared cls i k t ∧ t.isCompatible g = true := by
  have hd : (⟨i, mapAll (fun c => { c with allowDynamic := true, allowStatic := false, isStatic := false }) o, cls.maxChildren⟩ : Config).Dict := by
    refine ⟨hi, ?_⟩
    have : ∀ (g : Cont → Cont) (l : List (String × Cont)), (mapAll g l).map (·.1) = l.map (·.1) := by
      intro g l; simp [mapAll, Function.comp_def]
    rw [this]
    exact ho
  obtain ⟨k1, k2⟩ := replaceKnown_iff given cls.inputs hg
  constructor
  · intro h
    unfold create at h
    cases hr : replaceKnown given cls.inputs with
    | none => rw [hr] at h; cases h
    | some q =>
      obtain ⟨now, rest⟩ := q
      rw [hr] at h
      dsimp only at h
      have hcomp := k1.mp (by rw [hr]; rfl)
      obtain ⟨n1, n2⟩ := k2 _ _ hr
      rw [hx now n1] at h
      dsimp only at h
      unfold Config.new at h
      rw [if_neg (by rw [hm]; simp)] at h
      dsimp only at h
      split at h
      · cases h
      · rename_i c1 hc1
        obtain ⟨_, s1, s2⟩ := (c53_succeeds _ _ hd).mp (by rw [hc1])
        have hu := c53_union _ _ hd (by rw [hc1])
        rw [hc1] at hu
        obtain ⟨u1, _, _⟩ := hu
        dsimp only at u1 s1 s2
        have hrest : (rest.map (·.1)).Nodup := by rw [n2]; exact (List.filter_sublist.map _).nodup hg
        rw [Option.isSome_map] at h
        have hrc := (replaceRest_iff rest c1.inputs hrest).1.mp h
        refine ⟨fun k => ?_, fun k => ?_, fun k g hk => ?_⟩
        · rcases s1 k with e | e
          · rw [n1 k] at e; exact .inl (by simpa using e)
          · exact .inr e
        · rcases s2 k with e | e
          · exact .inl e
          · rw [lookup_mapAll] at e; exact .inr (by simpa using e)
        · cases hcl : cls.inputs.lookup k with
          | some t => exact ⟨t, .inl hcl, hcomp k g t (mem_of_lookup hk) hcl⟩
          | none =>
            have hmem : (k, g) ∈ rest := by rw [n2, List.mem_filter]; exact ⟨mem_of_lookup hk, by simp [hcl]⟩
            obtain ⟨t, h3, h4⟩ := hrc k g hmem
            rcases (u1 k t).mp h3 with e | e
            · rw [n1 k, hcl] at e; cases e
            · exact ⟨t, .inr e, h4⟩
  · rintro ⟨ha, hb, hc⟩
    have hk : (replaceKnown given cls.inputs).isSome = true := by
      refine k1.mpr fun k c t hkc hkt => ?_
      obtain ⟨t', h1, h2⟩ := hc k c (lookup_of_mem hg hkc)
      rcases h1 with h1 | h1
      · rw [hkt] at h1; cases h1; exact h2
      · rcases ha k with e | e
        · rw [hkt] at e; cases e
        · rw [h1] at e; cases e
    obtain ⟨⟨now, rest⟩, hr⟩ := Option.isSome_iff_exists.mp hk
    obtain ⟨n1, n2⟩ := k2 _ _ hr
    unfold create
    rw [hr]
    dsimp only
    rw [hx now n1]
    dsimp only
    unfold Config.new
    rw [if_neg (by rw [hm]; simp)]
    dsimp only
    have hs : (Config.extend { inputs := now, outputs := cls.outputs, maxChildren := cls.maxChildren }
        ⟨i, mapAll (fun c => { c with allowDynamic := true, allowStatic := false, isStatic := false }) o, cls.maxChildren⟩).2 = true := by
      refine (c53_succeeds _ _ hd).mpr ⟨rfl, fun k => ?_, fun k => ?_⟩
      · rcases ha k with e | e
        · exact .inl (by rw [n1 k, e]; rfl)
        · exact .inr e
      · rcases hb k with e | e
        · exact .inl e
        · exact .inr (by rw [lookup_mapAll, e]; rfl)
    have hu := c53_union _ _ hd hs
    cases hext : Config.extend { inputs := now, outputs := cls.outputs, maxChildren := cls.maxChildren }
        ⟨i, mapAll (fun c => { c with allowDynamic := true, allowStatic := false, isStatic := false }) o, cls.maxChildren⟩ with
    | mk c1 a =>
      rw [hext] at hs hu
      dsimp only at hs
      subst hs
      obtain ⟨u1, _, _⟩ := hu
      dsimp only at u1 ⊢
      rw [Option.isSome_map]
      have hrest : (rest.map (·.1)).Nodup := by rw [n2]; exact (List.filter_sublist.map _).nodup hg
      refine (replaceRest_iff rest c1.inputs hrest).1.mpr fun k c hkc => ?_
      rw [n2, List.mem_filter] at hkc
      obtain ⟨t, h1, h2⟩ := hc k c (lookup_of_mem hg hkc.1)
      have hcl : cls.inputs.lookup k = none := by simpa using hkc.2
      rcases h1 with h1 | h1
      · rw [hcl] at h1; cases h1
      · exact ⟨t, (u1 k t).mpr (.inr h1), h2⟩

/-- A class with an input that decides about the others: an enumeration adds one input per name. -/
def sampleClass : Config := ⟨[("n", small 0 9), ("names", { ty := .string 9 none, allowDynamic := false })], [("out", small 0 9)], some 0⟩

/-- Adds an input and an output named like the value of `names`. -/
def sampleExtra (inputs : List (String × Cont)) : Option (List (String × Cont) × List (String × Cont)) :=
  match inputs.lookup "names" with
  | some { value := some (.str s), .. } => some ([(s, small 0 9)], [(s, small 0 9)])
  | _ => none

/-- Both a known input and one that is added are given. -/
def sampleGiven : List (String × Cont) :=
  [("a", { small 1 5 with value := some (.int 3) }), ("names", { ty := .string 9 none, allowDynamic := false, value := some (.str "a") })]

example : (create sampleClass sampleExtra sampleGiven).isSome = true := by decide

example : ∀ d i o, sampleExtra d = some (i, o) → (i.map (·.1)).Nodup ∧ (o.map (·.1)).Nodup := by
  intro d i o h
  unfold sampleExtra at h
  split at h
  · cases h; simp
  · cases h

end Verif.Data
