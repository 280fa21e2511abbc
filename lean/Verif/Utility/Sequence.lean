import Verif.Utility.Spec

/-! C25, C26: the estimates of Sequence and Fallback are sound. -/

set_option autoImplicit false

namespace Verif.Utility
open Verif.BT (BTState Kind)

/-- The marks as a recursion over the children. -/
def spread : List Bounds → List Bounds → List Bounds
  | f :: fs, c :: cs => seqOwn f c :: spread (fs.map (seqLater · c)) cs
  | fs, [] => fs
  | [], _ => []

theorem seqMarks_split (pre : List Bounds) (f c : Bounds) (post : List Bounds) (n : Nat)
    (hn : pre.length = n) :
    seqMarks n c (pre ++ f :: post) = pre ++ seqOwn f c :: post.map (seqLater · c) := by
  subst hn
  apply List.ext_getElem
  · simp [seqMarks]
  intro i h1 h2
  simp only [seqMarks, List.getElem_mapIdx]
  rcases Nat.lt_trichotomy i pre.length with h | h | h
  · rw [if_neg (by omega), if_neg (by omega), List.getElem_append_left h, List.getElem_append_left h]
  · subst h
    simp
  · rw [if_neg (by omega), if_pos h]
    rw [List.getElem_append_right (by omega), List.getElem_append_right (by omega)]
    obtain ⟨j, hj⟩ : ∃ j, i - pre.length = j + 1 := ⟨i - pre.length - 1, by omega⟩
    simp [hj]

/-- The children whose estimates the loop uses. -/
def okAll (rs : List Res) (cs : List Bounds) : Prop := rs = cs.map .ok ∧ ∀ c ∈ cs, c.can = true

theorem seqLoop_spec (rs : List Res) : ∀ (pre fs : List Bounds) (b : Bounds),
    fs.length = rs.length → ∀ r, seqLoop pre.length rs b (pre ++ fs) = some r →
    ∃ cs, okAll rs cs ∧ r.1 = cs.foldl seqSum b ∧ r.2 = pre ++ spread fs cs := by
  induction rs with
  | nil =>
    intro pre fs b hl r hr
    simp only [seqLoop, Option.some.injEq] at hr
    subst hr
    exact ⟨[], ⟨rfl, by simp⟩, rfl, by cases fs <;> rfl⟩
  | cons r0 rs ih =>
    intro pre fs b hl r hr
    rcases fs with _ | ⟨f, fs⟩
    · simp at hl
    simp only [List.length_cons, Nat.add_right_cancel_iff] at hl
    unfold seqLoop at hr
    rcases r0 with e | c
    · simp at hr
    · simp only at hr
      split at hr
      · rename_i hc
        rw [seqMarks_split pre f c fs _ rfl] at hr
        have e1 : pre ++ seqOwn f c :: fs.map (seqLater · c)
            = (pre ++ [seqOwn f c]) ++ fs.map (seqLater · c) := by simp
        have e2 : pre.length + 1 = (pre ++ [seqOwn f c]).length := by simp
        rw [e1, e2] at hr
        obtain ⟨cs, ⟨ha, hb⟩, h2, h3⟩ := ih _ _ _ (by simpa using hl) r hr
        refine ⟨c :: cs, ⟨by rw [ha]; rfl, ?_⟩, h2, ?_⟩
        · intro x hx
          rcases List.mem_cons.1 hx with rfl | hx
          · exact hc
          · exact hb x hx
        · rw [h3]; simp [spread]
      · cases hr

theorem foldl_seqSum (cs : List Bounds) : ∀ b : Bounds,
    (cs.foldl seqSum b).ls = b.ls + (cs.map (·.ls)).sum ∧ (cs.foldl seqSum b).us = b.us + (cs.map (·.us)).sum
    ∧ ((cs.foldl seqSum b).hasLS = true → b.hasLS = true ∧ ∀ c ∈ cs, c.hasLS = true)
    ∧ ((cs.foldl seqSum b).hasUS = true → b.hasUS = true ∧ ∀ c ∈ cs, c.hasUS = true)
    ∧ (cs.foldl seqSum b).can = b.can := by
  induction cs with
  | nil => intro b; simp
  | cons c cs ih =>
    intro b
    obtain ⟨h1, h2, h3, h4, h5⟩ := ih (seqSum b c)
    simp only [List.foldl_cons, List.map_cons, List.sum_cons, List.mem_cons, forall_eq_or_imp]
    rw [h1, h2]
    refine ⟨by simp only [seqSum]; linarith, by simp only [seqSum]; linarith, fun h => ?_, fun h => ?_, by rw [h5]; rfl⟩
    · have := h3 h
      simp only [seqSum, Bool.and_eq_true] at this
      exact ⟨this.1.1, this.1.2, this.2⟩
    · have := h4 h
      simp only [seqSum, Bool.and_eq_true] at this
      exact ⟨this.1.1, this.1.2, this.2⟩

theorem spread_mem (pre : List Bounds) : ∀ (f c : Bounds) (post fs : List Bounds), (∀ g ∈ fs, g = f) →
    fs.length = pre.length + (post.length + 1) →
    ∃ g ∈ spread fs (pre ++ c :: post),
      g.lf = f.lf + (pre.map (·.ls)).sum + c.lf ∧ g.uf = f.uf + (pre.map (·.us)).sum + c.uf
      ∧ (g.hasLF = true → c.hasLF = true ∧ ∀ x ∈ pre, x.hasLS = true)
      ∧ (g.hasUF = true → c.hasUF = true ∧ ∀ x ∈ pre, x.hasUS = true) ∧
      (g.hasLF = true → f.hasLF = true) ∧ (g.hasUF = true → f.hasUF = true) := by
  induction pre with
  | nil =>
    intro f c post fs hfs hl
    rcases fs with _ | ⟨f', fs⟩
    · simp at hl
    have := hfs f' (by simp)
    subst this
    refine ⟨seqOwn f' c, by simp [spread], by simp [seqOwn], by simp [seqOwn], ?_, ?_, ?_, ?_⟩ <;>
      simp [seqOwn]
    exact fun h _ => h
    exact fun h _ => h
  | cons p pre ih =>
    intro f c post fs hfs hl
    rcases fs with _ | ⟨f', fs⟩
    · simp at hl
    obtain ⟨g, hg, h1, h2, h3, h4, h5, h6⟩ := ih (seqLater f p) c post (fs.map (seqLater · p))
      (by
        intro g hg
        obtain ⟨x, hx, rfl⟩ := List.mem_map.1 hg
        rw [hfs x (by simp [hx])]) (by simp only [List.length_map, List.length_cons] at hl ⊢; omega)
    simp only [seqLater, Bool.and_eq_true] at h1 h2 h5 h6
    refine ⟨g, by simp [spread, hg], ?_, ?_, ?_, ?_, fun h => (h5 h).1, fun h => (h6 h).1⟩
    · rw [h1]; simp only [List.map_cons, List.sum_cons]; linarith
    · rw [h2]; simp only [List.map_cons, List.sum_cons]; linarith
    · intro h
      refine ⟨(h3 h).1, ?_⟩
      intro x hx
      rcases List.mem_cons.1 hx with rfl | hx
      · exact (h5 h).2
      · exact (h3 h).2 x hx
    · intro h
      refine ⟨(h4 h).1, ?_⟩
      intro x hx
      rcases List.mem_cons.1 hx with rfl | hx
      · exact (h6 h).2
      · exact (h4 h).2 x hx

theorem minL_le (l : List Rat) (x : Rat) (h : x ∈ l) : minL l ≤ x := by
  induction l with
  | nil => cases h
  | cons a l ih =>
    rcases l with _ | ⟨b, l⟩
    · simp only [List.mem_singleton] at h; subst h; exact le_refl _
    · simp only [minL]
      rcases List.mem_cons.1 h with rfl | h
      · exact min_le_left _ _
      · exact le_trans (min_le_right _ _) (ih h)

theorem le_maxL (l : List Rat) (x : Rat) (h : x ∈ l) : x ≤ maxL l := by
  induction l with
  | nil => cases h
  | cons a l ih =>
    rcases l with _ | ⟨b, l⟩
    · simp only [List.mem_singleton] at h; subst h; exact le_refl _
    · simp only [maxL]
      rcases List.mem_cons.1 h with rfl | h
      · exact le_max_left _ _
      · exact le_trans (ih h) (le_max_right _ _)

/-- Sums of lower bounds are lower bounds of sums. -/
theorem sums_le {s : BTState} {key : Bounds → Rat} {has : Bounds → Bool} (bs : List Bounds) :
    ∀ (Es : List Costs) (cs : List Rat), Each s Es cs → bs.length = Es.length →
    (∀ b ∈ bs, has b = true) →
    List.Forall₂ (fun b E => has b = true → ∀ c, E s c → key b ≤ c) bs Es →
    (bs.map key).sum ≤ cs.sum := by
  induction bs with
  | nil =>
    intro Es cs he hl _ _
    cases Es with
    | nil => cases he; simp
    | cons => simp at hl
  | cons b bs ih =>
    intro Es cs he hl hh hs
    cases hs with
    | cons h1 h2 =>
      cases he with
      | cons h3 h4 =>
        have := ih _ _ h4 (by simpa using hl) (fun x hx => hh x (by simp [hx])) h2
        have := h1 (hh b (by simp)) _ h3
        simp only [List.map_cons, List.sum_cons]; linarith

theorem sums_ge {s : BTState} {key : Bounds → Rat} {has : Bounds → Bool} (bs : List Bounds) :
    ∀ (Es : List Costs) (cs : List Rat), Each s Es cs → bs.length = Es.length →
    (∀ b ∈ bs, has b = true) →
    List.Forall₂ (fun b E => has b = true → ∀ c, E s c → c ≤ key b) bs Es →
    cs.sum ≤ (bs.map key).sum := by
  induction bs with
  | nil =>
    intro Es cs he hl _ _
    cases Es with
    | nil => cases he; simp
    | cons => simp at hl
  | cons b bs ih =>
    intro Es cs he hl hh hs
    cases hs with
    | cons h1 h2 =>
      cases he with
      | cons h3 h4 =>
        have := ih _ _ h4 (by simpa using hl) (fun x hx => hh x (by simp [hx])) h2
        have := h1 (hh b (by simp)) _ h3
        simp only [List.map_cons, List.sum_cons]; linarith

theorem forall₂_ok {rs : List Res} {Es : List Costs} {cs : List Bounds}
    (h : List.Forall₂ SoundR rs Es) (hc : okAll rs cs) : List.Forall₂ Sound cs Es := by
  obtain ⟨h1, -⟩ := hc
  subst h1
  rw [List.forall₂_map_left_iff] at h
  exact h.imp fun a E h => h a rfl

theorem forall₂_imp_mem {α β : Type} {R S : α → β → Prop} {l : List α} {m : List β}
    (h : List.Forall₂ R l m) (hi : ∀ a ∈ l, ∀ b, R a b → S a b) : List.Forall₂ S l m := by
  induction h with
  | nil => exact .nil
  | cons h1 h2 ih =>
    exact .cons (hi _ (by simp) _ h1) (ih fun a ha b hb => hi a (by simp [ha]) b hb)

/-- The pieces of a decomposition. -/
theorem forall₂_split {α β : Type} {R : α → β → Prop} (p : List β) : ∀ (l : List α) (e : β) (q : List β),
    List.Forall₂ R l (p ++ e :: q) →
    ∃ l1 a l2, l = l1 ++ a :: l2 ∧ List.Forall₂ R l1 p ∧ R a e ∧ List.Forall₂ R l2 q := by
  induction p with
  | nil =>
    intro l e q h
    cases h with
    | cons h1 h2 => exact ⟨[], _, _, rfl, .nil, h1, h2⟩
  | cons x p ih =>
    intro l e q h
    cases h with
    | cons h1 h2 =>
      obtain ⟨l1, a, l2, rfl, h3, h4, h5⟩ := ih _ _ _ h2
      exact ⟨_ :: l1, a, l2, rfl, .cons h1 h3, h4, h5⟩

/-- **C25** For every list of children with sound estimates: every execution of the Sequence that
runs the children in order, each once, has a cost within the reported bounds. -/
theorem c25_sequence (rs : List Res) (Es : List Costs) (hs : List.Forall₂ SoundR rs Es) :
    SoundR (calcSequence rs) (SequenceCosts Es) := by
  intro b hb
  unfold calcSequence at hb
  split at hb
  · rename_i he
    simp only [List.isEmpty_iff] at he
    subst he
    cases hs
    simp only [Except.ok.injEq] at hb
    subst hb
    have key : ∀ s c, SequenceCosts [] s c → c = 0 := by
      intro s c h
      rcases h with ⟨_, cs, h1, h2⟩ | ⟨_, pre, E, post, cs, x, h1, _⟩
      · cases h1; simpa using h2
      · simp at h1
    constructor <;> intro _ _ c hc <;> rw [key _ _ hc] <;> exact le_refl _
  · split at hb
    · simp only [Except.ok.injEq] at hb
      subst hb
      constructor <;> intro h <;> simp at h
    · rename_i b0 fs hl
      simp only [Except.ok.injEq] at hb
      obtain ⟨cs, hok, h1, h2⟩ := seqLoop_spec rs [] (rs.map fun _ => seqInit) free (by simp) _ hl
      simp only [List.nil_append] at h2
      have hsc := forall₂_ok hs hok
      have hlen := hsc.length_eq
      have hrl : rs.length = cs.length := by rw [hok.1]; simp
      obtain ⟨f1, f2, f3, f4, f5⟩ := foldl_seqSum cs free
      rw [← h1] at f1 f2 f3 f4 f5
      have z : free.ls = 0 ∧ free.us = 0 := ⟨rfl, rfl⟩
      rw [z.1, zero_add] at f1
      rw [z.2, zero_add] at f2
      subst hb
      constructor
      · intro _ hh c hc
        simp only at hh ⊢
        rcases hc with ⟨_, xs, hx, rfl⟩ | ⟨h, _⟩
        · rw [f1]
          exact sums_le cs Es xs hx hlen (f3 hh).2
            (forall₂_imp_mem hsc fun a ha E hE => hE.ls (hok.2 a ha))
        · cases h
      · intro _ hh c hc
        simp only at hh ⊢
        rcases hc with ⟨_, xs, hx, rfl⟩ | ⟨h, _⟩
        · rw [f2]
          exact sums_ge cs Es xs hx hlen (f4 hh).2
            (forall₂_imp_mem hsc fun a ha E hE => hE.us (hok.2 a ha))
        · cases h
      · intro _ hh c hc
        simp only [Bool.and_eq_true, List.all_eq_true] at hh ⊢
        rcases hc with ⟨h, _⟩ | ⟨_, pre, E, post, xs, x, rfl, h4, h5, rfl⟩
        · cases h
        · obtain ⟨l1, a, l2, rfl, g1, g2, g3⟩ := forall₂_split pre cs E post hsc
          obtain ⟨g, hg, k1, -, k2, -, -, -⟩ := spread_mem l1 seqInit a l2 (rs.map fun _ => seqInit)
            (by simp) (by simp only [List.length_map]; rw [hrl]; simp)
          rw [← h2] at hg
          have := minL_le (fs.map (·.lf)) g.lf (List.mem_map_of_mem hg)
          refine le_trans this ?_
          obtain ⟨k3, k4⟩ := k2 (hh.2 g hg)
          rw [k1, show seqInit.lf = 0 from rfl]
          have a1 := sums_le l1 pre xs h4 g1.length_eq k4
            (forall₂_imp_mem g1 fun a ha E hE => hE.ls (hok.2 a (by simp [ha])))
          have a2 := g2.lf (hok.2 a (by simp)) k3 x h5
          linarith
      · intro _ hh c hc
        simp only [Bool.and_eq_true, List.all_eq_true] at hh ⊢
        rcases hc with ⟨h, _⟩ | ⟨_, pre, E, post, xs, x, rfl, h4, h5, rfl⟩
        · cases h
        · obtain ⟨l1, a, l2, rfl, g1, g2, g3⟩ := forall₂_split pre cs E post hsc
          obtain ⟨g, hg, -, k1, -, k2, -, -⟩ := spread_mem l1 seqInit a l2 (rs.map fun _ => seqInit)
            (by simp) (by simp only [List.length_map]; rw [hrl]; simp)
          rw [← h2] at hg
          have := le_maxL (fs.map (·.uf)) g.uf (List.mem_map_of_mem hg)
          refine le_trans ?_ this
          obtain ⟨k3, k4⟩ := k2 (hh.2 g hg)
          rw [k1, show seqInit.uf = 0 from rfl]
          have a1 := sums_ge l1 pre xs h4 g1.length_eq k4
            (forall₂_imp_mem g1 fun a ha E hE => hE.us (hok.2 a (by simp [ha])))
          have a2 := g2.uf (hok.2 a (by simp)) k3 x h5
          linarith

/-- Exchange of the two results. -/
def Bounds.swap (b : Bounds) : Bounds :=
  { can := b.can, hasLS := b.hasLF, hasUS := b.hasUF, hasLF := b.hasLS, hasUF := b.hasUS,
    ls := b.lf, us := b.uf, lf := b.ls, uf := b.us }

/-- Exchange of the two results in an answer. -/
def Res.swap : Res → Res
  | .ok b => .ok b.swap
  | .error e => .error e

/-- Exchange of the two results in a set of executions. -/
def Costs.swap (E : Costs) : Costs := fun s c =>
  match s with
  | .succeeded => E .failed c
  | .failed => E .succeeded c
  | s => E s c

theorem swap_swap (b : Bounds) : b.swap.swap = b := rfl

theorem sound_swap {b : Bounds} {E : Costs} (h : Sound b E) : Sound b.swap E.swap :=
  ⟨h.lf, h.uf, h.ls, h.us⟩

theorem soundR_swap {r : Res} {E : Costs} (h : SoundR r E) : SoundR (Res.swap r) E.swap := by
  intro b hb
  rcases r with e | c
  · cases hb
  · cases hb
    exact sound_swap (h c rfl)

theorem fbMarks_swap (n : Nat) (c : Bounds) (fs : List Bounds) :
    (fbMarks n c fs).map Bounds.swap = seqMarks n c.swap (fs.map Bounds.swap) := by
  apply List.ext_getElem
  · simp [fbMarks, seqMarks]
  intro i h1 h2
  simp only [fbMarks, seqMarks, List.getElem_map, List.getElem_mapIdx]
  split
  · rfl
  · split <;> rfl

theorem fbLoop_swap (rs : List Res) : ∀ (n : Nat) (b : Bounds) (fs : List Bounds),
    match fbLoop n rs b fs with
    | .inl (.error _) => True
    | .inl (.ok b') => b' = {}
    | .inr (b', fs') => seqLoop n (rs.map Res.swap) b.swap (fs.map Bounds.swap)
        = some (b'.swap, fs'.map Bounds.swap) := by
  induction rs with
  | nil => intro n b fs; simp [fbLoop, seqLoop]
  | cons r rs ih =>
    intro n b fs
    rcases r with e | c
    · simp [fbLoop]
    · simp only [fbLoop, List.map_cons, Res.swap, seqLoop]
      by_cases hc : c.can = true
      · rw [if_pos hc, if_pos (show c.swap.can = true from hc)]
        have := ih (n + 1) (fbSum b c) (fbMarks n c fs)
        rw [fbMarks_swap] at this
        exact this
      · rw [if_neg hc]

/-- Fallback computes what Sequence computes with the results exchanged, unless a child's estimate
is an error or says that it cannot execute. -/
theorem fallback_dual (rs : List Res) :
    calcFallback rs = .ok {} ∨ (∃ e, calcFallback rs = .error e)
      ∨ calcFallback rs = Res.swap (calcSequence (rs.map Res.swap)) := by
  unfold calcFallback calcSequence
  by_cases he : rs.isEmpty = true
  · right; right
    rw [if_pos he, if_pos (by simpa using he)]; rfl
  · rw [if_neg he, if_neg (by simpa using he)]
    have := fbLoop_swap rs 0 free (rs.map fun _ => fbInit)
    split
    · rename_i r hr
      rw [hr] at this
      rcases r with e | b
      · exact Or.inr (Or.inl ⟨e, rfl⟩)
      · left; simp only at this; rw [this]
    · rename_i b fs hr
      rw [hr] at this
      right; right
      simp only [List.map_map] at this ⊢
      rw [show ((fun _ => seqInit) ∘ Res.swap : Res → Bounds) = (Bounds.swap ∘ fun _ => fbInit) from rfl,
        show free = free.swap from rfl, this]
      simp only [Res.swap, List.map_map, Bounds.swap, List.all_map]
      rfl

theorem each_swap {s t : BTState} (hst : ∀ (E : Costs) c, E.swap s c ↔ E t c) (Es : List Costs) (cs : List Rat) :
    Each s (Es.map Costs.swap) cs ↔ Each t Es cs := by
  unfold Each
  rw [List.forall₂_map_left_iff]
  constructor <;> intro h <;> exact h.imp fun E c h => by first | exact (hst E c).1 h | exact (hst E c).2 h

/-- **C26** For every list of children with sound estimates: every execution of the Fallback that
runs the children in order, each once, has a cost within the reported bounds. -/
theorem c26_fallback (rs : List Res) (Es : List Costs) (hs : List.Forall₂ SoundR rs Es) :
    SoundR (calcFallback rs) (FallbackCosts Es) := by
  rcases fallback_dual rs with h | ⟨e, h⟩ | h
  · intro b hb
    rw [h] at hb
    cases hb
    constructor <;> intro h <;> simp at h
  · intro b hb
    rw [h] at hb
    cases hb
  · rw [h]
    have h1 : List.Forall₂ SoundR (rs.map Res.swap) (Es.map Costs.swap) := by
      rw [List.forall₂_map_left_iff, List.forall₂_map_right_iff]
      exact hs.imp fun r E h => soundR_swap h
    have h2 := soundR_swap (c25_sequence _ _ h1)
    intro b hb
    have h3 := h2 b hb
    have hS : ∀ (E : Costs) c, E.swap .succeeded c ↔ E .failed c := fun _ _ => Iff.rfl
    have hF : ∀ (E : Costs) c, E.swap .failed c ↔ E .succeeded c := fun _ _ => Iff.rfl
    have kS : ∀ c, FallbackCosts Es .succeeded c → (SequenceCosts (Es.map Costs.swap)).swap .succeeded c := by
      intro c hc
      rcases hc with ⟨h, _⟩ | ⟨_, pre, E, post, cs, x, rfl, h4, h5, rfl⟩
      · cases h
      · exact Or.inr ⟨rfl, pre.map Costs.swap, E.swap, post.map Costs.swap, cs, x, by simp,
          (each_swap hS pre cs).2 h4, h5, rfl⟩
    have kF : ∀ c, FallbackCosts Es .failed c → (SequenceCosts (Es.map Costs.swap)).swap .failed c := by
      intro c hc
      rcases hc with ⟨_, cs, h4, rfl⟩ | ⟨h, _⟩
      · exact Or.inl ⟨rfl, cs, (each_swap hS Es cs).2 h4, rfl⟩
      · cases h
    exact ⟨fun a b c hc => h3.ls a b c (kS c hc), fun a b c hc => h3.us a b c (kS c hc),
      fun a b c hc => h3.lf a b c (kF c hc), fun a b c hc => h3.uf a b c (kF c hc)⟩

/-- A child that succeeds at a cost between 1 and 3 and fails at a cost between 2 and 4. -/
def sampleBounds : Bounds :=
  { can := true, hasLS := true, hasUS := true, hasLF := true, hasUF := true, ls := 1, us := 3, lf := 2, uf := 4 }

/-- Executions within these bounds. -/
def sampleCosts : Costs := fun s c => (s = .succeeded ∧ 1 ≤ c ∧ c ≤ 3) ∨ (s = .failed ∧ 2 ≤ c ∧ c ≤ 4)

theorem sample_sound : Sound sampleBounds sampleCosts := by
  constructor <;> intro _ _ c hc <;> rcases hc with ⟨h, h1, h2⟩ | ⟨h, h1, h2⟩ <;>
    first | cases h; done | exact h1 | exact h2

example : List.Forall₂ SoundR [.ok sampleBounds, .ok sampleBounds] [sampleCosts, sampleCosts] :=
  .cons (fun _ h => by cases h; exact sample_sound) (.cons (fun _ h => by cases h; exact sample_sound) .nil)

example : calcSequence [.ok sampleBounds, .ok sampleBounds] =
    .ok { can := true, hasLS := true, hasUS := true, hasLF := true, hasUF := true,
          ls := 2, us := 6, lf := 2, uf := 7 } := by decide +kernel

example : calcFallback [.ok sampleBounds, .ok sampleBounds] =
    .ok { can := true, hasLS := true, hasUS := true, hasLF := true, hasUF := true,
          ls := 1, us := 7, lf := 4, uf := 8 } := by decide +kernel

example : SequenceCosts [sampleCosts, sampleCosts] .failed 5 :=
  Or.inr ⟨rfl, [sampleCosts], sampleCosts, [], [3], 2, rfl, .cons (Or.inl ⟨rfl, by decide, by decide⟩) .nil,
    Or.inr ⟨rfl, by decide, by decide⟩, by decide +kernel⟩

/-- `Attained b E`: the bounds are themselves costs of executions. -/
structure Attained (b : Bounds) (E : Costs) : Prop where
  ls : E .succeeded b.ls
  us : E .succeeded b.us
  lf : E .failed b.lf
  uf : E .failed b.uf

theorem attained_swap {b : Bounds} {E : Costs} (h : Attained b E) : Attained b.swap E.swap :=
  ⟨h.lf, h.uf, h.ls, h.us⟩

theorem minL_mem (l : List Rat) (h : l ≠ []) : minL l ∈ l := by
  induction l with
  | nil => exact absurd rfl h
  | cons a l ih =>
    rcases l with _ | ⟨b, l⟩
    · simp [minL]
    · simp only [minL]
      rcases min_choice a (minL (b :: l)) with h | h <;> rw [h]
      · simp
      · exact List.mem_cons_of_mem _ (ih (by simp))

theorem maxL_mem (l : List Rat) (h : l ≠ []) : maxL l ∈ l := by
  induction l with
  | nil => exact absurd rfl h
  | cons a l ih =>
    rcases l with _ | ⟨b, l⟩
    · simp [maxL]
    · simp only [maxL]
      rcases max_choice a (maxL (b :: l)) with h | h <;> rw [h]
      · simp
      · exact List.mem_cons_of_mem _ (ih (by simp))

theorem mem_spread (cs : List Bounds) : ∀ (f : Bounds) (fs : List Bounds), (∀ g ∈ fs, g = f) →
    fs.length = cs.length → ∀ g ∈ spread fs cs, ∃ pre c post, cs = pre ++ c :: post ∧
      g.lf = f.lf + (pre.map (·.ls)).sum + c.lf ∧ g.uf = f.uf + (pre.map (·.us)).sum + c.uf := by
  induction cs with
  | nil =>
    intro f fs _ hl g hg
    rcases fs with _ | ⟨f', fs⟩
    · cases hg
    · simp at hl
  | cons p cs ih =>
    intro f fs hfs hl g hg
    rcases fs with _ | ⟨f', fs⟩
    · simp at hl
    have := hfs f' (by simp)
    subst this
    simp only [spread, List.mem_cons] at hg
    rcases hg with rfl | hg
    · exact ⟨[], p, cs, rfl, by simp [seqOwn], by simp [seqOwn]⟩
    · obtain ⟨pre, c, post, rfl, h1, h2⟩ := ih (seqLater f' p) (fs.map (seqLater · p))
        (by
          intro g hg
          obtain ⟨x, hx, rfl⟩ := List.mem_map.1 hg
          rw [hfs x (by simp [hx])]) (by simpa using hl) g hg
      refine ⟨p :: pre, c, post, rfl, ?_, ?_⟩
      · rw [h1]; simp only [seqLater, List.map_cons, List.sum_cons]; linarith
      · rw [h2]; simp only [seqLater, List.map_cons, List.sum_cons]; linarith

theorem each_of {s : BTState} {key : Bounds → Rat} (bs : List Bounds) (Es : List Costs)
    (h : List.Forall₂ (fun b E => E s (key b)) bs Es) : Each s Es (bs.map key) := by
  induction h with
  | nil => exact .nil
  | cons h1 h2 ih => exact .cons h1 ih

/-- **C25, C26** The bounds are not merely safe: if the children's bounds are attained then the
bounds reported by a Sequence with children are attained by an execution of the Sequence. -/
theorem c25_sequence_tight (rs : List Res) (Es : List Costs) (hne : rs ≠ [])
    (hs : List.Forall₂ (fun r E => ∃ b, r = .ok b ∧ b.can = true ∧ Attained b E) rs Es) :
    ∃ b, calcSequence rs = .ok b ∧ b.can = true ∧ Attained b (SequenceCosts Es) := by
  have hcs : ∃ cs, okAll rs cs ∧ List.Forall₂ Attained cs Es := by
    clear hne
    induction hs with
    | nil => exact ⟨[], ⟨rfl, by simp⟩, .nil⟩
    | cons h1 _ ih =>
      obtain ⟨b, rfl, hb, ha⟩ := h1
      obtain ⟨cs, ⟨rfl, h2⟩, h3⟩ := ih
      exact ⟨b :: cs, ⟨rfl, by simpa [hb] using h2⟩, .cons ha h3⟩
  obtain ⟨cs, hok, hat⟩ := hcs
  have hnn : ∀ (rs : List Res) (cs : List Bounds), okAll rs cs → ∀ n b fs, seqLoop n rs b fs ≠ none := by
    intro rs
    induction rs with
    | nil => intro cs _ n b fs; simp [seqLoop]
    | cons r rs ih =>
      intro cs ⟨h1, h2⟩ n b fs
      rcases cs with _ | ⟨c, cs⟩
      · simp at h1
      simp only [List.map_cons, List.cons.injEq] at h1
      obtain ⟨rfl, h1⟩ := h1
      unfold seqLoop
      simp only [h2 c (by simp), if_true]
      exact ih cs ⟨h1, fun x hx => h2 x (by simp [hx])⟩ _ _ _
  unfold calcSequence
  rw [if_neg (by simpa using hne)]
  split
  · rename_i h; exact absurd h (hnn rs cs hok _ _ _)
  · rename_i b0 fs hl
    obtain ⟨cs', hok', h1, h2⟩ := seqLoop_spec rs [] (rs.map fun _ => seqInit) free (by simp) _ hl
    have hcc : cs' = cs := by
      have := hok.1.symm.trans hok'.1
      exact (List.map_injective_iff.2 (fun a b h => by cases h; rfl) this).symm
    subst hcc
    simp only [List.nil_append] at h2
    have hrl : rs.length = cs'.length := by rw [hok.1]; simp
    obtain ⟨f1, f2, -, -, f5⟩ := foldl_seqSum cs' free
    rw [← h1] at f1 f2 f5
    rw [show free.ls = 0 from rfl, zero_add] at f1
    rw [show free.us = 0 from rfl, zero_add] at f2
    have hfs : fs ≠ [] := by
      rcases cs' with _ | ⟨c, cs⟩
      · simp at hrl; exact absurd hrl hne
      · rcases rs with _ | ⟨r, rs⟩
        · exact absurd rfl hne
        · rw [h2]; simp [spread]
    have hsp := mem_spread cs' seqInit (rs.map fun _ => seqInit) (by simp) (by simpa using hrl)
    rw [← h2] at hsp
    refine ⟨_, rfl, f5, ?_, ?_, ?_, ?_⟩
    · exact Or.inl ⟨rfl, _, each_of cs' Es (hat.imp fun b E h => h.ls), f1⟩
    · exact Or.inl ⟨rfl, _, each_of cs' Es (hat.imp fun b E h => h.us), f2⟩
    · obtain ⟨g, hg, hge⟩ := List.mem_map.1 (minL_mem (fs.map (·.lf)) (by simpa using hfs))
      obtain ⟨pre, c, post, rfl, k1, -⟩ := hsp g hg
      obtain ⟨e1, e, e2, rfl, q1, q2, -⟩ := forall₂_split pre Es c post hat.flip
      refine Or.inr ⟨rfl, e1, e, e2, _, _, rfl, each_of pre e1 (q1.flip.imp fun b E h => h.ls), q2.lf, ?_⟩
      simp only [← hge, k1]; simp [seqInit]
    · obtain ⟨g, hg, hge⟩ := List.mem_map.1 (maxL_mem (fs.map (·.uf)) (by simpa using hfs))
      obtain ⟨pre, c, post, rfl, -, k1⟩ := hsp g hg
      obtain ⟨e1, e, e2, rfl, q1, q2, -⟩ := forall₂_split pre Es c post hat.flip
      refine Or.inr ⟨rfl, e1, e, e2, _, _, rfl, each_of pre e1 (q1.flip.imp fun b E h => h.us), q2.uf, ?_⟩
      simp only [← hge, k1]; simp [seqInit]

/-- **C26** As for the Sequence: the bounds a Fallback with children reports are attained. -/
theorem c26_fallback_tight (rs : List Res) (Es : List Costs) (hne : rs ≠ [])
    (hs : List.Forall₂ (fun r E => ∃ b, r = .ok b ∧ b.can = true ∧ Attained b E) rs Es) :
    ∃ b, calcFallback rs = .ok b ∧ b.can = true ∧ Attained b (FallbackCosts Es) := by
  have h1 : List.Forall₂ (fun r E => ∃ b, r = .ok b ∧ b.can = true ∧ Attained b E)
      (rs.map Res.swap) (Es.map Costs.swap) := by
    rw [List.forall₂_map_left_iff, List.forall₂_map_right_iff]
    refine hs.imp fun r E h => ?_
    obtain ⟨b, rfl, hb, ha⟩ := h
    exact ⟨b.swap, rfl, hb, attained_swap ha⟩
  obtain ⟨b, hb, hcan, ha⟩ := c25_sequence_tight _ _ (by simpa using hne) h1
  have hloop : ∀ (rs : List Res) (Es : List Costs),
      List.Forall₂ (fun r E => ∃ b, r = .ok b ∧ b.can = true ∧ Attained b E) rs Es →
      ∀ n b fs, ∃ x, fbLoop n rs b fs = .inr x := by
    intro rs Es h
    induction h with
    | nil => intro n b fs; exact ⟨_, rfl⟩
    | cons h1 _ ih =>
      obtain ⟨b, rfl, hb, -⟩ := h1
      intro n b' fs
      simp only [fbLoop, hb, if_true]
      exact ih _ _ _
  have hfb : calcFallback rs = Res.swap (calcSequence (rs.map Res.swap)) := by
    have hsw := fbLoop_swap rs 0 free (rs.map fun _ => fbInit)
    unfold calcFallback calcSequence
    rw [if_neg (by simpa using hne), if_neg (by simpa using hne)]
    obtain ⟨⟨b', fs⟩, hx⟩ := hloop rs Es hs 0 free (rs.map fun _ => fbInit)
    rw [hx] at hsw ⊢
    simp only [List.map_map] at hsw ⊢
    rw [show ((fun _ => seqInit) ∘ Res.swap : Res → Bounds) = (Bounds.swap ∘ fun _ => fbInit) from rfl,
      show free = free.swap from rfl, hsw]
    simp only [Res.swap, List.map_map, Bounds.swap, List.all_map]
    rfl
  have hEs : ∀ s c, SequenceCosts (Es.map Costs.swap) s c → s = .succeeded ∨ s = .failed → FallbackCosts Es
      (match s with | .succeeded => .failed | _ => .succeeded) c := by
    have hS : ∀ (E : Costs) c, E.swap .succeeded c ↔ E .failed c := fun _ _ => Iff.rfl
    rintro s c (⟨rfl, cs, h4, rfl⟩ | ⟨rfl, pre, E, post, cs, x, he, h4, h5, rfl⟩) _
    · exact Or.inl ⟨rfl, cs, (each_swap hS Es cs).1 h4, rfl⟩
    · obtain ⟨p, q, rfl, rfl, hq⟩ := List.map_eq_append_iff.1 he
      obtain ⟨e, q', rfl, rfl, rfl⟩ := List.map_eq_cons_iff.1 hq
      exact Or.inr ⟨rfl, p, e, q', cs, x, rfl, (each_swap hS p cs).1 h4, h5, rfl⟩
  refine ⟨b.swap, by rw [hfb, hb]; rfl, hcan, ?_, ?_, ?_, ?_⟩
  · exact hEs _ _ ha.lf (Or.inr rfl)
  · exact hEs _ _ ha.uf (Or.inr rfl)
  · exact hEs _ _ ha.ls (Or.inl rfl)
  · exact hEs _ _ ha.us (Or.inl rfl)

/-- All four bounds are reported. -/
def Bounds.Full (b : Bounds) : Prop :=
  b.can = true ∧ b.hasLS = true ∧ b.hasUS = true ∧ b.hasLF = true ∧ b.hasUF = true

theorem seqLoop_full (rs : List Res) : ∀ (n : Nat) (b : Bounds) (fs : List Bounds),
    (∀ r ∈ rs, ∃ c, r = .ok c ∧ c.Full) → b.Full → (∀ f ∈ fs, f.hasLF = true ∧ f.hasUF = true) →
    ∃ b' fs', seqLoop n rs b fs = some (b', fs') ∧ b'.Full ∧ ∀ f ∈ fs', f.hasLF = true ∧ f.hasUF = true := by
  induction rs with
  | nil => intro n b fs _ hb hf; exact ⟨b, fs, rfl, hb, hf⟩
  | cons r rs ih =>
    intro n b fs hr hb hf
    obtain ⟨c, rfl, hc⟩ := hr r (by simp)
    simp only [seqLoop, hc.1, if_true]
    refine ih _ _ _ (fun r hx => hr r (by simp [hx])) ?_ ?_
    · simp [Bounds.Full, seqSum, hb.1, hb.2.1, hb.2.2.1, hb.2.2.2.1, hb.2.2.2.2, hc.2.1, hc.2.2.1]
    · intro f hx
      simp only [seqMarks, List.mem_mapIdx] at hx
      obtain ⟨i, hi, rfl⟩ := hx
      have := hf fs[i] (List.getElem_mem _)
      split
      · simp [seqOwn, this.1, this.2, hc.2.2.2.1, hc.2.2.2.2]
      · split
        · simp [seqLater, this.1, this.2, hc.2.1, hc.2.2.1]
        · exact this

/-- **C25** A Sequence reports all bounds if all children do. -/
theorem c25_sequence_full (rs : List Res) (h : ∀ r ∈ rs, ∃ c, r = .ok c ∧ c.Full) :
    ∃ b, calcSequence rs = .ok b ∧ b.Full := by
  unfold calcSequence
  split
  · exact ⟨_, rfl, rfl, rfl, rfl, rfl, rfl⟩
  · obtain ⟨b', fs', h1, h2, h3⟩ := seqLoop_full rs 0 free (rs.map fun _ => seqInit) h
      ⟨rfl, rfl, rfl, rfl, rfl⟩ (by simp [seqInit])
    rw [h1]
    refine ⟨_, rfl, h2.1, h2.2.1, h2.2.2.1, ?_, ?_⟩
    · simp only [h2.2.2.2.1, Bool.true_and, List.all_eq_true]; exact fun f hf => (h3 f hf).1
    · simp only [h2.2.2.2.2, Bool.true_and, List.all_eq_true]; exact fun f hf => (h3 f hf).2

/-- **C26** A Fallback reports all bounds if all children do. -/
theorem c26_fallback_full (rs : List Res) (h : ∀ r ∈ rs, ∃ c, r = .ok c ∧ c.Full) :
    ∃ b, calcFallback rs = .ok b ∧ b.Full := by
  have hnl : ∀ (rs : List Res) n b fs, (∀ r ∈ rs, ∃ c, r = .ok c ∧ c.Full) →
      ∃ x, fbLoop n rs b fs = .inr x := by
    intro rs
    induction rs with
    | nil => intro n b fs _; exact ⟨_, rfl⟩
    | cons r rs ih =>
      intro n b fs hr
      obtain ⟨c, rfl, hc⟩ := hr r (by simp)
      simp only [fbLoop, hc.1, if_true]
      exact ih _ _ _ fun r hx => hr r (by simp [hx])
  obtain ⟨b, hb, h1, h2, h3, h4, h5⟩ := c25_sequence_full (rs.map Res.swap) (by
    intro r hr
    obtain ⟨x, hx, rfl⟩ := List.mem_map.1 hr
    obtain ⟨c, rfl, h1, h2, h3, h4, h5⟩ := h x hx
    exact ⟨c.swap, rfl, h1, h4, h5, h2, h3⟩)
  refine ⟨b.swap, ?_, h1, h4, h5, h2, h3⟩
  by_cases hne : rs = []
  · subst hne; cases hb; rfl
  · have hsw := fbLoop_swap rs 0 free (rs.map fun _ => fbInit)
    obtain ⟨⟨b', fs⟩, hx⟩ := hnl rs 0 free (rs.map fun _ => fbInit) h
    have : Res.swap (calcSequence (rs.map Res.swap)) = Res.swap (.ok b) := by rw [hb]
    rw [show Res.swap (.ok b) = .ok b.swap from rfl] at this
    rw [← this]
    unfold calcFallback calcSequence
    rw [if_neg (by simpa using hne), if_neg (by simpa using hne), hx]
    rw [hx] at hsw
    simp only [List.map_map] at hsw ⊢
    rw [show ((fun _ => seqInit) ∘ Res.swap : Res → Bounds) = (Bounds.swap ∘ fun _ => fbInit) from rfl,
      show free = free.swap from rfl, hsw]
    simp only [Res.swap, List.map_map, Bounds.swap, List.all_map]
    rfl

example : sampleBounds.Full := ⟨rfl, rfl, rfl, rfl, rfl⟩

example : Attained sampleBounds sampleCosts :=
  ⟨Or.inl ⟨rfl, by decide, by decide⟩, Or.inl ⟨rfl, by decide, by decide⟩,
    Or.inr ⟨rfl, by decide, by decide⟩, Or.inr ⟨rfl, by decide, by decide⟩⟩

end Verif.Utility
