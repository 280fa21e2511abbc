import Mathlib.Algebra.BigOperators.Group.List.Basic
import Mathlib.Data.List.Perm.Subperm
import Verif.Utility.Sequence

/-! C27, C28: the estimates of Parallel and of the decorators. -/

set_option autoImplicit false

namespace Verif.Utility
open Verif.BT (BTState Kind)

/-- Every number of the estimate bounds the costs, whether flagged or not. -/
structure Numbers (b : Bounds) (E : Costs) : Prop where
  ls : b.can = true → ∀ c, E .succeeded c → b.ls ≤ c
  us : b.can = true → ∀ c, E .succeeded c → c ≤ b.us
  lf : b.can = true → ∀ c, E .failed c → b.lf ≤ c
  uf : b.can = true → ∀ c, E .failed c → c ≤ b.uf

theorem take_le_sublist (key : Bounds → Rat) (L s : List Bounds) (h : s.Sublist L)
    (hs : L.Pairwise fun a b => key a ≤ key b) :
    ((L.take s.length).map key).sum ≤ (s.map key).sum := by
  have shift : ∀ (a : Bounds) (L : List Bounds), (a :: L).Pairwise (fun a b => key a ≤ key b) →
      ∀ k, k ≤ L.length → (((a :: L).take k).map key).sum ≤ ((L.take k).map key).sum := by
    intro a L
    induction L generalizing a with
    | nil => intro _ k hk; simp at hk; simp [hk]
    | cons b L ih =>
      intro hp k hk
      rcases k with _ | k
      · simp
      · have h1 := ih b (List.pairwise_cons.1 hp).2 k (by simpa using hk)
        have h2 := (List.pairwise_cons.1 hp).1 b (by simp)
        simp only [List.take_succ_cons, List.map_cons, List.sum_cons] at h1 ⊢
        linarith
  induction h with
  | slnil => simp
  | cons a h ih =>
    exact le_trans (shift a _ hs _ h.length_le) (ih (List.pairwise_cons.1 hs).2)
  | cons_cons a h ih =>
    have := ih (List.pairwise_cons.1 hs).2
    simp only [List.length_cons, List.take_succ_cons, List.map_cons, List.sum_cons]
    linarith

theorem sublist_le_take (key : Bounds → Rat) (L s : List Bounds) (h : s.Sublist L)
    (hs : L.Pairwise fun a b => key b ≤ key a) :
    (s.map key).sum ≤ ((L.take s.length).map key).sum := by
  have shift : ∀ (a : Bounds) (L : List Bounds), (a :: L).Pairwise (fun a b => key b ≤ key a) →
      ∀ k, k ≤ L.length → ((L.take k).map key).sum ≤ (((a :: L).take k).map key).sum := by
    intro a L
    induction L generalizing a with
    | nil => intro _ k hk; simp at hk; simp [hk]
    | cons b L ih =>
      intro hp k hk
      rcases k with _ | k
      · simp
      · have h1 := ih b (List.pairwise_cons.1 hp).2 k (by simpa using hk)
        have h2 := (List.pairwise_cons.1 hp).1 b (by simp)
        simp only [List.take_succ_cons, List.map_cons, List.sum_cons] at h1 ⊢
        linarith
  induction h with
  | slnil => simp
  | cons a h ih =>
    exact le_trans (ih (List.pairwise_cons.1 hs).2) (shift a _ hs _ h.length_le)
  | cons_cons a h ih =>
    have := ih (List.pairwise_cons.1 hs).2
    simp only [List.length_cons, List.take_succ_cons, List.map_cons, List.sum_cons]
    linarith

theorem sum_perm (key : Bounds → Rat) {a b : List Bounds} (h : a.Perm b) :
    (a.map key).sum = (b.map key).sum := (h.map key).sum_eq

theorem insertBy_perm (le : Bounds → Bounds → Bool) (a : Bounds) (l : List Bounds) :
    (insertBy le a l).Perm (a :: l) := by
  induction l with
  | nil => exact .refl _
  | cons b l ih =>
    unfold insertBy
    split
    · exact .refl _
    · exact (ih.cons b).trans (.swap a b l)

theorem sortBy_perm (le : Bounds → Bounds → Bool) (l : List Bounds) : (sortBy le l).Perm l := by
  induction l with
  | nil => exact .refl _
  | cons a l ih => exact (insertBy_perm le a _).trans (ih.cons a)

theorem sortBy_sorted (le : Bounds → Bounds → Bool) (ht : ∀ a b c, le a b → le b c → le a c)
    (hl : ∀ a b, le a b ∨ le b a) (l : List Bounds) : (sortBy le l).Pairwise fun a b => le a b := by
  induction l with
  | nil => exact .nil
  | cons a l ih =>
    show (insertBy le a (sortBy le l)).Pairwise _
    generalize sortBy le l = m at ih
    induction m with
    | nil => simp [insertBy]
    | cons b m ih2 =>
      unfold insertBy
      have hb := List.pairwise_cons.1 ih
      split
      · rename_i h
        exact .cons (by
          intro x hx
          rcases List.mem_cons.1 hx with rfl | hx
          · exact h
          · exact ht _ _ _ h (hb.1 x hx)) ih
      · rename_i h
        refine .cons ?_ (ih2 hb.2)
        intro x hx
        rcases List.mem_cons.1 ((insertBy_perm le a m).subset hx) with rfl | hx
        · exact (hl _ _).resolve_left h
        · exact hb.1 x hx

theorem sortAsc_sorted (key : Bounds → Rat) (xs : List Bounds) :
    (sortAsc key xs).Pairwise fun a b => key a ≤ key b := by
  have := sortBy_sorted (fun a b => decide (key a ≤ key b))
    (by intro a b c h1 h2; simp only [decide_eq_true_eq] at *; exact le_trans h1 h2)
    (by intro a b; simp only [decide_eq_true_eq]; exact le_total _ _) xs
  exact this.imp fun h => by simpa using h

theorem sortDesc_sorted (key : Bounds → Rat) (xs : List Bounds) :
    (sortDesc key xs).Pairwise fun a b => key b ≤ key a := by
  have := sortBy_sorted (fun a b => decide (key b ≤ key a))
    (by intro a b c h1 h2; simp only [decide_eq_true_eq] at *; exact le_trans h2 h1)
    (by intro a b; simp only [decide_eq_true_eq]; exact le_total _ _) xs
  exact this.imp fun h => by simpa using h

/-- The `k` cheapest cost at most as much as any `k`. -/
theorem best_le (key : Bounds → Rat) (bs s : List Bounds) (h : s.Sublist bs) :
    (((sortAsc key bs).take s.length).map key).sum ≤ (s.map key).sum := by
  have hp : (sortAsc key bs).Perm bs := sortBy_perm _ _
  obtain ⟨s', h1, h2⟩ := (List.Sublist.subperm h).trans hp.symm.subperm
  rw [← sum_perm key h1, ← h1.length_eq]
  exact take_le_sublist key _ _ h2 (sortAsc_sorted key bs)

theorem le_worst (key : Bounds → Rat) (bs s : List Bounds) (h : s.Sublist bs) :
    (s.map key).sum ≤ (((sortDesc key bs).take s.length).map key).sum := by
  have hp : (sortDesc key bs).Perm bs := sortBy_perm _ _
  obtain ⟨s', h1, h2⟩ := (List.Sublist.subperm h).trans hp.symm.subperm
  rw [← sum_perm key h1, ← h1.length_eq]
  exact sublist_le_take key _ _ h2 (sortDesc_sorted key bs)

theorem sublist_forall₂ {α β : Type} {R : α → β → Prop} {l : List α} {m s : List β}
    (h : List.Forall₂ R l m) (hs : s.Sublist m) : ∃ t, t.Sublist l ∧ List.Forall₂ R t s := by
  induction hs generalizing l with
  | slnil => cases h; exact ⟨[], .slnil, .nil⟩
  | cons a _ ih =>
    cases h with
    | cons h1 h2 =>
      obtain ⟨t, ht, hr⟩ := ih h2
      exact ⟨t, ht.cons _, hr⟩
  | cons_cons a _ ih =>
    cases h with
    | cons h1 h2 =>
      obtain ⟨t, ht, hr⟩ := ih h2
      exact ⟨_ :: t, ht.cons_cons _, .cons h1 hr⟩

theorem allOk_spec {rs : List Res} {bs : List Bounds} (h : allOk rs = .ok bs) : rs = bs.map .ok := by
  induction rs generalizing bs with
  | nil => cases h; rfl
  | cons r rs ih =>
    rcases r with e | b
    · cases h
    · simp only [allOk] at h
      cases hr : allOk rs with
      | error e => rw [hr] at h; cases h
      | ok bs' =>
        rw [hr] at h
        cases h
        rw [ih hr]; rfl

theorem allOk_map (bs : List Bounds) : allOk (bs.map .ok) = .ok bs := by
  induction bs with
  | nil => rfl
  | cons b bs ih => simp only [List.map_cons, allOk, ih]; rfl

/-- **C27** (partial: the children's numbers have to be right whether or not they are flagged, see
`c27_missing_bound`; the costs of children that did not decide the result are not covered, see
`c27_lower_with_more` and `c27_more_successes`). Every execution of a Parallel whose result was
decided by `need` successes or `n - need + 1` failures has a cost within the reported bounds. -/
theorem c27_parallel_partial (need : Nat) (rs : List Res) (Es : List Costs)
    (hs : List.Forall₂ (fun r E => ∀ b, r = .ok b → Numbers b E) rs Es) :
    SoundR (calcParallel need rs) (ParallelCosts need Es) := by
  intro b hb
  unfold calcParallel at hb
  split at hb
  · cases hb
  · split at hb
    · cases hb
    · rename_i hlt bs hbs
      split at hb
      · rename_i hcan
        simp only [List.all_eq_true] at hcan
        have hrs := allOk_spec hbs
        have hlen : rs.length = Es.length := hs.length_eq
        have hN : List.Forall₂ Numbers bs Es := by
          rw [hrs, List.forall₂_map_left_iff] at hs
          exact hs.imp fun b E h => h b rfl
        have hft : Es.length - need + 1 = 1 + (rs.length - need) := by rw [hlen]; omega
        simp only [Except.ok.injEq] at hb
        subst hb
        have all1 : ∀ t : List Bounds, ∀ b ∈ t, (fun _ : Bounds => true) b = true := fun _ _ _ => rfl
        constructor
        · intro _ hh c hc
          simp only at hh ⊢
          rw [if_pos hh]
          rcases hc with ⟨_, sel, cs, h1, h2, h3, rfl⟩ | ⟨h, _⟩
          · obtain ⟨t, ht, hr⟩ := sublist_forall₂ hN h1
            have hl : t.length = need := by rw [hr.length_eq, h2]
            have := best_le (·.ls) bs t ht
            rw [hl] at this
            refine le_trans this ?_
            exact sums_le (has := fun _ => true) t sel cs h3 hr.length_eq (all1 t)
              (forall₂_imp_mem hr fun b hb E h _ => h.ls (hcan b (ht.subset hb)))
          · cases h
        · intro _ hh c hc
          simp only at hh ⊢
          rw [if_pos hh]
          rcases hc with ⟨_, sel, cs, h1, h2, h3, rfl⟩ | ⟨h, _⟩
          · obtain ⟨t, ht, hr⟩ := sublist_forall₂ hN h1
            have hl : t.length = need := by rw [hr.length_eq, h2]
            have := le_worst (·.us) bs t ht
            rw [hl] at this
            refine le_trans ?_ this
            exact sums_ge (has := fun _ => true) t sel cs h3 hr.length_eq (all1 t)
              (forall₂_imp_mem hr fun b hb E h _ => h.us (hcan b (ht.subset hb)))
          · cases h
        · intro _ hh c hc
          simp only at hh ⊢
          rw [if_pos hh]
          rcases hc with ⟨h, _⟩ | ⟨_, sel, cs, h1, h2, h3, rfl⟩
          · cases h
          · obtain ⟨t, ht, hr⟩ := sublist_forall₂ hN h1
            have hl : t.length = 1 + (rs.length - need) := by rw [hr.length_eq, h2, hft]
            have := best_le (·.lf) bs t ht
            rw [hl] at this
            refine le_trans this ?_
            exact sums_le (has := fun _ => true) t sel cs h3 hr.length_eq (all1 t)
              (forall₂_imp_mem hr fun b hb E h _ => h.lf (hcan b (ht.subset hb)))
        · intro _ hh c hc
          simp only at hh ⊢
          rw [if_pos hh]
          rcases hc with ⟨h, _⟩ | ⟨_, sel, cs, h1, h2, h3, rfl⟩
          · cases h
          · obtain ⟨t, ht, hr⟩ := sublist_forall₂ hN h1
            have hl : t.length = 1 + (rs.length - need) := by rw [hr.length_eq, h2, hft]
            have := le_worst (·.uf) bs t ht
            rw [hl] at this
            refine le_trans ?_ this
            exact sums_ge (has := fun _ => true) t sel cs h3 hr.length_eq (all1 t)
              (forall₂_imp_mem hr fun b hb E h _ => h.uf (hcan b (ht.subset hb)))
      · cases hb
        constructor <;> intro h <;> simp at h

/-- **C27** If all children report all four bounds, and soundly, then so does the Parallel. -/
theorem c27_parallel_full (need : Nat) (rs : List Res) (Es : List Costs) (hn : need ≤ rs.length)
    (hs : List.Forall₂ (fun r E => ∃ b, r = .ok b ∧ b.Full ∧ Sound b E) rs Es) :
    ∃ b, calcParallel need rs = .ok b ∧ b.Full ∧ Sound b (ParallelCosts need Es) := by
  have hx : ∃ bs : List Bounds, rs = bs.map .ok ∧ ∀ b ∈ bs, b.Full := by
    clear hn
    induction hs with
    | nil => exact ⟨[], rfl, by simp⟩
    | cons h1 _ ih =>
      obtain ⟨b, rfl, h2, _⟩ := h1
      obtain ⟨bs, rfl, h3⟩ := ih
      exact ⟨b :: bs, rfl, by simpa using ⟨h2, h3⟩⟩
  obtain ⟨bs, hrs, hfull⟩ := hx
  have hSound : SoundR (calcParallel need rs) (ParallelCosts need Es) := by
    refine c27_parallel_partial need rs Es (hs.imp fun r E h b hb => ?_)
    obtain ⟨b', rfl, h2, h3⟩ := h
    cases hb
    exact ⟨fun a => h3.ls a h2.2.1, fun a => h3.us a h2.2.2.1, fun a => h3.lf a h2.2.2.2.1,
      fun a => h3.uf a h2.2.2.2.2⟩
  have sub : ∀ (key : Bounds → Rat) k, ∀ b ∈ (sortAsc key bs).take k, b.Full := fun key k b hb =>
    hfull b ((sortBy_perm _ bs).subset (List.mem_of_mem_take hb))
  have sub' : ∀ (key : Bounds → Rat) k, ∀ b ∈ (sortDesc key bs).take k, b.Full := fun key k b hb =>
    hfull b ((sortBy_perm _ bs).subset (List.mem_of_mem_take hb))
  have : ∃ b, calcParallel need rs = .ok b ∧ b.Full := by
    unfold calcParallel
    rw [if_neg (by omega), hrs, allOk_map]
    simp only
    rw [if_pos (by simpa using fun b hb => (hfull b hb).1)]
    refine ⟨_, rfl, rfl, ?_, ?_, ?_, ?_⟩ <;> simp only [List.all_eq_true] <;> intro b hb
    · exact (sub _ _ b hb).2.1
    · exact (sub' _ _ b hb).2.2.1
    · exact (sub _ _ b hb).2.2.2.1
    · exact (sub' _ _ b hb).2.2.2.2
  obtain ⟨b, hb, hf⟩ := this
  exact ⟨b, hb, hf, hSound b hb⟩

/-- **C27** Costs of further children (that did not decide the result) do not invalidate the lower
bounds, as long as they are not negative. -/
theorem c27_lower_with_more (need : Nat) (rs : List Res) (Es : List Costs)
    (hs : List.Forall₂ (fun r E => ∀ b, r = .ok b → Numbers b E) rs Es) (b : Bounds)
    (hb : calcParallel need rs = .ok b) (hc : b.can = true) (c : Rat) :
    (b.hasLS = true → AndMore (ParallelCosts need Es) .succeeded c → b.ls ≤ c) ∧
    (b.hasLF = true → AndMore (ParallelCosts need Es) .failed c → b.lf ≤ c) := by
  have h := c27_parallel_partial need rs Es hs b hb
  exact ⟨fun hh ⟨c', h1, h2⟩ => le_trans (h.ls hc hh c' h2) h1,
    fun hh ⟨c', h1, h2⟩ => le_trans (h.lf hc hh c' h2) h1⟩

/-- **C27** The bounds of a Parallel are attained if those of the children are. -/
theorem c27_parallel_tight (need : Nat) (rs : List Res) (Es : List Costs) (hn : need ≤ rs.length) (h0 : 1 ≤ need)
    (hs : List.Forall₂ (fun r E => ∃ b, r = .ok b ∧ b.Full ∧ Attained b E) rs Es) :
    ∃ b, calcParallel need rs = .ok b ∧ b.Full ∧ Attained b (ParallelCosts need Es) := by
  have hx : ∃ bs : List Bounds, rs = bs.map .ok ∧ (∀ b ∈ bs, b.Full) ∧ List.Forall₂ Attained bs Es := by
    clear hn
    induction hs with
    | nil => exact ⟨[], rfl, by simp, .nil⟩
    | cons h1 _ ih =>
      obtain ⟨b, rfl, h2, h4⟩ := h1
      obtain ⟨bs, rfl, h3, h5⟩ := ih
      exact ⟨b :: bs, rfl, by simpa using ⟨h2, h3⟩, .cons h4 h5⟩
  obtain ⟨bs, hrs, hfull, hat⟩ := hx
  have hlen : rs.length = Es.length := hs.length_eq
  have hlb : bs.length = rs.length := by rw [hrs]; simp
  have sub : ∀ (key : Bounds → Rat) k, ∀ b ∈ (sortAsc key bs).take k, b.Full := fun key k b hb =>
    hfull b ((sortBy_perm _ bs).subset (List.mem_of_mem_take hb))
  have sub' : ∀ (key : Bounds → Rat) k, ∀ b ∈ (sortDesc key bs).take k, b.Full := fun key k b hb =>
    hfull b ((sortBy_perm _ bs).subset (List.mem_of_mem_take hb))
  have pick : ∀ (key : Bounds → Rat) (s : BTState) (L : List Bounds) (k : Nat), L.Perm bs → k ≤ bs.length →
      (∀ b E, Attained b E → E s (key b)) →
      ∃ sel cs, sel.Sublist Es ∧ sel.length = k ∧ Each s sel cs ∧ ((L.take k).map key).sum = cs.sum := by
    intro key s L k hp hk hE
    obtain ⟨t, h1, h2⟩ := (List.take_sublist k L).subperm.trans hp.subperm
    have hfl : List.Forall₂ (fun E b => Attained b E) Es bs := hat.flip
    obtain ⟨sel, h3, h4⟩ := sublist_forall₂ hfl h2
    refine ⟨sel, t.map key, h3, ?_, each_of t sel (h4.flip.imp fun b E h => hE b E h), ?_⟩
    · rw [h4.length_eq, h1.length_eq, List.length_take, hp.length_eq]; omega
    · rw [sum_perm key h1]
  unfold calcParallel
  rw [if_neg (by omega), hrs, allOk_map]
  simp only
  rw [if_pos (by simpa using fun b hb => (hfull b hb).1)]
  have a1 : ((sortAsc (·.ls) bs).take need).all (·.hasLS) = true := by
    simp only [List.all_eq_true]; exact fun b hb => (sub _ _ b hb).2.1
  have a2 : ((sortDesc (·.us) bs).take need).all (·.hasUS) = true := by
    simp only [List.all_eq_true]; exact fun b hb => (sub' _ _ b hb).2.2.1
  have a3 : ∀ k, ((sortAsc (·.lf) bs).take k).all (·.hasLF) = true := by
    intro k; simp only [List.all_eq_true]; exact fun b hb => (sub _ _ b hb).2.2.2.1
  have a4 : ∀ k, ((sortDesc (·.uf) bs).take k).all (·.hasUF) = true := by
    intro k; simp only [List.all_eq_true]; exact fun b hb => (sub' _ _ b hb).2.2.2.2
  have hft : Es.length - need + 1 = 1 + ((bs.map (Except.ok (ε := Unit))).length - need) := by
    simp only [List.length_map]; omega
  refine ⟨_, rfl, ⟨rfl, a1, a2, a3 _, a4 _⟩, ?_, ?_, ?_, ?_⟩
  · simp only [a1, if_true]
    obtain ⟨sel, cs, h1, h2, h3, h4⟩ := pick (·.ls) .succeeded _ need (sortBy_perm _ bs) (by omega)
      fun b E h => h.ls
    exact Or.inl ⟨rfl, sel, cs, h1, h2, h3, h4⟩
  · simp only [a2, if_true]
    obtain ⟨sel, cs, h1, h2, h3, h4⟩ := pick (·.us) .succeeded _ need (sortBy_perm _ bs) (by omega)
      fun b E h => h.us
    exact Or.inl ⟨rfl, sel, cs, h1, h2, h3, h4⟩
  · simp only [a3, if_true]
    obtain ⟨sel, cs, h1, h2, h3, h4⟩ := pick (·.lf) .failed _ (1 + ((bs.map (Except.ok (ε := Unit))).length - need))
      (sortBy_perm _ bs) (by simp only [List.length_map]; omega) fun b E h => h.lf
    exact Or.inr ⟨rfl, sel, cs, h1, by rw [h2, hft], h3, h4⟩
  · simp only [a4, if_true]
    obtain ⟨sel, cs, h1, h2, h3, h4⟩ := pick (·.uf) .failed _ (1 + ((bs.map (Except.ok (ε := Unit))).length - need))
      (sortBy_perm _ bs) (by simp only [List.length_map]; omega) fun b E h => h.uf
    exact Or.inr ⟨rfl, sel, cs, h1, by rw [h2, hft], h3, h4⟩

/-- A child that reports no upper bound for success, and may succeed at any cost of at least 1. -/
def unboundedBounds : Bounds := { sampleBounds with hasUS := false, us := 0 }

/-- Its executions. -/
def unboundedCosts : Costs := fun s c => s = .succeeded ∧ 1 ≤ c

theorem unbounded_sound : Sound unboundedBounds unboundedCosts := by
  constructor <;> intro h1 h2 c hc
  · exact hc.2
  · cases h2
  · cases hc.1
  · cases hc.1

/-- **C27, violation** A Parallel reports an upper bound although a child has none: with one needed
success among a child that costs at most 3 and one without upper bound, the Parallel reports 3, but
it may succeed at a cost of 100. -/
theorem c27_missing_bound : ∃ rs Es, List.Forall₂ SoundR rs Es ∧ ¬ SoundR (calcParallel 1 rs) (ParallelCosts 1 Es) := by
  refine ⟨[.ok sampleBounds, .ok unboundedBounds], [sampleCosts, unboundedCosts],
    .cons (fun _ h => by cases h; exact sample_sound)
      (.cons (fun _ h => by cases h; exact unbounded_sound) .nil), ?_⟩
  intro h
  have hc : calcParallel 1 [.ok sampleBounds, .ok unboundedBounds] =
    .ok { can := true, hasLS := true, hasUS := true, hasLF := true, hasUF := true,
          ls := 1, us := 3, lf := 4, uf := 8 } := by decide +kernel
  have := (h _ hc).us rfl rfl 100 (Or.inl ⟨rfl, [unboundedCosts], [100], .cons _ (.cons_cons _ .slnil), rfl,
    .cons ⟨rfl, by decide⟩ .nil, by decide +kernel⟩)
  exact absurd this (by decide +kernel)

/-- **C27, violation** When more than the needed number of children succeed in one tick, the cost of
all of them exceeds the reported upper bound. -/
theorem c27_more_successes : ∃ b, calcParallel 1 [.ok sampleBounds, .ok sampleBounds] = .ok b ∧ b.Full ∧
    ∃ cs, Each .succeeded [sampleCosts, sampleCosts] cs ∧ ¬ cs.sum ≤ b.us := by
  refine ⟨_, rfl, ⟨by decide +kernel, by decide +kernel, by decide +kernel, by decide +kernel, by decide +kernel⟩, [3, 3], .cons (Or.inl ⟨rfl, by decide, by decide⟩)
    (.cons (Or.inl ⟨rfl, by decide, by decide⟩) .nil), by decide +kernel⟩

/-- Executions of a ParallelFailureTolerance that fail: `tol + 1` children have failed. -/
def ToleranceFails (tol : Nat) (Es : List Costs) (c : Rat) : Prop :=
  ∃ sel cs, sel.Sublist Es ∧ sel.length = tol + 1 ∧ Each .failed sel cs ∧ c = cs.sum

/-- **C27, violation** ParallelFailureTolerance uses the estimate of Parallel: with two children, one
needed success and no tolerated failure it fails as soon as one child fails, at a cost as low as 2,
but reports that failing costs at least 4. -/
theorem c27_tolerance_ignored : ∃ b, calcParallel 1 [.ok sampleBounds, .ok sampleBounds] = .ok b ∧ b.Full ∧
    ToleranceFails 0 [sampleCosts, sampleCosts] 2 ∧ ¬ b.lf ≤ 2 :=
  ⟨_, rfl, ⟨by decide +kernel, by decide +kernel, by decide +kernel, by decide +kernel, by decide +kernel⟩, ⟨[sampleCosts], [2], .cons_cons _ (.cons _ .slnil), rfl,
    .cons (Or.inr ⟨rfl, by decide, by decide⟩) .nil, by decide +kernel⟩, by decide +kernel⟩

example : List.Forall₂ (fun (r : Res) E => ∃ b, r = .ok b ∧ b.Full ∧ Sound b E)
    [.ok sampleBounds, .ok sampleBounds, .ok sampleBounds] [sampleCosts, sampleCosts, sampleCosts] :=
  .cons ⟨_, rfl, ⟨rfl, rfl, rfl, rfl, rfl⟩, sample_sound⟩ (.cons ⟨_, rfl, ⟨rfl, rfl, rfl, rfl, rfl⟩, sample_sound⟩
    (.cons ⟨_, rfl, ⟨rfl, rfl, rfl, rfl, rfl⟩, sample_sound⟩ .nil))

example : ParallelCosts 2 [sampleCosts, sampleCosts, sampleCosts] .succeeded 4 :=
  Or.inl ⟨rfl, [sampleCosts, sampleCosts], [1, 3], .cons_cons _ (.cons_cons _ (.cons _ .slnil)), rfl,
    .cons (Or.inl ⟨rfl, by decide, by decide⟩) (.cons (Or.inl ⟨rfl, by decide, by decide⟩) .nil), by decide +kernel⟩

/-! ### Decorators -/

/-- Decorators that leave the results SUCCEEDED and FAILED of their child alone. -/
def transparent (k : Kind) : Bool :=
  !Verif.BT.restarts k .succeeded && !Verif.BT.restarts k .failed
    && Verif.BT.translate k true .succeeded = .succeeded && Verif.BT.translate k true .failed = .failed

/-- A complete execution ends with SUCCEEDED or FAILED. -/
def Complete (E : Costs) : Prop := ∀ s c, E s c → s = .succeeded ∨ s = .failed

theorem dec_transparent (k : Kind) (hk : transparent k = true) (opt : Bool) (E : Costs) (hE : Complete E) (s : BTState)
    (c : Rat) (h : DecoratorCosts k opt E s c) : E s c := by
  cases h with
  | last a c h hr =>
    rcases hE a c h with rfl | rfl
    · have : Verif.BT.translate k opt .succeeded = .succeeded := by
        cases k <;> first | rfl | (exact absurd hk (by decide))
      rw [this]; exact h
    · have : Verif.BT.translate k opt .failed = .failed := by
        cases k <;> first | rfl | (exact absurd hk (by decide))
      rw [this]; exact h
  | again a c h hr s c' h' =>
    rcases hE a c h with rfl | rfl <;>
      (cases k <;> first | (exact absurd hr (by decide)) | (exact absurd hk (by decide)))

/-- **C28** (partial: for the decorators that pass on the child's result; IgnoreRunning and all
decorators that neither translate nor restart). The estimate of the decorator is sound. -/
theorem c28_transparent_partial (k : Kind) (hk : transparent k = true) (opt : Bool) (r : Res) (E : Costs)
    (hE : Complete E) (hs : SoundR r E) : SoundR (calcDecorator [r]) (DecoratorCosts k opt E) := by
  intro b hb
  have h := hs b hb
  have ht := dec_transparent k hk opt E hE
  exact ⟨fun a b c hc => h.ls a b c (ht _ _ hc), fun a b c hc => h.us a b c (ht _ _ hc),
    fun a b c hc => h.lf a b c (ht _ _ hc), fun a b c hc => h.uf a b c (ht _ _ hc)⟩

/-- Decorators that restart their child after some results and pass on the others. -/
def restarting (k : Kind) : Bool :=
  k = .untilSuccess || k = .repeatIfFail || k = .repeatUntilFail

/-- **C28** (partial: lower bounds only, and costs must not be negative). UntilSuccess, RepeatIfFail
and RepeatUntilFail report valid lower bounds. -/
theorem c28_restarting_partial (k : Kind) (hk : restarting k = true) (opt : Bool) (r : Res) (E : Costs)
    (hnn : ∀ s c, E s c → 0 ≤ c) (hs : SoundR r E) (b : Bounds) (hb : calcDecorator [r] = .ok b)
    (hcan : b.can = true) (c : Rat) :
    (b.hasLS = true → DecoratorCosts k opt E .succeeded c → b.ls ≤ c) ∧
    (b.hasLF = true → DecoratorCosts k opt E .failed c → b.lf ≤ c) := by
  have h := hs b hb
  have key : ∀ s c, DecoratorCosts k opt E s c → ∃ c', E s c' ∧ c' ≤ c := by
    intro s c hd
    induction hd with
    | last a c h hr =>
      refine ⟨c, ?_, le_refl _⟩
      have : Verif.BT.translate k opt a = a := by
        cases k <;> first | (exact absurd hk (by decide)) | rfl
      rw [this]; exact h
    | again a c h hr s c' h' ih =>
      obtain ⟨d, h1, h2⟩ := ih
      have := hnn a c h
      exact ⟨d, h1, by linarith⟩
  constructor
  · intro hh hc
    obtain ⟨c', h1, h2⟩ := key _ _ hc
    exact le_trans (h.ls hcan hh c' h1) h2
  · intro hh hc
    obtain ⟨c', h1, h2⟩ := key _ _ hc
    exact le_trans (h.lf hcan hh c' h1) h2

/-- **C28, violation** Inverter, IgnoreFailure and IgnoreSuccess report the estimate of their child
unchanged, which is not sound; and the upper bound of UntilSuccess is not sound. -/
theorem c28_unsound (k : Kind) (hk : k = .inverter ∨ k = .ignoreFailure ∨ k = .ignoreSuccess ∨ k = .untilSuccess) :
    ∃ r E, Complete E ∧ SoundR r E ∧ ¬ SoundR (calcDecorator [r]) (DecoratorCosts k true E) := by
  refine ⟨.ok sampleBounds, sampleCosts, ?_, fun _ h => by cases h; exact sample_sound, ?_⟩
  · rintro s c (⟨h, _⟩ | ⟨h, _⟩)
    · exact Or.inl h
    · exact Or.inr h
  · intro h
    have h := h _ rfl
    have cF : sampleCosts .failed 4 := Or.inr ⟨rfl, by decide, by decide⟩
    have cS : sampleCosts .succeeded 1 := Or.inl ⟨rfl, by decide, by decide⟩
    have no1 : ¬ (4 : Rat) ≤ sampleBounds.us := by decide +kernel
    have no2 : ¬ sampleBounds.lf ≤ (1 : Rat) := by decide +kernel
    have no3 : ¬ (4 : Rat) + 1 ≤ sampleBounds.us := by decide +kernel
    rcases hk with rfl | rfl | rfl | rfl
    · exact no1 (h.us rfl rfl _ (.last .failed _ cF rfl))
    · exact no1 (h.us rfl rfl _ (.last .failed _ cF rfl))
    · exact no2 (h.lf rfl rfl _ (.last .succeeded _ cS rfl))
    · exact no3 (h.us rfl rfl _ (.again .failed _ cF rfl _ _ (.last .succeeded _ cS rfl)))

/-- **C28** Optional: executable in any case, and sound. -/
theorem c28_optional (r : Res) (E : Costs) (hs : SoundR r E) (b : Bounds) (hb : calcOptional [r] = .ok b) :
    b.can = true ∧ ∀ b0, r = .ok b0 → Sound b (OptionalCosts b0.can E) := by
  rcases r with e | b0
  · cases hb
  · simp only [calcOptional] at hb
    split at hb
    · rename_i hc
      cases hb
      refine ⟨hc, ?_⟩
      intro b1 h1
      cases h1
      have h := hs b rfl
      simp only [hc]
      exact h
    · cases hb
      refine ⟨rfl, fun _ _ => ?_⟩
      constructor <;> intro _ h <;> simp at h

example : transparent .ignoreRunning = true ∧ Complete sampleCosts :=
  ⟨rfl, fun s c h => by rcases h with ⟨h, _⟩ | ⟨h, _⟩; exact Or.inl h; exact Or.inr h⟩

example : restarting .untilSuccess = true ∧ ∀ s c, sampleCosts s c → 0 ≤ c :=
  ⟨rfl, fun s c h => by rcases h with ⟨_, h, _⟩ | ⟨_, h, _⟩ <;> linarith⟩

example : calcOptional [.ok {}] = .ok { can := true } := rfl

/-! ### Whole trees -/

/-- A tree of Sequences, Fallbacks, transparent decorators and leaves; a leaf comes with its estimate
and its executions. -/
inductive Plan
  | leaf (r : Res) (E : Costs)
  | seq (l : List Plan)
  | fb (l : List Plan)
  | dec (k : Kind) (hk : transparent k = true) (p : Plan)

mutual

/-- The estimate a tree reports (the recursion of `calculate_utility`, node.py 730-744). -/
def Plan.estimate : Plan → Res
  | .leaf r _ => r
  | .seq l => calcSequence (Plan.estimates l)
  | .fb l => calcFallback (Plan.estimates l)
  | .dec _ _ p => calcDecorator [p.estimate]

/-- The estimates of a list of trees. -/
def Plan.estimates : List Plan → List Res
  | [] => []
  | p :: l => p.estimate :: Plan.estimates l
end

mutual

/-- The executions of a tree. -/
def Plan.costs : Plan → Costs
  | .leaf _ E => E
  | .seq l => SequenceCosts (Plan.costsL l)
  | .fb l => FallbackCosts (Plan.costsL l)
  | .dec k _ p => DecoratorCosts k true p.costs

/-- The executions of a list of trees. -/
def Plan.costsL : List Plan → List Costs
  | [] => []
  | p :: l => p.costs :: Plan.costsL l
end

mutual

/-- All leaves have complete executions and sound estimates. -/
def Plan.Leaves : Plan → Prop
  | .leaf r E => SoundR r E ∧ Complete E
  | .seq l => Plan.LeavesL l
  | .fb l => Plan.LeavesL l
  | .dec _ _ p => p.Leaves

/-- The same for a list of trees. -/
def Plan.LeavesL : List Plan → Prop
  | [] => True
  | p :: l => p.Leaves ∧ Plan.LeavesL l
end

theorem complete_inOrder (Es : List Costs) : Complete (SequenceCosts Es) ∧ Complete (FallbackCosts Es) :=
  ⟨fun _ _ h => h.elim (fun h => Or.inl h.1) fun h => Or.inr h.1,
   fun _ _ h => h.elim (fun h => Or.inr h.1) fun h => Or.inl h.1⟩

theorem plan_complete : (p : Plan) → p.Leaves → Complete p.costs
  | .leaf _ _, h => by rw [Plan.Leaves] at h; rw [Plan.costs]; exact h.2
  | .seq l, _ => by rw [Plan.costs]; exact (complete_inOrder _).1
  | .fb l, _ => by rw [Plan.costs]; exact (complete_inOrder _).2
  | .dec k hk p, h => by
    rw [Plan.Leaves] at h
    rw [Plan.costs]
    have hp := plan_complete p h
    intro s c hc
    exact hp s c (dec_transparent k hk true p.costs hp s c hc)

mutual

theorem plan_sound : (p : Plan) → p.Leaves → SoundR p.estimate p.costs
  | .leaf r E, h => by rw [Plan.Leaves] at h; rw [Plan.costs, Plan.estimate]; exact h.1
  | .seq l, h => by
    rw [Plan.Leaves] at h; rw [Plan.costs, Plan.estimate]; exact c25_sequence _ _ (plan_soundL l h)
  | .fb l, h => by
    rw [Plan.Leaves] at h; rw [Plan.costs, Plan.estimate]; exact c26_fallback _ _ (plan_soundL l h)
  | .dec k hk p, h => by
    rw [Plan.Leaves] at h; rw [Plan.costs, Plan.estimate]
    exact c28_transparent_partial k hk true _ _ (plan_complete p h) (plan_sound p h)

theorem plan_soundL : (l : List Plan) → Plan.LeavesL l →
    List.Forall₂ SoundR (Plan.estimates l) (Plan.costsL l)
  | [], _ => by rw [Plan.estimates, Plan.costsL]; exact .nil
  | p :: l, h => by
    rw [Plan.LeavesL] at h; rw [Plan.estimates, Plan.costsL]
    exact .cons (plan_sound p h.1) (plan_soundL l h.2)
end

/-- **C25, C26** For whole trees of any shape and depth built from Sequences, Fallbacks and
transparent decorators: if the leaves' estimates are sound, so is the estimate of the root. -/
theorem c25_trees (p : Plan) (h : p.Leaves) : SoundR p.estimate p.costs := plan_sound p h

/-- A tree of depth three. -/
def samplePlan : Plan :=
  .seq [.leaf (.ok sampleBounds) sampleCosts,
    .fb [.leaf (.ok sampleBounds) sampleCosts, .dec .ignoreRunning rfl (.leaf (.ok sampleBounds) sampleCosts)]]

example : samplePlan.Leaves := by
  have h : SoundR (.ok sampleBounds) sampleCosts := fun _ h => by cases h; exact sample_sound
  have hc : Complete sampleCosts := fun s c h => by
    rcases h with ⟨h, _⟩ | ⟨h, _⟩
    · exact Or.inl h
    · exact Or.inr h
  simp [samplePlan, Plan.Leaves, Plan.LeavesL, h, hc]

example : samplePlan.estimate =
    .ok { can := true, hasLS := true, hasUS := true, hasLF := true, hasUF := true,
          ls := 2, us := 10, lf := 2, uf := 11 } := by decide +kernel

end Verif.Utility
