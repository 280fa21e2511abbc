import Verif.Edit.Limits

/-! C36: wiring and unwiring. -/

set_option autoImplicit false

namespace Verif.Edit

variable {C : Nat → Nat → Bool}

theorem removeAll_spec (l ws : List Wiring) :
    ((removeAll l ws).2 = true → l.Perm (ws ++ (removeAll l ws).1)) ∧
    ((removeAll l ws).2 = true ↔ ∀ w, ws.count w ≤ l.count w) := by
  induction ws generalizing l with
  | nil => exact ⟨fun _ => List.Perm.refl _, by simp [removeAll]⟩
  | cons v ws ih =>
    unfold removeAll
    split
    · rename_i hm
      obtain ⟨h1, h2⟩ := ih (l.erase v)
      refine ⟨fun h => ?_, ?_⟩
      · exact (List.perm_cons_erase hm).trans ((h1 h).cons v)
      · rw [h2]
        have hc : ∀ w, l.count w = (v :: l.erase v).count w := fun w => (List.perm_cons_erase hm).count_eq w
        constructor
        · intro h w
          rw [hc w, List.count_cons, List.count_cons]
          exact Nat.add_le_add_right (h w) _
        · intro h w
          have := h w
          rw [hc w, List.count_cons, List.count_cons] at this
          omega
    · rename_i hm
      refine ⟨fun h => absurd h (by simp), ⟨fun h => absurd h (by simp), fun h => ?_⟩⟩
      have := h v
      rw [List.count_cons_self, List.count_eq_zero.2 hm] at this
      omega

/-- C36. `unwire_data` answers success only if all given wirings exist (each as often as it is given),
and then removes exactly them. -/
theorem c36_unwire (s : St) (ws : List Wiring) :
    ((unwireData s ws false).2 = .ok ↔ ∀ w, ws.count w ≤ s.wirings.count w) ∧
    ((unwireData s ws false).2 = .ok → s.wirings.Perm (ws ++ (unwireData s ws false).1.wirings)) := by
  unfold unwireData
  by_cases hall : ws.all (fun w => decide (w ∈ s.wirings)) = true
  · have hf : ws.filter (fun w => decide (w ∈ s.wirings)) = ws := by
      rw [List.filter_eq_self]; exact fun w hw => List.all_eq_true.1 hall w hw
    simp only [hall, Bool.not_true, Bool.and_false, Bool.false_eq_true, if_false, hf]
    obtain ⟨h1, h2⟩ := removeAll_spec s.wirings ws
    refine ⟨?_, ?_⟩
    · rw [← h2]
      constructor
      · intro h
        split at h
        · assumption
        · cases h
      · intro h; rw [if_pos h]
    · intro h
      refine h1 ?_
      split at h
      · assumption
      · cases h
  · have hall' : ws.all (fun w => decide (w ∈ s.wirings)) = false := by simpa using hall
    simp only [hall', Bool.not_false, Bool.and_true, Bool.not_false, if_true]
    refine ⟨⟨fun h => (by cases h), fun h => absurd ?_ hall⟩, fun h => (by cases h)⟩
    rw [List.all_eq_true]
    intro w hw
    have := h w
    have h3 := List.count_pos_iff.2 hw
    exact decide_eq_true (List.count_pos_iff.1 (by omega))

/-- C36. Adding wirings and then removing the same wirings restores the wirings (up to order) and the
rest of the tree; the second request is answered with success. -/
theorem c36_wire_unwire (s : St) (ws : List Wiring) (h : (handle C (.wire ws false) s).2 = .ok) :
    let s1 := (handle C (.wire ws false) s).1
    let a := handle C (.unwire ws false) s1
    a.2 = .ok ∧ a.1.wirings.Perm s.wirings ∧ a.1.nodes = s.nodes ∧ a.1.heap = s.heap := by
  have hw : (wireData C s ws false) = ({ s with wirings := s.wirings ++ ws }, .ok) := by
    have h' : (wireData C s ws false).2 = .ok := h
    unfold wireData at h' ⊢
    simp only [Bool.false_eq_true, if_false] at h' ⊢
    split
    · rfl
    · rename_i hn; rw [if_neg hn] at h'; cases h'
  have hs1 : (handle C (.wire ws false) s).1 = sync { s with wirings := s.wirings ++ ws } := by
    show sync (wireData C s ws false).1 = _
    rw [hw]
  intro s1 a
  have hwir : s1.wirings = s.wirings ++ ws := by show (handle C (.wire ws false) s).1.wirings = _; rw [hs1]; rfl
  obtain ⟨h1, h2⟩ := c36_unwire s1 ws
  have hok : (unwireData s1 ws false).2 = .ok := h1.2 fun w => by rw [hwir, List.count_append]; omega
  refine ⟨hok, ?_, ?_, ?_⟩
  · have hp := h2 hok
    rw [hwir] at hp
    have : (ws ++ s.wirings).Perm (ws ++ (unwireData s1 ws false).1.wirings) := List.perm_append_comm.trans hp
    exact (List.perm_append_left_iff ws).1 this.symm
  · show (unwireData s1 ws false).1.nodes = s.nodes
    have : (unwireData s1 ws false).1.nodes = s1.nodes := by unfold unwireData; split <;> rfl
    rw [this]
    show (handle C (.wire ws false) s).1.nodes = _; rw [hs1]; rfl
  · show (unwireData s1 ws false).1.heap = s.heap
    have : (unwireData s1 ws false).1.heap = s1.heap := by unfold unwireData; split <;> rfl
    rw [this]
    show (handle C (.wire ws false) s).1.heap = _; rw [hs1]; rfl

/-- C36. Removing wirings and adding them again restores the wirings (up to order). -/
theorem c36_unwire_wire (s : St) (ws : List Wiring) (h1 : (handle C (.unwire ws false) s).2 = .ok)
    (h2 : (handle C (.wire ws false) (handle C (.unwire ws false) s).1).2 = .ok) :
    (handle C (.wire ws false) (handle C (.unwire ws false) s).1).1.wirings.Perm s.wirings := by
  have hp := (c36_unwire s ws).2 h1
  generalize hs1 : (handle C (.unwire ws false) s).1 = s1 at *
  have e1 : s1.wirings = (unwireData s ws false).1.wirings := by rw [← hs1]; rfl
  have h' : (wireData C s1 ws false).2 = .ok := h2
  show (wireData C s1 ws false).1.wirings.Perm s.wirings
  unfold wireData at h' ⊢
  simp only [Bool.false_eq_true, if_false] at h' ⊢
  split
  · show (s1.wirings ++ ws).Perm s.wirings
    rw [e1]
    exact List.perm_append_comm.trans hp.symm
  · rename_i hn; rw [if_neg hn] at h'; cases h'

/-- C36. With `ignore_failure`, exactly the valid wirings are added. -/
theorem c36_wire_ignore (s : St) (ws : List Wiring) :
    (handle C (.wire ws true) s).2 = .ok ∧
    (handle C (.wire ws true) s).1.wirings = s.wirings ++ ws.filter (validate C s) ∧
    ∀ w ∈ ws.filter (validate C s), WiringValid C s w :=
  ⟨rfl, rfl, fun _ hw => validate_valid (List.mem_filter.1 hw).2⟩

/-- C36. A wiring given twice in one request to remove it, while it exists once, raises an exception
after it has been removed: the request is neither done nor rejected. -/
theorem c36_unwire_twice_crashes :
    let s := history exC (exReqs.take 5) {}
    let w : Wiring := ⟨some 3, 2, some 4, 1⟩
    s.wirings = [w] ∧ (handle exC (.unwire [w, w] false) s).2 = .crash ∧ (handle exC (.unwire [w, w] false) s).1.wirings = [] := by
  decide +kernel

/-! ### Examples -/

example : let s := history exC (exReqs.take 5) {}
    let w : Wiring := ⟨some 3, 2, some 4, 1⟩
    (handle exC (.wire [w] false) s).2 = .ok ∧ (handle exC (.wire [w] false) s).1.wirings = [w, w] ∧
    (handle exC (.unwire [w] false) s).2 = .ok ∧ (handle exC (.wire [⟨some 1, 2, some 4, 1⟩] false) s).2 = .err := by
  decide +kernel

end Verif.Edit
