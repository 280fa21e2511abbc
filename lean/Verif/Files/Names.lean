import Init.Data.Nat.ToString
import Init.Data.List.Perm

/-! C54: `increment_name` (`node.py`). Strings are lists of characters. -/

set_option autoImplicit false

namespace Verif.Files

/-! ### The model -/

/-- More digits than this make `int` and the formatting of an `int` raise `ValueError` (Python 3.11 and later). -/
def maxDigits : Nat := 4300

/-- node.py 1306: the group of the regular expression `_([0-9]+)$`; `$` also matches before a newline at the end. -/
def numberAtEnd (s : List Char) : Option (List Char) :=
  let body := if s.getLast? = some '\n' then s.dropLast else s
  let ds := (body.reverse.takeWhile Char.isDigit).reverse
  if ds ≠ [] ∧ (body.reverse.dropWhile Char.isDigit).head? = some '_' then some ds else none

/-- node.py 1300-1314: `increment_name`; `none`: `ValueError`. -/
def increment (s : List Char) : Option (List Char) :=
  match numberAtEnd s with
  | none => some (s ++ '_' :: Nat.toDigits 10 2)
  | some ds =>
    if maxDigits < ds.length then none
    else
      let r := Nat.toDigits 10 (Nat.ofDigitChars 10 ds 0 + 1)
      if maxDigits < r.length then none else some (s.take (s.length - (ds.length + 1)) ++ '_' :: r)

/-- Repeating it. -/
def incrementTimes : Nat → List Char → Option (List Char)
  | 0, s => some s
  | n + 1, s => (incrementTimes n s).bind increment

/-! ### Numbers at the end -/

/-- All characters are digits. -/
def Digits (ds : List Char) : Prop := ∀ c ∈ ds, c.isDigit = true

theorem takeWhile_all {p : Char → Bool} {l : List Char} (h : ∀ c ∈ l, p c = true) (r : List Char) (hr : ∀ c, r.head? = some c → p c = false) :
    (l ++ r).takeWhile p = l ∧ (l ++ r).dropWhile p = r := by
  induction l with
  | nil =>
    cases r with
    | nil => simp
    | cons c r => have := hr c rfl; simp [this]
  | cons c l ih =>
    have hc := h c (by simp)
    have := ih fun d hd => h d (List.mem_cons_of_mem _ hd)
    simp [hc, this]

theorem numberAtEnd_some {s ds : List Char} (h : numberAtEnd s = some ds) :
    ds ≠ [] ∧ Digits ds ∧ ∃ p, s = p ++ '_' :: ds ∨ s = p ++ '_' :: ds ++ ['\n'] := by
  unfold numberAtEnd at h
  dsimp only at h
  generalize hb : (if s.getLast? = some '\n' then s.dropLast else s) = body at h
  split at h
  · rename_i hc
    cases h
    refine ⟨hc.1, fun c hm => ?_, ?_⟩
    · rw [List.mem_reverse] at hm
      have : ∀ (l : List Char), c ∈ l.takeWhile Char.isDigit → c.isDigit = true := by
        intro l
        induction l with
        | nil => simp
        | cons d l ih =>
          simp only [List.takeWhile_cons]
          split
          · rename_i hd
            intro hm
            rcases List.mem_cons.mp hm with rfl | hm
            · exact hd
            · exact ih hm
          · simp
      exact this _ hm
    · cases hd : body.reverse.dropWhile Char.isDigit with
      | nil => rw [hd] at hc; simp at hc
      | cons u rest =>
        rw [hd] at hc
        have hu : u = '_' := by simpa using hc.2
        subst hu
        have hbody : body = rest.reverse ++ '_' :: (body.reverse.takeWhile Char.isDigit).reverse := by
          have := List.takeWhile_append_dropWhile (p := Char.isDigit) (l := body.reverse)
          rw [hd] at this
          have h2 := congrArg List.reverse this
          rw [List.reverse_reverse] at h2
          conv => lhs; rw [← h2]
          simp
        refine ⟨rest.reverse, ?_⟩
        split at hb
        · rename_i hl
          right
          rw [← hbody, ← hb]
          have hne : s ≠ [] := by rintro rfl; simp at hl
          have := List.dropLast_concat_getLast hne
          rw [List.getLast?_eq_some_getLast hne] at hl
          have hl : s.getLast hne = '\n' := by simpa using hl
          rw [hl] at this
          exact this.symm
        · left
          rw [← hbody, hb]
  · cases h

theorem digit_not_newline {c : Char} (h : c.isDigit = true) : c ≠ '\n' := by rintro rfl; simp at h

theorem numberAtEnd_of {p ds : List Char} (hne : ds ≠ []) (hd : Digits ds) : numberAtEnd (p ++ '_' :: ds) = some ds := by
  have hl : (p ++ '_' :: ds).getLast? ≠ some '\n' := by
    have : (p ++ '_' :: ds).getLast? = ds.getLast? := by
      rw [List.getLast?_append, List.getLast?_cons]
      cases h : ds.getLast? with
      | none => exact absurd (List.getLast?_eq_none_iff.mp h) hne
      | some c => simp
    rw [this]
    intro h
    exact digit_not_newline (hd _ (List.mem_of_getLast? h)) rfl
  unfold numberAtEnd
  dsimp only
  rw [if_neg hl]
  have hr : (p ++ '_' :: ds).reverse = ds.reverse ++ '_' :: p.reverse := by simp
  rw [hr]
  obtain ⟨h1, h2⟩ := takeWhile_all (p := Char.isDigit) (l := ds.reverse) (fun c hc => hd c (List.mem_reverse.mp hc)) ('_' :: p.reverse)
    (fun c hc => by simp at hc; subst hc; rfl)
  rw [h1, h2]
  simp [hne]

theorem toDigits_digits (n : Nat) : Digits (Nat.toDigits 10 n) := fun _ hc => Nat.isDigit_of_mem_toDigits (by decide) (by decide) hc

theorem toDigits_inj {m n : Nat} (h : Nat.toDigits 10 m = Nat.toDigits 10 n) : m = n := by
  have := congrArg (fun l => Nat.ofDigitChars 10 l 0) h
  simpa [Nat.ofDigitChars_toDigits] using this

theorem value_lt : ∀ (ds : List Char), Digits ds → Nat.ofDigitChars 10 ds 0 < 10 ^ ds.length := by
  intro ds
  induction ds with
  | nil => intro _; simp
  | cons c ds ih =>
    intro h
    have hc : c.toNat - '0'.toNat ≤ 9 := by
      have := h c (by simp)
      have h' : '0'.toNat ≤ c.toNat ∧ c.toNat ≤ '9'.toNat := by
        simp only [Char.isDigit, Bool.and_eq_true, decide_eq_true_eq, ge_iff_le, UInt32.le_iff_toNat_le] at this
        exact this
      have e0 : '0'.toNat = 48 := rfl
      have e9 : '9'.toNat = 57 := rfl
      omega
    have := ih fun d hd => h d (List.mem_cons_of_mem _ hd)
    rw [Nat.ofDigitChars_cons, Nat.ofDigitChars_eq_ofDigitChars_zero, List.length_cons, Nat.pow_succ]
    have e : 10 ^ ds.length * (10 * 0 + (c.toNat - '0'.toNat)) ≤ 10 ^ ds.length * 9 := Nat.mul_le_mul_left _ (by omega)
    omega

/-- Two names that end with a number are equal only if the numbers are. -/
theorem same_number {p q ds es : List Char} (hd : Digits ds) (he : Digits es) (hdn : ds ≠ []) (hen : es ≠ []) (h : p ++ '_' :: ds = q ++ '_' :: es) :
    ds = es := by
  have := numberAtEnd_of (p := p) hdn hd
  rw [h, numberAtEnd_of hen he] at this
  cases this
  rfl

theorem toDigits_ne (n : Nat) : Nat.toDigits 10 n ≠ [] := Nat.toDigits_ne_nil

/-! ### C54 -/

/-- C54: a number at the end is counted up. -/
theorem c54_counts (p : List Char) (n : Nat) (h : n + 1 < 10 ^ maxDigits) :
    increment (p ++ '_' :: Nat.toDigits 10 n) = some (p ++ '_' :: Nat.toDigits 10 (n + 1)) := by
  unfold increment
  rw [numberAtEnd_of (toDigits_ne n) (toDigits_digits n)]
  have hpos : 0 < maxDigits := by decide
  have h1 : (Nat.toDigits 10 n).length ≤ maxDigits := (Nat.length_toDigits_le_iff (by decide) hpos).mpr (by omega)
  have h2 : (Nat.toDigits 10 (n + 1)).length ≤ maxDigits := (Nat.length_toDigits_le_iff (by decide) hpos).mpr h
  dsimp only
  rw [if_neg (by omega), Nat.ofDigitChars_toDigits (by decide) (by decide), if_neg (by omega)]
  simp [List.length_append]

/-- C54: a name without a number at the end gets one. -/
theorem c54_starts (s : List Char) (h : ∀ c, s.getLast? = some c → c.isDigit = false ∧ c ≠ '\n') : increment s = some (s ++ ['_', '2']) := by
  unfold increment
  have : numberAtEnd s = none := by
    cases hn : numberAtEnd s with
    | none => rfl
    | some ds =>
      obtain ⟨h1, h2, p, h3 | h3⟩ := numberAtEnd_some hn
      · have hl : s.getLast? = ds.getLast? := by
          rw [h3, List.getLast?_append, List.getLast?_cons]
          cases hd : ds.getLast? with
          | none => exact absurd (List.getLast?_eq_none_iff.mp hd) h1
          | some c => simp
        cases hd : ds.getLast? with
        | none => exact absurd (List.getLast?_eq_none_iff.mp hd) h1
        | some c =>
          have := (h c (hl.trans hd)).1
          rw [h2 c (List.mem_of_getLast? hd)] at this
          cases this
      · exact absurd rfl (h '\n' (by rw [h3, List.getLast?_append]; rfl)).2
  rw [this]
  rfl

/-- The numbers a name goes through. -/
theorem increment_cases (s : List Char) : ∃ p n, (∀ k, n < k → s ≠ p ++ '_' :: Nat.toDigits 10 k) ∧
    (∀ t, increment s = some t → t = p ++ '_' :: Nat.toDigits 10 (n + 1)) ∧
    (n + 1 < 10 ^ maxDigits → s.length < maxDigits → increment s = some (p ++ '_' :: Nat.toDigits 10 (n + 1))) ∧
    (n = 1 ∨ n < 10 ^ (s.length - 1)) := by
  have hpos : 0 < maxDigits := by decide
  cases hn : numberAtEnd s with
  | none =>
    refine ⟨s, 1, fun k _ e => ?_, fun t ht => ?_, fun _ _ => ?_, .inl rfl⟩
    · have := congrArg List.length e; simp at this
    · unfold increment at ht; rw [hn] at ht; cases ht; rfl
    · unfold increment; rw [hn]
  | some ds =>
    obtain ⟨h1, h2, p, h3⟩ := numberAtEnd_some hn
    have hlen : ds.length + 1 ≤ s.length := by rcases h3 with h3 | h3 <;> rw [h3] <;> simp <;> omega
    refine ⟨s.take (s.length - (ds.length + 1)), Nat.ofDigitChars 10 ds 0, fun k hk e => ?_, fun t ht => ?_, fun hb hs => ?_, .inr ?_⟩
    · have hnum := numberAtEnd_of (p := s.take (s.length - (ds.length + 1))) (toDigits_ne k) (toDigits_digits k)
      rw [← e, hn] at hnum
      have : ds = Nat.toDigits 10 k := by simpa using hnum
      rw [this, Nat.ofDigitChars_toDigits (by decide) (by decide)] at hk
      omega
    · unfold increment at ht
      rw [hn] at ht
      dsimp only at ht
      split at ht
      · cases ht
      · split at ht
        · cases ht
        · cases ht; rfl
    · unfold increment
      rw [hn]
      dsimp only
      rw [if_neg (by omega), if_neg (Nat.not_lt.mpr ((Nat.length_toDigits_le_iff (by decide) hpos).mpr hb))]
    · exact Nat.lt_of_lt_of_le (value_lt ds h2) (Nat.pow_le_pow_right (by decide) (by omega))

/-- C54: the new name differs from the old one. -/
theorem c54_different (s t : List Char) (h : increment s = some t) : t ≠ s := by
  obtain ⟨p, n, h1, h2, _, _⟩ := increment_cases s
  rw [h2 t h]
  exact fun e => h1 (n + 1) (by omega) e.symm

/-- Repeating counts up. -/
theorem times_eq (s : List Char) : ∃ p n, (∀ k, n < k → s ≠ p ++ '_' :: Nat.toDigits 10 k) ∧ (n = 1 ∨ n < 10 ^ (s.length - 1)) ∧
    ∀ j, n + (j + 1) < 10 ^ maxDigits → s.length < maxDigits → incrementTimes (j + 1) s = some (p ++ '_' :: Nat.toDigits 10 (n + (j + 1))) := by
  obtain ⟨p, n, h1, _, h3, h4⟩ := increment_cases s
  refine ⟨p, n, h1, h4, fun j => ?_⟩
  induction j with
  | zero => intro hb hs; simp only [incrementTimes, Option.bind_some]; exact h3 hb hs
  | succ j ih =>
    intro hb hs
    rw [incrementTimes, ih (by omega) hs, Option.bind_some]
    exact c54_counts p _ hb

/-- C54: repeating it gives a name outside any finite set, at the latest after as many steps as there are taken names; the limits are those of
Python for the conversion between strings and numbers. -/
theorem c54_fresh (s : List Char) (taken : List (List Char)) (hs : s.length < maxDigits) (ht : taken.length < 10 ^ (maxDigits - 1)) :
    ∃ j, j ≤ taken.length ∧ ∃ t, incrementTimes j s = some t ∧ t ∉ taken := by
  obtain ⟨p, n, h1, h2, h3⟩ := times_eq s
  have hb : ∀ j, j ≤ taken.length → n + j < 10 ^ maxDigits := by
    intro j hj
    have hn : n < 10 ^ (maxDigits - 1) := by
      rcases h2 with rfl | h2
      · have e : maxDigits - 1 = 4298 + 1 := rfl
        rw [e, Nat.pow_succ]
        have := Nat.pow_pos (n := 4298) (show 0 < 10 by decide)
        omega
      · exact Nat.lt_of_lt_of_le h2 (Nat.pow_le_pow_right (by decide) (by omega))
    have e : 10 ^ maxDigits = 10 ^ (maxDigits - 1) * 10 := by
      have : maxDigits = maxDigits - 1 + 1 := rfl
      conv => lhs; rw [this]
      rw [Nat.pow_succ]
    rw [e]
    generalize 10 ^ (maxDigits - 1) = x at *
    omega
  let f : Nat → List Char := fun j => match j with | 0 => s | j + 1 => p ++ '_' :: Nat.toDigits 10 (n + (j + 1))
  have hf : ∀ j, j ≤ taken.length → incrementTimes j s = some (f j) := by
    intro j hj
    cases j with
    | zero => rfl
    | succ j => exact h3 j (hb _ hj) hs
  have inj : ∀ i j, f i = f j → i = j := by
    intro i j h
    cases i with
    | zero =>
      cases j with
      | zero => rfl
      | succ j => exact absurd h (h1 _ (by omega))
    | succ i =>
      cases j with
      | zero => exact absurd h.symm (h1 _ (by omega))
      | succ j =>
        have := same_number (toDigits_digits _) (toDigits_digits _) (toDigits_ne _) (toDigits_ne _) h
        have := toDigits_inj this
        omega
  by_cases hall : ∀ j, j ≤ taken.length → f j ∈ taken
  · have hnd : ((List.range (taken.length + 1)).map f).Nodup := by
      have : ∀ (l : List Nat), l.Nodup → (l.map f).Nodup := by
        intro l
        induction l with
        | nil => simp
        | cons a l ih =>
          intro h
          rw [List.nodup_cons] at h
          rw [List.map_cons, List.nodup_cons]
          refine ⟨fun hm => ?_, ih h.2⟩
          obtain ⟨b, hb, he⟩ := List.mem_map.mp hm
          exact h.1 (inj _ _ he ▸ hb)
      exact this _ List.nodup_range
    have hsub : (List.range (taken.length + 1)).map f ⊆ taken := by
      intro x hx
      obtain ⟨j, hj, rfl⟩ := List.mem_map.mp hx
      exact hall j (by have := List.mem_range.mp hj; omega)
    have := List.Nodup.length_le_of_subset hnd hsub
    simp at this
    omega
  · obtain ⟨j, hj⟩ := Classical.not_forall.mp hall
    obtain ⟨hj1, hj2⟩ := Classical.not_imp.mp hj
    exact ⟨j, hj1, f j, hf j hj1, hj2⟩

/-- Names can collide: `a`, `a_1` and `a_01` all become `a_2`, so what is fresh depends on where one starts. -/
theorem c54_not_injective : increment "a".toList = increment "a_1".toList ∧ increment "a_01".toList = increment "a_1".toList := by decide

/-- A newline at the end is lost and the underscore is kept. -/
theorem c54_newline : increment "a_3\n".toList = some "a__4".toList := by decide

example : increment "tree_9".toList = some "tree_10".toList ∧ increment "tree9".toList = some "tree9_2".toList ∧
    increment "_7_".toList = some "_7__2".toList := by decide

example : incrementTimes 3 "tree".toList = some "tree_4".toList := by decide

end Verif.Files
