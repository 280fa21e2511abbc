import Verif.BT.Rows
import Verif.BT.Broken
import Verif.BT.Sample

/-!
# Laws for rewriting trees

Which changes of the shape of a tree cannot be noticed: nested rows, inversion of rows, repeated
decorators. Together with `c98_context` a tree may be rewritten at any place.
-/

set_option autoImplicit false

namespace Verif.BT.Laws

variable {A B D N M : Type}

/-! ### Rows over children that are related one by one -/

theorem sweep_each {o : Ops N} {o' : Ops M} {R : N → M → Prop} (h : Bisim o o' R) (op : Op) {cs : List N} {ds : List M} (hc : Each R cs ds) :
    (sweep o op cs).2 = (sweep o' op ds).2 ∧ Each R (sweep o op cs).1 (sweep o' op ds).1 := by
  induction hc with
  | nil => exact ⟨rfl, .nil⟩
  | cons hab hl ih =>
    obtain ⟨h1, h2⟩ := (h _ _ hab).2.2 op
    simp only [sweep, h1]
    split
    · exact ⟨rfl, .cons h2 hl⟩
    · exact ⟨ih.1, .cons h2 ih.2⟩

theorem pass_each {o : Ops N} {o' : Ops M} {R : N → M → Prop} (h : Bisim o o' R) (seq : Bool) {cs : List N} {ds : List M} (hc : Each R cs ds) :
    (pass o seq cs).2 = (pass o' seq ds).2 ∧ Each R (pass o seq cs).1 (pass o' seq ds).1 := by
  induction hc with
  | nil => exact ⟨rfl, .nil⟩
  | cons hab hl ih =>
    obtain ⟨h1, h2⟩ := (h _ _ hab).2.2 .tick
    have hw := sweep_each h .untick hl
    simp only [pass, h1]
    split
    · exact ⟨rfl, .cons h2 hl⟩
    · split
      · exact ⟨ih.1, .cons h2 ih.2⟩
      · split
        · exact ⟨rfl, .cons h2 hl⟩
        · rw [hw.1]; exact ⟨rfl, .cons h2 hw.2⟩

theorem close_each {o : Ops N} {o' : Ops M} {R : N → M → Prop} (h : Bisim o o' R) {cs : List N} {ds : List M} (hc : Each R cs ds) :
    closeErr o cs = closeErr o' ds ∧ Each R (close o cs) (close o' ds) := by
  induction hc with
  | nil => exact ⟨rfl, .nil⟩
  | cons hab hl ih =>
    obtain ⟨h1, h2⟩ := (h _ _ hab).2.2 .shutdown
    refine ⟨?_, .cons h2 ih.2⟩
    have := ih.1
    simp only [closeErr, List.any_cons, h1] at this ⊢
    rw [this]

theorem row_bisim {o : Ops N} {o' : Ops M} {R : N → M → Prop} (h : Bisim o o' R) (seq : Bool) :
    Bisim (rowOps o seq) (rowOps o' seq) (fun r r' => r.state = r'.state ∧ r.name = r'.name ∧ Each R r.children r'.children) := by
  rintro ⟨st, nm, cs⟩ ⟨st', nm', ds⟩ ⟨h1, h2, h3⟩
  dsimp only at h1 h2 h3
  subst h1 h2
  refine ⟨rfl, rfl, fun op => ?_⟩
  have plain : ∀ op, (rowPlain o op st cs).2.2 = (rowPlain o' op st ds).2.2 ∧ (rowPlain o op st cs).1 = (rowPlain o' op st ds).1 ∧
      Each R (rowPlain o op st cs).2.1 (rowPlain o' op st ds).2.1 := by
    intro op
    obtain ⟨w1, w2⟩ := sweep_each h op h3
    unfold rowPlain
    rw [w1]
    cases accepts op st
    · exact ⟨rfl, rfl, h3⟩
    · cases (sweep o' op ds).2
      · exact ⟨rfl, rfl, w2⟩
      · exact ⟨rfl, rfl, w2⟩
  cases op with
  | setup => exact ⟨(plain .setup).1, (plain .setup).2.1, rfl, (plain .setup).2.2⟩
  | untick => exact ⟨(plain .untick).1, (plain .untick).2.1, rfl, (plain .untick).2.2⟩
  | reset => exact ⟨(plain .reset).1, (plain .reset).2.1, rfl, (plain .reset).2.2⟩
  | shutdown =>
    obtain ⟨w1, w2⟩ := close_each h h3
    exact ⟨by simp only [rowOps, rowStep, w1], rfl, rfl, w2⟩
  | tick =>
    have start : (rowStart o st cs).2 = (rowStart o' st ds).2 ∧ Each R (rowStart o st cs).1 (rowStart o' st ds).1 := by
      unfold rowStart
      cases finished st
      · exact ⟨rfl, h3⟩
      · exact sweep_each h .reset h3
    obtain ⟨s1, s2⟩ := start
    obtain ⟨p1, p2⟩ := pass_each h seq s2
    simp only [rowOps, rowStep, rowTick, rowEnd]
    rw [s1, p1]
    cases accepts .tick st
    · exact ⟨by trivial, by trivial, by trivial, h3⟩
    · cases (rowStart o' st ds).2
      · exact ⟨by trivial, by trivial, by trivial, s2⟩
      · simp only [if_true]
        cases (pass o' seq (rowStart o' st ds).1).2.res seq
        · exact ⟨by trivial, by trivial, by trivial, p2⟩
        · exact ⟨by trivial, by trivial, by trivial, p2⟩

/-! ### Rows one after the other -/

theorem sweep_append (o : Ops N) (op : Op) (ys : List N) : ∀ xs, sweep o op (xs ++ ys) =
    if (sweep o op xs).2 then ((sweep o op xs).1 ++ (sweep o op ys).1, (sweep o op ys).2) else ((sweep o op xs).1 ++ ys, false) := by
  intro xs
  induction xs with
  | nil => simp [sweep]
  | cons x xs ih =>
    simp only [List.cons_append, sweep]
    split
    · simp
    · simp only [ih]; split <;> simp

theorem pass_append (o : Ops N) (seq : Bool) (ys : List N) : ∀ xs, pass o seq (xs ++ ys) =
    match (pass o seq xs).2 with
    | .through => ((pass o seq xs).1 ++ (pass o seq ys).1, (pass o seq ys).2)
    | .waits => ((pass o seq xs).1 ++ ys, .waits)
    | .stops s => ((pass o seq xs).1 ++ (sweep o .untick ys).1, if (sweep o .untick ys).2 then .stops s else .fails)
    | .fails => ((pass o seq xs).1 ++ ys, .fails) := by
  intro xs
  induction xs with
  | nil => simp [pass]
  | cons x xs ih =>
    simp only [List.cons_append, pass]
    cases hr : (o.run .tick x).res with
    | err => simp
    | ok s =>
      dsimp only
      cases goesOn seq s
      · simp only [Bool.false_eq_true, if_false]
        by_cases h2 : s = .running
        · simp [h2]
        · simp only [h2, if_false, sweep_append]
          cases (sweep o .untick xs).2
          · simp
          · simp
      · simp only [if_true, ih]
        cases (pass o seq xs).2 <;> simp

theorem close_append (o : Ops N) (xs ys : List N) : close o (xs ++ ys) = close o xs ++ close o ys := by simp [close]

theorem closeErr_append (o : Ops N) (xs ys : List N) : closeErr o (xs ++ ys) = (closeErr o xs || closeErr o ys) := by simp [closeErr]

theorem pass_stops (o : Ops N) (hs : Sound o) (seq : Bool) : ∀ cs s, (pass o seq cs).2 = .stops s → goesOn seq s = false ∧ s ≠ .running ∧ allowedAfter .tick s = true := by
  intro cs
  induction cs with
  | nil => intro s h; simp [pass] at h
  | cons c cs ih =>
    intro s h
    simp only [pass] at h
    split at h
    · simp at h
    · rename_i s' hr
      split at h
      · exact ih s h
      · rename_i hg
        split at h
        · simp at h
        · rename_i hn
          split at h
          · simp at h; subst h; exact ⟨by simpa using hg, hn, (hs _ _ _ hr).2⟩
          · simp at h

theorem allowed_live {op : Op} {s : BTState} (hop : op ≠ .shutdown) (h : allowedAfter op s = true) : accepts .tick s = true := by
  cases op <;> cases s <;> simp [allowedAfter, accepts] at h hop ⊢

theorem live_not_setup {s : BTState} (h : accepts .tick s = true) : accepts .setup s = false := by
  cases s <;> simp [accepts] at h ⊢

theorem live_any {op : Op} {s : BTState} (h : accepts .tick s = true) (hop : op = .untick ∨ op = .reset ∨ op = .tick) : accepts op s = true := by
  rcases hop with rfl | rfl | rfl <;> simpa [accepts] using h

/-! ### A row whose last child is a row of the same kind -/

/-- The inner row can be operated on whenever the outer one can, and it is not finished before the outer one is. -/
structure Fits (st st' : BTState) : Prop where
  live : accepts .tick st = true → accepts .tick st' = true
  finished : accepts .tick st = true → finished st' = true → finished st = true
  setup : accepts .setup st = true → accepts .setup st' = true

theorem fits_broken (s : BTState) : Fits .broken s := ⟨by simp [accepts], by simp [accepts], by simp [accepts]⟩

theorem fits_self (s : BTState) : Fits s s := ⟨id, fun _ => id, id⟩

theorem fits_live {s s' : BTState} (h : accepts .tick s = true) (h' : accepts .tick s' = true) (hf : BT.finished s' = true → BT.finished s = true) : Fits s s' :=
  ⟨fun _ => h', fun _ => hf, fun hs => by rw [live_not_setup h] at hs; simp at hs⟩

/-- The relation between the nested and the flat row. -/
structure Nested (oa : Ops A) (ob : Ops B) (o : Ops N) (seq : Bool) (r : Row A) (f : Row N) (xs : List A) (z : A) (zr : Row B) (ds es : List N) : Prop where
  children : r.children = xs ++ [z]
  inner : Same oa (rowOps ob seq) z zr
  flat : f.children = ds ++ es
  front : Each (Same oa o) xs ds
  back : Each (Same ob o) zr.children es
  state : r.state = f.state
  name : r.name = f.name
  fits : Fits r.state zr.state

theorem nested_bisim (oa : Ops A) (ob : Ops B) (o : Ops N) (hsa : Sound oa) (hsb : Sound ob) (seq : Bool) :
    Bisim (rowOps oa seq) (rowOps o seq) (fun r f => ∃ xs z zr ds es, Nested oa ob o seq r f xs z zr ds es) := by
  rintro ⟨st, nm, cs⟩ ⟨st', nm', fs⟩ ⟨xs, z, zr, ds, es, h⟩
  obtain ⟨h1, h2, h3, h4, h5, h6, h7, h8⟩ := h
  dsimp only at h1 h3 h6 h7 h8
  subst h1 h3 h6 h7
  refine ⟨rfl, rfl, fun op => ?_⟩
  have front := same_bisim oa o
  have back := same_bisim ob o
  have zz := fun op => (same_bisim oa (rowOps ob seq) z zr h2).2.2 op
  -- operations other than tick and shutdown, performed on the inner row
  have inner : ∀ op, op = .setup ∨ op = .untick ∨ op = .reset → accepts op zr.state = true → ∀ z, Same oa (rowOps ob seq) z zr →
      (sweep oa op [z]).2 = (sweep ob op zr.children).2 ∧ ∃ z' zr', (sweep oa op [z]).1 = [z'] ∧ Same oa (rowOps ob seq) z' zr' ∧ zr'.children = (sweep ob op zr.children).1 ∧
        ((sweep ob op zr.children).2 = true → zr'.state = .idle) := by
    intro op hop ha z hz
    obtain ⟨e1, e2⟩ := (same_bisim oa (rowOps ob seq) z zr hz).2.2 op
    have hstep : rowStep ob seq op zr.state zr.children = rowPlain ob op zr.state zr.children := by rcases hop with rfl | rfl | rfl <;> rfl
    simp only [rowOps, hstep, rowPlain, ha, if_true] at e1 e2
    cases hb : (sweep ob op zr.children).2
    · rw [hb] at e1 e2
      simp only [Bool.false_eq_true, if_false] at e1 e2
      exact ⟨by simp [sweep, e1], _, _, by simp only [sweep, e1, if_true], e2, rfl, by simp⟩
    · rw [hb] at e1 e2
      simp only [if_true] at e1 e2
      exact ⟨by simp [sweep, e1], _, _, by simp [sweep, e1], e2, rfl, by simp⟩
  have plain : ∀ op, op = .setup ∨ op = .untick ∨ op = .reset →
      (rowPlain oa op st (xs ++ [z])).2.2 = (rowPlain o op st (ds ++ es)).2.2 ∧
      ∃ xs' z' zr' ds' es', Nested oa ob o seq ⟨(rowPlain oa op st (xs ++ [z])).1, nm, (rowPlain oa op st (xs ++ [z])).2.1⟩
        ⟨(rowPlain o op st (ds ++ es)).1, nm, (rowPlain o op st (ds ++ es)).2.1⟩ xs' z' zr' ds' es' := by
    intro op hop
    unfold rowPlain
    by_cases ha : accepts op st = true
    · simp only [ha, if_true, sweep_append]
      have hz : accepts op zr.state = true := by
        rcases hop with rfl | rfl | rfl
        · exact h8.setup ha
        · exact live_any (h8.live (by simpa [accepts] using ha)) (by simp)
        · exact live_any (h8.live (by simpa [accepts] using ha)) (by simp)
      obtain ⟨f1, f2⟩ := sweep_each front op h4
      obtain ⟨b1, b2⟩ := sweep_each back op h5
      obtain ⟨i1, z', zr', i2, i3, i4, i5⟩ := inner op hop hz z h2
      rw [f1, i1, i2, ← b1]
      cases (sweep o op ds).2
      · exact ⟨rfl, _, _, _, _, _, rfl, h2, rfl, f2, h5, rfl, rfl, fits_broken _⟩
      · simp only [if_true]
        rw [← i4] at b2
        cases hb : (sweep ob op zr.children).2
        · exact ⟨rfl, _, _, _, _, _, rfl, i3, rfl, f2, b2, rfl, rfl, fits_broken _⟩
        · exact ⟨rfl, _, _, _, _, _, rfl, i3, rfl, f2, b2, rfl, rfl, by rw [i5 hb]; exact fits_self _⟩
    · simp only [ha]
      exact ⟨rfl, _, _, _, _, _, rfl, h2, rfl, h4, h5, rfl, rfl, h8⟩
  cases op with
  | setup => exact plain .setup (by simp)
  | untick => exact plain .untick (by simp)
  | reset => exact plain .reset (by simp)
  | shutdown =>
    obtain ⟨f1, f2⟩ := close_each front h4
    obtain ⟨b1, b2⟩ := close_each back h5
    obtain ⟨e1, e2⟩ := zz .shutdown
    simp only [rowOps, rowStep] at e1 e2 ⊢
    have hz : closeErr oa [z] = closeErr ob zr.children := by
      rw [show closeErr oa [z] = ((oa.run .shutdown z).res == .err) from by simp [closeErr], e1]
      cases closeErr ob zr.children <;> rfl
    refine ⟨?_, _, _, _, _, _, (close_append oa xs [z]), e2, close_append o ds es, f2, b2, rfl, rfl, fits_self _⟩
    rw [closeErr_append, closeErr_append, f1, hz, b1]
  | tick =>
    show (rowTick oa seq st (xs ++ [z])).2.2 = (rowTick o seq st (ds ++ es)).2.2 ∧
      ∃ xs' z' zr' ds' es', Nested oa ob o seq ⟨(rowTick oa seq st (xs ++ [z])).1, nm, (rowTick oa seq st (xs ++ [z])).2.1⟩
        ⟨(rowTick o seq st (ds ++ es)).1, nm, (rowTick o seq st (ds ++ es)).2.1⟩ xs' z' zr' ds' es'
    unfold rowTick
    by_cases ha : accepts .tick st = true
    · simp only [ha, if_true]
      have hz := h8.live ha
      -- the start
      have start : (rowStart oa st (xs ++ [z])).2 = (rowStart o st (ds ++ es)).2 ∧ ∃ xs' z' zr' ds' es', (rowStart oa st (xs ++ [z])).1 = xs' ++ [z'] ∧
          (rowStart o st (ds ++ es)).1 = ds' ++ es' ∧ Same oa (rowOps ob seq) z' zr' ∧ Each (Same oa o) xs' ds' ∧ Each (Same ob o) zr'.children es' ∧
          ((rowStart o st (ds ++ es)).2 = true → accepts .tick zr'.state = true ∧ finished zr'.state = false) := by
        unfold rowStart
        cases hf : finished st
        · refine ⟨rfl, xs, z, zr, ds, es, rfl, rfl, h2, h4, h5, fun _ => ⟨hz, ?_⟩⟩
          cases hfz : finished zr.state
          · rfl
          · rw [h8.finished ha hfz] at hf; simp at hf
        · simp only [if_true, sweep_append]
          obtain ⟨f1, f2⟩ := sweep_each front .reset h4
          obtain ⟨b1, b2⟩ := sweep_each back .reset h5
          obtain ⟨i1, z', zr', i2, i3, i4, i5⟩ := inner .reset (by simp) (live_any hz (by simp)) z h2
          rw [f1, i1, i2, ← b1]
          cases (sweep o .reset ds).2
          · exact ⟨rfl, _, _, _, _, _, rfl, rfl, h2, f2, h5, by intro h; cases h⟩
          · simp only [if_true]
            rw [← i4] at b2
            exact ⟨trivial, _, _, _, _, _, rfl, rfl, i3, f2, b2, fun hb => by rw [i5 hb]; exact ⟨rfl, rfl⟩⟩
      obtain ⟨s1, xs', z', zr', ds', es', s2, s3, s4, s5, s6, s7⟩ := start
      rw [s1, s2, s3]
      cases hb : (rowStart o st (ds ++ es)).2
      · exact ⟨rfl, _, _, _, _, _, rfl, s4, rfl, s5, s6, rfl, rfl, fits_broken _⟩
      · obtain ⟨s8, s9⟩ := s7 hb
        simp only [if_true, pass_append]
        obtain ⟨f1, f2⟩ := pass_each front seq s5
        obtain ⟨b1, b2⟩ := pass_each back seq s6
        rw [← f1]
        cases hp : (pass oa seq xs').2 with
        | fails => exact ⟨rfl, _, _, _, _, _, rfl, s4, rfl, f2, s6, rfl, rfl, fits_broken _⟩
        | waits => exact ⟨rfl, _, _, _, _, _, rfl, s4, rfl, f2, s6, rfl, rfl, fits_live rfl s8 (by simp [s9])⟩
        | stops s =>
          have hst := pass_stops oa hsa seq xs' s hp
          have hls : accepts .tick s = true := allowed_live (by simp) hst.2.2
          obtain ⟨w1, w2⟩ := sweep_each back .untick s6
          obtain ⟨e1, e2⟩ := (same_bisim oa (rowOps ob seq) z' zr' s4).2.2 .untick
          have hau : accepts .untick zr'.state = true := live_any s8 (by simp)
          simp only [rowOps, rowStep, rowPlain, hau, if_true] at e1 e2
          dsimp only
          rw [← w1]
          cases hw : (sweep ob .untick zr'.children).2
          · rw [hw] at e1 e2
            simp only [Bool.false_eq_true, if_false] at e1 e2
            simp only [sweep, e1, if_true]
            exact ⟨rfl, _, _, _, _, _, rfl, e2, rfl, f2, w2, rfl, rfl, fits_broken _⟩
          · rw [hw] at e1 e2
            simp only [if_true] at e1 e2
            simp only [sweep, e1]
            exact ⟨rfl, _, _, _, _, _, rfl, e2, rfl, f2, w2, rfl, rfl, fits_live hls rfl (by simp [BT.finished])⟩
        | through =>
          obtain ⟨e1, e2⟩ := (same_bisim oa (rowOps ob seq) z' zr' s4).2.2 .tick
          simp only [rowOps, rowStep, rowTick, s8, if_true, rowStart, s9, Bool.false_eq_true, if_false, rowEnd] at e1 e2
          dsimp only
          rw [← b1]
          cases hq : (pass ob seq zr'.children).2 with
          | fails =>
            rw [hq] at e1 e2
            simp only [Went.res] at e1 e2
            simp only [pass, e1]
            exact ⟨rfl, _, _, _, _, _, rfl, e2, rfl, f2, b2, rfl, rfl, fits_broken _⟩
          | waits =>
            rw [hq] at e1 e2
            simp only [Went.res] at e1 e2
            have hg : goesOn seq .running = false := by cases seq <;> rfl
            simp only [pass, e1, hg]
            exact ⟨rfl, _, _, _, _, _, rfl, e2, rfl, f2, b2, rfl, rfl, fits_self _⟩
          | through =>
            rw [hq] at e1 e2
            have hg : goesOn seq (if seq then .succeeded else .failed) = true := by cases seq <;> rfl
            simp only [Went.res] at e1 e2
            simp only [pass, e1, hg, if_true]
            exact ⟨rfl, _, _, _, _, _, rfl, e2, rfl, f2, b2, rfl, rfl, fits_self _⟩
          | stops s =>
            rw [hq] at e1 e2
            have hst := pass_stops ob hsb seq zr'.children s hq
            simp only [Went.res] at e1 e2
            simp only [pass, e1, hst.1, hst.2.1, sweep, Bool.false_eq_true, if_false, if_true]
            exact ⟨rfl, _, _, _, _, _, rfl, e2, rfl, f2, b2, rfl, rfl, fits_self _⟩
    · simp only [ha]
      exact ⟨rfl, _, _, _, _, _, rfl, h2, rfl, h4, h5, rfl, rfl, h8⟩

/-! ### Decorators one above the other -/

/-- The inner decorator can be operated on whenever the outer one can. -/
structure Fits2 (st st' : BTState) : Prop where
  live : accepts .tick st = true → accepts .tick st' = true
  setup : accepts .setup st = true → accepts .setup st' = true

theorem fits2_live {s s' : BTState} (h : accepts .tick s = true) (h' : accepts .tick s' = true) : Fits2 s s' :=
  ⟨fun _ => h', fun hs => by rw [live_not_setup h] at hs; simp at hs⟩

theorem fits2_broken (s : BTState) : Fits2 .broken s := ⟨by simp [accepts], by simp [accepts]⟩

theorem fits2_accepts {op : Op} {s s' : BTState} (h : Fits2 s s') (ha : accepts op s = true) : accepts op s' = true := by
  cases op with
  | setup => exact h.setup ha
  | tick => exact h.live ha
  | untick => exact live_any (h.live (by simpa [accepts] using ha)) (by simp)
  | reset => exact live_any (h.live (by simpa [accepts] using ha)) (by simp)
  | shutdown => rfl

theorem decStep_accepted (o : Ops N) (f : BTState → BTState) (op : Op) (hop : op ≠ .shutdown) (st : BTState) (c : N) (ha : accepts op st = true) : decStep o f op st c =
    match (o.run op c).res with
    | .err => (.broken, (o.run op c).node, .err)
    | .ok s => (if op = .tick then f s else s, (o.run op c).node, .ok (if op = .tick then f s else s)) := by
  cases op with
  | shutdown => exact absurd rfl hop
  | _ => simp only [decStep, ha, if_true]; cases (o.run _ c).res <;> rfl

theorem decStep_refused (o : Ops N) (f : BTState → BTState) (op : Op) (st : BTState) (c : N) (ha : accepts op st = false) : decStep o f op st c = (st, c, .err) := by
  cases op with
  | shutdown => simp [accepts] at ha
  | _ => simp only [decStep, ha, Bool.false_eq_true, if_false]

/-- A function on answers that keeps to what a tick may answer. -/
def Keeps (f : BTState → BTState) : Prop := ∀ s, allowedAfter .tick s = true → allowedAfter .tick (f s) = true

theorem dec_bisim (oa : Ops A) (ob : Ops B) (o : Ops N) (hs : Sound ob) (f g h : BTState → BTState) (hf : Keeps f) (hg : Keeps g)
    (hh : ∀ s, allowedAfter .tick s = true → h s = f (g s)) :
    Bisim (decOps oa f) (decOps o h) (fun d e => d.state = e.state ∧ d.name = e.name ∧ ∃ z : Dec B, Same oa (decOps ob g) d.child z ∧ Same ob o z.child e.child ∧ Fits2 d.state z.state) := by
  rintro ⟨st, nm, c⟩ ⟨st', nm', e⟩ ⟨h1, h2, z, h3, h4, h5⟩
  dsimp only at h1 h2 h3 h4 h5
  subst h1 h2
  refine ⟨rfl, rfl, fun op => ?_⟩
  obtain ⟨c1, c2⟩ := (same_bisim _ _ _ _ h3).2.2 op
  obtain ⟨e1, e2⟩ := (same_bisim _ _ _ _ h4).2.2 op
  by_cases hop : op = .shutdown
  · subst hop
    simp only [decOps, decStep] at c1 c2 ⊢
    refine ⟨?_, by trivial, by trivial, _, c2, e2, fun h => h, fun h => h⟩
    rw [c1, e1]
    split <;> simp
  · cases ha : accepts op st
    · simp only [decOps, decStep_refused _ _ op st _ ha]
      exact ⟨by trivial, by trivial, by trivial, z, h3, h4, h5⟩
    · have hz := fits2_accepts h5 ha
      simp only [decOps, decStep_accepted _ _ op hop _ _ ha, decStep_accepted _ _ op hop _ _ hz] at c1 c2 ⊢
      rw [← e1]
      cases hr : (ob.run op z.child).res with
      | err =>
        rw [hr] at c1 c2
        dsimp only at c1 c2
        rw [c1]
        exact ⟨by trivial, by trivial, by trivial, _, c2, e2, fits2_broken _⟩
      | ok s =>
        rw [hr] at c1 c2
        dsimp only at c1 c2
        rw [c1]
        have hal := (hs op z.child s hr).2
        by_cases ht : op = .tick
        · subst ht
          simp only [if_true] at c1 c2 ⊢
          rw [hh s hal]
          exact ⟨by trivial, by trivial, by trivial, _, c2, e2, fits2_live (allowed_live (op := .tick) (by simp) (hf _ (hg _ hal))) (allowed_live (op := .tick) (by simp) (hg _ hal))⟩
        · simp only [ht, if_false] at c1 c2 ⊢
          exact ⟨by trivial, by trivial, by trivial, _, c2, e2, fits2_live (allowed_live hop hal) (allowed_live hop hal)⟩

/-! ### A decorator that changes nothing -/

theorem row_tidy (o : Ops N) (seq : Bool) (st : BTState) (nm : Nat) (cs : List N) (op : Op) (hop : op ≠ .shutdown) :
    (accepts op st = false → ((rowOps o seq).run op ⟨st, nm, cs⟩).res = .err ∧ ((rowOps o seq).run op ⟨st, nm, cs⟩).node = ⟨st, nm, cs⟩) ∧
    (accepts op st = true → ((rowOps o seq).run op ⟨st, nm, cs⟩).res = .err → ((rowOps o seq).run op ⟨st, nm, cs⟩).node.state = .broken) := by
  have plain : ∀ op, (accepts op st = false → (rowPlain o op st cs).2.2 = .err ∧ (⟨(rowPlain o op st cs).1, nm, (rowPlain o op st cs).2.1⟩ : Row N) = ⟨st, nm, cs⟩) ∧
      (accepts op st = true → (rowPlain o op st cs).2.2 = .err → (rowPlain o op st cs).1 = .broken) := by
    intro op
    unfold rowPlain
    constructor
    · intro ha; simp [ha]
    · intro ha
      simp only [ha, if_true]
      cases (sweep o op cs).2 <;> simp
  cases op with
  | setup => exact ⟨(plain .setup).1, (plain .setup).2⟩
  | untick => exact ⟨(plain .untick).1, (plain .untick).2⟩
  | reset => exact ⟨(plain .reset).1, (plain .reset).2⟩
  | shutdown => exact absurd rfl hop
  | tick =>
    refine ⟨fun ha => ?_, fun ha => ?_⟩
    · have ha : accepts .tick st = false := ha
      simp [rowOps, rowStep, rowTick, ha]
    · have ha : accepts .tick st = true := ha
      simp only [rowOps, rowStep, rowTick, ha, if_true]
      cases (rowStart o st cs).2
      · simp
      · simp only [if_true, rowEnd]
        cases (pass o seq (rowStart o st cs).1).2.res seq <;> simp

theorem idle_bisim (oa : Ops A) (ob : Ops B) (hs : Sound oa) (seq : Bool) (inner : Nat) (f : BTState → BTState) (hf : ∀ s, allowedAfter .tick s = true → f s = s) :
    Bisim (decOps oa f) (rowOps ob seq) (fun d r => d.state = r.state ∧ d.name = r.name ∧ Same oa (rowOps ob seq) d.child ⟨r.state, inner, r.children⟩) := by
  rintro ⟨st, nm, c⟩ ⟨st', nm', cs⟩ ⟨h1, h2, h3⟩
  dsimp only at h1 h2 h3
  subst h1 h2
  refine ⟨rfl, rfl, fun op => ?_⟩
  obtain ⟨c1, c2⟩ := (same_bisim _ _ _ _ h3).2.2 op
  by_cases hop : op = .shutdown
  · subst hop
    refine ⟨?_, rfl, rfl, c2⟩
    simp only [decOps, decStep, c1, rowOps, rowStep]
    cases closeErr ob cs <;> rfl
  obtain ⟨t1, t2⟩ := row_tidy ob seq st nm cs op hop
  cases ha : accepts op st
  · obtain ⟨r1, r2⟩ := t1 ha
    rw [r1, r2]
    simp only [decOps, decStep_refused _ _ op _ _ ha]
    exact ⟨by trivial, by trivial, by trivial, h3⟩
  · have t2 := t2 ha
    simp only [decOps, decStep_accepted _ _ op hop _ _ ha]
    cases hr : (oa.run op c).res with
    | err =>
      rw [c1] at hr
      exact ⟨hr.symm, (t2 hr).symm, rfl, c2⟩
    | ok s =>
      obtain ⟨q1, q2⟩ := hs _ _ _ hr
      have hfs : (if op = .tick then f s else s) = s := by
        split
        · rename_i ht; subst ht; exact hf s q2
        · rfl
      simp only [hfs]
      refine ⟨?_, ?_, rfl, c2⟩
      · rw [← hr, c1]; rfl
      · rw [← q1, c2.state]; rfl

/-! ### An inverted row -/

/-- What an Inverter makes of an answer. -/
def inv (s : BTState) : BTState := if s = .failed then .succeeded else if s = .succeeded then .failed else s

/-- The node never answers ASSIGNED or UNASSIGNED. -/
def Plain (o : Ops N) (t : N) : Prop := ∀ h, ∀ a ∈ look o h t, a.1 ≠ .ok .assigned ∧ a.1 ≠ .ok .unassigned

theorem plain_step (o : Ops N) (t : N) (h : Plain o t) (op : Op) : Plain o (o.run op t).node :=
  fun l a ha => h (op :: l) a (by simp [look, ha])

theorem plain_tick (o : Ops N) (hs : Sound o) (t : N) (h : Plain o t) (s : BTState) (hr : (o.run .tick t).res = .ok s) : s = .running ∨ s = .succeeded ∨ s = .failed := by
  have h1 := h [.tick] _ (List.mem_cons_self ..)
  rw [hr] at h1
  have h2 := (hs _ _ _ hr).2
  cases s <;> simp_all [allowedAfter]

/-- `d` is an Inverter over something that behaves like `x`, in a state with `P`. -/
def Flip (od : Ops D) (ob : Ops B) (o : Ops N) (P : BTState → Bool) (x : B) (d : D) : Prop :=
  Plain ob x ∧ ∃ e : Dec N, Same od (decOps o inv) d e ∧ Same ob o x e.child ∧ P e.state = true

theorem flip_mono {od : Ops D} {ob : Ops B} {o : Ops N} {P Q : BTState → Bool} (h : ∀ s, P s = true → Q s = true) {xs : List B} {ds : List D}
    (hc : Each (Flip od ob o P) xs ds) : Each (Flip od ob o Q) xs ds := by
  induction hc with
  | nil => exact .nil
  | cons h0 _ ih => obtain ⟨p, e, a, b, c⟩ := h0; exact .cons ⟨p, e, a, b, h _ c⟩ ih

theorem flip_sweep (od : Ops D) (ob : Ops B) (o : Ops N) (hs : Sound ob) (op : Op) (hop : op = .setup ∨ op = .untick ∨ op = .reset) {xs : List B} {ds : List D}
    (hc : Each (Flip od ob o (accepts op)) xs ds) : (sweep ob op xs).2 = (sweep od op ds).2 ∧
    Each (Flip od ob o fun s => !(sweep ob op xs).2 || accepts .tick s) (sweep ob op xs).1 (sweep od op ds).1 := by
  induction hc with
  | nil => exact ⟨rfl, .nil⟩
  | cons h0 hl ih =>
    rename_i x d xs ds
    obtain ⟨hp, e, h1, h2, h3⟩ := h0
    obtain ⟨d1, d2⟩ := (same_bisim _ _ _ _ h1).2.2 op
    obtain ⟨x1, x2⟩ := (same_bisim _ _ _ _ h2).2.2 op
    have hsd : op ≠ .shutdown := by rcases hop with rfl | rfl | rfl <;> simp
    have htk : op ≠ .tick := by rcases hop with rfl | rfl | rfl <;> simp
    simp only [decOps, decStep_accepted _ _ op hsd _ _ h3, htk, if_false] at d1 d2
    rw [← x1] at d1 d2
    simp only [sweep]
    cases hr : (ob.run op x).res with
    | err =>
      rw [hr] at d1 d2
      dsimp only at d1 d2
      simp only [d1, if_true]
      exact ⟨by trivial, .cons ⟨plain_step _ _ hp op, _, d2, x2, by simp⟩ (flip_mono (fun _ _ => by simp) hl)⟩
    | ok s =>
      rw [hr] at d1 d2
      dsimp only at d1 d2
      simp only [d1, reduceCtorEq, if_false]
      refine ⟨ih.1, .cons ⟨plain_step _ _ hp op, _, d2, x2, ?_⟩ ih.2⟩
      dsimp only
      rw [allowed_live hsd (hs _ _ _ hr).2]
      simp

/-- How the two rows end. -/
def Went.flip : Went → Went
  | .stops s => .stops (inv s)
  | w => w

/-- The row ended with an error. -/
@[simp]
def Went.isFails : Went → Bool
  | .fails => true
  | _ => false

theorem flip_pass (od : Ops D) (ob : Ops B) (o : Ops N) (hs : Sound ob) (seq : Bool) {xs : List B} {ds : List D}
    (hc : Each (Flip od ob o (accepts .tick)) xs ds) : (pass od (!seq) ds).2 = (pass ob seq xs).2.flip ∧
    Each (Flip od ob o fun s => (pass ob seq xs).2.isFails || accepts .tick s) (pass ob seq xs).1 (pass od (!seq) ds).1 := by
  induction hc with
  | nil => exact ⟨rfl, .nil⟩
  | cons h0 hl ih =>
    rename_i x d xs ds
    obtain ⟨hp, e, h1, h2, h3⟩ := h0
    obtain ⟨d1, d2⟩ := (same_bisim _ _ _ _ h1).2.2 .tick
    obtain ⟨x1, x2⟩ := (same_bisim _ _ _ _ h2).2.2 .tick
    simp only [decOps, decStep_accepted _ _ .tick (by simp) _ _ h3, if_true] at d1 d2
    rw [← x1] at d1 d2
    simp only [pass]
    cases hr : (ob.run .tick x).res with
    | err =>
      rw [hr] at d1 d2
      dsimp only at d1 d2
      simp only [d1]
      exact ⟨by trivial, .cons ⟨plain_step _ _ hp _, _, d2, x2, by simp⟩ (flip_mono (fun _ _ => by simp) hl)⟩
    | ok s =>
      rw [hr] at d1 d2
      dsimp only at d1 d2
      have hpl := plain_tick ob hs x hp s hr
      have hlive : accepts .tick (inv s) = true := by rcases hpl with rfl | rfl | rfl <;> rfl
      have hg : goesOn (!seq) (inv s) = goesOn seq s := by rcases hpl with rfl | rfl | rfl <;> cases seq <;> rfl
      have hrun : (inv s = .running) ↔ (s = .running) := by rcases hpl with rfl | rfl | rfl <;> simp [inv]
      simp only [d1, hg, hrun]
      cases goesOn seq s
      · simp only [Bool.false_eq_true, if_false]
        by_cases hn : s = .running
        · simp only [hn, if_true]
          exact ⟨by trivial, .cons ⟨plain_step _ _ hp _, _, d2, x2, by simp [hlive]⟩ (flip_mono (fun _ h => by simp [h]) hl)⟩
        · simp only [hn, if_false]
          obtain ⟨w1, w2⟩ := flip_sweep od ob o hs .untick (by simp) (flip_mono (fun _ h => live_any h (by simp)) hl)
          rw [← w1]
          cases hw : (sweep ob .untick xs).2
          · exact ⟨rfl, .cons ⟨plain_step _ _ hp _, _, d2, x2, by simp⟩ (flip_mono (fun _ _ => by simp) w2)⟩
          · rw [hw] at w2
            exact ⟨rfl, .cons ⟨plain_step _ _ hp _, _, d2, x2, by simp [hlive]⟩ (flip_mono (fun _ h => by simpa using h) w2)⟩
      · simp only [if_true]
        refine ⟨ih.1, .cons ⟨plain_step _ _ hp _, _, d2, x2, ?_⟩ ih.2⟩
        dsimp only
        rw [hlive]
        simp

theorem flip_close (od : Ops D) (ob : Ops B) (o : Ops N) (P : BTState → Bool) {xs : List B} {ds : List D} (hc : Each (Flip od ob o P) xs ds) :
    closeErr od ds = closeErr ob xs ∧ Each (Flip od ob o fun s => s = .shutdown) (close ob xs) (close od ds) := by
  induction hc with
  | nil => exact ⟨rfl, .nil⟩
  | cons h0 hl ih =>
    rename_i x d xs ds
    obtain ⟨hp, e, h1, h2, h3⟩ := h0
    obtain ⟨d1, d2⟩ := (same_bisim _ _ _ _ h1).2.2 .shutdown
    obtain ⟨x1, x2⟩ := (same_bisim _ _ _ _ h2).2.2 .shutdown
    simp only [decOps, decStep] at d1 d2
    rw [← x1] at d1
    refine ⟨?_, .cons ⟨plain_step _ _ hp _, _, d2, x2, by simp⟩ ih.2⟩
    have i1 := ih.1
    simp only [closeErr, List.any_cons] at i1 ⊢
    rw [d1, i1]
    cases (ob.run .shutdown x).res <;> rfl

/-- The relation between the inverted row and the row of Inverters. -/
structure Inverted (oa : Ops A) (ob : Ops B) (od : Ops D) (o : Ops N) (seq : Bool) (d : Dec A) (r : Row D) (zr : Row B) : Prop where
  state : d.state = r.state
  name : d.name = r.name
  inner : Same oa (rowOps ob seq) d.child zr
  children : Each (Flip od ob o fun s => (!accepts .tick r.state || accepts .tick s) && (!accepts .setup r.state || accepts .setup s)) zr.children r.children
  fits : Fits2 r.state zr.state
  finished : accepts .tick r.state = true → finished zr.state = finished r.state

theorem inverted_bisim (oa : Ops A) (ob : Ops B) (od : Ops D) (o : Ops N) (hs : Sound ob) (seq : Bool) :
    Bisim (decOps oa inv) (rowOps od (!seq)) (fun d r => ∃ zr, Inverted oa ob od o seq d r zr) := by
  rintro ⟨st, nm, z⟩ ⟨st', nm', ds⟩ ⟨zr, h1, h2, h3, h4, h5, h6⟩
  dsimp only at h1 h2 h3 h4 h5 h6
  subst h1 h2
  refine ⟨rfl, rfl, fun op => ?_⟩
  obtain ⟨e1, e2⟩ := (same_bisim oa (rowOps ob seq) z zr h3).2.2 op
  have brk : ∀ {P : BTState → Bool} {xs : List B} {ds : List D}, Each (Flip od ob o P) xs ds →
      Each (Flip od ob o fun s => (!accepts .tick .broken || accepts .tick s) && (!accepts .setup .broken || accepts .setup s)) xs ds :=
    fun h => flip_mono (fun _ _ => by simp [accepts]) h
  have liv : ∀ {s' : BTState}, accepts .tick s' = true → ∀ {xs : List B} {ds : List D}, Each (Flip od ob o (accepts .tick)) xs ds →
      Each (Flip od ob o fun s => (!accepts .tick s' || accepts .tick s) && (!accepts .setup s' || accepts .setup s)) xs ds :=
    fun hl _ _ h => flip_mono (fun _ h => by simp [h, live_not_setup hl]) h
  have plain : ∀ op, op = .setup ∨ op = .untick ∨ op = .reset → (oa.run op z).res = ((rowOps ob seq).run op zr).res →
      Same oa (rowOps ob seq) (oa.run op z).node ((rowOps ob seq).run op zr).node →
      ((decOps oa inv).run op ⟨st, nm, z⟩).res = ((rowOps od (!seq)).run op ⟨st, nm, ds⟩).res ∧
      ∃ zr', Inverted oa ob od o seq ((decOps oa inv).run op ⟨st, nm, z⟩).node ((rowOps od (!seq)).run op ⟨st, nm, ds⟩).node zr' := by
    intro op hop e1 e2
    have hsd : op ≠ .shutdown := by rcases hop with rfl | rfl | rfl <;> simp
    have htk : op ≠ .tick := by rcases hop with rfl | rfl | rfl <;> simp
    have hstep : ∀ {N : Type} (o : Ops N) (seq : Bool) (st : BTState) (cs : List N), rowStep o seq op st cs = rowPlain o op st cs := by
      intros; rcases hop with rfl | rfl | rfl <;> rfl
    simp only [rowOps, decOps, hstep] at e1 e2 ⊢
    cases ha : accepts op st
    · simp only [decStep_refused _ _ op st _ ha, rowPlain, ha]
      exact ⟨rfl, zr, rfl, rfl, h3, h4, h5, h6⟩
    · have hz := fits2_accepts h5 ha
      have hall : Each (Flip od ob o (accepts op)) zr.children ds := by
        refine flip_mono (fun s h => ?_) h4
        rcases hop with rfl | rfl | rfl
        · simp only [Bool.and_eq_true, Bool.or_eq_true, Bool.not_eq_true'] at h
          rcases h.2 with h | h
          · rw [ha] at h; simp at h
          · exact h
        · simp only [Bool.and_eq_true, Bool.or_eq_true, Bool.not_eq_true'] at h
          rcases h.1 with h | h
          · rw [show accepts .tick st = accepts .untick st from rfl, ha] at h; simp at h
          · exact h
        · simp only [Bool.and_eq_true, Bool.or_eq_true, Bool.not_eq_true'] at h
          rcases h.1 with h | h
          · rw [show accepts .tick st = accepts .reset st from rfl, ha] at h; simp at h
          · exact h
      obtain ⟨w1, w2⟩ := flip_sweep od ob o hs op hop hall
      simp only [decStep_accepted _ _ op hsd _ _ ha, rowPlain, ha, hz, if_true, htk, if_false] at e1 e2 ⊢
      rw [← w1]
      cases hw : (sweep ob op zr.children).2
      · rw [hw] at e1 e2
        simp only [Bool.false_eq_true, if_false] at e1 e2 ⊢
        rw [e1]
        exact ⟨rfl, _, rfl, rfl, e2, brk w2, fits2_broken _, by simp [accepts]⟩
      · rw [hw] at e1 e2 w2
        simp only [if_true] at e1 e2 w2 ⊢
        rw [e1]
        exact ⟨rfl, _, rfl, rfl, e2, liv rfl w2, fits2_live rfl rfl, fun _ => rfl⟩
  cases op with
  | setup => exact plain .setup (by simp) e1 e2
  | untick => exact plain .untick (by simp) e1 e2
  | reset => exact plain .reset (by simp) e1 e2
  | shutdown =>
    obtain ⟨c1, c2⟩ := flip_close od ob o _ h4
    simp only [rowOps, decOps, decStep, rowStep] at e1 e2 ⊢
    rw [e1, c1]
    refine ⟨?_, _, rfl, rfl, e2, flip_mono (fun s h => ?_) c2, ⟨by simp [accepts], by simp [accepts]⟩, by simp [accepts]⟩
    · cases closeErr ob zr.children <;> rfl
    · have : s = .shutdown := by simpa using h
      subst this; rfl
  | tick =>
    simp only [rowOps, decOps, rowStep] at e1 e2 ⊢
    cases ha : accepts .tick st
    · simp only [decStep_refused _ _ _ st _ ha, rowTick, ha]
      exact ⟨rfl, zr, rfl, rfl, h3, h4, h5, h6⟩
    · have hz := h5.live ha
      have hall : Each (Flip od ob o (accepts .tick)) zr.children ds := flip_mono (fun s h => by simpa [ha, live_not_setup ha] using h) h4
      simp only [decStep_accepted _ _ .tick (by simp) _ _ ha, rowTick, ha, hz, if_true] at e1 e2 ⊢
      have start : (rowStart od st ds).2 = (rowStart ob zr.state zr.children).2 ∧
          Each (Flip od ob o fun s => !(rowStart ob zr.state zr.children).2 || accepts .tick s) (rowStart ob zr.state zr.children).1 (rowStart od st ds).1 := by
        unfold rowStart
        rw [h6 ha]
        cases finished st
        · exact ⟨rfl, flip_mono (fun _ h => by simpa using h) hall⟩
        · obtain ⟨w1, w2⟩ := flip_sweep od ob o hs .reset (by simp) (flip_mono (fun _ h => live_any h (by simp)) hall)
          exact ⟨w1.symm, w2⟩
      obtain ⟨s1, s2⟩ := start
      rw [s1]
      cases hb : (rowStart ob zr.state zr.children).2
      · rw [hb] at e1 e2
        simp only [Bool.false_eq_true, if_false] at e1 e2 ⊢
        rw [e1]
        exact ⟨rfl, _, rfl, rfl, e2, brk s2, fits2_broken _, by simp [accepts]⟩
      · rw [hb] at e1 e2 s2
        simp only [if_true] at e1 e2 s2 ⊢
        obtain ⟨p1, p2⟩ := flip_pass od ob o hs seq s2
        simp only [rowEnd] at e1 e2 ⊢
        rw [p1]
        cases hq : (pass ob seq (rowStart ob zr.state zr.children).1).2 with
        | fails =>
          rw [hq] at e1 e2
          simp only [Went.res, Went.flip] at e1 e2 ⊢
          rw [e1]
          exact ⟨rfl, _, rfl, rfl, e2, brk p2, fits2_broken _, by simp [accepts]⟩
        | waits =>
          rw [hq] at e1 e2 p2
          simp only [Went.res, Went.flip] at e1 e2 ⊢
          rw [e1]
          exact ⟨rfl, _, rfl, rfl, e2, liv rfl (flip_mono (fun _ h => by simpa using h) p2), fits2_live rfl rfl, fun _ => rfl⟩
        | through =>
          rw [hq] at e1 e2 p2
          simp only [Went.res, Went.flip] at e1 e2 ⊢
          rw [e1]
          cases seq
          · exact ⟨rfl, _, rfl, rfl, e2, liv rfl (flip_mono (fun _ h => by simpa using h) p2), fits2_live rfl rfl, fun _ => rfl⟩
          · exact ⟨rfl, _, rfl, rfl, e2, liv rfl (flip_mono (fun _ h => by simpa using h) p2), fits2_live rfl rfl, fun _ => rfl⟩
        | stops s =>
          rw [hq] at e1 e2 p2
          have hst := (pass_stops ob hs seq _ s hq).2.2
          have hinv : allowedAfter .tick (inv s) = true := relabels_allowed .inverter _ rfl s hst
          simp only [Went.res, Went.flip] at e1 e2 ⊢
          rw [e1]
          refine ⟨rfl, _, rfl, rfl, e2, liv (allowed_live (by simp) hinv) (flip_mono (fun _ h => by simpa using h) p2),
            fits2_live (allowed_live (op := .tick) (by simp) hinv) (allowed_live (op := .tick) (by simp) hst), fun _ => ?_⟩
          dsimp only
          cases s <;> rfl

/-! ### The laws for trees -/

/-- A node of the given class over the given children that has not been set up yet. -/
structure Is (k : Kind) (cs : List N) (nd : Node N) : Prop where
  kind : nd.kind = k
  children : nd.children = cs
  state : nd.state = .uninitialized
  calm : Calm nd

theorem fits_fresh : Fits .uninitialized .uninitialized := fits_self _

/-- **C98, nested rows.** A Sequence whose last child is a Sequence behaves exactly like the one
Sequence over all the children, in every sequence of operations; the same holds for Fallbacks. -/
theorem c98_flatten (seq : Bool) (n m : Nat) (a : Tree (n + 2)) (z : Tree (n + 1)) (b : Tree (m + 1)) (xs : List (Tree (n + 1))) (ys : List (Tree n)) (ds es : List (Tree m))
    (ha : Is (N := Tree (n + 1)) (rowKind seq) (xs ++ [z]) a) (hz : Is (N := Tree n) (rowKind seq) ys z) (hb : Is (N := Tree m) (rowKind seq) (ds ++ es) b)
    (hx : Each (Same (ops (n + 1)) (ops m)) xs ds) (hy : Each (Same (ops n) (ops m)) ys es) (hn : (ops (n + 2)).name a = (ops (m + 1)).name b) :
    Same (ops (n + 2)) (ops (m + 1)) a b := by
  refine same_trans (row_same (ops (n + 1)) (ops_sound _) seq a ha.kind ha.calm) (same_trans ?_ (same_symm (row_same (ops m) (ops_sound _) seq b hb.kind hb.calm)))
  refine same_of_bisim (nested_bisim (ops (n + 1)) (ops n) (ops m) (ops_sound _) (ops_sound _) seq) ⟨xs, z, _, ds, es, ha.children,
    row_same (ops n) (ops_sound _) seq z hz.kind hz.calm, hb.children, hx, ?_, ha.state.trans hb.state.symm, hn, ?_⟩
  · rw [hz.children]; exact hy
  · rw [ha.state, hz.state]; exact fits_fresh

/-- **C98, inverted rows.** An Inverter over a Sequence behaves exactly like a Fallback over
Inverters, an Inverter over a Fallback like a Sequence over Inverters. -/
theorem c98_de_morgan (seq : Bool) (n m : Nat) (a : Tree (n + 2)) (z : Tree (n + 1)) (b : Tree (m + 2)) (xs : List (Tree n)) (ds : List (Tree (m + 1)))
    (ha : Is (N := Tree (n + 1)) .inverter [z] a) (hz : Is (N := Tree n) (rowKind seq) xs z) (hb : Is (N := Tree (m + 1)) (rowKind (!seq)) ds b)
    (hx : Each (fun x d => Plain (ops n) x ∧ ∃ y, Same (ops n) (ops m) x y ∧ Is (N := Tree m) .inverter [y] d) xs ds)
    (hn : (ops (n + 2)).name a = (ops (m + 2)).name b) : Same (ops (n + 2)) (ops (m + 2)) a b := by
  refine same_trans (dec_same (ops (n + 1)) (ops_sound _) inv a z (by rw [ha.kind]; rfl) ha.calm ha.children)
    (same_trans ?_ (same_symm (row_same (ops (m + 1)) (ops_sound _) (!seq) b hb.kind hb.calm)))
  refine same_of_bisim (inverted_bisim (ops (n + 1)) (ops n) (ops (m + 1)) (ops m) (ops_sound _) seq)
    ⟨_, ha.state.trans hb.state.symm, hn, row_same (ops n) (ops_sound _) seq z hz.kind hz.calm, ?_, ?_, ?_⟩
  · rw [hz.children, hb.children, hb.state]
    clear hz hb
    induction hx with
    | nil => exact .nil
    | cons h0 _ ih =>
      obtain ⟨hp, y, h1, h2⟩ := h0
      exact .cons ⟨hp, _, dec_same (ops m) (ops_sound _) inv _ y (by rw [h2.kind]; rfl) h2.calm h2.children, h1, by dsimp only; rw [h2.state]; rfl⟩ ih
  · rw [hb.state, hz.state]; exact ⟨id, id⟩
  · intro _; rw [hb.state, hz.state]

theorem keeps_relabels {k : Kind} {f : BTState → BTState} (h : relabels k = some f) : Keeps f := relabels_allowed k f h

/-- **C98, decorators.** Of Inverter, IgnoreFailure and IgnoreSuccess, one above the other, only
the combined exchange of answers matters: if it is the one of a single decorator, that one does. -/
theorem c98_decorators_join (n m : Nat) (a : Tree (n + 2)) (z : Tree (n + 1)) (b : Tree (m + 1)) (t : Tree n) (t' : Tree m) (k1 k2 k : Kind) (f g h : BTState → BTState)
    (ha : Is (N := Tree (n + 1)) k1 [z] a) (hz : Is (N := Tree n) k2 [t] z) (hb : Is (N := Tree m) k [t'] b)
    (h1 : relabels k1 = some f) (h2 : relabels k2 = some g) (h3 : relabels k = some h) (hc : ∀ s, h s = f (g s))
    (ht : Same (ops n) (ops m) t t') (hn : (ops (n + 2)).name a = (ops (m + 1)).name b) : Same (ops (n + 2)) (ops (m + 1)) a b := by
  refine same_trans (dec_same (ops (n + 1)) (ops_sound _) f a z (by rw [ha.kind]; exact h1) ha.calm ha.children)
    (same_trans ?_ (same_symm (dec_same (ops m) (ops_sound _) h b t' (by rw [hb.kind]; exact h3) hb.calm hb.children)))
  refine same_of_bisim (dec_bisim (ops (n + 1)) (ops n) (ops m) (ops_sound _) f g h (keeps_relabels h1) (keeps_relabels h2) fun s _ => hc s) ⟨ha.state.trans hb.state.symm, hn, _,
    dec_same (ops n) (ops_sound _) g z t (by rw [hz.kind]; exact h2) hz.calm hz.children, ht, ?_⟩
  rw [ha.state, hz.state]
  exact ⟨id, id⟩

/-- **C98, decorators in another order.** Two decorators above a node can be exchanged for two
others with the same combined effect on answers. -/
theorem c98_decorators_swap (n m : Nat) (a : Tree (n + 2)) (z : Tree (n + 1)) (b : Tree (m + 2)) (z' : Tree (m + 1)) (t : Tree n) (t' : Tree m) (k1 k2 k3 k4 : Kind)
    (f g f' g' : BTState → BTState) (ha : Is (N := Tree (n + 1)) k1 [z] a) (hz : Is (N := Tree n) k2 [t] z) (hb : Is (N := Tree (m + 1)) k3 [z'] b) (hz' : Is (N := Tree m) k4 [t'] z')
    (h1 : relabels k1 = some f) (h2 : relabels k2 = some g) (h3 : relabels k3 = some f') (h4 : relabels k4 = some g') (hc : ∀ s, f (g s) = f' (g' s))
    (ht : Same (ops n) (ops m) t t') (hn : (ops (n + 2)).name a = (ops (m + 2)).name b) : Same (ops (n + 2)) (ops (m + 2)) a b := by
  have left := dec_bisim (ops (n + 1)) (ops n) (ops n) (ops_sound _) f g (fun s => f (g s)) (keeps_relabels h1) (keeps_relabels h2) fun s _ => rfl
  have right := dec_bisim (ops (m + 1)) (ops m) (ops n) (ops_sound _) f' g' (fun s => f (g s)) (keeps_relabels h3) (keeps_relabels h4) fun s _ => hc s
  refine same_trans (dec_same (ops (n + 1)) (ops_sound _) f a z (by rw [ha.kind]; exact h1) ha.calm ha.children)
    (same_trans (o' := decOps (ops n) fun s => f (g s)) (b := (⟨.uninitialized, (ops (n + 2)).name a, t⟩ : Dec (Tree n))) ?_ (same_trans (same_symm ?_)
      (same_symm (dec_same (ops (m + 1)) (ops_sound _) f' b z' (by rw [hb.kind]; exact h3) hb.calm hb.children))))
  · exact same_of_bisim left ⟨ha.state, rfl, _, dec_same (ops n) (ops_sound _) g z t (by rw [hz.kind]; exact h2) hz.calm hz.children, same_refl _ _, by
      rw [ha.state, hz.state]; exact ⟨id, id⟩⟩
  · exact same_of_bisim right ⟨hb.state, hn.symm, _, dec_same (ops m) (ops_sound _) g' z' t' (by rw [hz'.kind]; exact h4) hz'.calm hz'.children, same_symm ht, by
      rw [hb.state, hz'.state]; exact ⟨id, id⟩⟩

/-- **C98, double inversion.** Two Inverters above a Sequence or Fallback can be left out. -/
theorem c98_double_inversion (seq : Bool) (n m : Nat) (a : Tree (n + 3)) (b : Tree (n + 2)) (z : Tree (n + 1)) (z' : Tree (m + 1)) (xs : List (Tree n)) (ys : List (Tree m))
    (ha : Is (N := Tree (n + 2)) .inverter [b] a) (hb : Is (N := Tree (n + 1)) .inverter [z] b) (hz : Is (N := Tree n) (rowKind seq) xs z)
    (hz' : Is (N := Tree m) (rowKind seq) ys z') (hx : Each (Same (ops n) (ops m)) xs ys)
    (hn : (ops (n + 3)).name a = (ops (m + 1)).name z') : Same (ops (n + 3)) (ops (m + 1)) a z' := by
  have hr := row_same (ops m) (ops_sound _) seq z' hz'.kind hz'.calm
  have hkeep : Keeps inv := relabels_allowed .inverter _ rfl
  have hid : ∀ s, id s = inv (inv s) := by intro s; cases s <;> rfl
  -- the two Inverters together
  have s1 := dec_same (ops (n + 2)) (ops_sound _) inv a b (by rw [ha.kind]; rfl) ha.calm ha.children
  have s2 : Same (decOps (ops (n + 2)) inv) (decOps (ops (n + 1)) id) ⟨Node.state a, Node.name a, b⟩ ⟨.uninitialized, (ops (m + 1)).name z', z⟩ :=
    same_of_bisim (dec_bisim (ops (n + 2)) (ops (n + 1)) (ops (n + 1)) (ops_sound _) inv inv id hkeep hkeep fun s _ => hid s) ⟨ha.state, hn, _,
      dec_same (ops (n + 1)) (ops_sound _) inv b z (by rw [hb.kind]; rfl) hb.calm hb.children, same_refl _ _, by rw [ha.state, hb.state]; exact ⟨id, id⟩⟩
  -- the row on its own
  have s4 : Same (rowOps (ops n) seq) (rowOps (ops m) seq) ⟨.uninitialized, (ops (m + 1)).name z', xs⟩ ⟨Node.state z', Node.name z', Node.children z'⟩ :=
    same_of_bisim (row_bisim (same_bisim (ops n) (ops m)) seq) ⟨hz'.state.symm, rfl, by rw [hz'.children]; exact hx⟩
  have hzs := row_same (ops n) (ops_sound _) seq z hz.kind hz.calm
  rw [hz.state, hz.children] at hzs
  have s3 : Same (decOps (ops (n + 1)) id) (rowOps (ops n) seq) ⟨.uninitialized, (ops (m + 1)).name z', z⟩ ⟨.uninitialized, (ops (m + 1)).name z', xs⟩ :=
    same_of_bisim (idle_bisim (ops (n + 1)) (ops n) (ops_sound _) seq (Node.name z) id fun _ _ => rfl) ⟨rfl, rfl, hzs⟩
  exact same_trans s1 (same_trans s2 (same_trans s3 (same_trans s4 (same_symm hr))))

/-! ### Samples and limits -/

/-- A tree as a tree of greater depth. -/
def lift : (n : Nat) → Tree n → Tree (n + 1)
  | 0, t => Empty.elim t
  | n + 1, t =>
    let nd : Node (Tree n) := t
    (⟨nd.id, nd.name, nd.kind, nd.state, nd.mem, nd.env, nd.ctr, nd.children.map (lift n)⟩ : Node (Tree (n + 1)))

theorem each_map {R : N → M → Prop} {f : N → M} (h : ∀ a, R a (f a)) : ∀ l : List N, Each R l (l.map f)
  | [] => .nil
  | a :: l => .cons (h a) (each_map h l)

/-- The depth of the type does not matter. -/
theorem lift_same (n : Nat) : ∀ t : Tree n, Same (ops n) (ops (n + 1)) t (lift n t) := by
  induction n with
  | zero => intro t; exact Empty.elim t
  | succ n ih =>
    intro t
    exact same_of_bisim (over_bisim (same_bisim (ops n) (ops (n + 1)))) ⟨rfl, rfl, rfl, rfl, rfl, rfl, each_map ih _⟩

/-- A leaf that succeeds, one that is RUNNING first and fails then, and one more. -/
def leafA : Tree 1 := mkLeaf 0 11 [.ok .idle, .ok .succeeded, .ok .succeeded]

/-- See `leafA`. -/
def leafB : Tree 1 := mkLeaf 0 12 [.ok .idle, .ok .running, .ok .failed]

/-- See `leafA`. -/
def leafC : Tree 1 := mkLeaf 0 13 [.ok .idle, .ok .idle]

/-- `leafA` answers as a leaf of the library does. -/
theorem calm_mk (n id : Nat) (k : Kind) (cs : List (Tree n)) : Calm (N := Tree n) (mk n id k cs) := fun _ => ⟨rfl, rfl⟩

theorem is_mk (n id : Nat) (k : Kind) (cs : List (Tree n)) : Is (N := Tree n) k cs (mk n id k cs) := ⟨rfl, rfl, rfl, calm_mk n id k cs⟩

/-- A Sequence in a Sequence and the flat one; they run into RUNNING and then a failure. -/
example : Same (ops 3) (ops 2) (mk 2 1 .sequence [lift 1 leafA, mk 1 2 .sequence [leafB, leafC]]) (mk 1 1 .sequence [leafA, leafB, leafC]) ∧
    (look (ops 2) [.setup, .tick, .tick] (mk 1 1 .sequence [leafA, leafB, leafC])).map (·.1) = [.ok .idle, .ok .running, .ok .failed] :=
  ⟨c98_flatten true 1 1 _ _ _ [lift 1 leafA] [leafB, leafC] [leafA] [leafB, leafC] (is_mk 2 1 _ _) (is_mk 1 2 _ _) (is_mk 1 1 _ _)
    (.cons (same_symm (lift_same 1 leafA)) .nil) (each_refl (same_refl _) _) rfl, by decide⟩

/-- Below a Parallel, which looks at states, such an exchange changes nothing either. -/
example : Same (ops 4) (ops 3) (mk 3 0 .parallel [mk 2 1 .sequence [lift 1 leafA, mk 1 2 .sequence [leafB, leafC]]]) (mk 2 0 .parallel [mk 1 1 .sequence [leafA, leafB, leafC]]) :=
  c98_context 4 3 _ _ (.under ⟨rfl, rfl, rfl, rfl, rfl, rfl, .cons trivial .nil⟩ fun i c d h1 h2 => by
    match i with
    | 0 =>
      cases h1; cases h2
      exact .here (c98_flatten true 1 1 _ _ _ [lift 1 leafA] [leafB, leafC] [leafA] [leafB, leafC] (is_mk 2 1 _ _) (is_mk 1 2 _ _) (is_mk 1 1 _ _)
        (.cons (same_symm (lift_same 1 leafA)) .nil) (each_refl (same_refl _) _) rfl)
    | i + 1 => cases h1)

/-- A getter without a child (`getters.py:113-149`) that answers the given results in turn. -/
def source (n id : Nat) (answers : List OwnRes) : Tree (n + 1) := mk n id .getter [] fun i => { own := answers.getD i .succeeded }

/-- A getter that never answers anything but RUNNING, SUCCEEDED and FAILED. -/
theorem source_plain (n id : Nat) (answers : List OwnRes) : Plain (ops (n + 1)) (source n id answers) := by
  have key : ∀ (h : List Op) (nd : Node (Tree n)), nd.kind = .getter → nd.children = [] → ∀ a ∈ look (ops (n + 1)) h nd, a.1 ≠ .ok .assigned ∧ a.1 ≠ .ok .unassigned := by
    intro h
    induction h with
    | nil => intro nd _ _ a ha; simp [look] at ha
    | cons op h ih =>
      intro nd hk hc a ha
      have hst := run_static (ops n) op nd
      have hch : (nd.run (ops n) op).node.children = [] := List.length_eq_zero_iff.1 (by rw [hst.2.2.2.2.2, hc]; rfl)
      rcases List.mem_cons.1 (by simpa only [look] using ha) with rfl | ha
      · have hone : ∀ s, (nd.run (ops n) op).res = .ok s → s ≠ .assigned ∧ s ≠ .unassigned := by
          intro s hr
          by_cases hop : op = .tick
          · subst hop
            obtain ⟨e1, e2⟩ : (s = .running ∨ s = .succeeded ∨ s = .failed) ∧ True := by
              refine ⟨?_, trivial⟩
              have hx : (exec (ops n) (hookProg nd.kind .tick nd.state nd.mem (nd.env nd.ctr) (nd.children.map (ops n).name)) nd.children).res = (nd.env nd.ctr).own.toRes := by
                rw [hk, hc]; rfl
              revert hr
              show (Node.runTick (ops n) (nd.env nd.ctr) { nd with ctr := nd.ctr + 1 }).res = _ → _
              unfold Node.runTick Node.runHook
              dsimp only
              rw [hx]
              cases (nd.env nd.ctr).own <;> simp only [OwnRes.toRes] <;> (repeat' split) <;> simp [Node.wrap] <;> rintro rfl <;> simp
            rcases e1 with rfl | rfl | rfl <;> simp
          · have := (ops_sound (n + 1) op nd s hr).2
            cases op <;> cases s <;> simp [allowedAfter] at this hop ⊢
        exact ⟨fun h => (hone _ h).1 rfl, fun h => (hone _ h).2 rfl⟩
      · exact ih _ (hst.2.2.1.trans hk) hch a ha
  exact fun h => key h _ rfl rfl

/-- Not RUNNING and not SUCCEEDED means not FAILED and not RUNNING after inversion. -/
example : Same (ops 3) (ops 3) (mk 2 1 .inverter [mk 1 2 .sequence [source 0 11 [.running, .succeeded, .succeeded], source 0 12 [.running, .failed]]])
      (mk 2 1 .fallback [mk 1 3 .inverter [source 0 11 [.running, .succeeded, .succeeded]], mk 1 4 .inverter [source 0 12 [.running, .failed]]]) ∧
    (look (ops 3) [.setup, .tick] (mk 2 1 .inverter [mk 1 2 .sequence [source 0 11 [.running, .succeeded, .succeeded], source 0 12 [.running, .failed]]])).map (·.1) =
      [.ok .idle, .ok .succeeded] :=
  ⟨c98_de_morgan true 1 1 _ _ _ [source 0 11 _, source 0 12 _] _ (is_mk 2 1 _ _) (is_mk 1 2 _ _) (is_mk 2 1 _ _)
    (.cons ⟨source_plain _ _ _, _, same_refl _ _, is_mk 1 3 _ _⟩ (.cons ⟨source_plain _ _ _, _, same_refl _ _, is_mk 1 4 _ _⟩ .nil)) rfl, by decide⟩

/-- Two IgnoreFailures are one. -/
example (t : Tree 2) : Same (ops 4) (ops 3) (mk 3 1 .ignoreFailure [mk 2 2 .ignoreFailure [t]]) (mk 2 1 .ignoreFailure [t]) :=
  c98_decorators_join 2 2 _ _ _ t t _ _ _ _ _ _ (is_mk 3 1 _ _) (is_mk 2 2 _ _) (is_mk 2 1 _ _) rfl rfl rfl (by intro s; cases s <;> rfl) (same_refl _ _) rfl

/-- Inverter above IgnoreFailure is IgnoreSuccess above Inverter. -/
example (t : Tree 2) : Same (ops 4) (ops 4) (mk 3 1 .inverter [mk 2 2 .ignoreFailure [t]]) (mk 3 1 .ignoreSuccess [mk 2 2 .inverter [t]]) :=
  c98_decorators_swap 2 2 _ _ _ _ t t _ _ _ _ _ _ _ _ (is_mk 3 1 _ _) (is_mk 2 2 _ _) (is_mk 3 1 _ _) (is_mk 2 2 _ _) rfl rfl rfl rfl (by intro s; cases s <;> rfl) (same_refl _ _) rfl

/-- Two Inverters above a Fallback. -/
example : Same (ops 4) (ops 2) (mk 3 1 .inverter [mk 2 2 .inverter [mk 1 3 .fallback [leafB, leafA]]]) (mk 1 1 .fallback [leafB, leafA]) :=
  c98_double_inversion false 1 1 _ _ _ _ [leafB, leafA] [leafB, leafA] (is_mk 3 1 _ _) (is_mk 2 2 _ _) (is_mk 1 3 _ _) (is_mk 1 1 _ _) (each_refl (same_refl _) _) rfl

/-- A Retry, one of whose attempts has already failed when it succeeds, above a source that fails again later. -/
def worn : Tree 2 := mk 1 5 .retry [source 0 11 [.succeeded, .failed, .succeeded, .succeeded, .failed, .failed]]

/-- **C98, limit.** If the nested Sequence is not the last child, it may not be dissolved: once it
has succeeded it resets its children at the next tick, while the outer Sequence is still RUNNING. -/
theorem c98_nested_first : ∃ (a : Tree 4) (z b' : Tree 3) (b : Tree 3) (x y : Tree 2), Is (N := Tree 3) .sequence [z, b'] a ∧ Is (N := Tree 2) .sequence [x] z ∧
    Is (N := Tree 2) .sequence [x, y] b ∧ Same (ops 3) (ops 2) b' y ∧ (ops 4).name a = (ops 3).name b ∧ ¬ Same (ops 4) (ops 3) a b := by
  refine ⟨mk 3 1 .sequence [mk 2 2 .sequence [worn], lift 2 (source 1 6 [.running, .running, .running, .running])], mk 2 2 .sequence [worn],
    lift 2 (source 1 6 [.running, .running, .running, .running]), mk 2 1 .sequence [worn, source 1 6 [.running, .running, .running, .running]], worn,
    source 1 6 [.running, .running, .running, .running], is_mk 3 1 _ _, is_mk 2 2 _ _, is_mk 2 1 _ _, same_symm (lift_same 2 _), rfl, fun h => ?_⟩
  have := h.look [.setup, .tick, .tick, .tick]
  revert this
  decide

/-- **C98, limit.** The inversion of rows does not hold for children that answer ASSIGNED, as the
life cycle permits (`node.py:459-466`): a Sequence stops there, a Fallback goes on. -/
theorem c98_assigned : ∃ (a b : Tree 3) (z d : Tree 2) (x : Tree 1), Is (N := Tree 2) .inverter [z] a ∧ Is (N := Tree 1) .sequence [x] z ∧ Is (N := Tree 2) .fallback [d] b ∧
    Is (N := Tree 1) .inverter [x] d ∧ (ops 3).name a = (ops 3).name b ∧ ¬ Same (ops 3) (ops 3) a b := by
  refine ⟨mk 2 1 .inverter [mk 1 2 .sequence [mkLeaf 0 3 [.ok .idle, .ok .assigned]]], mk 2 1 .fallback [mk 1 2 .inverter [mkLeaf 0 3 [.ok .idle, .ok .assigned]]],
    _, _, _, is_mk 2 1 _ _, is_mk 1 2 _ _, is_mk 2 1 _ _, is_mk 1 2 _ _, rfl, fun h => ?_⟩
  have := h.look [.setup, .tick]
  revert this
  decide

end Verif.BT.Laws
