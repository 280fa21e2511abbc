import Verif.BT.Deep
import Verif.BT.Broken

/-!
# C09: shutdown and setup forget the past
-/

set_option autoImplicit false
set_option linter.unusedSimpArgs false

namespace Verif.BT

variable {N : Type}

/-- Two lists of the same length are related elementwise. -/
inductive All2 {α β : Type} (R : α → β → Prop) : List α → List β → Prop
  | nil : All2 R [] []
  | cons {a : α} {b : β} {l : List α} {l' : List β} : R a b → All2 R l l' → All2 R (a :: l) (b :: l')

/-- Two hook bodies make the same calls in the same order and end alike; the attributes they leave
behind are related by `MR`. -/
inductive Sim (MR : Mem → Mem → Res → Prop) : Prog → Prog → Prop
  | done {m m' : Mem} {r : Res} : MR m m' r → Sim MR (.done m r) (.done m' r)
  | call {op : Op} {i : Nat} {k k' : Res → Prog} : (∀ r, Sim MR (k r) (k' r)) →
      Sim MR (.call op i k) (.call op i k')
  | peek {i : Nat} {k k' : BTState → Prog} : (∀ s, Sim MR (k s) (k' s)) →
      Sim MR (.peek i k) (.peek i k')

/-- Related children behave alike. -/
structure Bisim (o : Ops N) (R : N → N → Prop) : Prop where
  res : ∀ op a b, R a b → (o.run op a).res = (o.run op b).res
  trace : ∀ op a b, R a b → (o.run op a).trace = (o.run op b).trace
  node : ∀ op a b, R a b → R (o.run op a).node (o.run op b).node
  state : ∀ a b, R a b → o.state a = o.state b
  name : ∀ a b, R a b → o.name a = o.name b

theorem all2_getElem? {α β : Type} {R : α → β → Prop} {l : List α} {l' : List β}
    (h : All2 R l l') : ∀ i : Nat, (l[i]? = none ∧ l'[i]? = none) ∨
      ∃ a b, l[i]? = some a ∧ l'[i]? = some b ∧ R a b := by
  induction h with
  | nil => intro i; left; simp
  | cons hab _ ih =>
    intro i
    cases i with
    | zero => right; exact ⟨_, _, rfl, rfl, hab⟩
    | succ i => simpa using ih i

theorem all2_set {α β : Type} {R : α → β → Prop} {l : List α} {l' : List β}
    (h : All2 R l l') {a : α} {b : β} (hab : R a b) : ∀ i : Nat,
      All2 R (l.set i a) (l'.set i b) := by
  induction h with
  | nil => intro i; simpa using All2.nil
  | cons h1 h2 ih =>
    intro i
    cases i with
    | zero => exact All2.cons hab h2
    | succ i => exact All2.cons h1 (ih i)

theorem exec_sim (o : Ops N) (R : N → N → Prop) (hR : Bisim o R) {MR : Mem → Mem → Res → Prop}
    {p p' : Prog} (h : Sim MR p p') : ∀ cs cs' : List N, All2 R cs cs' →
    (exec o p cs).res = (exec o p' cs').res ∧ (exec o p cs).trace = (exec o p' cs').trace ∧
    All2 R (exec o p cs).children (exec o p' cs').children ∧
    MR (exec o p cs).mem (exec o p' cs').mem (exec o p cs).res := by
  induction h with
  | done hm => intro cs cs' h; exact ⟨rfl, rfl, h, hm⟩
  | @call op i k k' _ ih =>
    intro cs cs' hcs
    rcases all2_getElem? hcs i with ⟨h1, h2⟩ | ⟨a, b, h1, h2, hab⟩
    · simp only [exec, h1, h2]
      exact ih .err cs cs' hcs
    · simp only [exec, h1, h2]
      rw [hR.res op a b hab]
      obtain ⟨e1, e2, e3, e4⟩ := ih (o.run op b).res _ _ (all2_set hcs (hR.node op a b hab) i)
      exact ⟨e1, by rw [hR.trace op a b hab, e2], e3, e4⟩
  | @peek i k k' _ ih =>
    intro cs cs' hcs
    rcases all2_getElem? hcs i with ⟨h1, h2⟩ | ⟨a, b, h1, h2, hab⟩
    · simp only [exec, h1, h2]
      exact ih _ cs cs' hcs
    · simp only [exec, h1, h2]
      rw [hR.state a b hab]
      exact ih _ _ _ hcs

/-- The attributes that a class uses at all. -/
def relevant (k : Kind) (m : Mem) : Mem :=
  match k with
  | .memSequence | .memFallback => { lastRunning := m.lastRunning }
  | .nameSwitch | .enumSwitch => { childMap := m.childMap }
  | .parallel => { needed := m.needed }
  | .parallelTol => { needed := m.needed, tolerate := m.tolerate }
  | .ignoreRunning => { runIsSucc := m.runIsSucc }
  | .retry | .repeat | .repeatNoAutoReset => { count := m.count, limit := m.limit }
  | .optional => { execChild := m.execChild }
  | .iterateList => { counter := m.counter, outChanged := m.outChanged }
  | .throttle => { lastTick := m.lastTick, lastRes := m.lastRes, limit := m.limit }
  | .throttleSuccess => { lastTick := m.lastTick, limit := m.limit }
  | .subtree => { rootSet := m.rootSet }
  | _ => {}

section
variable {MR : Mem → Mem → Res → Prop}

theorem sim_forAll (op : Op) (m m' : Mem) (is : List Nat) (k k' : Prog) (he : MR m m' .err)
    (hk : Sim MR k k') : Sim MR (Prog.forAll op m is k) (Prog.forAll op m' is k') := by
  induction is with
  | nil => exact hk
  | cons i is ih =>
    refine .call fun r => ?_
    cases r with
    | err => exact .done he
    | ok s => exact ih

theorem sim_onHead (n : Nat) (op : Op) (m m' : Mem) (f : BTState → BTState) (d : BTState)
    (h : ∀ r, MR m m' r) : Sim MR (Prog.onHead n op m f d) (Prog.onHead n op m' f d) := by
  unfold Prog.onHead
  split
  · exact .done (h _)
  · exact .call fun r => .done (h _)

theorem sim_resetIfFinished (n : Nat) (st : BTState) (m m' : Mem) (k k' : Prog)
    (he : MR m m' .err) (hk : Sim MR k k') :
    Sim MR (Prog.resetIfFinished n st m k) (Prog.resetIfFinished n st m' k') := by
  unfold Prog.resetIfFinished
  split
  · exact sim_forAll _ _ _ _ _ _ he hk
  · exact hk

theorem sim_seqLoop (b : Bool) (m m' : Mem) (is : List Nat) (h : ∀ r, MR m m' r)
    (hr : ∀ i r, MR (if b then { m with lastRunning := i } else m)
      (if b then { m' with lastRunning := i } else m') r) :
    Sim MR (Prog.seqLoop b m is) (Prog.seqLoop b m' is) := by
  induction is with
  | nil => exact .done (h _)
  | cons i is ih =>
    refine .call fun r => ?_
    cases r with
    | err => exact .done (h _)
    | ok s =>
      simp only
      split
      · exact ih
      · split
        · exact .done (hr i _)
        · exact sim_forAll _ _ _ _ _ _ (h _) (.done (h _))

theorem sim_fbLoop (b : Bool) (m m' : Mem) (is : List Nat) (h : ∀ r, MR m m' r)
    (hr : ∀ i r, MR (if b then { m with lastRunning := i } else m)
      (if b then { m' with lastRunning := i } else m') r) :
    Sim MR (Prog.fbLoop b m is) (Prog.fbLoop b m' is) := by
  induction is with
  | nil => exact .done (h _)
  | cons i is ih =>
    refine .call fun r => ?_
    cases r with
    | err => exact .done (h _)
    | ok s =>
      simp only
      split
      · exact .done (hr i _)
      · split
        · exact sim_forAll _ _ _ _ _ _ (h _) (.done (h _))
        · exact ih

theorem sim_parFinish (m m' : Mem) (s : BTState) (is : List Nat) (h : ∀ r, MR m m' r) :
    Sim MR (Prog.parFinish m s is) (Prog.parFinish m' s is) := by
  induction is with
  | nil => exact .done (h _)
  | cons i is ih =>
    refine .peek fun st => ?_
    split
    · exact ih
    · refine .call fun r => ?_
      cases r with
      | err => exact .done (h _)
      | ok _ => exact ih

theorem sim_parLoop (m m' : Mem) (k k' : Nat → Nat → Prog) (is : List Nat) (h : ∀ r, MR m m' r)
    (hk : ∀ a b, Sim MR (k a b) (k' a b)) :
    ∀ sf, Sim MR (Prog.parLoop m k is sf) (Prog.parLoop m' k' is sf) := by
  induction is with
  | nil => intro sf; exact hk _ _
  | cons i is ih =>
    intro sf
    refine .peek fun st => ?_
    split
    · exact ih _
    · refine .call fun r => ?_
      cases r with
      | err => exact .done (h _)
      | ok _ => exact .peek fun st' => ih _

theorem sim_untickOthers (m m' : Mem) (nm : Nat) (l : List (Nat × Nat)) (k k' : Prog)
    (he : MR m m' .err) (hk : Sim MR k k') :
    Sim MR (Prog.untickOthers m nm l k) (Prog.untickOthers m' nm l k') := by
  induction l with
  | nil => exact hk
  | cons p l ih =>
    obtain ⟨a, i⟩ := p
    unfold Prog.untickOthers
    split
    · exact ih
    · refine .call fun r => ?_
      cases r with
      | err => exact .done he
      | ok _ => exact ih

theorem sim_tickResetOn (n : Nat) (on : BTState) (m m' : Mem) (h : ∀ r, MR m m' r) :
    Sim MR (Prog.tickResetOn n on m) (Prog.tickResetOn n on m') := by
  unfold Prog.tickResetOn
  split
  · exact .done (h _)
  · refine .call fun r => ?_
    cases r with
    | err => exact .done (h _)
    | ok s =>
      simp only
      split
      · exact .call fun r => .done (h _)
      · exact .done (h _)

end

/-- Attributes agree as far as the class uses them. -/
def Agree (k : Kind) (m m' : Mem) (_ : Res) : Prop := relevant k m = relevant k m'

/-- The hooks only depend on the attributes the class uses. -/
theorem hook_sim (k : Kind) (op : Op) (st : BTState) (m m' : Mem) (e : Env) (names : List Nat)
    (h : relevant k m = relevant k m') :
    Sim (Agree k) (hookProg k op st m e names) (hookProg k op st m' e names) := by
  have hA : ∀ r, Agree k m m' r := fun _ => h
  cases op with
  | setup =>
    cases k <;> (try simp only [relevant, Mem.mk.injEq, true_and, and_true] at h) <;>
      simp only [hookProg, setupHook, Prog.allThen] <;> (repeat' split) <;>
      first
      | exact .done (hA _)
      | exact .done (by simp_all [Agree, relevant])
      | exact sim_forAll _ _ _ _ _ _ (by simp_all [Agree, relevant])
          (.done (by simp_all [Agree, relevant]))
      | exact sim_onHead _ _ _ _ _ _ (by simp_all [Agree, relevant])
      | exact .call fun r => .done (by simp_all [Agree, relevant])
  | untick =>
    cases k <;> (try simp only [relevant, Mem.mk.injEq, true_and, and_true] at h) <;>
      simp only [hookProg, untickHook, Prog.allThen, Prog.untickPaused, h] <;> (repeat' split) <;>
      first
      | exact .done (hA _)
      | exact .done (by simp_all [Agree, relevant])
      | exact sim_forAll _ _ _ _ _ _ (by simp_all [Agree, relevant])
          (.done (by simp_all [Agree, relevant]))
      | exact sim_onHead _ _ _ _ _ _ (by simp_all [Agree, relevant])
      | exact .call fun r => .done (by simp_all [Agree, relevant])
  | reset =>
    cases k <;> (try simp only [relevant, Mem.mk.injEq, true_and, and_true] at h) <;>
      simp only [hookProg, resetHook, Prog.allThen, h] <;> (repeat' split) <;>
      first
      | exact .done (hA _)
      | exact .done (by simp_all [Agree, relevant])
      | exact sim_forAll _ _ _ _ _ _ (by simp_all [Agree, relevant])
          (.done (by simp_all [Agree, relevant]))
      | exact sim_onHead _ _ _ _ _ _ (by simp_all [Agree, relevant])
      | exact .call fun r => .done (by simp_all [Agree, relevant])
  | shutdown =>
    cases k <;> (try simp only [relevant, Mem.mk.injEq, true_and, and_true] at h) <;>
      simp only [hookProg, shutdownHook, h] <;> (repeat' split) <;>
      first
      | exact .done (hA _)
      | exact .done (by simp_all [Agree, relevant])
      | exact .call fun r => .done (by simp_all [Agree, relevant])
  | tick =>
    cases k with
    | leaf => exact .done (hA _)
    | sequence =>
      simp only [hookProg, tickHook]
      split
      · exact .done (hA _)
      · exact sim_resetIfFinished _ _ _ _ _ _ (hA _) (sim_seqLoop _ _ _ _ hA (fun _ _ => rfl))
    | fallback =>
      simp only [hookProg, tickHook]
      split
      · exact .done (hA _)
      · exact sim_resetIfFinished _ _ _ _ _ _ (hA _) (sim_fbLoop _ _ _ _ hA (fun _ _ => rfl))
    | memSequence =>
      have hl : m.lastRunning = m'.lastRunning := by
        simpa [relevant, Mem.mk.injEq] using h
      simp only [hookProg, tickHook]
      split
      · exact .done (hA _)
      · split
        · exact sim_resetIfFinished _ _ _ _ _ _ rfl (sim_seqLoop _ _ _ _ (fun _ => rfl) (fun _ _ => rfl))
        · rw [hl]
          exact sim_resetIfFinished _ _ _ _ _ _ (hA _) (sim_seqLoop _ _ _ _ hA (fun _ _ => rfl))
    | memFallback =>
      have hl : m.lastRunning = m'.lastRunning := by
        simpa [relevant, Mem.mk.injEq] using h
      simp only [hookProg, tickHook]
      split
      · exact .done (hA _)
      · split
        · exact sim_resetIfFinished _ _ _ _ _ _ rfl (sim_fbLoop _ _ _ _ (fun _ => rfl) (fun _ _ => rfl))
        · rw [hl]
          exact sim_resetIfFinished _ _ _ _ _ _ (hA _) (sim_fbLoop _ _ _ _ hA (fun _ _ => rfl))
    | nameSwitch | enumSwitch =>
      have hl : m.childMap = m'.childMap := by
        simpa [relevant, Mem.mk.injEq] using h
      simp only [hookProg, tickHook, hl]
      split
      · split
        · exact .done (hA _)
        · split
          · exact .done (hA _)
          · exact sim_resetIfFinished _ _ _ _ _ _ (hA _)
              (sim_untickOthers _ _ _ _ _ _ (hA _) (.call fun r => .done (hA _)))
      · exact .done (hA _)
    | parallel | parallelTol =>
      simp only [relevant, Mem.mk.injEq, true_and, and_true] at h
      simp only [hookProg, tickHook, h]
      refine sim_resetIfFinished _ _ _ _ _ _ (hA _) (sim_parLoop _ _ _ _ _ hA ?_ _)
      intro a b
      split
      · exact sim_parFinish _ _ _ _ hA
      · split
        · exact sim_parFinish _ _ _ _ hA
        · exact .done (hA _)
    | ignoreFailure | ignoreSuccess | inverter => exact sim_onHead _ _ _ _ _ _ hA
    | ignoreRunning =>
      have hl : m.runIsSucc = m'.runIsSucc := by
        simpa [relevant, Mem.mk.injEq] using h
      simp only [hookProg, tickHook, hl]
      exact sim_onHead _ _ _ _ _ _ hA
    | untilSuccess | repeatUntilFail | repeatIfFail => exact sim_tickResetOn _ _ _ _ hA
    | retry | «repeat» =>
      have hl : m.count = m'.count ∧ m.limit = m'.limit := by
        simpa [relevant, Mem.mk.injEq] using h
      simp only [hookProg, tickHook, hl.1, hl.2]
      split
      · exact .done (hA _)
      · refine .call fun r => ?_
        cases r with
        | err => exact .done (hA _)
        | ok s =>
          simp only
          split
          · split
            · exact .call fun r => .done (by simp [Agree, relevant, hl.2])
            · exact .done (by simp [Agree, relevant, hl.1, hl.2])
          · exact .done (hA _)
    | repeatNoAutoReset =>
      have hl : m.count = m'.count ∧ m.limit = m'.limit := by
        simpa [relevant, Mem.mk.injEq] using h
      have key : ∀ a b : Mem, a.count = b.count → a.limit = b.limit →
          Sim (Agree .repeatNoAutoReset)
          (if a.count < a.limit then
            if names.length = 0 then .done a (.ok .succeeded)
            else .call .tick 0 fun
              | .err => .done a .err
              | .ok s =>
                if s = .succeeded then
                  if a.count < a.limit then
                    .call .reset 0 fun r =>
                      .done { a with count := a.count + 1 } (r.map fun _ => .running)
                  else .done a (.ok .succeeded)
                else .done a (.ok s)
          else .done a (.ok .succeeded))
          (if b.count < b.limit then
            if names.length = 0 then .done b (.ok .succeeded)
            else .call .tick 0 fun
              | .err => .done b .err
              | .ok s =>
                if s = .succeeded then
                  if b.count < b.limit then
                    .call .reset 0 fun r =>
                      .done { b with count := b.count + 1 } (r.map fun _ => .running)
                  else .done b (.ok .succeeded)
                else .done b (.ok s)
          else .done b (.ok .succeeded)) := by
        intro a b h1 h2
        have hab : ∀ r, Agree .repeatNoAutoReset a b r := fun r => by simp [Agree, relevant, h1, h2]
        rw [h1, h2]
        split
        · split
          · exact .done (hab _)
          · refine .call fun r => ?_
            cases r with
            | err => exact .done (hab _)
            | ok s =>
              simp only
              split
              · exact .call fun r => .done (by simp [Agree, relevant, h2])
              · exact .done (hab _)
        · exact .done (hab _)
      simp only [hookProg, tickHook]
      split
      · split
        · exact key _ _ rfl hl.2
        · exact key _ _ hl.1 hl.2
      · exact .done (hA _)
    | repeatAlways =>
      simp only [hookProg, tickHook]
      split
      · exact .done (hA _)
      · refine .call fun r => ?_
        cases r with
        | err => exact .done (hA _)
        | ok s =>
          simp only
          split
          · refine .call fun r => ?_
            cases r <;> exact .done (hA _)
          · exact .done (hA _)
    | optional =>
      have hl : m.execChild = m'.execChild := by
        simpa [relevant, Mem.mk.injEq] using h
      simp only [hookProg, tickHook, hl]
      split
      · exact .call fun r => .done (hA _)
      · exact .done (hA _)
    | watch =>
      simp only [hookProg, tickHook]
      split
      · exact .done (hA _)
      · split
        · split
          · refine .call fun r => ?_
            cases r with
            | err => exact .done (hA _)
            | ok _ => exact .call fun r => .done (hA _)
          · exact .call fun r => .done (hA _)
        · exact .done (hA _)
    | iterateList =>
      have hl : m.counter = m'.counter ∧ m.outChanged = m'.outChanged := by
        simpa [relevant, Mem.mk.injEq] using h
      simp only [hookProg, tickHook]
      have h1 : (if e.flag then { m with outChanged := true, counter := 0 } else m).counter =
          (if e.flag then { m' with outChanged := true, counter := 0 } else m').counter := by
        split
        · rfl
        · exact hl.1
      have h2 : (if e.flag then { m with outChanged := true, counter := 0 } else m).outChanged =
          (if e.flag then { m' with outChanged := true, counter := 0 } else m').outChanged := by
        split
        · rfl
        · exact hl.2
      generalize (if e.flag = true then { m with outChanged := true, counter := 0 } else m) = a at h1 h2 ⊢
      generalize (if e.flag = true then { m' with outChanged := true, counter := 0 } else m') = b at h1 h2 ⊢
      have hab : ∀ r, Agree .iterateList a b r := fun r => by simp [Agree, relevant, h1, h2]
      unfold iterateTick
      rw [h1, h2]
      split
      · split
        · exact .done (hab _)
        · split
          · exact .done (hab _)
          · split
            · simp only
              split
              · split
                · exact .done (by simp [Agree, relevant])
                · exact .done (by simp [Agree, relevant])
              · split
                · exact .done (by simp [Agree, relevant])
                · refine .call fun r => ?_
                  cases r with
                  | err => exact .done (by simp [Agree, relevant])
                  | ok s =>
                    simp only
                    split
                    · split
                      · exact .done (by simp [Agree, relevant])
                      · exact .done (by simp [Agree, relevant])
                    · split <;> exact .done (by simp [Agree, relevant])
            · exact .done (hab _)
      · exact .done (hA _)
    | getter =>
      simp only [hookProg, tickHook]
      split
      · exact .done (hA _)
      · refine .call fun r => ?_
        cases r with
        | err => exact .done (hA _)
        | ok s =>
          simp only
          split <;> exact .done (hA _)
    | throttle =>
      have hl : m.limit = m'.limit ∧ m.lastTick = m'.lastTick ∧ m.lastRes = m'.lastRes := by
        simpa [relevant, Mem.mk.injEq] using h
      simp only [hookProg, tickHook, hl.1, hl.2.1, hl.2.2]
      split
      · split
        · exact .done (hA _)
        · refine .call fun r => ?_
          split
          · exact .done (hA _)
          · refine .call fun r' => ?_
            split <;> exact .done (by simp [Agree, relevant, hl.1])
      · exact .done (hA _)
    | throttleSuccess =>
      have hl : m.limit = m'.limit ∧ m.lastTick = m'.lastTick := by
        simpa [relevant, Mem.mk.injEq] using h
      simp only [hookProg, tickHook, hl.1, hl.2]
      split
      · split
        · exact .done (hA _)
        · exact .call fun r => .done (hA _)
      · exact .done (hA _)
    | subtree =>
      have hl : m.rootSet = m'.rootSet := by
        simpa [relevant, Mem.mk.injEq] using h
      simp only [hookProg, tickHook, hl]
      split
      · split
        · exact .call fun r => .done (hA _)
        · exact .done (hA _)
      · exact .done (hA _)

/-- Attributes agree unless the hook failed; a Subtree always agrees on its nested root. -/
def AgreeOk (k : Kind) (m m' : Mem) (r : Res) : Prop :=
  (k = .subtree → m.rootSet = m'.rootSet) ∧ (r.isOk = true → relevant k m = relevant k m')

/-- Setup overwrites all attributes the class uses. -/
theorem setup_sim (k : Kind) (st : BTState) (m m' : Mem) (e : Env) (names : List Nat)
    (h : k = .subtree → m.rootSet = m'.rootSet) :
    Sim (AgreeOk k) (hookProg k .setup st m e names) (hookProg k .setup st m' e names) := by
  cases k <;> simp only [hookProg, setupHook, Prog.allThen] <;> (repeat' split) <;>
    first
    | exact .done (by simp_all [AgreeOk, relevant])
    | exact sim_forAll _ _ _ _ _ _ (by simp_all [AgreeOk, relevant])
        (.done (by simp_all [AgreeOk, relevant]))
    | exact sim_onHead _ _ _ _ _ _ (by simp_all [AgreeOk, relevant])
    | exact .call fun r => .done (by simp_all [AgreeOk, relevant])

/-- Shutdown does not depend on attributes except for the nested root of a Subtree. -/
theorem shutdown_sim (k : Kind) (st : BTState) (m m' : Mem) (e : Env) (names : List Nat)
    (h : k = .subtree → m.rootSet = m'.rootSet) :
    Sim (fun m m' _ => k = .subtree → m.rootSet = m'.rootSet)
      (hookProg k .shutdown st m e names) (hookProg k .shutdown st m' e names) := by
  cases k
  case subtree =>
    simp only [hookProg, shutdownHook, h rfl]
    split
    · exact .call fun r => .done fun _ => h rfl
    · exact .done fun _ => h rfl
  all_goals exact .done (by simp)

/-- States in which the attributes do not matter. -/
def resting (s : BTState) : Bool := s = .uninitialized || s = .shutdown || s = .broken

/-- The relation between a node and the same node with another past. -/
structure Alike (R : N → N → Prop) (a b : Node N) : Prop where
  id : a.id = b.id
  name : a.name = b.name
  kind : a.kind = b.kind
  state : a.state = b.state
  env : ∀ i, a.env (a.ctr + i) = b.env (b.ctr + i)
  children : All2 R a.children b.children
  root : a.kind = .subtree → a.mem.rootSet = b.mem.rootSet
  mem : resting a.state = false → relevant a.kind a.mem = relevant a.kind b.mem

theorem all2_map {α : Type} {R : N → N → Prop} (f : N → α)
    (hf : ∀ a b, R a b → f a = f b) {cs cs' : List N} (h : All2 R cs cs') :
    cs.map f = cs'.map f := by
  induction h with
  | nil => rfl
  | cons hab _ ih => simp [hf _ _ hab, ih]

theorem shutdownAll_sim (o : Ops N) (R : N → N → Prop) (hR : Bisim o R) {cs cs' : List N}
    (h : All2 R cs cs') :
    All2 R (shutdownAll o cs).1 (shutdownAll o cs').1 ∧
    (shutdownAll o cs).2 = (shutdownAll o cs').2 := by
  induction h with
  | nil => simp only [shutdownAll, and_true]; exact .nil
  | cons hab _ ih =>
    simp only [shutdownAll]
    refine ⟨.cons (hR.node _ _ _ hab) ih.1, ?_⟩
    rw [hR.res _ _ _ hab, hR.trace _ _ _ hab]
    simp only [ih.2]

theorem relevant_root (m m' : Mem) (h : relevant .subtree m = relevant .subtree m') :
    m.rootSet = m'.rootSet := by simpa [relevant, Mem.mk.injEq] using h

/-- The hooks of two alike nodes end alike. -/
theorem hook_alike (o : Ops N) (R : N → N → Prop) (hR : Bisim o R) (op : Op) (a b : Node N)
    (h : Alike R a b) (hacc : accepts op a.state = true)
    (x y : ExecOut N)
    (hx : x = exec o (hookProg a.kind op a.state a.mem (a.env a.ctr) (a.children.map o.name)) a.children)
    (hy : y = exec o (hookProg b.kind op b.state b.mem (b.env b.ctr) (b.children.map o.name)) b.children) :
    x.res = y.res ∧ x.trace = y.trace ∧ All2 R x.children y.children ∧
    (a.kind = .subtree → x.mem.rootSet = y.mem.rootSet) ∧
    (x.res.isOk = true → op ≠ .shutdown → relevant a.kind x.mem = relevant a.kind y.mem) := by
  subst hx hy
  have hn : b.children.map o.name = a.children.map o.name :=
    (all2_map o.name (fun a b h => hR.name a b h) h.children).symm
  have henv : b.env b.ctr = a.env a.ctr := by simpa using (h.env 0).symm
  rw [hn, henv, ← h.kind, ← h.state]
  by_cases hsd : op = .shutdown
  · subst hsd
    obtain ⟨e1, e2, e3, e4⟩ := exec_sim o R hR
      (shutdown_sim a.kind a.state a.mem b.mem (a.env a.ctr) (a.children.map o.name) h.root)
      _ _ h.children
    exact ⟨e1, e2, e3, e4, fun _ h => absurd rfl h⟩
  · by_cases hsu : op = .setup
    · subst hsu
      obtain ⟨e1, e2, e3, e4⟩ := exec_sim o R hR
        (setup_sim a.kind a.state a.mem b.mem (a.env a.ctr) (a.children.map o.name) h.root)
        _ _ h.children
      exact ⟨e1, e2, e3, e4.1, fun h1 _ => e4.2 h1⟩
    · have hrest : resting a.state = false := by
        cases op <;> simp [accepts] at hacc hsd hsu <;> simp [resting, hacc]
      obtain ⟨e1, e2, e3, e4⟩ := exec_sim o R hR
        (hook_sim a.kind op a.state a.mem b.mem (a.env a.ctr) (a.children.map o.name)
          (h.mem hrest)) _ _ h.children
      refine ⟨e1, e2, e3, fun hk => ?_, fun _ _ => e4⟩
      have e4' : relevant a.kind _ = relevant a.kind _ := e4
      generalize (exec o (hookProg a.kind op a.state a.mem (a.env a.ctr)
        (a.children.map o.name)) a.children).mem = u at e4' ⊢
      generalize (exec o (hookProg a.kind op a.state b.mem (a.env a.ctr)
        (a.children.map o.name)) b.children).mem = v at e4' ⊢
      rw [hk] at e4'
      exact relevant_root _ _ e4'

/-- Setup, untick and reset of alike nodes. -/
theorem run_plain_alike (o : Ops N) (R : N → N → Prop) (hR : Bisim o R) (op : Op)
    (hop : op ≠ .tick) (hop2 : op ≠ .shutdown) (a b : Node N) (h : Alike R a b) :
    (a.run o op).res = (b.run o op).res ∧ (a.run o op).trace = (b.run o op).trace ∧
    Alike R (a.run o op).node (b.run o op).node := by
  have henv : b.env b.ctr = a.env a.ctr := by simpa using (h.env 0).symm
  have henv' : ∀ i, a.env (a.ctr + 1 + i) = b.env (b.ctr + 1 + i) := by
    intro i
    have := h.env (1 + i)
    rwa [← Nat.add_assoc, ← Nat.add_assoc] at this
  have hid := h.id
  have hst := h.state
  have hrun : ∀ c : Node N, c.run o op =
      Node.runPlain o op (c.env c.ctr) { c with ctr := c.ctr + 1 } := by
    intro c; cases op <;> first | rfl | exact absurd rfl hop | exact absurd rfl hop2
  have mkAlike : ∀ (x y : ExecOut N) (s : BTState), All2 R x.children y.children →
      (a.kind = .subtree → x.mem.rootSet = y.mem.rootSet) →
      (resting s = false → relevant a.kind x.mem = relevant a.kind y.mem) →
      Alike R { a with ctr := a.ctr + 1, mem := x.mem, children := x.children, state := s }
        { b with ctr := b.ctr + 1, mem := y.mem, children := y.children, state := s } :=
    fun x y s h1 h2 h3 => ⟨h.id, h.name, h.kind, rfl, henv', h1, h2, h3⟩
  rw [hrun, hrun]
  by_cases ha : accepts op a.state = true
  · have hb : accepts op b.state = true := hst ▸ ha
    obtain ⟨e1, e2, e3, e4, e5⟩ := hook_alike o R hR op a b h ha _ _ rfl rfl
    simp only [Node.runPlain, ha, hb, if_true, Node.runHook, henv]
    rw [henv] at e1 e2 e3 e4 e5
    cases hr : (exec o (hookProg a.kind op a.state a.mem (a.env a.ctr)
        (a.children.map o.name)) a.children).res with
    | err =>
      rw [hr] at e1
      rw [← e1]
      exact ⟨rfl, by simp [Node.wrap, hid, e2], mkAlike _ _ .broken e3 e4 (by simp [resting])⟩
    | ok s =>
      have e5' := e5 (by rw [hr]; rfl) hop2
      rw [hr] at e1
      rw [← e1]
      simp only
      split <;>
        exact ⟨rfl, by simp [Node.wrap, hid, e2], mkAlike _ _ s e3 e4 (fun _ => e5')⟩
  · have hb : ¬ accepts op b.state = true := hst ▸ ha
    simp only [Node.runPlain, ha, hb, Bool.false_eq_true, if_false]
    exact ⟨rfl, by simp [Node.wrap, hid],
      ⟨h.id, h.name, h.kind, h.state, henv', h.children, h.root, h.mem⟩⟩

/-- Alike nodes answer alike and stay alike. -/
theorem run_alike (o : Ops N) (hs : Sound o) (R : N → N → Prop) (hR : Bisim o R) (op : Op)
    (a b : Node N) (h : Alike R a b) (hca : CacheOk a.mem) :
    (a.run o op).res = (b.run o op).res ∧ (a.run o op).trace = (b.run o op).trace ∧
    Alike R (a.run o op).node (b.run o op).node := by
  have henv : b.env b.ctr = a.env a.ctr := by simpa using (h.env 0).symm
  have henv' : ∀ i, a.env (a.ctr + 1 + i) = b.env (b.ctr + 1 + i) := by
    intro i
    have := h.env (1 + i)
    rwa [← Nat.add_assoc, ← Nat.add_assoc] at this
  have hid := h.id
  have hst := h.state
  have hk := h.kind
  have hr0 : ∀ x : ExecOut N, ∀ s, x = exec o (hookProg a.kind op a.state a.mem (a.env a.ctr)
      (a.children.map o.name)) a.children → x.res = .ok s → allowedAfter op s = false →
      a.kind = .leaf := by
    intro x s hx hr hal
    by_cases hk : a.kind = .leaf
    · exact hk
    · have := (hook_good o hs op a hk hca (a.env a.ctr)).2 s (by rw [← hx]; exact hr)
      simp [hal] at this
  -- the node after the hook, with state `s`
  have mkAlike : ∀ (x y : ExecOut N) (s : BTState), All2 R x.children y.children →
      (a.kind = .subtree → x.mem.rootSet = y.mem.rootSet) →
      (resting s = false → relevant a.kind x.mem = relevant a.kind y.mem) →
      Alike R { a with ctr := a.ctr + 1, mem := x.mem, children := x.children, state := s }
        { b with ctr := b.ctr + 1, mem := y.mem, children := y.children, state := s } :=
    fun x y s h1 h2 h3 => ⟨h.id, h.name, h.kind, rfl, henv', h1, h2, h3⟩
  have leafRel : a.kind = .leaf → ∀ m m', relevant a.kind m = relevant a.kind m' := by
    intro hk m m'; rw [hk]; rfl
  cases op with
  | tick =>
    by_cases ha : accepts .tick a.state = true
    · have hb : accepts .tick b.state = true := hst ▸ ha
      obtain ⟨e1, e2, e3, e4, e5⟩ := hook_alike o R hR .tick a b h ha _ _ rfl rfl
      have hr1 := fun s => hr0 _ s rfl
      simp only [Node.run, Node.runTick, ha, hb, if_true, Node.runHook, henv]
      rw [henv] at e1 e2 e3 e4 e5
      by_cases hi : (a.env a.ctr).inputsOk = true
      · simp only [hi, if_true]
        cases hr : (exec o (hookProg a.kind .tick a.state a.mem (a.env a.ctr)
            (a.children.map o.name)) a.children).res with
        | err =>
          rw [hr] at e1
          rw [← e1]
          exact ⟨rfl, by simp [Node.wrap, hid, e2], mkAlike _ _ .broken e3 e4 (by simp [resting])⟩
        | ok s =>
          have e5' := e5 (by rw [hr]; rfl) (by simp)
          rw [hr] at e1
          rw [← e1]
          simp only
          split
          · split
            · exact ⟨rfl, by simp [Node.wrap, hid, e2], mkAlike _ _ s e3 e4 (fun _ => e5')⟩
            · exact ⟨rfl, by simp [Node.wrap, hid, e2], mkAlike _ _ .broken e3 e4 (by simp [resting])⟩
          · exact ⟨rfl, by simp [Node.wrap, hid, e2], mkAlike _ _ s e3 e4 (fun _ => e5')⟩
      · simp only [hi]
        exact ⟨rfl, by simp [Node.wrap, hid],
          ⟨h.id, h.name, h.kind, rfl, henv', h.children, h.root, by simp [resting, Node.wrap]⟩⟩
    · have hb : ¬ accepts .tick b.state = true := hst ▸ ha
      simp only [Node.run, Node.runTick, ha, hb, Bool.false_eq_true, if_false]
      exact ⟨rfl, by simp [Node.wrap, hid],
        ⟨h.id, h.name, h.kind, h.state, henv', h.children, h.root, h.mem⟩⟩
  | shutdown =>
    have hfin : ∀ (a' b' : Node N) l l' t t', Alike R a' b' → t = t' →
        (a'.finishShutdown o l t).res = (b'.finishShutdown o l' t').res ∧
        (a'.finishShutdown o l t).trace = (b'.finishShutdown o l' t').trace ∧
        Alike R (a'.finishShutdown o l t).node (b'.finishShutdown o l' t').node := by
      intro a' b' l l' t t' h' ht
      subst ht
      obtain ⟨f1, f2⟩ := shutdownAll_sim o R hR h'.children
      simp only [Node.finishShutdown, ← h'.kind, ← h'.state, f2]
      split
      · exact ⟨rfl, by simp [Node.wrap, h'.id],
          ⟨h'.id, h'.name, rfl, rfl, h'.env, f1, h'.root, h'.mem⟩⟩
      · refine ⟨rfl, by simp [Node.wrap, h'.id], ?_⟩
        exact h'
    by_cases hss : a.state = .shutdown
    · have hb : b.state = .shutdown := hst ▸ hss
      simp only [Node.run, Node.runShutdown, hss, hb, if_true]
      refine hfin _ _ _ _ _ _ ?_ rfl
      exact ⟨h.id, h.name, h.kind, rfl, henv', h.children, h.root, by simp [resting]⟩
    · have hb : ¬ b.state = .shutdown := hst ▸ hss
      obtain ⟨e1, e2, e3, e4, e5⟩ := hook_alike o R hR .shutdown a b h rfl _ _ rfl rfl
      simp only [Node.run, Node.runShutdown, hss, hb, if_false, Node.runHook, henv]
      have hr1 := fun s => hr0 _ s rfl
      rw [henv] at e1 e2 e3 e4 e5
      cases hr : (exec o (hookProg a.kind .shutdown a.state a.mem (a.env a.ctr)
          (a.children.map o.name)) a.children).res with
      | err =>
        rw [hr] at e1
        rw [← e1]
        exact ⟨rfl, by simp [Node.wrap, hid, e2], mkAlike _ _ .broken e3 e4 (by simp [resting])⟩
      | ok s =>
        have hr1' := hr1 s hr
        rw [hr] at e1
        rw [← e1]
        simp only
        split
        · rename_i hal
          have hs' : s = .shutdown := by simpa [allowedAfter] using hal
          subst hs'
          exact hfin _ _ _ _ _ _ (mkAlike _ _ .shutdown e3 e4 (by simp [resting])) (by rw [e2, hid])
        · rename_i hal
          exact ⟨rfl, by simp [Node.wrap, hid, e2],
            mkAlike _ _ s e3 e4 (fun _ => leafRel (hr1' (by simpa using hal)) _ _)⟩
  | setup => exact run_plain_alike o R hR .setup (by simp) (by simp) a b h
  | untick => exact run_plain_alike o R hR .untick (by simp) (by simp) a b h
  | reset => exact run_plain_alike o R hR .reset (by simp) (by simp) a b h

/-- The tree relation. -/
def AlikeT : (n : Nat) → Tree n → Tree n → Prop
  | 0, t, _ => Empty.elim t
  | n + 1, a, b => Alike (AlikeT n) (a : Node (Tree n)) (b : Node (Tree n)) ∧ Caches (n + 1) a

theorem alikeT_bisim (n : Nat) : Bisim (ops n) (AlikeT n) := by
  induction n with
  | zero =>
    exact ⟨fun _ t => Empty.elim t, fun _ t => Empty.elim t, fun _ t => Empty.elim t,
      fun t => Empty.elim t, fun t => Empty.elim t⟩
  | succ n ih =>
    have key := fun (op : Op) (a b : Tree (n + 1)) (h : AlikeT (n + 1) a b) =>
      run_alike (ops n) (ops_sound n) (AlikeT n) ih op a b h.1 h.2.1
    exact ⟨fun op a b h => (key op a b h).1, fun op a b h => (key op a b h).2.1,
      fun op a b h => ⟨(key op a b h).2.2, caches_run (n + 1) op a h.2⟩,
      fun a b h => h.1.state, fun a b h => h.1.name⟩

/-! ### The property -/

/-- Specification: the same tree (ids, names, classes, structure), with the same answers of the
outside world from now on. Nothing is said about states, attributes or the past. -/
def SameTree : (n : Nat) → Tree n → Tree n → Prop
  | 0, t, _ => Empty.elim t
  | n + 1, s, t =>
    let a : Node (Tree n) := s
    let b : Node (Tree n) := t
    a.id = b.id ∧ a.name = b.name ∧ a.kind = b.kind ∧
    (∀ i, a.env (a.ctr + i) = b.env (b.ctr + i)) ∧ All2 (SameTree n) a.children b.children

/-- Specification: every node is SHUTDOWN, and nested trees of Subtrees have been in use. -/
def ShutDown (n : Nat) (t : Tree n) : Prop :=
  AllNodes (fun nd => nd.state = .shutdown ∧
    (nd.kind = .subtree → nd.mem.rootSet = !nd.children.isEmpty)) n t

theorem alikeT_of_same (n : Nat) : ∀ a b : Tree n, SameTree n a b → ShutDown n a → ShutDown n b →
    Caches n a → AlikeT n a b := by
  induction n with
  | zero => intro a; exact Empty.elim a
  | succ n ih =>
    intro a b hs ha hb hc
    obtain ⟨h1, h2, h3, h4, h5⟩ := hs
    have hch : ∀ cs cs' : List (Tree n), All2 (SameTree n) cs cs' →
        (∀ c ∈ cs, ShutDown n c) → (∀ c ∈ cs', ShutDown n c) → (∀ c ∈ cs, Caches n c) →
        All2 (AlikeT n) cs cs' := by
      intro cs cs' h
      induction h with
      | nil => intros; exact .nil
      | cons hab _ ih2 =>
        intro g1 g2 g3
        exact .cons (ih _ _ hab (g1 _ (by simp)) (g2 _ (by simp)) (g3 _ (by simp)))
          (ih2 (fun c hc => g1 c (by simp [hc])) (fun c hc => g2 c (by simp [hc]))
            (fun c hc => g3 c (by simp [hc])))
    have hemp : (Node.children (N := Tree n) a).isEmpty = (Node.children (N := Tree n) b).isEmpty := by
      generalize (Node.children (N := Tree n) a) = u at h5
      generalize (Node.children (N := Tree n) b) = v at h5
      cases h5 <;> rfl
    have ha1 := ha.1
    have hb1 := hb.1
    refine ⟨⟨h1, h2, h3, ha1.1.trans hb1.1.symm, h4, hch _ _ h5 ha.2 hb.2 hc.2, ?_, ?_⟩, hc⟩
    · intro hk
      have e1 := ha1.2 hk
      have e2 := hb1.2 (h3 ▸ hk)
      rw [e1, e2, hemp]
    · intro hr
      have e := ha1.1
      rw [e] at hr
      simp [resting] at hr

theorem runs_alike {N : Type} (o : Ops N) (R : N → N → Prop) (hR : Bisim o R) (l : List Op) :
    ∀ a b, R a b → (runs o l a).1.map (fun out => (out.res, out.trace)) =
      (runs o l b).1.map (fun out => (out.res, out.trace)) := by
  induction l with
  | nil => intro a b _; rfl
  | cons op l ih =>
    intro a b h
    simp only [runs, List.map_cons, hR.res op a b h, hR.trace op a b h]
    rw [ih _ _ (hR.node op a b h)]

/-- **C09.** Let `a` and `b` be the same tree after two different pasts, both completely shut
down. Whatever is done with them from now on (setup, ticks, ...), they answer
the same and make exactly the same calls, as long as the outside world answers alike: the past is
forgotten. (`Caches` is an invariant of all trees, see `caches_fresh` and `caches_runs`.) -/
theorem c09_past_is_forgotten (n : Nat) (a b : Tree n) (hsame : SameTree n a b)
    (ha : ShutDown n a) (hb : ShutDown n b) (hc : Caches n a) (l : List Op) :
    (runs (ops n) l a).1.map (fun out => (out.res, out.trace)) =
      (runs (ops n) l b).1.map (fun out => (out.res, out.trace)) :=
  runs_alike (ops n) (AlikeT n) (alikeT_bisim n) l a b (alikeT_of_same n a b hsame ha hb hc)

/-- No Subtree node in the tree. -/
def NoSubtree (n : Nat) (t : Tree n) : Prop := AllNodes (fun nd => nd.kind ≠ .subtree) n t

instance (n : Nat) (t : Tree n) : Decidable (NoSubtree n t) :=
  decAllNodes _ (fun _ => inferInstance) n t

theorem noSubtree_run (n : Nat) (op : Op) : ∀ t : Tree n, NoSubtree n t →
    NoSubtree n ((ops n).run op t).node := by
  induction n generalizing op with
  | zero => intro t; exact Empty.elim t
  | succ n ih =>
    intro t h
    refine ⟨?_, run_children (ops n) (NoSubtree n) (fun op c hc => ih op c hc) op t h.2⟩
    have := (run_static (ops n) op t).2.2.1
    exact fun hk => h.1 (this ▸ hk)

theorem noSubtree_runs (n : Nat) (l : List Op) : ∀ t : Tree n, NoSubtree n t →
    NoSubtree n (runs (ops n) l t).2 := by
  induction l with
  | nil => intro t h; exact h
  | cons op l ih => intro t h; exact ih _ (noSubtree_run n op t h)

theorem shutDown_of_used (n : Nat) : ∀ t : Tree n, NoSubtree n t →
    AllUsed unusedSubtree (fun s => s = .shutdown) n t → ShutDown n t := by
  induction n with
  | zero => intro t; exact Empty.elim t
  | succ n ih =>
    intro t h hu
    have hsk : unusedSubtree (Node.kind (N := Tree n) t) (Node.mem (N := Tree n) t) = false := by
      have h1 : Node.kind (N := Tree n) t ≠ .subtree := h.1
      generalize Node.kind (N := Tree n) t = k at h1
      cases k <;> first | rfl | exact absurd rfl h1
    exact ⟨⟨hu.1, fun hk => absurd hk h.1⟩, fun c hc => ih c (h.2 c hc) (hu.2 hsk c hc)⟩

/-- **C09, for histories.** The same tree (without Subtree nodes) is created twice and used in two
arbitrary ways. If both uses end with a successful shutdown of the root, everything done from then
on gives the same answers and makes the same calls. -/
theorem c09_histories_are_forgotten (n : Nat) (a₀ b₀ : Tree n) (fa : Fresh n a₀) (fb : Fresh n b₀)
    (wa : WF n a₀) (wb : WF n b₀) (na : NoSubtree n a₀) (nb : NoSubtree n b₀)
    (past past' : List Op)
    (ha : ((ops n).run .shutdown (runs (ops n) past a₀).2).res.isOk = true)
    (hb : ((ops n).run .shutdown (runs (ops n) past' b₀).2).res.isOk = true)
    (hsame : SameTree n ((ops n).run .shutdown (runs (ops n) past a₀).2).node
      ((ops n).run .shutdown (runs (ops n) past' b₀).2).node) (future : List Op) :
    (runs (ops n) future ((ops n).run .shutdown (runs (ops n) past a₀).2).node).1.map
        (fun out => (out.res, out.trace)) =
      (runs (ops n) future ((ops n).run .shutdown (runs (ops n) past' b₀).2).node).1.map
        (fun out => (out.res, out.trace)) :=
  c09_past_is_forgotten n _ _ hsame
    (shutDown_of_used n _ (noSubtree_run n _ _ (noSubtree_runs n past a₀ na))
      (c04_shutdown_reaches_all n a₀ fa wa past ha))
    (shutDown_of_used n _ (noSubtree_run n _ _ (noSubtree_runs n past' b₀ nb))
      (c04_shutdown_reaches_all n b₀ fb wb past' hb))
    (caches_run n _ _ (caches_runs n past a₀ (caches_fresh n a₀ fa))) future

instance (n : Nat) (t : Tree n) : Decidable (ShutDown n t) :=
  decAllNodes _ (fun _ => inferInstance) n t

/-- A Retry over a leaf. The leaf answers from the given list, then IDLE forever. -/
def samplePast (answers : List Res) : Tree 2 :=
  mk 1 1 .retry [mk 0 2 .leaf [] fun i => { hook := answers.getD i (.ok .idle) }]
    (fun _ => { num := 3 })

/-- Two pasts: in one an attempt has failed and is counted, in the other the tree was only set up.
Both end with a successful shutdown. -/
example :
    let a := (runs (ops 2) [.setup, .tick, .shutdown]
      (samplePast [.ok .idle, .ok .failed, .ok .idle, .ok .shutdown])).2
    let b := (runs (ops 2) [.setup, .shutdown] (samplePast [.ok .idle, .ok .shutdown])).2
    ShutDown 2 a ∧ ShutDown 2 b ∧ Node.mem (N := Tree 1) a ≠ Node.mem (N := Tree 1) b := by decide

example : SameTree 2
    (runs (ops 2) [.setup, .tick, .shutdown]
      (samplePast [.ok .idle, .ok .failed, .ok .idle, .ok .shutdown])).2
    (runs (ops 2) [.setup, .shutdown] (samplePast [.ok .idle, .ok .shutdown])).2 := by
  refine ⟨rfl, rfl, rfl, fun i => rfl, .cons ⟨rfl, rfl, rfl, fun i => ?_, .nil⟩ .nil⟩
  have h : ∀ (l : List Res) i, l.length ≤ i → l.getD i (.ok .idle) = .ok .idle := by
    intro l i h
    simp [List.getD, List.getElem?_eq_none h]
  show ({ hook := List.getD _ (4 + i) _ } : Env) = { hook := List.getD _ (2 + i) _ }
  rw [h _ (4 + i) (by simp), h _ (2 + i) (by simp)]

end Verif.BT
