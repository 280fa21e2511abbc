import Verif.Ros.Wait
import Verif.Ros.Publisher
import Verif.Ros.WaitService
import Verif.Ros.Service
import Verif.Ros.Action
import Verif.Ros.Topic

/-!
# C130: a reset makes a ROS leaf as good as new
-/

set_option autoImplicit false

namespace Verif.Ros.Renew

open Verif.BT (BTState Op Res)
open Verif.Ros

/-! ### Specification -/

section
variable {M F E V A : Type} [DecidableEq F] (c : Class M F E V A)

/-- All answers and effects of a sequence of steps. -/
def answers : List (Step F E V) → Leaf M F → List (Option Res × List A)
  | [], _ => []
  | s :: ss, l => ((c.step l s).2.res, (c.step l s).2.acts) :: answers ss (c.step l s).1

/-- No `updated` flag is taken back before a tick has seen it. -/
def Noticed (steps : List (Step F E V)) : Prop := ∀ f, Step.write f false ∉ steps

/-- The step is a setup or a reset that succeeds. -/
def Starts (s : Step F E V) (o : Seen A) : Prop :=
  ∃ op e i p x, (op = .setup ∨ op = .reset) ∧ s = .call op e i p ∧ o.res = some (.ok x)

/-! ### Two leaves in step -/

/-- `R` keeps its promise: related attributes lead to the same answers and effects and to related attributes. -/
structure Bisim (R : (F → Bool) → M → M → Prop) : Prop where
  mono : ∀ {u u' : F → Bool} {m m' : M}, (∀ f, u f = true → u' f = true) → R u m m' → R u' m m'
  event : ∀ {u : F → Bool} {m m' : M} (v : V), R u m m' → R u (c.event v m) (c.event v m')
  hook : ∀ {u : F → Bool} {m m' : M} (op : Op) (st : BTState) (e : E), R u m m' →
    (c.hook op st u e m).res = (c.hook op st u e m').res ∧ (c.hook op st u e m).acts = (c.hook op st u e m').acts ∧
      R u (c.hook op st u e m).mem (c.hook op st u e m').mem ∧
      (∀ s, op = .tick → (c.hook op st u e m).res = some (.ok s) →
        R (fun _ => false) (c.hook op st u e m).mem (c.hook op st u e m').mem)

/-- Two leaves in step. -/
def Along (R : (F → Bool) → M → M → Prop) (l l' : Leaf M F) : Prop := l.state = l'.state ∧ l.upd = l'.upd ∧ R l.upd l.mem l'.mem

omit [DecidableEq F] in
theorem close_along {R : (F → Bool) → M → M → Prop} (op : Op) (u : F → Bool) (st : BTState) (m m' : M) (x y : HookOut M A)
    (h1 : x.res = y.res) (h2 : x.acts = y.acts) (h3 : R u x.mem y.mem) :
    (Class.close op ⟨st, m, u⟩ x).2 = (Class.close op ⟨st, m', u⟩ y).2 ∧
      Along R (Class.close op ⟨st, m, u⟩ x).1 (Class.close op ⟨st, m', u⟩ y).1 := by
  unfold Class.close
  rw [← h1, ← h2]
  split <;> exact ⟨rfl, rfl, rfl, h3⟩

theorem step_along {R : (F → Bool) → M → M → Prop} (hb : Bisim c R) (l l' : Leaf M F) (s : Step F E V) (hs : ∀ f, s ≠ .write f false)
    (h : Along R l l') : (c.step l s).2 = (c.step l' s).2 ∧ Along R (c.step l s).1 (c.step l' s).1 := by
  obtain ⟨st, m, u⟩ := l
  obtain ⟨st', m', u'⟩ := l'
  obtain ⟨rfl, rfl, h⟩ : st = st' ∧ u = u' ∧ R u m m' := h
  cases s with
  | write f b =>
    cases b with
    | false => exact absurd rfl (hs f)
    | true =>
      refine ⟨rfl, rfl, rfl, hb.mono (fun g hg => ?_) h⟩
      show (if g = f then true else u g) = true
      split
      · rfl
      · exact hg
  | event v => exact ⟨rfl, rfl, rfl, hb.event v h⟩
  | call op e i p =>
    have ht : R (fun _ => true) m m' := hb.mono (fun _ _ => rfl) h
    cases op with
    | setup =>
      simp only [Class.step, Class.setup]
      split
      · obtain ⟨h1, h2, h3, _⟩ := hb.hook .setup st e ht
        exact close_along .setup _ st m m' _ _ h1 h2 h3
      · exact ⟨rfl, rfl, rfl, h⟩
    | reset =>
      simp only [Class.step, Class.reset]
      split
      · obtain ⟨h1, h2, h3, _⟩ := hb.hook .reset st e ht
        exact close_along .reset _ st m m' _ _ h1 h2 h3
      · exact ⟨rfl, rfl, rfl, h⟩
    | untick =>
      simp only [Class.step, Class.untick]
      split
      · obtain ⟨h1, h2, h3, _⟩ := hb.hook .untick st e h
        exact close_along .untick _ st m m' _ _ h1 h2 h3
      · exact ⟨rfl, rfl, rfl, h⟩
    | shutdown =>
      simp only [Class.step, Class.shutdown]
      split
      · exact ⟨rfl, rfl, rfl, h⟩
      · obtain ⟨h1, h2, h3, _⟩ := hb.hook .shutdown st e h
        exact close_along .shutdown _ st m m' _ _ h1 h2 h3
    | tick =>
      simp only [Class.step, Class.tick]
      split
      · split
        · obtain ⟨h1, h2, h3, h4⟩ := hb.hook .tick st e h
          rw [← h1, ← h2]
          split
          · exact ⟨rfl, rfl, rfl, h3⟩
          · exact ⟨rfl, rfl, rfl, h3⟩
          · rename_i s hs
            have h5 := h4 s rfl hs
            split
            · split <;> exact ⟨rfl, rfl, rfl, h5⟩
            · exact ⟨rfl, rfl, rfl, h5⟩
        · exact ⟨rfl, rfl, rfl, h⟩
      · exact ⟨rfl, rfl, rfl, h⟩

theorem answers_along {R : (F → Bool) → M → M → Prop} (hb : Bisim c R) (steps : List (Step F E V)) (hn : Noticed steps) :
    ∀ l l', Along R l l' → answers c steps l = answers c steps l' := by
  induction steps with
  | nil => exact fun _ _ _ => rfl
  | cons s ss ih =>
    intro l l' h
    obtain ⟨h1, h2⟩ := step_along c hb l l' s (fun f hf => hn f (hf ▸ List.mem_cons_self)) h
    simp only [answers, h1, ih (fun f hf => hn f (List.mem_cons_of_mem _ hf)) _ _ h2]

/-- Two parts of hooks answer alike, leave related attributes, and if they succeed more is true of these. -/
def Sim (R S : M → M → Prop) (x y : HookOut M A) : Prop :=
  x.res = y.res ∧ x.acts = y.acts ∧ R x.mem y.mem ∧ ∀ s, x.res = some (.ok s) → S x.mem y.mem

omit [DecidableEq F] in
theorem Sim.andThen {R S T : M → M → Prop} {x y : HookOut M A} {f g : M → HookOut M A} (h : Sim R S x y)
    (hfg : ∀ m m', S m m' → Sim R T (f m) (g m')) : Sim R T (x.andThen f) (y.andThen g) := by
  obtain ⟨xm, xr, xa⟩ := x
  obtain ⟨ym, yr, ya⟩ := y
  obtain ⟨h1, h2, h3, h4⟩ : xr = yr ∧ xa = ya ∧ R xm ym ∧ ∀ s, xr = some (.ok s) → S xm ym := h
  subst h1 h2
  rcases xr with _ | ⟨s | _⟩
  · exact ⟨rfl, rfl, h3, fun _ h => nomatch h⟩
  · obtain ⟨k1, k2, k3, k4⟩ := hfg xm ym (h4 s rfl)
    exact ⟨k1, congrArg (xa ++ ·) k2, k3, k4⟩
  · exact ⟨rfl, rfl, h3, fun _ h => nomatch h⟩

/-- The leaf after a successful setup or reset. -/
theorem starts_inv {h : Class.History F E V A} {s : Step F E V} {o : Seen A} {l : Leaf M F} (hr : c.Runs ((s, o) :: h) l) (hs : Starts s o) :
    ∃ op e m st, (op = .setup ∨ op = .reset) ∧ (c.hook op st (fun _ => true) e m).res = some (.ok .idle) ∧
      l = ⟨.idle, (c.hook op st (fun _ => true) e m).mem, fun _ => true⟩ := by
  have key : ∀ (op : Op) (m : M) (st : BTState) (x : HookOut M A) (y : BTState), op = .setup ∨ op = .reset →
      (Class.close op ⟨st, m, fun _ : F => true⟩ x).2.res = some (.ok y) →
      x.res = some (.ok .idle) ∧ (Class.close op ⟨st, m, fun _ : F => true⟩ x).1 = ⟨.idle, x.mem, fun _ => true⟩ := by
    intro op m st x y hop hx
    unfold Class.close at hx ⊢
    split at hx
    · cases hx
    · cases hx
    · rename_i z hz
      have : z = .idle := by
        rcases hop with rfl | rfl <;> (dsimp only at hx; split at hx <;> rename_i ha <;> simp_all [BT.allowedAfter])
      subst this
      exact ⟨hz, rfl⟩
  cases hr with
  | step _ hr0 =>
    rename_i l0
    obtain ⟨st, m, u⟩ := l0
    obtain ⟨op, e, i, p, x, hop, rfl, hx⟩ := hs
    refine ⟨op, e, m, st, hop, ?_⟩
    rcases hop with rfl | rfl
    · simp only [Class.step, Class.setup] at hx ⊢
      split at hx
      · rename_i ha
        rw [if_pos ha]
        exact key .setup m st _ x (.inl rfl) hx
      · cases hx
    · simp only [Class.step, Class.reset] at hx ⊢
      split at hx
      · rename_i ha
        rw [if_pos ha]
        exact key .reset m st _ x (.inr rfl) hx
      · cases hx

omit [DecidableEq F] in
/-- Classes of which two leaves with equal attributes are compared. -/
theorem bisim_eq : Bisim c (fun _ m m' => m = m') :=
  ⟨fun _ h => h, fun _ h => h ▸ rfl, fun _ _ _ h => by subst h; exact ⟨rfl, rfl, rfl, fun _ _ _ => rfl⟩⟩

end

/-! ### C130 -/

/-- C130, Wait. -/
theorem c130_wait {h h' : Wait.Hist} {s s' : Step Unit Wait.Env Empty} {o o' : Seen Unit} {l l' : Leaf Wait.Mem Unit}
    (hr : Wait.cls.Runs ((s, o) :: h) l) (hr' : Wait.cls.Runs ((s', o') :: h') l') (hs : Starts s o) (hs' : Starts s' o')
    (hd : Wait.duration ((s, o) :: h) = Wait.duration ((s', o') :: h')) (steps : List (Step Unit Wait.Env Empty)) (hn : Noticed steps) :
    answers Wait.cls steps l = answers Wait.cls steps l' := by
  have h1 := Wait.inv hr
  have h2 := Wait.inv hr'
  obtain ⟨op, e, m, st, hop, hres, rfl⟩ := starts_inv _ hr hs
  obtain ⟨op', e', m', st', hop', hres', rfl⟩ := starts_inv _ hr' hs'
  refine answers_along _ (bisim_eq _) steps hn _ _ ⟨rfl, rfl, ?_⟩
  have d1 := (h1 rfl).2
  have d2 := (h2 rfl).2
  have hst : ∀ op e m st, (op = .setup ∨ op = .reset) → (Wait.cls.hook op st (fun _ => true) e m).mem.start = none := by
    intro op e m st hop
    rcases hop with rfl | rfl
    · simp only [Wait.cls, Wait.hook, Wait.doSetup]; grind
    · rfl
  have e1 := hst op e m st hop
  have e2 := hst op' e' m' st' hop'
  rw [d1, d2] at hd
  dsimp only at hd ⊢
  revert e1 e2 hd
  generalize (Wait.cls.hook op st (fun _ => true) e m).mem = x
  generalize (Wait.cls.hook op' st' (fun _ => true) e' m').mem = y
  intro e1 e2 hd
  cases x; cases y; simp_all

/-- C130, TopicPublisher. -/
theorem c130_publisher {h h' : Class.History Publisher.Group Publisher.Env Empty Publisher.Act} {s s' : Step Publisher.Group Publisher.Env Empty}
    {o o' : Seen Publisher.Act} {l l' : Leaf Publisher.Mem Publisher.Group}
    (hr : Publisher.cls.Runs ((s, o) :: h) l) (hr' : Publisher.cls.Runs ((s', o') :: h') l') (hs : Starts s o) (hs' : Starts s' o')
    (steps : List (Step Publisher.Group Publisher.Env Empty)) (hn : Noticed steps) :
    answers Publisher.cls steps l = answers Publisher.cls steps l' := by
  obtain ⟨op, e, m, st, hop, hres, rfl⟩ := starts_inv _ hr hs
  obtain ⟨op', e', m', st', hop', hres', rfl⟩ := starts_inv _ hr' hs'
  refine answers_along _ (bisim_eq _) steps hn _ _ ⟨rfl, rfl, ?_⟩
  have key : ∀ op e m st, (op = .setup ∨ op = .reset) → (Publisher.cls.hook op st (fun _ => true) e m).res = some (.ok .idle) →
      (Publisher.cls.hook op st (fun _ => true) e m).mem = ⟨some false⟩ := by
    intro op e m st hop
    obtain ⟨pub⟩ := m
    rcases hop with rfl | rfl
    · simp only [Publisher.cls, Publisher.hook, Publisher.doSetup]; grind
    · simp only [Publisher.cls, Publisher.hook, Publisher.doReset]; grind
  dsimp only
  rw [key op e m st hop hres, key op' e' m' st' hop' hres']

/-- C130, WaitForService. -/
theorem c130_wait_service {h h' : WaitService.Hist} {s s' : Step Unit WaitService.Env Empty} {o o' : Seen Unit} {l l' : Leaf WaitService.Mem Unit}
    (hr : WaitService.cls.Runs ((s, o) :: h) l) (hr' : WaitService.cls.Runs ((s', o') :: h') l') (hs : Starts s o) (hs' : Starts s' o')
    (hd : WaitService.limit ((s, o) :: h) = WaitService.limit ((s', o') :: h')) (steps : List (Step Unit WaitService.Env Empty)) (hn : Noticed steps) :
    answers WaitService.cls steps l = answers WaitService.cls steps l' := by
  have h1 := WaitService.inv hr
  have h2 := WaitService.inv hr'
  obtain ⟨op, e, m, st, hop, hres, rfl⟩ := starts_inv _ hr hs
  obtain ⟨op', e', m', st', hop', hres', rfl⟩ := starts_inv _ hr' hs'
  refine answers_along _ (bisim_eq _) steps hn _ _ ⟨rfl, rfl, ?_⟩
  have d1 := (h1 rfl).2.2.1
  have d2 := (h2 rfl).2.2.1
  rw [d1, d2] at hd
  have key : ∀ op e m st, (op = .setup ∨ op = .reset) → (WaitService.cls.hook op st (fun _ => true) e m).res = some (.ok .idle) →
      (WaitService.cls.hook op st (fun _ => true) e m).mem = ⟨true, false, none, (WaitService.cls.hook op st (fun _ => true) e m).mem.limit⟩ := by
    intro op e m st hop
    obtain ⟨a, b, c, d⟩ := m
    rcases hop with rfl | rfl
    · simp only [WaitService.cls, WaitService.hook, WaitService.doSetup]; grind
    · simp only [WaitService.cls, WaitService.hook, WaitService.doReset, WaitService.doUntick]; grind
  dsimp only at hd ⊢
  rw [key op e m st hop hres, key op' e' m' st' hop' hres', Option.some.inj hd]

/-! Service -/

/-- The time of the last call matters only while there is a future. -/
def RService (_ : Unit → Bool) (m m' : Service.Mem) : Prop :=
  m.client = m'.client ∧ m.future = m'.future ∧ m.input = m'.input ∧ m.timeout = m'.timeout ∧ m.next = m'.next ∧
    (m.lastCall = m'.lastCall ∨ m.future = none)

theorem bisim_service : Bisim Service.cls RService := by
  refine ⟨fun _ h => h, fun v => v.elim, ?_⟩
  · intro u m m' op st e h
    suffices hs : Sim (RService u) (RService u) (Service.cls.hook op st u e m) (Service.cls.hook op st u e m') from
      ⟨hs.1, hs.2.1, hs.2.2.1, fun _ _ _ => hs.2.2.1⟩
    have huntick : ∀ m m', RService u m m' → Sim (RService u) (RService u) (Service.doUntick m) (Service.doUntick m') := by
      rintro ⟨a, b, c, d, f, g⟩ ⟨a', b', c', d', f', g'⟩ ⟨rfl, rfl, rfl, rfl, rfl, h⟩
      simp [Sim, RService, Service.doUntick]
    have hreset : ∀ m m', RService u m m' → Sim (RService u) (RService u) (Service.doReset e m) (Service.doReset e m') := by
      rintro ⟨a, b, c, d, f, g⟩ ⟨a', b', c', d', f', g'⟩ ⟨rfl, rfl, rfl, rfl, rfl, h⟩
      dsimp only at h
      cases a <;> cases he : e.destroyOk <;> simp [Sim, RService, Service.doReset, Service.doUntick, he, h]
    have hfetch : ∀ m m', RService u m m' → Sim (RService u) (RService u) (Service.fetch e m) (Service.fetch e m') := by
      rintro ⟨a, b, c, d, f, g⟩ ⟨a', b', c', d', f', g'⟩ ⟨rfl, rfl, rfl, rfl, rfl, h⟩
      dsimp only at h
      cases he : e.request <;> simp [Sim, RService, Service.fetch, he, h]
    cases op with
    | setup =>
      obtain ⟨a, b, c, d, f, g⟩ := m
      obtain ⟨a', b', c', d', f', g'⟩ := m'
      obtain ⟨rfl, rfl, rfl, rfl, rfl, h⟩ := h
      change Sim _ _ (Service.doSetup e _) (Service.doSetup e _)
      cases he : e.seconds <;> cases ht : (e.typeOk && e.hasRos) <;> simp [Sim, RService, Service.doSetup, he, ht]
    | untick => exact huntick m m' h
    | reset => exact hreset m m' h
    | shutdown => exact (hreset m m' h).andThen fun m m' h => ⟨rfl, rfl, h, fun _ _ => h⟩
    | tick =>
      change Sim _ _ (Service.doTick st (u ()) e m) (Service.doTick st (u ()) e m')
      unfold Service.doTick
      split
      · refine Sim.andThen (S := RService u) (Sim.andThen (S := RService u) (Sim.andThen (S := RService u) ?_ ?_) ?_) ?_
        · unfold Service.refresh
          split
          · exact (hreset m m' h).andThen hfetch
          · exact ⟨rfl, rfl, h, fun _ _ => h⟩
        · intro m m' h
          unfold Service.first
          rw [← h.2.1, ← h.2.2.1]
          split
          · exact hfetch m m' h
          · exact ⟨rfl, rfl, h, fun _ _ => h⟩
        · rintro ⟨a, b, c, d, f, g⟩ ⟨a', b', c', d', f', g'⟩ ⟨rfl, rfl, rfl, rfl, rfl, h⟩
          dsimp only at h
          cases a <;> cases he : e.nameOk <;> cases hc : e.createRaises <;> simp [Sim, RService, Service.connect, he, hc, h]
        · rintro ⟨a, b, c, d, f, g⟩ ⟨a', b', c', d', f', g'⟩ ⟨rfl, rfl, rfl, rfl, rfl, h⟩
          dsimp only at h
          cases c with
          | some r => simp [Sim, RService, Service.poll]
          | none =>
            cases b with
            | none => simp [Sim, RService, Service.poll]
            | some n =>
              have : d = d' := by simpa using h
              subst this
              exact ⟨rfl, rfl, ⟨rfl, rfl, rfl, rfl, rfl, .inl rfl⟩, fun _ _ => ⟨rfl, rfl, rfl, rfl, rfl, .inl rfl⟩⟩
      · exact ⟨rfl, rfl, h, fun _ _ => h⟩

/-- C130, Service (ServiceBase). Requests are numbered in the model only. -/
theorem c130_service {h h' : Service.Hist} {s s' : Step Unit Service.Env Empty} {o o' : Seen Service.Act} {l l' : Leaf Service.Mem Unit}
    (hr : Service.cls.Runs ((s, o) :: h) l) (hr' : Service.cls.Runs ((s', o') :: h') l') (hs : Starts s o) (hs' : Starts s' o')
    (hd : Service.timeout ((s, o) :: h) = Service.timeout ((s', o') :: h')) (hnum : l.mem.next = l'.mem.next)
    (steps : List (Step Unit Service.Env Empty)) (hn : Noticed steps) : answers Service.cls steps l = answers Service.cls steps l' := by
  have h1 := (Service.inv hr).timeout
  have h2 := (Service.inv hr').timeout
  obtain ⟨op, e, m, st, hop, hres, rfl⟩ := starts_inv _ hr hs
  obtain ⟨op', e', m', st', hop', hres', rfl⟩ := starts_inv _ hr' hs'
  rw [h1 rfl, h2 rfl] at hd
  have key : ∀ op e m st, (op = .setup ∨ op = .reset) → (Service.cls.hook op st (fun _ => true) e m).res = some (.ok .idle) →
      (Service.cls.hook op st (fun _ => true) e m).mem.client = false ∧ (Service.cls.hook op st (fun _ => true) e m).mem.future = none ∧
        (Service.cls.hook op st (fun _ => true) e m).mem.input = none := by
    intro op e m st hop
    obtain ⟨a, b, c, d, f, g⟩ := m
    rcases hop with rfl | rfl
    · change (Service.doSetup e _).res = _ → _
      cases he : e.seconds <;> cases ht : (e.typeOk && e.hasRos) <;> simp [Service.cls, Service.hook, Service.doSetup, he, ht]
    · change (Service.doReset e _).res = _ → _
      cases a <;> cases ht : e.destroyOk <;> simp [Service.cls, Service.hook, Service.doReset, Service.doUntick, ht]
  obtain ⟨a1, a2, a3⟩ := key op e m st hop hres
  obtain ⟨b1, b2, b3⟩ := key op' e' m' st' hop' hres'
  exact answers_along _ bisim_service steps hn _ _
    ⟨rfl, rfl, a1.trans b1.symm, a2.trans b2.symm, a3.trans b3.symm, Option.some.inj hd, hnum, .inr a2⟩

/-! TopicSubscriber -/

/-- A message does not matter if the next tick forgets it. -/
def RSub (u : Unit → Bool) (m m' : Subscriber.Mem) : Prop := m.sub = m'.sub ∧ (m.msg = m'.msg ∨ m.sub = false ∧ u () = true)

theorem bisim_subscriber : Bisim Subscriber.cls RSub := by
  refine ⟨fun hu h => ⟨h.1, h.2.imp id fun h => ⟨h.1, hu () h.2⟩⟩, fun _ h => ⟨h.1, .inl rfl⟩, ?_⟩
  · intro u m m' op st e h
    have weak : ∀ {m m' : Subscriber.Mem}, RSub (fun _ => false) m m' → RSub u m m' := fun h => ⟨h.1, h.2.imp id fun h => nomatch h.2⟩
    have hreset : ∀ m m', RSub u m m' → Sim (RSub u) (RSub fun _ => false) (Subscriber.doReset e m) (Subscriber.doReset e m') := by
      rintro ⟨a, b⟩ ⟨a', b'⟩ ⟨rfl, h⟩
      dsimp only at h
      cases b <;> cases he : e.destroyOk <;> simp [Sim, RSub, Subscriber.doReset, he]
    cases op with
    | setup =>
      change (Subscriber.doSetup e m).res = (Subscriber.doSetup e m').res ∧ (Subscriber.doSetup e m).acts = (Subscriber.doSetup e m').acts ∧
        RSub u (Subscriber.doSetup e m).mem (Subscriber.doSetup e m').mem ∧ _
      cases he : e.hasRos
      · simp only [Subscriber.doSetup, he]
        exact ⟨rfl, rfl, h, fun _ ho => nomatch ho⟩
      · simp only [Subscriber.doSetup, he]
        exact ⟨rfl, rfl, ⟨rfl, .inl rfl⟩, fun _ ho => nomatch ho⟩
    | untick => exact ⟨rfl, rfl, h, fun _ ho => nomatch ho⟩
    | reset =>
      obtain ⟨h1, h2, h3, _⟩ := hreset m m' h
      exact ⟨h1, h2, h3, fun _ ho => nomatch ho⟩
    | shutdown =>
      obtain ⟨h1, h2, h3, _⟩ := (hreset m m' h).andThen (f := fun m => ⟨m, some (.ok .shutdown), []⟩) (g := fun m => ⟨m, some (.ok .shutdown), []⟩)
        (T := RSub u) fun m m' h => ⟨rfl, rfl, weak h, fun _ _ => weak h⟩
      exact ⟨h1, h2, h3, fun _ ho => nomatch ho⟩
    | tick =>
      suffices hs : Sim (RSub u) (RSub fun _ => false) (Subscriber.doTick (u ()) e m) (Subscriber.doTick (u ()) e m') from
        ⟨hs.1, hs.2.1, hs.2.2.1, fun s _ hx => hs.2.2.2 s hx⟩
      unfold Subscriber.doTick
      refine Sim.andThen (S := RSub fun _ => false) (Sim.andThen (S := RSub fun _ => false) (Sim.andThen (S := RSub fun _ => false) ?_ ?_) ?_) ?_
      · unfold Subscriber.refresh
        split
        · split
          · exact hreset m m' h
          · rename_i hu
            exact ⟨rfl, rfl, h, fun _ _ => ⟨h.1, h.2.imp id fun h => absurd h.2 hu⟩⟩
        · exact ⟨rfl, rfl, h, fun _ ho => nomatch ho⟩
      · rintro ⟨a, b⟩ ⟨a', b'⟩ ⟨rfl, h⟩
        simp only [Bool.false_eq_true, and_false, or_false] at h
        subst h
        exact ⟨rfl, rfl, ⟨rfl, .inl rfl⟩, fun _ _ => ⟨rfl, .inl rfl⟩⟩
      · rintro ⟨a, b⟩ ⟨a', b'⟩ ⟨rfl, h⟩
        simp only [Bool.false_eq_true, and_false, or_false] at h
        subst h
        exact ⟨rfl, rfl, ⟨rfl, .inl rfl⟩, fun _ _ => ⟨rfl, .inl rfl⟩⟩
      · rintro ⟨a, b⟩ ⟨a', b'⟩ ⟨rfl, h⟩
        simp only [Bool.false_eq_true, and_false, or_false] at h
        subst h
        exact ⟨rfl, rfl, ⟨rfl, .inl rfl⟩, fun _ _ => ⟨rfl, .inl rfl⟩⟩

/-- C130, TopicSubscriber. A message that arrives while a reset destroys the subscription does no harm: the next tick forgets it. -/
theorem c130_subscriber {h h' : Class.History Unit Subscriber.Env Nat TopicAct} {s s' : Step Unit Subscriber.Env Nat} {o o' : Seen TopicAct}
    {l l' : Leaf Subscriber.Mem Unit} (hr : Subscriber.cls.Runs ((s, o) :: h) l) (hr' : Subscriber.cls.Runs ((s', o') :: h') l') (hs : Starts s o)
    (hs' : Starts s' o') (steps : List (Step Unit Subscriber.Env Nat)) (hn : Noticed steps) :
    answers Subscriber.cls steps l = answers Subscriber.cls steps l' := by
  obtain ⟨op, e, m, st, hop, hres, rfl⟩ := starts_inv _ hr hs
  obtain ⟨op', e', m', st', hop', hres', rfl⟩ := starts_inv _ hr' hs'
  have key : ∀ op e m st, (op = .setup ∨ op = .reset) → (Subscriber.cls.hook op st (fun _ => true) e m).res = some (.ok .idle) →
      (Subscriber.cls.hook op st (fun _ => true) e m).mem.sub = false := by
    intro op e m st hop
    obtain ⟨a, b⟩ := m
    rcases hop with rfl | rfl
    · change (Subscriber.doSetup e _).res = _ → _
      cases he : e.hasRos <;> simp [Subscriber.cls, Subscriber.hook, Subscriber.doSetup, he]
    · change (Subscriber.doReset e _).res = _ → _
      cases b <;> cases ht : e.destroyOk <;> simp [Subscriber.cls, Subscriber.hook, Subscriber.doReset, ht]
  have a1 := key op e m st hop hres
  have b1 := key op' e' m' st' hop' hres'
  exact answers_along _ bisim_subscriber steps hn _ _ ⟨rfl, rfl, a1.trans b1.symm, .inr ⟨a1, rfl⟩⟩

/-! TopicMemorySubscriber -/

/-- A time does not matter without a message, a message does not if the next tick forgets it. -/
def RMem (u : Unit → Bool) (m m' : MemorySubscriber.Mem) : Prop :=
  m.sub = m'.sub ∧ m.delay = m'.delay ∧ (m.msg = m'.msg ∧ (m.stamp = m'.stamp ∨ m.msg = none) ∨ m.sub = false ∧ u () = true)

theorem callback_sim {u : Unit → Bool} (x : Option Nat) (t : Int) {m m' : MemorySubscriber.Mem} (h : RMem u m m') :
    RMem u (MemorySubscriber.callback x t m) (MemorySubscriber.callback x t m') := by
  cases x with
  | none => exact h
  | some x => exact ⟨h.1, h.2.1, .inl ⟨rfl, .inl rfl⟩⟩

theorem bisim_memory : Bisim MemorySubscriber.cls RMem := by
  refine ⟨fun hu h => ⟨h.1, h.2.1, h.2.2.imp id fun h => ⟨h.1, hu () h.2⟩⟩, fun v h => callback_sim (some v.1) v.2 h, ?_⟩
  · intro u m m' op st e h
    have weak : ∀ {m m' : MemorySubscriber.Mem}, RMem (fun _ => false) m m' → RMem u m m' :=
      fun h => ⟨h.1, h.2.1, h.2.2.imp id fun h => nomatch h.2⟩
    have hreset : ∀ m m', RMem u m m' → Sim (RMem u) (RMem fun _ => false) (MemorySubscriber.doReset e m) (MemorySubscriber.doReset e m') := by
      rintro ⟨a, b, c, d⟩ ⟨a', b', c', d'⟩ ⟨rfl, rfl, h⟩
      dsimp only at h
      cases d <;> cases he : e.destroyOk <;> cases hb : e.between <;> cases hl : e.late <;>
        simp [Sim, RMem, MemorySubscriber.doReset, MemorySubscriber.callback, he, hb, hl]
    cases op with
    | setup =>
      suffices hs : Sim (RMem u) (RMem u) (MemorySubscriber.doSetup e m) (MemorySubscriber.doSetup e m') from
        ⟨hs.1, hs.2.1, hs.2.2.1, fun _ ho => nomatch ho⟩
      obtain ⟨a, b, c, d⟩ := m
      obtain ⟨a', b', c', d'⟩ := m'
      obtain ⟨rfl, rfl, h⟩ := h
      dsimp only at h
      cases he : e.hasRos <;> cases hs : e.seconds <;> simp [Sim, RMem, MemorySubscriber.doSetup, he, hs, h]
    | untick => exact ⟨rfl, rfl, h, fun _ ho => nomatch ho⟩
    | reset =>
      obtain ⟨h1, h2, h3, _⟩ := hreset m m' h
      exact ⟨h1, h2, h3, fun _ ho => nomatch ho⟩
    | shutdown =>
      obtain ⟨h1, h2, h3, _⟩ := (hreset m m' h).andThen (f := fun m => ⟨m, some (.ok .shutdown), []⟩) (g := fun m => ⟨m, some (.ok .shutdown), []⟩)
        (T := RMem u) fun m m' h => ⟨rfl, rfl, weak h, fun _ _ => weak h⟩
      exact ⟨h1, h2, h3, fun _ ho => nomatch ho⟩
    | tick =>
      suffices hs : Sim (RMem u) (RMem fun _ => false) (MemorySubscriber.doTick (u ()) e m) (MemorySubscriber.doTick (u ()) e m') from
        ⟨hs.1, hs.2.1, hs.2.2.1, fun s _ hx => hs.2.2.2 s hx⟩
      unfold MemorySubscriber.doTick
      refine Sim.andThen (S := RMem fun _ => false) (Sim.andThen (S := RMem fun _ => false) (Sim.andThen (S := RMem fun _ => false) ?_ ?_) ?_) ?_
      · unfold MemorySubscriber.refresh
        split
        · split
          · exact hreset m m' h
          · rename_i hu
            exact ⟨rfl, rfl, h, fun _ _ => ⟨h.1, h.2.1, h.2.2.imp id fun h => absurd h.2 hu⟩⟩
        · exact ⟨rfl, rfl, h, fun _ ho => nomatch ho⟩
      · rintro ⟨a, b, c, d⟩ ⟨a', b', c', d'⟩ ⟨rfl, rfl, h⟩
        simp only [Bool.false_eq_true, and_false, or_false] at h
        obtain ⟨rfl, h⟩ := h
        cases d <;> cases he : e.settingsOk <;> cases hc : e.createRaises <;> simp [Sim, RMem, MemorySubscriber.connect, he, hc, h]
      · intro m m' h
        exact ⟨rfl, rfl, weak (callback_sim _ _ h), fun _ _ => callback_sim _ _ h⟩
      · rintro ⟨a, b, c, d⟩ ⟨a', b', c', d'⟩ ⟨rfl, rfl, h⟩
        simp only [Bool.false_eq_true, and_false, or_false] at h
        obtain ⟨rfl, h⟩ := h
        cases a with
        | none => simp [Sim, RMem, MemorySubscriber.check]
        | some x =>
          have : b = b' := by simpa using h
          subst this
          exact ⟨rfl, rfl, ⟨rfl, rfl, .inl ⟨rfl, .inl rfl⟩⟩, fun _ _ => ⟨rfl, rfl, .inl ⟨rfl, .inl rfl⟩⟩⟩

/-- C130, TopicMemorySubscriber. -/
theorem c130_memory_subscriber {h h' : MemorySubscriber.Hist} {s s' : Step Unit MemorySubscriber.Env (Nat × Int)} {o o' : Seen TopicAct}
    {l l' : Leaf MemorySubscriber.Mem Unit} (hr : MemorySubscriber.cls.Runs ((s, o) :: h) l) (hr' : MemorySubscriber.cls.Runs ((s', o') :: h') l')
    (hs : Starts s o) (hs' : Starts s' o') (hd : MemorySubscriber.delay ((s, o) :: h) = MemorySubscriber.delay ((s', o') :: h'))
    (steps : List (Step Unit MemorySubscriber.Env (Nat × Int))) (hn : Noticed steps) :
    answers MemorySubscriber.cls steps l = answers MemorySubscriber.cls steps l' := by
  have h1 := MemorySubscriber.delayed hr
  have h2 := MemorySubscriber.delayed hr'
  obtain ⟨op, e, m, st, hop, hres, rfl⟩ := starts_inv _ hr hs
  obtain ⟨op', e', m', st', hop', hres', rfl⟩ := starts_inv _ hr' hs'
  rw [h1 rfl, h2 rfl] at hd
  have key : ∀ op e m st, (op = .setup ∨ op = .reset) → (MemorySubscriber.cls.hook op st (fun _ => true) e m).res = some (.ok .idle) →
      (MemorySubscriber.cls.hook op st (fun _ => true) e m).mem.sub = false := by
    intro op e m st hop
    obtain ⟨a, b, c, d⟩ := m
    rcases hop with rfl | rfl
    · change (MemorySubscriber.doSetup e _).res = _ → _
      cases he : e.hasRos <;> cases hs : e.seconds <;> simp [MemorySubscriber.cls, MemorySubscriber.hook, MemorySubscriber.doSetup, he, hs]
    · change (MemorySubscriber.doReset e _).res = _ → _
      cases d <;> cases ht : e.destroyOk <;> simp [MemorySubscriber.cls, MemorySubscriber.hook, MemorySubscriber.doReset, ht]
  have a1 := key op e m st hop hres
  have b1 := key op' e' m' st' hop' hres'
  exact answers_along _ bisim_memory steps hn _ _ ⟨rfl, rfl, a1.trans b1.symm, Option.some.inj hd, .inr ⟨a1, rfl⟩⟩

/-! Action -/

/-- A request matters only while the node waits for the server, a start only while the goal runs, and a goal does not if the next tick reads it
anew. -/
def RAct (u : Unit → Bool) (m m' : Action.Mem) : Prop :=
  m.st = m'.st ∧ m.handle = m'.handle ∧ m.resultFut = m'.resultFut ∧ m.cancelFut = m'.cancelFut ∧ m.timeout = m'.timeout ∧ m.client = m'.client ∧
    m.next = m'.next ∧ (m.st = some .waitAccept → m.request = m'.request) ∧ (m.st = some .waitAction → m.start = m'.start) ∧
    (m.input = m'.input ∨ m.st = some .idle ∧ u () = true)

theorem bisim_action : Bisim Action.cls RAct := by
  refine ⟨fun hu ⟨h1, h2, h3, h4, h5, h6, h7, h8, h9, h⟩ => ⟨h1, h2, h3, h4, h5, h6, h7, h8, h9, h.imp id fun h => ⟨h.1, hu () h.2⟩⟩, fun v => v.elim, ?_⟩
  · intro u m m' op st e h
    have weak : ∀ {m m' : Action.Mem}, RAct (fun _ => false) m m' → RAct u m m' :=
      fun ⟨h1, h2, h3, h4, h5, h6, h7, h8, h9, h⟩ => ⟨h1, h2, h3, h4, h5, h6, h7, h8, h9, h.imp id fun h => nomatch h.2⟩
    have huntick : ∀ m m', RAct u m m' → Sim (RAct u) (RAct u) (Action.doUntick m) (Action.doUntick m') := by
      rintro ⟨a, b, c, d, f, g, i, j, k, l⟩ ⟨a', b', c', d', f', g', i', j', k', l'⟩ ⟨rfl, rfl, rfl, rfl, rfl, rfl, rfl, h8, h9, h⟩
      dsimp only at h8 h9 h
      rcases a with _ | a
      · simp_all [Sim, RAct, Action.doUntick]
      · by_cases ha : a = .waitAction
        · subst ha
          cases c <;> simp_all [Sim, RAct, Action.doUntick, Action.requestCancel, Action.forgetAll, HookOut.andThen]
        · simp_all [Sim, RAct, Action.doUntick, Action.forgetAll]
          grind
    have hreset : ∀ m m', RAct u m m' → Sim (RAct u) (RAct u) (Action.doReset m) (Action.doReset m') := by
      intro m m' h
      refine (huntick m m' h).andThen ?_
      rintro m m' ⟨h1, h2, h3, h4, h5, h6, h7, h8, h9, h⟩
      exact ⟨rfl, (by dsimp only; rw [h6]), ⟨h1, h2, h3, h4, h5, rfl, h7, h8, h9, h⟩, fun _ _ => ⟨h1, h2, h3, h4, h5, rfl, h7, h8, h9, h⟩⟩
    cases op with
    | setup =>
      suffices hs : Sim (RAct u) (RAct u) (Action.doSetup e m) (Action.doSetup e m') from ⟨hs.1, hs.2.1, hs.2.2.1, fun _ ho => nomatch ho⟩
      obtain ⟨a, b, c, d, f, g, i, j, k, l⟩ := m
      obtain ⟨a', b', c', d', f', g', i', j', k', l'⟩ := m'
      obtain ⟨rfl, rfl, rfl, rfl, rfl, rfl, rfl, h8, h9, h⟩ := h
      dsimp only at h8 h9 h
      have hu : u () = true ∨ g = g' := by grind
      cases he : e.hasRos <;> cases hs : e.seconds <;> cases ht : e.typeOk <;> simp [Sim, RAct, Action.doSetup, he, hs, ht] <;> grind
    | untick =>
      obtain ⟨h1, h2, h3, _⟩ := huntick m m' h
      exact ⟨h1, h2, h3, fun _ ho => nomatch ho⟩
    | reset =>
      obtain ⟨h1, h2, h3, _⟩ := hreset m m' h
      exact ⟨h1, h2, h3, fun _ ho => nomatch ho⟩
    | shutdown =>
      obtain ⟨h1, h2, h3, _⟩ := (hreset m m' h).andThen (f := fun m => ⟨m, some (.ok .shutdown), []⟩) (g := fun m => ⟨m, some (.ok .shutdown), []⟩)
        (T := RAct u) fun m m' h => ⟨rfl, rfl, h, fun _ _ => h⟩
      exact ⟨h1, h2, h3, fun _ ho => nomatch ho⟩
    | tick =>
      suffices hs : Sim (RAct u) (RAct fun _ => false) (Action.doTick st (u ()) e m) (Action.doTick st (u ()) e m') from
        ⟨hs.1, hs.2.1, hs.2.2.1, fun s _ hx => hs.2.2.2 s hx⟩
      unfold Action.doTick
      refine Sim.andThen (S := RAct fun _ => false) (Sim.andThen (S := RAct fun _ => false) ?_ ?_) ?_
      · obtain ⟨a, b, c, d, f, g, i, j, k, l⟩ := m
        obtain ⟨a', b', c', d', f', g', i', j', k', l'⟩ := m'
        obtain ⟨rfl, rfl, rfl, rfl, rfl, rfl, rfl, h8, h9, h⟩ := h
        dsimp only at h8 h9 h
        cases he : e.flagsOk
        · simp [Sim, RAct, Action.refresh, he]
          exact ⟨h8, h9, h⟩
        · cases hu : u ()
          · simp [Sim, RAct, Action.refresh, he, hu]
            simp [hu] at h
            exact ⟨h8, h9, h⟩
          · cases hg : e.goal with
            | none =>
              simp [Sim, RAct, Action.refresh, he, hg, hu]
              exact ⟨h8, h9, by simpa [hu] using h⟩
            | some x =>
              cases a with
              | none => simp [Sim, RAct, Action.refresh, he, hg]
              | some a => cases a <;> simp_all [Sim, RAct, Action.refresh]
      · rintro ⟨a, b, c, d, f, g, i, j, k, l⟩ ⟨a', b', c', d', f', g', i', j', k', l'⟩ ⟨rfl, rfl, rfl, rfl, rfl, rfl, rfl, h8, h9, h⟩
        simp only [Bool.false_eq_true, and_false, or_false] at h8 h9 h
        subst h
        cases k <;> cases he : e.nameOk <;> cases hc : e.createRaises <;> simp [Sim, RAct, Action.connect, he, hc] <;> exact ⟨h8, h9⟩
      · rintro ⟨a, b, c, d, f, g, i, j, k, l⟩ ⟨a', b', c', d', f', g', i', j', k', l'⟩ ⟨rfl, rfl, rfl, rfl, rfl, rfl, rfl, h8, h9, h⟩
        simp only [Bool.false_eq_true, and_false, or_false] at h8 h9 h
        subst h
        rcases a with _ | a
        · simp [Sim, RAct, Action.dispatch]
        · cases a with
          | idle => rcases g with _ | _ | g <;> cases k <;> simp [Sim, RAct, Action.dispatch, Action.sendGoal]
          | waitAccept =>
            have : b = b' := h8 rfl
            subst this
            cases b with
            | none => simp [Sim, RAct, Action.dispatch, Action.waitAccept]
            | some n => cases he : e.req n <;> simp [Sim, RAct, Action.dispatch, Action.waitAccept, he]
          | waitAction =>
            have : i = i' := h9 rfl
            subst this
            cases c <;> cases d <;> simp [Sim, RAct, Action.dispatch, Action.waitAction]
            rename_i n
            cases he : e.res n <;> simp
            split <;> simp
          | requestCancel => cases c <;> simp [Sim, RAct, Action.dispatch, Action.requestCancel]
          | waitCancel =>
            cases f with
            | none => simp [Sim, RAct, Action.dispatch, Action.waitCancel]
            | some n => rcases g with _ | _ | g <;> cases he : e.can n <;> simp [Sim, RAct, Action.dispatch, Action.waitCancel, he]
          | finished => rcases g with _ | _ | g <;> simp [Sim, RAct, Action.dispatch, Action.finished]

/-- C130, Action (ActionBase). Goals are numbered in the model only. -/
theorem c130_action {h h' : Action.Hist} {s s' : Step Unit Action.Env Empty} {o o' : Seen Action.Act} {l l' : Leaf Action.Mem Unit}
    (hr : Action.cls.Runs ((s, o) :: h) l) (hr' : Action.cls.Runs ((s', o') :: h') l') (hs : Starts s o) (hs' : Starts s' o')
    (hd : Action.timeout ((s, o) :: h) = Action.timeout ((s', o') :: h')) (hnum : l.mem.next = l'.mem.next)
    (steps : List (Step Unit Action.Env Empty)) (hn : Noticed steps) : answers Action.cls steps l = answers Action.cls steps l' := by
  have h1 := (Action.inv hr).up
  have h2 := (Action.inv hr').up
  obtain ⟨op, e, m, st, hop, hres, rfl⟩ := starts_inv _ hr hs
  obtain ⟨op', e', m', st', hop', hres', rfl⟩ := starts_inv _ hr' hs'
  rw [(h1 rfl).2, (h2 rfl).2] at hd
  have key : ∀ op e m st, (op = .setup ∨ op = .reset) → (Action.cls.hook op st (fun _ => true) e m).res = some (.ok .idle) →
      (Action.cls.hook op st (fun _ => true) e m).mem.st = some .idle ∧ (Action.cls.hook op st (fun _ => true) e m).mem.handle = none ∧
      (Action.cls.hook op st (fun _ => true) e m).mem.resultFut = none ∧ (Action.cls.hook op st (fun _ => true) e m).mem.cancelFut = none ∧
      (Action.cls.hook op st (fun _ => true) e m).mem.client = false := by
    intro op e m st hop
    obtain ⟨a, b, c, d, f, g, i, j, k, l⟩ := m
    rcases hop with rfl | rfl
    · change (Action.doSetup e _).res = _ → _
      cases he : e.hasRos <;> cases hs : e.seconds <;> cases ht : e.typeOk <;> simp [Action.cls, Action.hook, Action.doSetup, he, hs, ht]
    · change (Action.doReset _).res = _ → _
      rcases a with _ | a
      · simp [Action.doReset, Action.doUntick, HookOut.andThen]
      · cases a <;> cases c <;>
          simp [Action.cls, Action.hook, Action.doReset, Action.doUntick, Action.requestCancel, Action.forgetAll, HookOut.andThen]
  obtain ⟨a1, a2, a3, a4, a5⟩ := key op e m st hop hres
  obtain ⟨b1, b2, b3, b4, b5⟩ := key op' e' m' st' hop' hres'
  exact answers_along _ bisim_action steps hn _ _
    ⟨rfl, rfl, a1.trans b1.symm, a2.trans b2.symm, a3.trans b3.symm, a4.trans b4.symm, Option.some.inj hd, a5.trans b5.symm, hnum,
      (fun h => nomatch a1.symm.trans h), (fun h => nomatch a1.symm.trans h), .inr ⟨a1, rfl⟩⟩

/-! ### Examples -/

/-- A Wait that has waited and is reset, and a new one. -/
def waits : List (Step Unit Wait.Env Empty) := [.call .setup { seconds := some 5 } true true, .call .tick { now := 1, later := 2 } true true]

example : ∃ s s' o o' h h', Starts s o ∧ Starts s' o' ∧
    (Wait.cls.run (waits ++ [.call .reset {} true true])).1 = (s, o) :: h ∧ (Wait.cls.run (waits.take 1)).1 = (s', o') :: h' ∧
    Wait.duration ((s, o) :: h) = Wait.duration ((s', o') :: h') ∧
    answers Wait.cls [.call .tick { now := 6, later := 8 } true true] (Wait.cls.run (waits ++ [.call .reset {} true true])).2 = [(some (.ok .running), [])] ∧
    answers Wait.cls [.call .tick { now := 6, later := 8 } true true] (Wait.cls.run waits).2 = [(some (.ok .succeeded), [])] :=
  ⟨_, _, _, _, _, _, ⟨_, _, _, _, _, .inr rfl, rfl, rfl⟩, ⟨_, _, _, _, _, .inl rfl, rfl, rfl⟩, rfl, rfl, by decide, by decide, by decide⟩

/-- A publisher that has published and is reset, and a new one: both create a publisher and publish. -/
def published : List (Step Publisher.Group Publisher.Env Empty) := [.call .setup {} true true, .call .tick {} true true, .call .reset {} true true]

example : ∃ s s' o o' h h', Starts s o ∧ Starts s' o' ∧ (Publisher.cls.run published).1 = (s, o) :: h ∧
    (Publisher.cls.run (published.take 1)).1 = (s', o') :: h' ∧
    answers Publisher.cls [.call .tick {} true true] (Publisher.cls.run published).2 = [(some (.ok .succeeded), [.create, .publish 0])] :=
  ⟨_, _, _, _, _, _, ⟨_, _, _, _, _, .inr rfl, rfl, rfl⟩, ⟨_, _, _, _, _, .inl rfl, rfl, rfl⟩, rfl, rfl, by decide⟩

/-- A WaitForService whose time is nearly up and that is reset. -/
def sought : List (Step Unit WaitService.Env Empty) :=
  [.call .setup { seconds := some 5 } true true, .call .tick { now := 1, later := 5 } true true, .call .reset {} true true]

example : ∃ s s' o o' h h', Starts s o ∧ Starts s' o' ∧ (WaitService.cls.run sought).1 = (s, o) :: h ∧
    (WaitService.cls.run (sought.take 1)).1 = (s', o') :: h' ∧ WaitService.limit ((s, o) :: h) = WaitService.limit ((s', o') :: h') ∧
    answers WaitService.cls [.call .tick { now := 9, later := 10 } true true] (WaitService.cls.run sought).2 = [(some (.ok .running), [])] :=
  ⟨_, _, _, _, _, _, ⟨_, _, _, _, _, .inr rfl, rfl, rfl⟩, ⟨_, _, _, _, _, .inl rfl, rfl, rfl⟩, rfl, rfl, by decide, by decide⟩

/-- A Service node is reset while a request is under way, or shut down and set up again. -/
def asked (op : Op) : List (Step Unit Service.Env Empty) :=
  [.call .setup {} true true, .call .tick { request := some 7 } true true, .call .shutdown {} true true, .call .setup {} true true, .call op {} true true]

example : ∃ s s' o o' h h', Starts s o ∧ Starts s' o' ∧
    (Service.cls.run [.call .setup {} true true, .call .tick { request := some 7 } true true, .call .reset {} true true]).1 = (s, o) :: h ∧
    (Service.cls.run ((asked .tick).take 4)).1 = (s', o') :: h' ∧ Service.timeout ((s, o) :: h) = Service.timeout ((s', o') :: h') ∧
    (Service.cls.run [.call .setup {} true true, .call .tick { request := some 7 } true true, .call .reset {} true true]).2.mem.next =
      (Service.cls.run ((asked .tick).take 4)).2.mem.next ∧
    answers Service.cls [.call .tick { request := some 8 } true true, .call .tick { fut := fun _ => .done (some 3) } true true]
      (Service.cls.run ((asked .tick).take 4)).2 = [(some (.ok .running), [.create, .call 1 8 0]), (some (.ok .succeeded), [.respond 1 3])] :=
  ⟨_, _, _, _, _, _, ⟨_, _, _, _, _, .inr rfl, rfl, rfl⟩, ⟨_, _, _, _, _, .inl rfl, rfl, rfl⟩, rfl, rfl, by decide, by decide, by decide⟩

/-- A message arrives while a reset destroys the subscription. -/
def heard : List (Step Unit Subscriber.Env Nat) :=
  [.call .setup {} true true, .call .tick {} true true, .call .reset { late := some 4 } true true]

example : ∃ s s' o o' h h', Starts s o ∧ Starts s' o' ∧ (Subscriber.cls.run heard).1 = (s, o) :: h ∧
    (Subscriber.cls.run (heard.take 1)).1 = (s', o') :: h' ∧ (Subscriber.cls.run heard).2.mem.msg = some 4 ∧
    answers Subscriber.cls [.call .tick {} true true] (Subscriber.cls.run heard).2 = [(some (.ok .running), [.forget, .subscribe])] :=
  ⟨_, _, _, _, _, _, ⟨_, _, _, _, _, .inr rfl, rfl, rfl⟩, ⟨_, _, _, _, _, .inl rfl, rfl, rfl⟩, rfl, rfl, by decide, by decide⟩

/-- The same for a node that remembers messages. -/
def remembered : List (Step Unit MemorySubscriber.Env (Nat × Int)) :=
  [.call .setup { now := 3 } true true, .call .tick {} true true, .call .reset { late := some 4 } true true]

example : ∃ s s' o o' h h', Starts s o ∧ Starts s' o' ∧ (MemorySubscriber.cls.run remembered).1 = (s, o) :: h ∧
    (MemorySubscriber.cls.run (remembered.take 1)).1 = (s', o') :: h' ∧
    MemorySubscriber.delay ((s, o) :: h) = MemorySubscriber.delay ((s', o') :: h') ∧ (MemorySubscriber.cls.run remembered).2.mem.msg = some 4 ∧
    answers MemorySubscriber.cls [.call .tick {} true true, .event (9, 1), .call .tick { now := 2 } true true] (MemorySubscriber.cls.run remembered).2 =
      [(some (.ok .running), [.forget, .subscribe]), (none, []), (some (.ok .succeeded), [.output 9])] :=
  ⟨_, _, _, _, _, _, ⟨_, _, _, _, _, .inr rfl, rfl, rfl⟩, ⟨_, _, _, _, _, .inl rfl, rfl, rfl⟩, rfl, rfl, by decide, by decide, by decide⟩

/-- A goal is to be replaced by another one and is being cancelled. -/
def replaced : List (Step Unit Action.Env Empty) :=
  [.call .setup {} true true, .call .tick { goal := some 7 } true true, .call .tick { req := fun _ => .handle true } true true, .write () true,
   .call .tick { goal := some 8 } true true]

/-- A goal has been sent, and the node is shut down and set up. -/
def restarted : List (Step Unit Action.Env Empty) :=
  [.call .setup {} true true, .call .tick { goal := some 7 } true true, .call .shutdown {} true true, .call .setup {} true true]

/-- A goal has been sent, is accepted, and the node is reset. -/
def halted : List (Step Unit Action.Env Empty) :=
  [.call .setup {} true true, .call .tick { goal := some 7 } true true, .call .tick { req := fun _ => .handle true, now := 3 } true true, .call .reset {} true true]

example : ∃ s s' o o' h h', Starts s o ∧ Starts s' o' ∧ (Action.cls.run halted).1 = (s, o) :: h ∧ (Action.cls.run restarted).1 = (s', o') :: h' ∧
    Action.timeout ((s, o) :: h) = Action.timeout ((s', o') :: h') ∧ (Action.cls.run halted).2.mem.next = (Action.cls.run restarted).2.mem.next ∧
    answers Action.cls [.call .tick { goal := some 9 } true true] (Action.cls.run halted).2 = [(some (.ok .running), [.create, .send 1 9])] :=
  ⟨_, _, _, _, _, _, ⟨_, _, _, _, _, .inr rfl, rfl, rfl⟩, ⟨_, _, _, _, _, .inl rfl, rfl, rfl⟩, rfl, rfl, by decide, by decide, by decide⟩

/-- `Noticed` is needed: if the value of an input is delivered again after the reset, it is not new, and the node does not read its inputs. After a
reset an Action node then sends the goal that it had before, if it has not sent it yet. -/
theorem c130_unnoticed : ∃ past : List (Step Unit Action.Env Empty),
    Starts (Step.call (F := Unit) (V := Empty) .reset ({} : Action.Env) true true) (Action.cls.step (Action.cls.run past).2 (.call .reset {} true true)).2 ∧
    answers Action.cls [.write () false, .call .tick { goal := some 9 } true true] (Action.cls.run (past ++ [.call .reset {} true true])).2 =
      [(none, []), (some (.ok .running), [.create, .send 1 8])] ∧
    answers Action.cls [.write () false, .call .tick { goal := some 9 } true true] (Action.cls.run restarted).2 = [(none, []), (none, [.create])] :=
  ⟨replaced, ⟨_, _, _, _, .idle, .inr rfl, rfl, by decide⟩, by decide, by decide⟩

end Verif.Ros.Renew
