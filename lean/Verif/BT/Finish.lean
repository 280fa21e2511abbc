import Verif.BT.Rows
import Verif.BT.Broken
import Verif.BT.Switch

/-!
# C105: trees finish

How often in a row can a tree answer RUNNING? `bound` computes a number from the numbers that are
known about the leaves, the repeating decorators and the lists. The first part of this file is the
specification, the rest the proof for one node over children for which a number is known already.
-/

set_option autoImplicit false

namespace Verif.BT.Finish

open Verif.BT.Laws

variable {N : Type}

/-! ### Specification -/

/-- The answer to a tick says that the work is over: SUCCEEDED, FAILED or an error. -/
def Ends (r : Res) : Prop := r = .ok .succeeded ∨ r = .ok .failed ∨ r = .err

instance (r : Res) : Decidable (Ends r) := by unfold Ends; infer_instance

/-- A row of children that are all ticked again and again until all have passed: `b₁ + 1` times `b₂ + 1`
times ... ticks, the last of which is not RUNNING. -/
def rowBound : List Nat → Nat
  | [] => 0
  | b :: bs => rowBound bs * (b + 1) + b

/-- The largest of some numbers. -/
def most : List Nat → Nat
  | [] => 0
  | b :: bs => max b (most bs)

/-- The first of some numbers. -/
def first : List Nat → Nat
  | [] => 0
  | b :: _ => b

/-- How often in a row a node can answer RUNNING: `b` is the number known about the node itself
(see `Tame`), `bs` are those of its children. -/
def nodeBound (k : Kind) (b : Nat) (bs : List Nat) : Nat :=
  match k with
  | .leaf => b
  | .sequence | .fallback => rowBound bs
  | .memSequence | .memFallback => bs.sum
  | .parallel | .parallelTol | .nameSwitch | .enumSwitch => most bs
  | .retry | .repeat | .repeatNoAutoReset => b * (first bs + 1) + first bs
  | .iterateList => b * (first bs + 2) - 1
  | .ignoreRunning | .throttleSuccess => 0
  | _ => first bs

/-- What has to be known about the node itself, with a number `b`.
Leaf: among any `b + 1` calls in a row is one that is not answered RUNNING, and ASSIGNED and UNASSIGNED
are not used. Retry, Repeat: the option is at most `b`. IterateList: the list has at most `b` elements
and is not written while the node works; likewise the input `reset` of RepeatNoAutoReset and the
data observed by a Watch. ParallelFailureTolerance: the needed successes and the tolerated failures are together
not more than the children. Getters: there is a value. Switches: the selected name stays the same. UntilSuccess,
RepeatAlways, RepeatUntilFail and RepeatIfFail can answer RUNNING for ever. -/
def Tame (b len : Nat) (k : Kind) (env : Nat → Env) : Prop :=
  match k with
  | .leaf => (∀ i, ∃ j, i ≤ j ∧ j ≤ i + b ∧ (env j).hook ≠ .ok .running) ∧
      ∀ i, (env i).hook ≠ .ok .assigned ∧ (env i).hook ≠ .ok .unassigned
  | .retry | .repeat => ∀ i, (env i).num ≤ b
  | .repeatNoAutoReset => ∀ i, (env i).num ≤ b ∧ (env i).flag = false
  | .iterateList => ∀ i, (env i).listLen ≤ b ∧ (env i).flag = false
  | .watch => ∀ i, (env i).flag = false
  | .parallelTol => ∃ s f : Nat, s + f ≤ len ∧ ∀ i, (env i).num ≤ s ∧ (env i).num2 ≤ f
  | .getter => ∀ i, (env i).own ≠ .running
  | .nameSwitch | .enumSwitch => ∀ i j, (env i).key = (env j).key
  | .untilSuccess | .repeatAlways | .repeatUntilFail | .repeatIfFail => False
  | _ => True

/-- How often in a row a tree can answer RUNNING. `β` gives the number known about each node. -/
def bound (β : Nat → Nat) : (n : Nat) → Tree n → Nat
  | 0, t => Empty.elim t
  | n + 1, t =>
    let nd : Node (Tree n) := t
    nodeBound nd.kind (β nd.id) (nd.children.map (bound β n))

/-- Everything that has to be known is known, with the numbers `β`. -/
def TameTree (β : Nat → Nat) (n : Nat) (t : Tree n) : Prop :=
  AllNodes (fun nd => Tame (β nd.id) nd.children.length nd.kind nd.env) n t

/-- The answer to the tick after `k` further ticks. -/
def answer (o : Ops N) (k : Nat) (t : N) : Res := (o.run .tick (runs o (List.replicate k .tick) t).2).res

/-! ### Waiting -/

/-- At most `b` ticks in a row are answered RUNNING from here. -/
def Wait (o : Ops N) : Nat → N → Prop
  | 0, t => (o.run .tick t).res ≠ .ok .running
  | b + 1, t => (o.run .tick t).res = .ok .running → Wait o b (o.run .tick t).node

/-- The answer is RUNNING, SUCCEEDED, FAILED or an error. -/
def Plain (r : Res) : Prop := r = .ok .running ∨ Ends r

/-- Whatever has been done before, at most `b` ticks in a row are answered RUNNING. -/
def Prompt (o : Ops N) (b : Nat) (t : N) : Prop :=
  ∀ h, Plain (o.run .tick (runs o h t).2).res ∧ Wait o b (runs o h t).2

theorem wait_mono {o : Ops N} : ∀ {a b : Nat} {t : N}, a ≤ b → Wait o a t → Wait o b t := by
  intro a
  induction a with
  | zero =>
    intro b t _ h
    cases b with
    | zero => exact h
    | succ b => exact fun h' => absurd h' h
  | succ a ih =>
    intro b t hab h
    cases b with
    | zero => omega
    | succ b => exact fun h' => ih (by omega) (h h')

/-- A measure that goes down with every RUNNING bounds their number. -/
theorem wait_of {o : Ops N} (I : N → Nat → Prop)
    (hI : ∀ t n, I t n → (o.run .tick t).res = .ok .running → ∃ n', n' < n ∧ I (o.run .tick t).node n') :
    ∀ n t, I t n → Wait o n t := by
  intro n
  induction n using Nat.strongRecOn with
  | _ n ih =>
    intro t ht
    cases n with
    | zero =>
      intro h
      obtain ⟨n', h', _⟩ := hI t 0 ht h
      omega
    | succ n =>
      intro h
      obtain ⟨n', h', h2⟩ := hI t _ ht h
      exact wait_mono (by omega) (ih n' h' _ h2)

theorem wait_pred {o : Ops N} {b : Nat} {t : N} (h : Wait o b t) (hr : (o.run .tick t).res = .ok .running) :
    ∃ b', b = b' + 1 ∧ Wait o b' (o.run .tick t).node := by
  cases b with
  | zero => exact absurd hr h
  | succ b => exact ⟨b, rfl, h hr⟩

theorem prompt_now {o : Ops N} {b : Nat} {t : N} (h : Prompt o b t) : Plain (o.run .tick t).res ∧ Wait o b t := h []

theorem prompt_run {o : Ops N} {b : Nat} {t : N} (op : Op) (h : Prompt o b t) : Prompt o b (o.run op t).node :=
  fun l => h (op :: l)

theorem prompt_of {o : Ops N} {b : Nat} (J : N → Prop) (hJ : ∀ op t, J t → J (o.run op t).node)
    (h : ∀ t, J t → Plain (o.run .tick t).res ∧ Wait o b t) {t : N} (ht : J t) : Prompt o b t := by
  intro l
  induction l generalizing t with
  | nil => exact h t ht
  | cons op l ih => exact ih (hJ op t ht)

/-- A bound on the waiting means that there is an answer that ends. -/
theorem prompt_ends {o : Ops N} : ∀ {b : Nat} {t : N}, (∀ h, Plain (o.run .tick (runs o h t).2).res) → Wait o b t → ∃ k, k ≤ b ∧ Ends (answer o k t) := by
  intro b
  induction b with
  | zero =>
    intro t hp hw
    refine ⟨0, Nat.le_refl _, ?_⟩
    rcases hp [] with h | h
    · exact absurd h hw
    · exact h
  | succ b ih =>
    intro t hp hw
    by_cases hr : (o.run .tick t).res = .ok .running
    · obtain ⟨k, hk, he⟩ := ih (t := (o.run .tick t).node) (fun h => hp (.tick :: h)) (hw hr)
      exact ⟨k + 1, by omega, he⟩
    · refine ⟨0, by omega, ?_⟩
      rcases hp [] with h | h
      · exact absurd h hr
      · exact h

/-! ### Hooks and children with known numbers -/

/-- The children with their numbers. -/
abbrev Known (o : Ops N) (cs : List N) (bs : List Nat) : Prop := Each (fun c b => Prompt o b c) cs bs

theorem exec_known (o : Ops N) (P : Mem → Res → Prop) (A : Op → BTState → Prop)
    (hA : ∀ op c b s, Prompt o b c → (o.run op c).res = .ok s → A op s) (p : Prog) : ∀ cs bs, Known o cs bs → p.Post A P →
    P (exec o p cs).mem (exec o p cs).res ∧ Known o (exec o p cs).children bs := by
  induction p with
  | done m r => intro cs bs h hp; exact ⟨hp, h⟩
  | call op i k ih =>
    intro cs bs h hp
    rcases h.get i with ⟨h1, h2⟩ | ⟨c, b, h1, h2, hc⟩
    · simp only [exec, h1]
      exact ih _ _ _ h (hp .err (by simp))
    · simp only [exec, h1]
      refine ih _ _ _ ?_ (hp _ (fun s hs => hA op c b s hc hs))
      have := h.set (prompt_run op hc) i
      have e : bs.set i b = bs := by
        apply List.ext_getElem?
        intro j
        rw [List.getElem?_set]
        split
        · rename_i hij
          subst hij
          obtain ⟨hlt, hget⟩ := List.getElem?_eq_some_iff.1 h2
          simp [hlt, hget]
        · rfl
      rwa [e] at this
  | peek i k ih =>
    intro cs bs h hp
    rcases h.get i with ⟨h1, h2⟩ | ⟨c, b, h1, h2, hc⟩
    · simp only [exec, h1]; exact ih _ _ _ h (hp _)
    · simp only [exec, h1]; exact ih _ _ _ h (hp _)

theorem post_true (A : Op → BTState → Prop) (P : Mem → Res → Prop) (h : ∀ m r, P m r) : ∀ p : Prog, p.Post A P := by
  intro p
  induction p with
  | done m r => exact h m r
  | call op i k ih => intro r _; exact ih r
  | peek i k ih => intro s; exact ih s

theorem exec_known' (o : Ops N) (p : Prog) (cs : List N) (bs : List Nat) (h : Known o cs bs) : Known o (exec o p cs).children bs :=
  (exec_known o (fun _ _ => True) (fun _ _ => True) (fun _ _ _ _ _ _ => trivial) p cs bs h (post_true _ _ (fun _ _ => trivial) p)).2

theorem close_known (o : Ops N) : ∀ cs bs, Known o cs bs → Known o (shutdownAll o cs).1 bs := by
  intro cs bs h
  induction h with
  | nil => exact .nil
  | cons h0 _ ih => exact .cons (prompt_run .shutdown h0) ih

theorem sweep_known (o : Ops N) (op : Op) : ∀ cs bs, Known o cs bs → Known o (sweep o op cs).1 bs := by
  intro cs bs h
  induction h with
  | nil => exact .nil
  | cons h0 ht ih =>
    simp only [sweep]
    split
    · exact .cons (prompt_run op h0) ht
    · exact .cons (prompt_run op h0) ih

/-! ### The attributes of a node -/

/-- What stays true of the attributes. -/
def MemOk (b : Nat) (k : Kind) (env : Nat → Env) (m : Mem) : Prop :=
  match k with
  | .retry | .repeat | .repeatNoAutoReset => 0 ≤ m.count ∧ m.limit ≤ b
  | .throttle => m.lastRes ≠ .ok .running ∧ m.lastRes ≠ .ok .assigned ∧ m.lastRes ≠ .ok .unassigned
  | .parallelTol => ∀ s f : Nat, (∀ i, (env i).num ≤ s ∧ (env i).num2 ≤ f) → m.needed ≤ s ∧ m.tolerate ≤ f
  | .nameSwitch | .enumSwitch => m.childMap = [] ∨ ∃ names, m.childMap = buildMap names
  | _ => True

/-- A tick does not end with ASSIGNED or UNASSIGNED. -/
def usual (op : Op) (s : BTState) : Prop := op = .tick → s ≠ .assigned ∧ s ≠ .unassigned

theorem usual_of {o : Ops N} (op : Op) (c : N) (b : Nat) (s : BTState) (h : Prompt o b c) (hr : (o.run op c).res = .ok s) : usual op s := by
  rintro rfl
  have := (prompt_now h).1
  rw [hr] at this
  rcases this with h | h | h | h <;> cases h <;> simp

/-- What a hook of a tame node leaves behind. -/
def Leaves (b : Nat) (k : Kind) (env : Nat → Env) (op : Op) (m : Mem) (r : Res) : Prop :=
  MemOk b k env m ∧ ∀ s, r = .ok s → usual op s

theorem leaves_err {b : Nat} {k : Kind} {env : Nat → Env} {op : Op} {m : Mem} (h : MemOk b k env m) : Leaves b k env op m .err := ⟨h, by simp⟩

theorem leaves_ok {b : Nat} {k : Kind} {env : Nat → Env} {op : Op} {m : Mem} {s : BTState} (h : MemOk b k env m) (hs : usual op s) : Leaves b k env op m (.ok s) :=
  ⟨h, fun s' e => by cases e; exact hs⟩

theorem leaves_ne {b : Nat} {k : Kind} {env : Nat → Env} {op : Op} (hop : op ≠ .tick) {m : Mem} (r : Res) (h : MemOk b k env m) : Leaves b k env op m r :=
  ⟨h, fun _ _ e => absurd e hop⟩

theorem usual_ne {op : Op} (hop : op ≠ .tick) (s : BTState) : usual op s := fun e => absurd e hop

/-- Hooks other than that of the tick keep the attributes as required. -/
theorem keeps_other (b : Nat) (len : Nat) (k : Kind) (env : Nat → Env) (ht : Tame b len k env) (op : Op) (hop : op ≠ .tick) (st : BTState) (m : Mem)
    (hm : MemOk b k env m) (i : Nat) (names : List Nat) : (hookProg k op st m (env i) names).Post usual (Leaves b k env op) := by
  have easy : (∀ m, MemOk b k env m) → (hookProg k op st m (env i) names).Post usual (Leaves b k env op) :=
    fun h => post_true _ _ (fun m r => leaves_ne hop r (h m)) _
  cases k with
  | leaf | sequence | memSequence | fallback | memFallback | parallel | ignoreFailure | ignoreRunning | ignoreSuccess | untilSuccess
  | inverter | repeatAlways | repeatUntilFail | repeatIfFail | optional | watch | iterateList | getter | throttleSuccess | subtree =>
    exact easy (fun _ => trivial)
  | retry | «repeat» | repeatNoAutoReset =>
    have hn : (env i).num ≤ b := by first | exact ht i | exact (ht i).1
    cases op with
    | tick => exact absurd rfl hop
    | setup =>
      simp only [hookProg, setupHook]
      split
      · have : MemOk b .retry env { m with count := 0, limit := (env i).num } := ⟨Int.le_refl _, hn⟩
        exact post_onHead _ _ _ _ _ (leaves_ne hop _ this) (leaves_ne hop _ this) (fun s _ => leaves_ne hop _ this)
      · exact leaves_ne hop _ ⟨Int.le_refl _, hm.2⟩
    | untick => exact post_allThen _ _ _ _ (leaves_ne hop _ hm) (leaves_ne hop _ hm)
    | reset =>
      simp only [hookProg, resetHook]
      first
      | exact post_onHead _ _ _ _ _ (leaves_ne hop _ ⟨Int.le_refl _, hm.2⟩) (leaves_ne hop _ ⟨Int.le_refl _, hm.2⟩) (fun s _ => leaves_ne hop _ ⟨Int.le_refl _, hm.2⟩)
      | (split
         · exact post_onHead _ _ _ _ _ (leaves_ne hop _ hm) (leaves_ne hop _ hm) (fun s _ => leaves_ne hop _ hm)
         · exact leaves_ne hop _ hm)
    | shutdown => exact leaves_ne hop _ hm
  | throttle =>
    cases op with
    | tick => exact absurd rfl hop
    | setup =>
      simp only [hookProg, setupHook]
      split
      · have : MemOk b .throttle env { m with lastTick := none, lastRes := .ok .failed, limit := (env i).num } := by simp [MemOk]
        exact post_onHead _ _ _ _ _ (leaves_ne hop _ this) (leaves_ne hop _ this) (fun s _ => leaves_ne hop _ this)
      · exact leaves_ne hop _ hm
    | untick => exact post_onHead _ _ _ _ _ (leaves_ne hop _ hm) (leaves_ne hop _ hm) (fun s _ => leaves_ne hop _ hm)
    | reset => exact post_onHead _ _ _ _ _ (leaves_ne hop _ hm) (leaves_ne hop _ hm) (fun s _ => leaves_ne hop _ hm)
    | shutdown => exact leaves_ne hop _ hm
  | parallelTol =>
    cases op with
    | tick => exact absurd rfl hop
    | setup =>
      simp only [hookProg, setupHook]
      split
      · split
        · refine leaves_ne hop _ ?_
          intro s f h
          exact ⟨(h i).1, (hm s f h).2⟩
        · have : MemOk b .parallelTol env { m with needed := (env i).num, tolerate := (env i).num2 } := fun s f h => h i
          exact post_allThen _ _ _ _ (leaves_ne hop _ this) (leaves_ne hop _ this)
      · exact leaves_ne hop _ hm
    | untick => exact post_allThen _ _ _ _ (leaves_ne hop _ hm) (leaves_ne hop _ hm)
    | reset => exact post_allThen _ _ _ _ (leaves_ne hop _ hm) (leaves_ne hop _ hm)
    | shutdown => exact leaves_ne hop _ hm
  | nameSwitch | enumSwitch =>
    cases op with
    | tick => exact absurd rfl hop
    | setup =>
      have : MemOk b .nameSwitch env { m with childMap := buildMap names } := Or.inr ⟨names, rfl⟩
      exact post_allThen _ _ _ _ (leaves_ne hop _ this) (leaves_ne hop _ this)
    | untick => exact post_allThen _ _ _ _ (leaves_ne hop _ hm) (leaves_ne hop _ hm)
    | reset => exact post_allThen _ _ _ _ (leaves_ne hop _ hm) (leaves_ne hop _ hm)
    | shutdown => exact leaves_ne hop _ hm

/-- RepeatNoAutoReset while its input `reset` is not set: `decorators.py:411-437`. -/
theorem noReset_prog (st : BTState) (m : Mem) (e : Env) (names : List Nat) (h : e.flag = false) : hookProg .repeatNoAutoReset .tick st m e names =
    if e.cfgOk then if m.count < m.limit then (if names.length = 0 then .done m (.ok .succeeded) else
      .call .tick 0 fun
        | .err => .done m .err
        | .ok s => if s = .succeeded then .call .reset 0 fun r => .done { m with count := m.count + 1 } (r.map fun _ => .running) else .done m (.ok s))
      else .done m (.ok .succeeded) else .done m .err := by
  simp only [hookProg, tickHook, h, Bool.false_eq_true, if_false]
  by_cases h1 : m.count < m.limit
  · simp only [h1, if_true]
    split <;> first | rfl | (split <;> rfl)
  · simp only [h1, if_false]

/-- The hook of the tick keeps the attributes as required and does not answer ASSIGNED or UNASSIGNED. -/
theorem keeps_tick (b : Nat) (len : Nat) (k : Kind) (env : Nat → Env) (ht : Tame b len k env) (st : BTState) (m : Mem)
    (hm : MemOk b k env m) (i : Nat) (names : List Nat) : (hookProg k .tick st m (env i) names).Post usual (Leaves b k env .tick) := by
  have us : usual .tick .succeeded := fun _ => by simp
  have uf : usual .tick .failed := fun _ => by simp
  have ur : usual .tick .running := fun _ => by simp
  have he : Leaves b k env .tick m .err := leaves_err hm
  have hs := leaves_ok hm us
  have hf := leaves_ok hm uf
  have hr := leaves_ok hm ur
  have ho : ∀ s, usual .tick s → Leaves b k env .tick m (.ok s) := fun s h => leaves_ok hm h
  cases k with
  | leaf =>
    refine ⟨trivial, fun s h _ => ?_⟩
    have := ht.2 i
    constructor
    · rintro rfl; exact this.1 h
    · rintro rfl; exact this.2 h
  | sequence =>
    simp only [hookProg, tickHook]
    split
    · exact hs
    · exact post_resetIfFinished _ _ _ _ he (post_seqLoop _ _ _ he hs (fun _ => hr) ho)
  | fallback =>
    simp only [hookProg, tickHook]
    split
    · exact hf
    · exact post_resetIfFinished _ _ _ _ he (post_fbLoop _ _ _ he hf hs (fun _ => hr))
  | memSequence =>
    have tm : ∀ m, MemOk b .memSequence env m := fun _ => trivial
    simp only [hookProg, tickHook]
    split
    · exact hs
    · exact post_resetIfFinished _ _ _ _ (leaves_err (tm _)) (post_seqLoop _ _ _ (leaves_err (tm _)) (leaves_ok (tm _) us) (fun _ => leaves_ok (tm _) ur) (fun _ h => leaves_ok (tm _) h))
  | memFallback =>
    have tm : ∀ m, MemOk b .memFallback env m := fun _ => trivial
    simp only [hookProg, tickHook]
    split
    · exact hf
    · exact post_resetIfFinished _ _ _ _ (leaves_err (tm _)) (post_fbLoop _ _ _ (leaves_err (tm _)) (leaves_ok (tm _) uf) (leaves_ok (tm _) us) (fun _ => leaves_ok (tm _) ur))
  | nameSwitch | enumSwitch =>
    simp only [hookProg, tickHook]
    split
    · split
      · exact hf
      · split
        · exact hf
        · exact post_resetIfFinished _ _ _ _ he (post_untickOthers _ _ _ _ he (post_call_done _ _ _ he ho))
    · exact he
  | parallel | parallelTol =>
    simp only [hookProg, tickHook]
    refine post_resetIfFinished _ _ _ _ he (post_parLoop _ _ _ he ?_ _)
    intro a b
    split
    · exact post_parFinish _ _ _ he hs
    · split
      · exact post_parFinish _ _ _ he hf
      · exact hr
  | ignoreFailure | ignoreRunning | ignoreSuccess | inverter =>
    simp only [hookProg, tickHook]
    refine post_onHead _ _ _ _ _ he (ho _ (by first | exact us | exact uf)) (fun s hs => ho _ ?_)
    (repeat' split) <;> first | exact us | exact uf | exact hs
  | untilSuccess | repeatAlways | repeatUntilFail | repeatIfFail => exact ht.elim
  | retry | «repeat» =>
    have hc : ∀ c : Int, 0 ≤ c → MemOk b .retry env { m with count := c } := fun c h => ⟨h, hm.2⟩
    have h0 : 0 ≤ m.count := hm.1
    simp only [hookProg, tickHook]
    split
    · exact hs
    · intro r hA
      cases r with
      | err => exact he
      | ok s =>
        simp only
        split
        · split
          · intro r' _
            cases r' with
            | err => exact leaves_err (hc _ (by omega))
            | ok _ => exact leaves_ok (hc _ (by omega)) ur
          · first | exact leaves_ok (hc _ (by omega)) uf | exact hs
        · exact ho s (hA s rfl)
  | repeatNoAutoReset =>
    have h0 : 0 ≤ m.count := hm.1
    have hfl : (env i).flag = false := (ht i).2
    rw [noReset_prog _ _ _ _ hfl]
    split
    · split
      · split
        · exact hs
        · intro r hA
          cases r with
          | err => exact he
          | ok s =>
            simp only
            split
            · intro r' _
              have : MemOk b .repeatNoAutoReset env { m with count := m.count + 1 } := ⟨by show 0 ≤ m.count + 1; omega, hm.2⟩
              cases r' with
              | err => exact leaves_err this
              | ok _ => exact leaves_ok this ur
            · exact ho s (hA s rfl)
      · exact hs
    · exact he
  | optional =>
    simp only [hookProg, tickHook]
    split
    · exact post_call_done _ _ _ he ho
    · exact hs
  | watch =>
    simp only [hookProg, tickHook]
    split
    · exact hs
    · split
      · split
        · intro r _
          cases r with
          | err => exact he
          | ok _ => exact post_call_done _ _ _ he ho
        · exact post_call_done _ _ _ he ho
      · exact he
  | iterateList =>
    have tm : ∀ m, MemOk b .iterateList env m := fun _ => trivial
    simp only [hookProg, tickHook, (ht i).2, Bool.false_eq_true, if_false]
    split
    · unfold iterateTick
      split
      · exact leaves_ok (tm _) us
      · split
        · exact leaves_err (tm _)
        · split
          · split
            · dsimp only
              split
              · exact leaves_ok (tm _) us
              · exact leaves_ok (tm _) ur
            · dsimp only
              split
              · exact leaves_ok (tm _) ur
              · intro r _
                cases r with
                | err => exact leaves_err (tm _)
                | ok s =>
                  simp only
                  split
                  · split
                    · exact leaves_ok (tm _) us
                    · exact leaves_ok (tm _) ur
                  · split
                    · exact leaves_ok (tm _) uf
                    · exact leaves_ok (tm _) ur
          · exact leaves_err (tm _)
    · exact he
  | getter =>
    have hw : Leaves b .getter env .tick m (env i).own.toRes := by
      cases h : (env i).own
      · exact he
      · exact hf
      · exact hs
      · exact hr
    simp only [hookProg, tickHook]
    split
    · exact hw
    · intro r hA
      cases r with
      | err => exact he
      | ok s =>
        simp only
        split
        · exact ho s (hA s rfl)
        · exact hw
  | throttle =>
    have hl : Leaves b .throttle env .tick m m.lastRes := by
      refine ⟨hm, fun s h _ => ⟨?_, ?_⟩⟩
      · rintro rfl; exact hm.2.1 h
      · rintro rfl; exact hm.2.2 h
    simp only [hookProg, tickHook]
    split
    · split
      · exact hl
      · intro r hA
        dsimp only
        split
        · rename_i h; subst h; exact hr
        · rename_i hne
          intro r' _
          have hm' : MemOk b .throttle env { m with lastRes := r, lastTick := some (env i).now } := by
            refine ⟨hne, ?_, ?_⟩
            · rintro (rfl : r = _); exact (hA _ rfl rfl).1 rfl
            · rintro (rfl : r = _); exact (hA _ rfl rfl).2 rfl
          dsimp only
          split
          · exact leaves_err hm'
          · exact ⟨hm', fun s h => hA s h⟩
    · exact hl
  | throttleSuccess =>
    simp only [hookProg, tickHook]
    split
    · split
      · exact hf
      · intro r _; exact hf
    · exact hf
  | subtree =>
    simp only [hookProg, tickHook]
    split
    · split
      · exact post_call_done _ _ _ he ho
      · exact he
    · exact he

theorem keeps (b : Nat) (len : Nat) (k : Kind) (env : Nat → Env) (ht : Tame b len k env) (op : Op) (st : BTState) (m : Mem)
    (hm : MemOk b k env m) (i : Nat) (names : List Nat) : (hookProg k op st m (env i) names).Post usual (Leaves b k env op) := by
  by_cases h : op = .tick
  · subst h; exact keeps_tick b len k env ht st m hm i names
  · exact keeps_other b len k env ht op h st m hm i names

/-! ### What is known about a node stays known -/

/-- All that is known about a node and its children. -/
structure Fit (o : Ops N) (b : Nat) (k : Kind) (env : Nat → Env) (bs : List Nat) (nd : Node N) : Prop where
  kind : nd.kind = k
  envs : nd.env = env
  mem : MemOk b k env nd.mem
  known : Known o nd.children bs

theorem fit_run (o : Ops N) {b : Nat} {k : Kind} {env : Nat → Env} {bs : List Nat} (ht : Tame b bs.length k env) (op : Op) (nd : Node N)
    (h : Fit o b k env bs nd) : Fit o b k env bs (nd.run o op).node := by
  obtain ⟨rfl, rfl, hm, hk⟩ := h
  have hx := exec_known o (Leaves b nd.kind nd.env op) usual usual_of (hookProg nd.kind op nd.state nd.mem (nd.env nd.ctr) (nd.children.map o.name))
    nd.children bs hk (keeps b bs.length nd.kind nd.env ht op nd.state nd.mem hm nd.ctr _)
  have fin : ∀ nd' : Node N, nd'.kind = nd.kind → nd'.env = nd.env → MemOk b nd.kind nd.env nd'.mem → Known o nd'.children bs →
      ∀ l t, Fit o b nd.kind nd.env bs (Node.finishShutdown o nd' l t).node := by
    intro nd' h1 h2 h3 h4 l t
    unfold Node.finishShutdown
    split
    · exact ⟨h1, h2, h3, close_known o _ _ h4⟩
    · exact ⟨h1, h2, h3, h4⟩
  apply run_cases o op nd (P := fun out => Fit o b nd.kind nd.env bs out.node)
  · intro _; exact ⟨rfl, rfl, hm, hk⟩
  · intro _ _ _; exact ⟨rfl, rfl, hm, hk⟩
  · rintro x rfl _ _ _; exact ⟨rfl, rfl, hx.1.1, hx.2⟩
  · rintro x s rfl _ _ _ _; exact ⟨rfl, rfl, hx.1.1, hx.2⟩
  · rintro x s _ rfl _ _ _ _; exact ⟨rfl, rfl, hx.1.1, hx.2⟩
  · intro _ _; exact fin { nd with ctr := nd.ctr + 1 } rfl rfl hm hk _ _
  · rintro x _ rfl _ _; exact fin { nd with ctr := nd.ctr + 1, mem := _, children := _, state := .shutdown } rfl rfl hx.1.1 hx.2 _ _

theorem fit_plain (o : Ops N) {b : Nat} {k : Kind} {env : Nat → Env} {bs : List Nat} (ht : Tame b bs.length k env) (nd : Node N)
    (h : Fit o b k env bs nd) : Plain (nd.run o .tick).res := by
  obtain ⟨rfl, rfl, hm, hk⟩ := h
  cases hr : (nd.run o .tick).res with
  | err => exact Or.inr (Or.inr (Or.inr rfl))
  | ok s =>
    obtain ⟨x, rfl, hx, _, _, _⟩ := run_ok o .tick (by simp) nd s hr
    have h1 := (exec_known o (Leaves b nd.kind nd.env .tick) usual usual_of _ nd.children bs hk (keeps b bs.length nd.kind nd.env ht .tick nd.state nd.mem hm nd.ctr (nd.children.map o.name))).1.2 s hx rfl
    have h2 := (node_sound o .tick nd s hr).2
    cases s <;> simp_all [Plain, Ends, allowedAfter]

end Verif.BT.Finish
