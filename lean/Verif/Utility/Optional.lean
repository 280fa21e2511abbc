import Verif.Utility.Model
import Verif.Ros.Service
import Verif.Ros.Action

/-! C116: `Optional` runs its child if the child can be executed. `Optional._do_setup` (decorators.py 610-621) asks the child for its utility
before the child is set up. -/

set_option autoImplicit false

namespace Verif.Utility.Opt

open Verif.BT (BTState Op)
open Verif.Ros (Leaf Class HookOut)

/-! ### The model -/

/-- A Python value that says which message type is meant: a string such as `std_msgs/msg/Bool` (what rclpy reports about a publisher) or the message
class (the value of an input `RosTopicType`, data_types.py 1451-1467). Values of the two kinds are never equal. -/
inductive Ty
  | str (name : String) | cls (name : String)
  deriving DecidableEq, Repr

/-- topic.py 212-214: a quality of service. -/
structure Qos where
  reliable : Bool := true
  transientLocal : Bool := false
  depth : Nat := 1
  deriving DecidableEq, Repr

/-- A tree as `calculate_utility` sees it. `leaf`: every leaf without a utility of its own; `service` and `action` with their attributes and whether
the server is ready; `topic`: whether the inputs have values, what is wanted, and the publishers (topic.py 186-245, 389-448); `param`: whether the
parameter is there; `flow`: flow control nodes without a utility of their own (enum_switch.py 55); `parallel` with `_needed_successes` (`none`: the
attribute does not exist, parallel.py 72-77); `decorator`: all decorators but Optional; `subtree` with the nodes that have no parent. -/
inductive U
  | leaf
  | service (hasRos : Bool) (m : Ros.Service.Mem) (ready : Bool)
  | action (hasRos : Bool) (m : Ros.Action.Mem) (ready : Bool)
  | topic (hasRos readable : Bool) (type : Ty) (qos : Qos) (publishers : List (Ty × Qos))
  | param (present : Bool)
  | sequence (cs : List U)
  | fallback (cs : List U)
  | parallel (need : Option Nat) (cs : List U)
  | flow (cs : List U)
  | decorator (cs : List U)
  | optional (cs : List U)
  | subtree (roots : List U)

/-- An answer; `none`: an exception. -/
abbrev Ans := Option Res

/-- service.py 239-261 -/
def serviceU (hasRos : Bool) (m : Ros.Service.Mem) (ready : Bool) : Ans :=
  if hasRos && m.client && ready then some (.ok free) else some (.ok {})

/-- action.py 413-428 -/
def actionU (hasRos : Bool) (m : Ros.Action.Mem) (ready : Bool) : Ans :=
  if hasRos && m.client && ready then some (.ok free) else some (.ok {})

/-- topic.py 186-245 and, word for word the same, 389-448. The constructor call in 237-243 has the keyword `has_lower_bound_failre`, which
`UtilityBounds` does not have, and raises. -/
def topicU (hasRos readable : Bool) (type : Ty) (qos : Qos) (publishers : List (Ty × Qos)) : Ans :=
  if !hasRos then some (.ok {})
  else if !readable then some (.error ())
  else if publishers.any (fun p => p.1 = type && p.2 = qos) then none
  else some (.ok {})

/-- The children are asked one after the other until one of them answers what ends the loop. Does one of them raise an exception? -/
def raises (ends : Res → Bool) : List Ans → Bool
  | [] => false
  | none :: _ => true
  | some r :: rs => if ends r then false else raises ends rs

/-- sequence.py 298-299, fallback.py 383-389: an error or an estimate without `can_execute`. -/
def hopeless : Res → Bool
  | .ok b => !b.can
  | .error _ => true

/-- decorators.py 646-652: an error or an estimate with `can_execute`. -/
def settled : Res → Bool
  | .ok b => b.can
  | .error _ => true

/-- The answers that were given; the value for an exception is not used. -/
def given (as : List Ans) : List Res := as.map (·.getD (.error ()))

mutual

/-- node.py 730-769, sequence.py 140, 262, fallback.py 108, 208, 325, parallel.py 163-269, 397-502, node.py 1327-1339, decorators.py 644-659,
param.py 99-100, subtree.py 269-283. A Parallel asks all children (parallel.py 186). -/
def utility : U → Ans
  | .leaf => some (.ok free)
  | .service r m w => serviceU r m w
  | .action r m w => actionU r m w
  | .topic r i t q ps => topicU r i t q ps
  | .param _ => some (.ok {})
  | .sequence cs => if raises hopeless (utilities cs) then none else some (calcSequence (given (utilities cs)))
  | .fallback cs => if raises hopeless (utilities cs) then none else some (calcFallback (given (utilities cs)))
  | .parallel none _ => none
  | .parallel (some n) cs =>
    if n ≤ cs.length && raises (fun _ => false) (utilities cs) then none else some (calcParallel n (given (utilities cs)))
  | .flow _ => some (.ok free)
  | .decorator cs => match utilities cs with
    | [] => some (.ok free)
    | a :: _ => a
  | .optional cs => if raises settled (utilities cs) then none else some (calcOptional (given (utilities cs)))
  | .subtree roots => match utilities roots with
    | [a] => a
    | _ => some (.ok {})

/-- The answers of the children. -/
def utilities : List U → List Ans
  | [] => []
  | c :: cs => utility c :: utilities cs
end

/-- What `Optional._do_setup` does: it sets up its child (`take`), leaves it out, answers `Err`, or an exception passes through. -/
inductive Choice | take | leave | err | raise
  deriving DecidableEq, Repr

/-- decorators.py 610-621 (an Optional has at most one child). -/
def choose (c : U) : Choice :=
  match utility c with
  | none => .raise
  | some (.error _) => .err
  | some (.ok b) => if b.can then .take else .leave

/-! ### Specification -/

/-- The name of a type. -/
def Ty.name : Ty → String
  | .str s => s
  | .cls s => s

mutual

/-- All that the tree needs is there: servers are ready, topics have a publisher of the right type and quality of service, parameters exist. An
Optional needs nothing. -/
def Usable : U → Prop
  | .leaf => True
  | .service _ _ w => w = true
  | .action _ _ w => w = true
  | .topic _ _ t q ps => ∃ p ∈ ps, p.1.name = t.name ∧ p.2 = q
  | .param p => p = true
  | .sequence cs | .fallback cs | .parallel _ cs | .flow cs | .decorator cs => UsableL cs
  | .optional _ => True
  | .subtree roots => UsableL roots
def UsableL : List U → Prop
  | [] => True
  | c :: cs => Usable c ∧ UsableL cs
end

mutual

/-- All nodes of a tree. -/
def nodes : U → List U
  | .sequence cs => .sequence cs :: nodesL cs
  | .fallback cs => .fallback cs :: nodesL cs
  | .parallel n cs => .parallel n cs :: nodesL cs
  | .flow cs => .flow cs :: nodesL cs
  | .decorator cs => .decorator cs :: nodesL cs
  | .optional cs => .optional cs :: nodesL cs
  | .subtree cs => .subtree cs :: nodesL cs
  | u => [u]
def nodesL : List U → List U
  | [] => []
  | c :: cs => nodes c ++ nodesL cs
end

/-- The node is about to be set up, for the first time or again: it has had any history of calls, the last state is UNINITIALIZED or SHUTDOWN. For
topics: rclpy reports types as strings, the input holds a class, and it has a value. A Parallel has been set up before. Decorators have at most one
child, the tree in a Subtree has one root. -/
def Waiting : U → Prop
  | .service _ m _ => ∃ h l, Ros.Service.cls.Runs h l ∧ BT.accepts .setup l.state = true ∧ l.mem = m
  | .action _ m _ => ∃ h l, Ros.Action.cls.Runs h l ∧ BT.accepts .setup l.state = true ∧ l.mem = m
  | .topic _ i t _ ps => i = true ∧ (∃ s, t = .cls s) ∧ ∀ p ∈ ps, ∃ s, p.1 = .str s
  | .parallel n cs => ∃ k, n = some k ∧ k ≤ cs.length
  | .decorator cs => cs.length ≤ 1
  | .optional cs => cs.length ≤ 1
  | .subtree cs => cs.length = 1
  | _ => True

/-- A node that talks to ROS. -/
def Talks : U → Prop
  | .service _ _ _ | .action _ _ _ | .topic _ _ _ _ _ | .param _ => True
  | _ => False

/-- The nodes on whose execution a tree depends: not those below an Optional, nor those below flow control nodes without a utility. -/
inductive Part : U → U → Prop
  | refl (u : U) : Part u u
  | sequence {x c : U} {cs : List U} : c ∈ cs → Part x c → Part x (.sequence cs)
  | fallback {x c : U} {cs : List U} : c ∈ cs → Part x c → Part x (.fallback cs)
  | parallel {x c : U} {n : Option Nat} {cs : List U} : c ∈ cs → Part x c → Part x (.parallel n cs)
  | decorator {x c : U} {cs : List U} : c ∈ cs → Part x c → Part x (.decorator cs)
  | subtree {x c : U} {cs : List U} : c ∈ cs → Part x c → Part x (.subtree cs)

/-! ### Clients exist only between setup and shutdown -/

theorem service_andThen {x : HookOut Ros.Service.Mem Ros.Service.Act} {s : BTState}
    (h : (x.andThen fun m => ⟨m, some (.ok .shutdown), []⟩).res = some (.ok s)) :
    (∃ s', x.res = some (.ok s')) ∧ s = .shutdown ∧ (x.andThen fun m => ⟨m, some (.ok .shutdown), []⟩).mem = x.mem := by
  obtain ⟨h1, h2, h3, _⟩ := Ros.andThen_ok h
  cases h2
  exact ⟨h1, rfl, h3⟩

theorem service_reset_ok {e : Ros.Service.Env} {m : Ros.Service.Mem} {s : BTState} (h : (Ros.Service.doReset e m).res = some (.ok s)) :
    s = .idle ∧ (Ros.Service.doReset e m).mem.client = false := by
  unfold Ros.Service.doReset at h ⊢
  split
  · rename_i hc
    rw [if_pos hc] at h
    split
    · rename_i hd
      rw [if_pos hd] at h
      cases h
      exact ⟨rfl, rfl⟩
    · rename_i hd
      rw [if_neg hd] at h
      cases h
  · rename_i hc
    rw [if_neg hc] at h
    cases h
    exact ⟨rfl, by simpa [Ros.Service.doUntick] using hc⟩

/-- What the hooks of a service node leave behind. -/
theorem service_hook {op : Op} {st s : BTState} {u : Unit → Bool} {e : Ros.Service.Env} {m : Ros.Service.Mem}
    (hop : Class.entered op st = true) (h : (Ros.Service.hook op st u e m).res = some (.ok s)) :
    BT.accepts .setup s = true → (Ros.Service.hook op st u e m).mem.client = false := by
  intro hs
  cases op with
  | setup =>
    simp only [Ros.Service.hook, Ros.Service.doSetup] at h ⊢
    split
    · rfl
    · split <;> rfl
  | tick =>
    obtain ⟨-, h2, -, -⟩ := Ros.Service.tick_ok h
    have hst : BT.accepts .setup st = false := by
      cases st <;> simp_all [Class.entered, BT.accepts]
    rcases (Ros.Service.poll_states _ _ _ _ h2).2 with ⟨-, rfl, -⟩ | ⟨-, -, rfl, -⟩ | ⟨-, -, ⟨rfl, -⟩ | rfl | rfl⟩
    · cases hs
    · rw [hst] at hs
      cases hs
    · cases hs
    · cases hs
    · cases hs
  | untick =>
    simp only [Ros.Service.hook, Ros.Service.doUntick] at h
    cases h
    cases hs
  | reset =>
    obtain ⟨rfl, -⟩ := service_reset_ok h
    cases hs
  | shutdown =>
    obtain ⟨⟨s', h1⟩, -, h3⟩ := service_andThen h
    simp only [Ros.Service.hook]
    rw [h3]
    exact (service_reset_ok h1).2

/-- Hooks that raise are not run before the setup. -/
theorem service_raised {op : Op} {st : BTState} {u : Unit → Bool} {e : Ros.Service.Env} {m : Ros.Service.Mem}
    (hop : Class.entered op st = true) (h : (Ros.Service.hook op st u e m).res = none) : BT.accepts .setup st = false := by
  cases op with
  | setup =>
    simp only [Ros.Service.hook, Ros.Service.doSetup] at h
    split at h
    · cases h
    · split at h <;> cases h
  | tick => cases st <;> simp_all [Class.entered, BT.accepts]
  | untick => cases st <;> simp_all [Class.entered, BT.accepts]
  | reset => cases st <;> simp_all [Class.entered, BT.accepts]
  | shutdown =>
    exfalso
    simp only [Ros.Service.hook] at h
    rcases Ros.andThen_none h with ⟨h1, -⟩ | ⟨h1, -⟩
    · unfold Ros.Service.doReset at h1
      split at h1
      · split at h1 <;> cases h1
      · cases h1
    · cases h1

/-- A service node that can be set up has no client. -/
theorem service_client {h : Ros.Service.Hist} {l : Leaf Ros.Service.Mem Unit} (hr : Ros.Service.cls.Runs h l)
    (hs : BT.accepts .setup l.state = true) : l.mem.client = false := by
  have key : BT.accepts .setup l.state = true → l.mem.client = false := by
    refine Class.Runs.invariant (c := Ros.Service.cls) (fun _ l => BT.accepts .setup l.state = true → l.mem.client = false) (fun _ => rfl) ?_ hr
    intro h l s l' o _ ih hp
    cases hp with
    | write => exact ih
    | event v => exact v.elim
    | refused => exact ih
    | again => exact ih
    | unset => exact fun h => nomatch h
    | raised op e i p h1 h2 h3 => exact fun h => by rw [service_raised h1 h3] at h; cases h
    | failed => exact fun h => nomatch h
    | done op e i p s h1 h2 h3 h4 h5 => exact service_hook h1 h5
    | undelivered => exact fun h => nomatch h
    | odd op e i p s h1 h2 h3 h4 => exact service_hook h1 h4
  exact key hs

theorem action_untick_ok {m : Ros.Action.Mem} {s : BTState} (h : (Ros.Action.doUntick m).res = some (.ok s)) : s = .idle := by
  unfold Ros.Action.doUntick at h
  split at h
  · cases h
  · split at h
    · obtain ⟨-, h2, -⟩ := Ros.andThen_ok h
      cases h2
      rfl
    · cases h
      rfl

theorem action_reset_ok {m : Ros.Action.Mem} {s : BTState} (h : (Ros.Action.doReset m).res = some (.ok s)) :
    s = .idle ∧ (Ros.Action.doReset m).mem.client = false := by
  unfold Ros.Action.doReset at h ⊢
  obtain ⟨-, h2, h3, -⟩ := Ros.andThen_ok h
  cases h2
  rw [h3]
  exact ⟨rfl, rfl⟩

/-- What the hooks of an action node leave behind. -/
theorem action_hook {op : Op} {st s : BTState} {u : Unit → Bool} {e : Ros.Action.Env} {m : Ros.Action.Mem} {tr : List Ros.Action.Act}
    (hg : Ros.Action.Good tr m)
    (hop : Class.entered op st = true) (h : (Ros.Action.hook op st u e m).res = some (.ok s)) :
    BT.accepts .setup s = true → (Ros.Action.hook op st u e m).mem.client = false := by
  intro hs
  cases op with
  | setup =>
    exfalso
    simp only [Ros.Action.hook, Ros.Action.doSetup] at h
    split at h
    · split at h
      · cases h
      · split at h
        · cases h
          cases hs
        · cases h
    · cases h
  | tick =>
    have hst : BT.accepts .setup st = false := by
      cases st <;> simp_all [Class.entered, BT.accepts]
    simp only [Ros.Action.hook] at h
    rcases Ros.Action.tick_spec hg st (u ()) e with ⟨-, -, h3, h4⟩ | ⟨h1, -⟩
    · rw [h3] at h
      rcases (Ros.Action.dispatch_spec h4 st e).2.2.2.2.1 s h with rfl | rfl | rfl | ⟨rfl, -⟩
      · cases hs
      · cases hs
      · cases hs
      · rw [hst] at hs
        cases hs
    · exact absurd h (h1 s)
  | untick =>
    have := action_untick_ok h
    subst this
    cases hs
  | reset =>
    obtain ⟨rfl, -⟩ := action_reset_ok h
    cases hs
  | shutdown =>
    simp only [Ros.Action.hook] at h ⊢
    obtain ⟨⟨s', h1⟩, h2, h3, -⟩ := Ros.andThen_ok h
    rw [h3]
    exact (action_reset_ok h1).2

theorem action_raised {op : Op} {st : BTState} {u : Unit → Bool} {e : Ros.Action.Env} {m : Ros.Action.Mem}
    (hop : Class.entered op st = true) (hs : BT.accepts .setup st = true) (h : (Ros.Action.hook op st u e m).res = none) :
    (Ros.Action.hook op st u e m).mem.client = m.client := by
  cases op with
  | setup =>
    exfalso
    simp only [Ros.Action.hook, Ros.Action.doSetup] at h
    split at h
    · split at h
      · cases h
      · split at h <;> cases h
    · cases h
  | tick => cases st <;> simp_all [Class.entered, BT.accepts]
  | untick => cases st <;> simp_all [Class.entered, BT.accepts]
  | reset => cases st <;> simp_all [Class.entered, BT.accepts]
  | shutdown =>
    simp only [Ros.Action.hook] at h ⊢
    rcases Ros.andThen_none h with ⟨h1, h2⟩ | ⟨h1, -⟩
    · rw [h2]
      unfold Ros.Action.doReset at h1 ⊢
      rcases Ros.andThen_none h1 with ⟨h3, h4⟩ | ⟨h3, -⟩
      · rw [h4]
        unfold Ros.Action.doUntick at h3 ⊢
        split
        · rfl
        · rename_i a ha
          simp only [ha] at h3
          split at h3
          · rename_i hc
            exfalso
            rcases Ros.andThen_none h3 with ⟨h5, -⟩ | ⟨h5, -⟩
            · unfold Ros.Action.requestCancel at h5
              split at h5 <;> cases h5
            · cases h5
          · cases h3
      · cases h3
    · cases h1

/-- An action node that can be set up has no client. -/
theorem action_client {h : Ros.Action.Hist} {l : Leaf Ros.Action.Mem Unit} (hr : Ros.Action.cls.Runs h l)
    (hs : BT.accepts .setup l.state = true) : l.mem.client = false := by
  have key : BT.accepts .setup l.state = true → l.mem.client = false := by
    refine Class.Runs.invariant (c := Ros.Action.cls) (fun _ l => BT.accepts .setup l.state = true → l.mem.client = false) (fun _ => rfl) ?_ hr
    intro h l s l' o hrun ih hp
    have hg := (Ros.Action.inv hrun).good
    cases hp with
    | write => exact ih
    | event v => exact v.elim
    | refused => exact ih
    | again => exact ih
    | unset => exact fun h => nomatch h
    | raised op e i p h1 h2 h3 => exact fun h => (action_raised h1 h h3).trans (ih h)
    | failed => exact fun h => nomatch h
    | done op e i p s h1 h2 h3 h4 h5 => exact action_hook hg h1 h5
    | undelivered => exact fun h => nomatch h
    | odd op e i p s h1 h2 h3 h4 => exact action_hook hg h1 h4
  exact key hs

/-! ### `can_execute` of the composites -/

theorem seqLoop_can (bs : List Bounds) : ∀ (i : Nat) (b : Bounds) (fs : List Bounds),
    (match seqLoop i (bs.map .ok) b fs with
      | none => false
      | some r => r.1.can) = (bs.all (·.can) && b.can) ∧
    (bs.all (·.can) = true ↔ seqLoop i (bs.map .ok) b fs ≠ none) := by
  induction bs with
  | nil => intro i b fs; simp [seqLoop]
  | cons c bs ih =>
    intro i b fs
    simp only [List.map_cons, seqLoop]
    by_cases hc : c.can = true
    · simp only [hc, if_true, List.all_cons, Bool.true_and]
      have := ih (i + 1) (seqSum b c) (seqMarks i c fs)
      simpa [seqSum] using this
    · simp [hc]

theorem calcSequence_can (bs : List Bounds) : ∃ b, calcSequence (bs.map .ok) = .ok b ∧ b.can = bs.all (·.can) := by
  unfold calcSequence
  split
  · rename_i h
    have : bs = [] := by simpa using h
    subst this
    exact ⟨_, rfl, rfl⟩
  · have h1 := (seqLoop_can bs 0 free ((bs.map (Except.ok : Bounds → Res)).map fun _ => seqInit)).1
    split
    · rename_i hn
      rw [hn] at h1
      refine ⟨_, rfl, ?_⟩
      simpa [free] using h1
    · rename_i b fs hn
      rw [hn] at h1
      refine ⟨_, rfl, ?_⟩
      simpa [free] using h1

theorem fbLoop_can (bs : List Bounds) : ∀ (i : Nat) (b : Bounds) (fs : List Bounds),
    (bs.all (·.can) = false → fbLoop i (bs.map .ok) b fs = .inl (.ok {})) ∧
    (bs.all (·.can) = true → ∃ b' fs', fbLoop i (bs.map .ok) b fs = .inr (b', fs') ∧ b'.can = b.can) := by
  induction bs with
  | nil => intro i b fs; exact ⟨fun h => (nomatch h), fun _ => ⟨b, fs, rfl, rfl⟩⟩
  | cons c bs ih =>
    intro i b fs
    simp only [List.map_cons, fbLoop]
    by_cases hc : c.can = true
    · simp only [hc, if_true, List.all_cons, Bool.true_and]
      have := ih (i + 1) (fbSum b c) (fbMarks i c fs)
      simpa [fbSum] using this
    · simp [hc]

theorem calcFallback_can (bs : List Bounds) : ∃ b, calcFallback (bs.map .ok) = .ok b ∧ b.can = bs.all (·.can) := by
  unfold calcFallback
  split
  · rename_i h
    have : bs = [] := by simpa using h
    subst this
    exact ⟨_, rfl, rfl⟩
  · obtain ⟨h1, h2⟩ := fbLoop_can bs 0 free ((bs.map (Except.ok : Bounds → Res)).map fun _ => fbInit)
    cases hb : bs.all (·.can) with
    | false => rw [h1 hb]; exact ⟨_, rfl, rfl⟩
    | true =>
      obtain ⟨b', fs', h3, h4⟩ := h2 hb
      rw [h3]
      exact ⟨_, rfl, h4⟩

theorem allOk_map (bs : List Bounds) : allOk (bs.map .ok) = .ok bs := by
  induction bs with
  | nil => rfl
  | cons b bs ih =>
    simp only [List.map_cons, allOk, ih]
    rfl

theorem calcParallel_can (n : Nat) (bs : List Bounds) (h : n ≤ bs.length) :
    ∃ b, calcParallel n (bs.map .ok) = .ok b ∧ b.can = bs.all (·.can) := by
  unfold calcParallel
  rw [if_neg (by simpa using h), allOk_map]
  dsimp only
  split
  · rename_i hb
    exact ⟨_, rfl, by simp [hb]⟩
  · rename_i hb
    exact ⟨_, rfl, by simpa using hb⟩

theorem given_map (bs : List Bounds) : given (bs.map fun b => some (.ok b)) = bs.map .ok := by
  simp [given]

theorem raises_map (ends : Res → Bool) (bs : List Bounds) : raises ends (bs.map fun b => some (.ok b)) = false := by
  induction bs with
  | nil => rfl
  | cons b bs ih =>
    simp only [List.map_cons, raises]
    split
    · rfl
    · exact ih

theorem utilities_length (cs : List U) : (utilities cs).length = cs.length := by
  induction cs with
  | nil => rfl
  | cons c cs ih => simp [utilities, ih]

theorem mem_nodes_self (u : U) : u ∈ nodes u := by
  cases u <;> simp [nodes]

/-! ### What the utility says about a tree that waits for its setup -/

mutual

/-- No node on which the tree depends talks to ROS. -/
def local' : U → Bool
  | .leaf => true
  | .service _ _ _ | .action _ _ _ | .topic _ _ _ _ _ | .param _ => false
  | .sequence cs | .fallback cs | .parallel _ cs | .decorator cs | .subtree cs => localL cs
  | .flow _ | .optional _ => true
def localL : List U → Bool
  | [] => true
  | c :: cs => local' c && localL cs
end

theorem topic_never {r i : Bool} {t : Ty} {q : Qos} {ps : List (Ty × Qos)} (ht : ∃ s, t = .cls s) (hp : ∀ p ∈ ps, ∃ s, p.1 = Ty.str s) (hi : i = true) :
    topicU r i t q ps = some (.ok {}) := by
  obtain ⟨s, rfl⟩ := ht
  subst hi
  unfold topicU
  have : ps.any (fun p => p.1 = Ty.cls s && p.2 = q) = false := by
    rw [List.any_eq_false]
    intro p h
    obtain ⟨s', hs⟩ := hp p h
    simp [hs]
  rw [this]
  cases r <;> rfl

mutual

theorem utility_waiting : (u : U) → (∀ x ∈ nodes u, Waiting x) → ∃ b, utility u = some (.ok b) ∧ b.can = local' u
  | .leaf, _ => ⟨free, rfl, rfl⟩
  | .service r m w, h => by
    obtain ⟨hh, l, h1, h2, rfl⟩ := h _ (mem_nodes_self _)
    refine ⟨{}, ?_, rfl⟩
    simp [utility, serviceU, service_client h1 h2]
  | .action r m w, h => by
    obtain ⟨hh, l, h1, h2, rfl⟩ := h _ (mem_nodes_self _)
    refine ⟨{}, ?_, rfl⟩
    simp [utility, actionU, action_client h1 h2]
  | .topic r i t q ps, h => by
    obtain ⟨h1, h2, h3⟩ := h _ (mem_nodes_self _)
    exact ⟨{}, topic_never h2 h3 h1, rfl⟩
  | .param _, _ => ⟨{}, rfl, rfl⟩
  | .sequence cs, h => by
    obtain ⟨bs, h1, h2⟩ := utilities_waiting cs (fun x hx => h x (by simp [nodes, hx]))
    obtain ⟨b, h3, h4⟩ := calcSequence_can bs
    refine ⟨b, ?_, by rw [h4, h2]; rfl⟩
    simp [utility, h1, raises_map, given_map, h3]
  | .fallback cs, h => by
    obtain ⟨bs, h1, h2⟩ := utilities_waiting cs (fun x hx => h x (by simp [nodes, hx]))
    obtain ⟨b, h3, h4⟩ := calcFallback_can bs
    refine ⟨b, ?_, by rw [h4, h2]; rfl⟩
    simp [utility, h1, raises_map, given_map, h3]
  | .parallel n cs, h => by
    obtain ⟨k, rfl, hk⟩ := h _ (mem_nodes_self _)
    obtain ⟨bs, h1, h2⟩ := utilities_waiting cs (fun x hx => h x (by simp [nodes, hx]))
    have hl : bs.length = cs.length := by rw [← utilities_length, h1, List.length_map]
    obtain ⟨b, h3, h4⟩ := calcParallel_can k bs (by omega)
    refine ⟨b, ?_, by rw [h4, h2]; rfl⟩
    simp [utility, h1, raises_map, given_map, h3]
  | .flow _, _ => ⟨free, rfl, rfl⟩
  | .decorator cs, h => by
    have hlen : cs.length ≤ 1 := h _ (mem_nodes_self _)
    obtain ⟨bs, h1, h2⟩ := utilities_waiting cs (fun x hx => h x (by simp [nodes, hx]))
    have hl : bs.length = cs.length := by rw [← utilities_length, h1, List.length_map]
    rcases bs with _ | ⟨b, _ | ⟨b', bs⟩⟩
    · exact ⟨free, by simp [utility, h1], by simpa [local', free] using h2⟩
    · exact ⟨b, by simp [utility, h1], by simpa [local'] using h2⟩
    · simp only [List.length_cons] at hl
      omega
  | .optional cs, h => by
    have hlen : cs.length ≤ 1 := h _ (mem_nodes_self _)
    obtain ⟨bs, h1, h2⟩ := utilities_waiting cs (fun x hx => h x (by simp [nodes, hx]))
    have hl : bs.length = cs.length := by rw [← utilities_length, h1, List.length_map]
    rcases bs with _ | ⟨b, _ | ⟨b', bs⟩⟩
    · exact ⟨{ can := true }, by simp [utility, h1, raises, given, calcOptional], rfl⟩
    · cases hb : b.can with
      | true => exact ⟨b, by simp [utility, h1, raises, settled, given, calcOptional, hb], by rw [hb]; rfl⟩
      | false => exact ⟨{ can := true }, by simp [utility, h1, raises, settled, given, calcOptional, hb], rfl⟩
    · simp only [List.length_cons] at hl
      omega
  | .subtree cs, h => by
    have hlen : cs.length = 1 := h _ (mem_nodes_self _)
    obtain ⟨bs, h1, h2⟩ := utilities_waiting cs (fun x hx => h x (by simp [nodes, hx]))
    have hl : bs.length = cs.length := by rw [← utilities_length, h1, List.length_map]
    rcases bs with _ | ⟨b, _ | ⟨b', bs⟩⟩
    · simp at hl; omega
    · exact ⟨b, by simp [utility, h1], by simpa [local'] using h2⟩
    · simp only [List.length_cons] at hl
      omega

theorem utilities_waiting : (cs : List U) → (∀ x ∈ nodesL cs, Waiting x) →
    ∃ bs : List Bounds, utilities cs = bs.map (fun b => some (.ok b)) ∧ bs.all (·.can) = localL cs
  | [], _ => ⟨[], rfl, rfl⟩
  | c :: cs, h => by
    obtain ⟨b, h1, h2⟩ := utility_waiting c (fun x hx => h x (by simp [nodesL, hx]))
    obtain ⟨bs, h3, h4⟩ := utilities_waiting cs (fun x hx => h x (by simp [nodesL, hx]))
    exact ⟨b :: bs, by simp [utilities, h1, h3], by simp [localL, h2, h4]⟩

end

mutual

theorem local_part : (u : U) → local' u = true ↔ ∀ x, Part x u → ¬ Talks x
  | .leaf => ⟨fun _ x h => by cases h; exact id, fun _ => rfl⟩
  | .service r m w => ⟨(fun h => nomatch h), fun h => absurd trivial (h _ (.refl _))⟩
  | .action r m w => ⟨(fun h => nomatch h), fun h => absurd trivial (h _ (.refl _))⟩
  | .topic r i t q ps => ⟨(fun h => nomatch h), fun h => absurd trivial (h _ (.refl _))⟩
  | .param _ => ⟨(fun h => nomatch h), fun h => absurd trivial (h _ (.refl _))⟩
  | .sequence cs => by
    simp only [local']
    rw [localL_part cs]
    refine ⟨fun h x hx => ?_, fun h c hc x hx => h x (.sequence hc hx)⟩
    cases hx with
    | refl => exact id
    | sequence h1 h2 => exact h _ h1 x h2
  | .fallback cs => by
    simp only [local']
    rw [localL_part cs]
    refine ⟨fun h x hx => ?_, fun h c hc x hx => h x (.fallback hc hx)⟩
    cases hx with
    | refl => exact id
    | fallback h1 h2 => exact h _ h1 x h2
  | .parallel n cs => by
    simp only [local']
    rw [localL_part cs]
    refine ⟨fun h x hx => ?_, fun h c hc x hx => h x (.parallel hc hx)⟩
    cases hx with
    | refl => exact id
    | parallel h1 h2 => exact h _ h1 x h2
  | .decorator cs => by
    simp only [local']
    rw [localL_part cs]
    refine ⟨fun h x hx => ?_, fun h c hc x hx => h x (.decorator hc hx)⟩
    cases hx with
    | refl => exact id
    | decorator h1 h2 => exact h _ h1 x h2
  | .subtree cs => by
    simp only [local']
    rw [localL_part cs]
    refine ⟨fun h x hx => ?_, fun h c hc x hx => h x (.subtree hc hx)⟩
    cases hx with
    | refl => exact id
    | subtree h1 h2 => exact h _ h1 x h2
  | .flow _ => ⟨fun _ x h => by cases h; exact id, fun _ => rfl⟩
  | .optional _ => ⟨fun _ x h => by cases h; exact id, fun _ => rfl⟩

theorem localL_part : (cs : List U) → localL cs = true ↔ ∀ c ∈ cs, ∀ x, Part x c → ¬ Talks x
  | [] => ⟨(fun _ c h => nomatch h), fun _ => rfl⟩
  | c :: cs => by
    simp only [localL, Bool.and_eq_true, List.mem_cons, forall_eq_or_imp]
    rw [local_part c, localL_part cs]

end

mutual

theorem local_usable : (u : U) → (∀ cs, U.flow cs ∉ nodes u) → local' u = true → Usable u
  | .leaf, _, _ => trivial
  | .service _ _ _, _, h => nomatch h
  | .action _ _ _, _, h => nomatch h
  | .topic _ _ _ _ _, _, h => nomatch h
  | .param _, _, h => nomatch h
  | .sequence cs, hf, h => localL_usable cs (fun x hx => hf x (by simp [nodes, hx])) h
  | .fallback cs, hf, h => localL_usable cs (fun x hx => hf x (by simp [nodes, hx])) h
  | .parallel _ cs, hf, h => localL_usable cs (fun x hx => hf x (by simp [nodes, hx])) h
  | .decorator cs, hf, h => localL_usable cs (fun x hx => hf x (by simp [nodes, hx])) h
  | .subtree cs, hf, h => localL_usable cs (fun x hx => hf x (by simp [nodes, hx])) h
  | .flow cs, hf, _ => absurd (mem_nodes_self _) (hf cs)
  | .optional _, _, _ => trivial

theorem localL_usable : (cs : List U) → (∀ x, U.flow x ∉ nodesL cs) → localL cs = true → UsableL cs
  | [], _, _ => trivial
  | c :: cs, hf, h => by
    simp only [localL, Bool.and_eq_true] at h
    exact ⟨local_usable c (fun x hx => hf x (by simp [nodesL, hx])) h.1, localL_usable cs (fun x hx => hf x (by simp [nodesL, hx])) h.2⟩

end

/-! ### The theorems -/

/-- Which children an Optional takes: exactly those that depend on no node that talks to ROS, no matter what is there. -/
theorem c116_taken {c : U} (hw : ∀ x ∈ nodes c, Waiting x) :
    (choose c = .take ↔ ∀ x, Part x c → ¬ Talks x) ∧ (choose c = .take ∨ choose c = .leave) := by
  obtain ⟨b, h1, h2⟩ := utility_waiting c hw
  unfold choose
  rw [h1]
  dsimp only
  rw [← local_part c, ← h2]
  cases b.can <;> simp

/-- A child that cannot be executed is not taken. Left out: flow control nodes without a utility of their own. -/
theorem c116_unusable_partial {c : U} (hw : ∀ x ∈ nodes c, Waiting x) (hf : ∀ cs, U.flow cs ∉ nodes c) (hu : ¬ Usable c) : choose c = .leave := by
  obtain ⟨h1, h2 | h2⟩ := c116_taken hw
  · exact absurd (local_usable c hf ((local_part c).2 (h1.1 h2))) hu
  · exact h2

/-- A child that needs nothing from ROS is taken. -/
theorem c116_usable_partial {c : U} (hw : ∀ x ∈ nodes c, Waiting x) (hn : ∀ x ∈ nodes c, ¬ Talks x) : choose c = .take := by
  refine (c116_taken hw).1.2 fun x hx => hn x ?_
  clear hw hn
  have key : ∀ (cs : List U) (c y : U), c ∈ cs → y ∈ nodes c → y ∈ nodesL cs := by
    intro cs c y hc hy
    induction cs with
    | nil => cases hc
    | cons d cs ih =>
      simp only [nodesL, List.mem_append]
      rcases List.mem_cons.1 hc with rfl | h
      · exact .inl hy
      · exact .inr (ih h)
  induction hx with
  | refl => exact mem_nodes_self _
  | sequence h _ ih => exact List.mem_cons_of_mem _ (key _ _ _ h ih)
  | fallback h _ ih => exact List.mem_cons_of_mem _ (key _ _ _ h ih)
  | parallel h _ ih => exact List.mem_cons_of_mem _ (key _ _ _ h ih)
  | decorator h _ ih => exact List.mem_cons_of_mem _ (key _ _ _ h ih)
  | subtree h _ ih => exact List.mem_cons_of_mem _ (key _ _ _ h ih)

/-- A service node that has been used and shut down. -/
def usedService : List (Ros.Step Unit Ros.Service.Env Empty) :=
  [.call .setup {} true true, .call .tick {} true true, .call .tick { fut := fun _ => .done (some 3) } true true, .call .shutdown {} true true]

example : (Ros.Service.cls.run usedService).2.state = .shutdown := by decide +kernel

/-- The tree of the examples: a Sequence of a leaf without needs, an Optional over a parameter, and a retried Fallback. -/
def sampleTree : U := .sequence [.leaf, .optional [.param false], .decorator [.fallback [.leaf, .parallel (some 1) [.leaf, .leaf]]], .subtree [.leaf]]

example : choose sampleTree = .take := by decide +kernel

example : ∀ x ∈ nodes sampleTree, Waiting x := by
  intro x hx
  simp only [sampleTree, nodes, nodesL, List.append_nil, List.cons_append, List.nil_append, List.mem_cons, List.not_mem_nil, or_false] at hx
  rcases hx with rfl | rfl | rfl | rfl | rfl | rfl | rfl | rfl | rfl | rfl | rfl | rfl <;> simp [Waiting]

/-- The hypotheses of `c116_unusable_partial` and of `c116_usable_partial`. -/
example : (∀ x ∈ nodes (.sequence [.leaf, .decorator [.param false]]), Waiting x) ∧ (∀ cs, U.flow cs ∉ nodes (.sequence [.leaf, .decorator [.param false]])) ∧
    ¬ Usable (.sequence [.leaf, .decorator [.param false]]) ∧
    (∀ x ∈ nodes (.fallback [.leaf, .decorator [.leaf]]), Waiting x ∧ ¬ Talks x) := by
  simp [nodes, nodesL, Waiting, Usable, UsableL, Talks]

/-- A service that is ready, below an Optional: the node waits for its setup for the first time, or has been used before. -/
theorem c116_service : ∃ m₁ m₂, Usable (.service true m₁ true) ∧ (∀ x ∈ nodes (.service true m₁ true), Waiting x) ∧ choose (.service true m₁ true) = .leave ∧
    m₁ ≠ m₂ ∧ Usable (.service true m₂ true) ∧ (∀ x ∈ nodes (.service true m₂ true), Waiting x) ∧ choose (.service true m₂ true) = .leave := by
  refine ⟨{}, (Ros.Service.cls.run usedService).2.mem, rfl, ?_, by decide +kernel, by decide +kernel, rfl, ?_, by decide +kernel⟩
  · intro x hx
    cases List.mem_singleton.1 hx
    exact ⟨_, _, .new, rfl, rfl⟩
  · intro x hx
    cases List.mem_singleton.1 hx
    exact ⟨_, _, Ros.Service.cls.runs_run usedService, by decide +kernel, rfl⟩

/-- No service, action or topic node and no parameter is ever run by an Optional, although it could be. -/
theorem c116_never :
    (∀ r m, Waiting (.service r m true) → choose (.service r m true) = .leave) ∧
    (∀ r m, Waiting (.action r m true) → choose (.action r m true) = .leave) ∧
    (∀ r t q ps, choose (.topic r true t q ps) = .leave ∨ choose (.topic r true t q ps) = .raise) ∧
    choose (.param true) = .leave := by
  refine ⟨?_, ?_, ?_, rfl⟩
  · rintro r m ⟨h, l, h1, h2, rfl⟩
    simp [choose, utility, serviceU, service_client h1 h2]
  · rintro r m ⟨h, l, h1, h2, rfl⟩
    simp [choose, utility, actionU, action_client h1 h2]
  · intro r t q ps
    simp only [choose, utility, topicU]
    cases r
    · exact .inl rfl
    · by_cases hp : ps.any (fun p => p.1 = t && p.2 = q) = true
      · simp [hp]
      · simp [hp]

/-- A publisher with the right type and quality of service is there. -/
example : Usable (.topic true true (.cls "std_msgs/msg/Bool") {} [(.str "std_msgs/msg/Bool", {})]) ∧
    Waiting (.topic true true (.cls "std_msgs/msg/Bool") {} [(.str "std_msgs/msg/Bool", {})]) ∧
    choose (.topic true true (.cls "std_msgs/msg/Bool") {} [(.str "std_msgs/msg/Bool", {})]) = .leave :=
  ⟨⟨_, List.mem_singleton.2 rfl, rfl, rfl⟩, ⟨rfl, ⟨_, rfl⟩, fun p h => by cases List.mem_singleton.1 h; exact ⟨_, rfl⟩⟩, by decide +kernel⟩

/-- An Optional over a Parallel that has not been set up before raises an exception, whatever the children are. -/
theorem c116_parallel (cs : List U) : choose (.parallel none cs) = .raise ∧ choose (.decorator [.parallel none cs]) = .raise ∧
    ∀ ds, (∀ d ∈ ds, d = U.leaf) → choose (.sequence (ds ++ [.parallel none cs])) = .raise := by
  refine ⟨rfl, rfl, fun ds hd => ?_⟩
  have : raises hopeless (utilities (ds ++ [.parallel none cs])) = true := by
    induction ds with
    | nil => rfl
    | cons d ds ih =>
      cases hd d (by simp)
      simp only [List.cons_append, utilities, utility, raises, hopeless, free]
      exact ih fun d h => hd d (by simp [h])
  simp [choose, utility, this]

/-- An Optional over a flow control node without a utility is run, although what it needs is not there. -/
theorem c116_flow : ¬ Usable (.flow [.param false]) ∧ choose (.flow [.param false]) = .take ∧ choose (.param false) = .leave :=
  ⟨(fun h => nomatch h.1), rfl, rfl⟩

/-- An input that gets its value from another node has none during the setup; the setup fails instead of leaving out the child. -/
theorem c116_input (t : Ty) (q : Qos) (ps : List (Ty × Qos)) : choose (.topic true false t q ps) = .err := rfl

end Verif.Utility.Opt
