/-! C120: the lists that the tree node publishes: packages and message types (package_manager.py 79-98, 208-285, tree_node.py 198-268) and channels
(ros_helpers.py 95-110). -/

set_option autoImplicit false

namespace Verif.Files.Lists

/-! ### The model -/

/-- A package with the prefix of its installation, as `get_packages_with_prefixes` lists it. -/
structure Package where
  name : Nat
  path : List Char
  deriving DecidableEq

/-- `"/opt/ros"` -/
def optRos : List Char := ['/', 'o', 'p', 't', '/', 'r', 'o', 's']

/-- package_manager.py 251-270: the packages that `publish_packages_list` publishes. -/
def packagesList (ps : List Package) : List Package := ps.filter fun p => !optRos.isPrefixOf p.path

/-- What is known of a message class: `get_message` cannot import it; `RosMessageType` cannot inspect it; its fields are not known; or its fields. -/
inductive Class
  | missing
  | odd
  | bare
  | fields (l : List Nat)
  deriving DecidableEq

/-- The interfaces of a system: names with the message classes; names of services and actions. -/
structure System where
  messages : List (Nat × Class)
  services : List Nat
  actions : List Nat

/-- interfaces msg/MessageTypes.msg, MessageType.msg -/
structure MessageTypes where
  topics : List (Nat × List Nat)
  services : List Nat
  actions : List Nat
  deriving DecidableEq

/-- package_manager.py 79-98: `to_message_type`. -/
def toMessageType (name : Nat) : Class → Option (Nat × List Nat)
  | .fields l => some (name, l)
  | .bare => some (name, [])
  | _ => none

/-- package_manager.py 226-236: the topics; `none`: `get_message` raises an exception. -/
def topicList : List (Nat × Class) → Option (List (Nat × List Nat))
  | [] => some []
  | (n, c) :: l =>
    if c = .missing then none
    else (topicList l).map fun r => match toMessageType n c with | some t => t :: r | none => r

/-- package_manager.py 208-249: what `publish_message_list` publishes; `none`: it raises an exception. -/
def messageList (s : System) : Option MessageTypes := (topicList s.messages).map fun t => ⟨t, s.services, s.actions⟩

/-- A topic: the list that is kept (`self.message_types`, `self.packages`) and every listener with what it has received. -/
structure Topic (α : Type) where
  cached : Option α := none
  listeners : List (Nat × List α) := []

/-- package_manager.py 248-249, 269-270: a list is kept and published. -/
def Topic.publish {α : Type} (t : Topic α) (x : α) : Topic α := ⟨some x, t.listeners.map fun p => (p.1, p.2 ++ [x])⟩

/-- package_manager.py 274-285: a list that is kept is published again if somebody listens. -/
def Topic.republish {α : Type} (t : Topic α) : Topic α :=
  match t.cached with
  | none => t
  | some x => if t.listeners.length > 0 then t.publish x else t

/-- A listener leaves. -/
def Topic.go {α : Type} (t : Topic α) (i : Nat) : Topic α := { t with listeners := t.listeners.filter fun p => p.1 ≠ i }

/-- A listener comes. The topics keep the last message (tree_node.py 204-209, 215-220): who asks for it receives it at once, a volatile listener does not. -/
def Topic.come {α : Type} (t : Topic α) (i : Nat) (volatile : Bool) : Topic α :=
  { t with listeners := (i, if volatile then [] else t.cached.toList) :: (t.go i).listeners }

/-- The manager of packages within the system. -/
structure Mgr where
  system : System
  installed : List Package
  messages : Topic MessageTypes := {}
  packages : Topic (List Package) := {}

/-- tree_node.py 198-268: `init_package_manager`; `false`: an exception, which `main` (tree_node.py 501-527) does not catch. -/
def Mgr.init (m : Mgr) : Mgr × Bool :=
  let m := { m with packages := m.packages.publish (packagesList m.installed) }
  match messageList m.system with
  | none => (m, false)
  | some x => ({ m with messages := m.messages.publish x }, true)

/-- What happens after the start: listeners come and go, the timer of one second fires, the system changes. -/
inductive Ev
  | come (i : Nat) (volatile : Bool)
  | go (i : Nat)
  | timer
  | install (s : System) (ps : List Package)

/-- package_manager.py 272-285: only the timer does anything. Simplified: a listener listens to both topics. -/
def Mgr.step (m : Mgr) : Ev → Mgr
  | .come i v => { m with messages := m.messages.come i v, packages := m.packages.come i v }
  | .go i => { m with messages := m.messages.go i, packages := m.packages.go i }
  | .timer => { m with messages := m.messages.republish, packages := m.packages.republish }
  | .install s ps => { m with system := s, installed := ps }

/-- One after the other. -/
def Mgr.run (m : Mgr) (es : List Ev) : Mgr := es.foldl Mgr.step m

/-- ros_helpers.py 104-109: names with the first of their types; `none`: an empty list of types raises ValueError. -/
def channels : List (Nat × List Nat) → Option (List (Nat × Nat))
  | [] => some []
  | (_, []) :: _ => none
  | (n, t :: _) :: l => (channels l).map ((n, t) :: ·)

/-- ros_helpers.py 95-110: topics, services and actions are published together. -/
def channelsMsg (ts ss as : List (Nat × List Nat)) : Option (List (Nat × Nat) × List (Nat × Nat) × List (Nat × Nat)) :=
  match channels ts, channels ss, channels as with
  | some t, some s, some a => some (t, s, a)
  | _, _, _ => none

/-! ### Specification -/

/-- The package is part of the ROS installation: below the directory /opt/ros. -/
def Package.Installed (p : Package) : Prop := p.path = optRos ∨ ∃ rest, p.path = optRos ++ '/' :: rest

/-- No directory name only begins like /opt/ros. -/
def Usual (ps : List Package) : Prop := ∀ p ∈ ps, ∀ c rest, p.path = optRos ++ c :: rest → c = '/'

/-! ### C120: packages -/

/-- The published packages are those that are not part of the ROS installation, in order, if no directory name only begins like /opt/ros. -/
theorem c120_packages_partial (ps : List Package) (h : Usual ps) :
    (packagesList ps).Sublist ps ∧ ∀ p, p ∈ packagesList ps ↔ p ∈ ps ∧ ¬ p.Installed := by
  refine ⟨List.filter_sublist, fun p => ?_⟩
  unfold packagesList
  rw [List.mem_filter]
  refine and_congr_right fun hp => ?_
  rw [Bool.not_eq_true', ← Bool.not_eq_true, List.isPrefixOf_iff_prefix]
  refine not_congr ?_
  constructor
  · rintro ⟨rest, e⟩
    cases rest with
    | nil => exact .inl (by rw [← e]; simp)
    | cons c rest =>
      have := h p hp c rest e.symm
      subst this
      exact .inr ⟨rest, e.symm⟩
  · rintro (e | ⟨rest, e⟩)
    · exact ⟨[], by rw [e]; simp⟩
    · exact ⟨_, e.symm⟩

/-- A package in /opt/ros_ws is not published. -/
theorem c120_hidden : ∃ p : Package, ¬ p.Installed ∧ packagesList [p] = [] := by
  refine ⟨⟨1, optRos ++ ['_', 'w', 's']⟩, ?_, by decide⟩
  rintro (h | ⟨rest, h⟩)
  · exact absurd h (by decide)
  · have h : optRos ++ ['_', 'w', 's'] = optRos ++ '/' :: rest := h
    have := List.append_cancel_left h
    simp at this

/-! ### C120: message types -/

theorem topicList_some (l : List (Nat × Class)) : (∃ r, topicList l = some r) ↔ ∀ p ∈ l, p.2 ≠ .missing := by
  induction l with
  | nil => simp [topicList]
  | cons a l ih =>
    obtain ⟨n, c⟩ := a
    simp only [topicList, List.mem_cons, forall_eq_or_imp]
    by_cases hc : c = .missing
    · simp [hc]
    · rw [if_neg hc]
      simp only [hc, ne_eq, not_false_eq_true, true_and]
      rw [← ih]
      constructor
      · rintro ⟨r, hr⟩
        obtain ⟨x, hx, _⟩ := Option.map_eq_some_iff.1 hr
        exact ⟨x, hx⟩
      · rintro ⟨r, hr⟩
        rw [hr]
        exact ⟨_, rfl⟩

theorem topicList_eq {l : List (Nat × Class)} {r : List (Nat × List Nat)} (h : topicList l = some r) : r = l.filterMap fun p => toMessageType p.1 p.2 := by
  induction l generalizing r with
  | nil => cases h; rfl
  | cons a l ih =>
    obtain ⟨n, c⟩ := a
    simp only [topicList] at h
    split at h
    · cases h
    · obtain ⟨x, hx, e⟩ := Option.map_eq_some_iff.1 h
      rw [← e, ih hx]
      simp only [List.filterMap_cons]
      split <;> simp_all

/-- If every message class can be imported, all services, all actions and all messages that can be inspected are published, with their fields if these are
known. -/
theorem c120_messages_partial (s : System) (h : ∀ p ∈ s.messages, p.2 ≠ .missing) : ∃ x, messageList s = some x ∧ x.services = s.services ∧
    x.actions = s.actions ∧ ∀ n l, (n, l) ∈ x.topics ↔ (n, .fields l) ∈ s.messages ∨ l = [] ∧ (n, .bare) ∈ s.messages := by
  obtain ⟨r, hr⟩ := (topicList_some s.messages).2 h
  refine ⟨⟨r, s.services, s.actions⟩, by simp [messageList, hr], rfl, rfl, fun n l => ?_⟩
  show (n, l) ∈ r ↔ _
  rw [topicList_eq hr, List.mem_filterMap]
  constructor
  · rintro ⟨⟨m, c⟩, hm, e⟩
    cases c with
    | missing => cases e
    | odd => cases e
    | bare => cases e; exact .inr ⟨rfl, hm⟩
    | fields k => cases e; exact .inl hm
  · rintro (hm | ⟨rfl, hm⟩)
    · exact ⟨_, hm, rfl⟩
    · exact ⟨_, hm, rfl⟩

theorem messageList_none (s : System) (h : ∃ p ∈ s.messages, p.2 = .missing) : messageList s = none := by
  unfold messageList
  cases hr : topicList s.messages with
  | none => rfl
  | some r =>
    obtain ⟨p, hp, e⟩ := h
    exact absurd e ((topicList_some s.messages).1 ⟨r, hr⟩ p hp)

/-- The start fails exactly if a message class cannot be imported; then nobody receives a message type, a service or an action. -/
theorem c120_start (m : Mgr) : (m.init.2 = false ↔ ∃ p ∈ m.system.messages, p.2 = .missing) ∧ (m.init.2 = false → m.init.1.messages = m.messages) := by
  unfold Mgr.init
  cases hx : messageList m.system with
  | none =>
    refine ⟨⟨fun _ => ?_, fun _ => by simp [hx]⟩, fun _ => by simp [hx]⟩
    refine Decidable.byContradiction fun hn => ?_
    obtain ⟨x, hx', _⟩ := c120_messages_partial m.system fun p hp e => hn ⟨p, hp, e⟩
    rw [hx] at hx'
    cases hx'
  | some x =>
    refine ⟨⟨fun h => ?_, fun h => ?_⟩, fun h => ?_⟩
    · simp [hx] at h
    · rw [messageList_none _ h] at hx; cases hx
    · simp [hx] at h

/-- All that a topic has sent is `x`. -/
def Topic.Only {α : Type} (t : Topic α) (x : α) : Prop := t.cached = some x ∧ ∀ p ∈ t.listeners, ∀ y ∈ p.2, y = x

theorem Topic.Only.publish {α : Type} {t : Topic α} {x : α} (h : ∀ p ∈ t.listeners, ∀ y ∈ p.2, y = x) : (t.publish x).Only x := by
  refine ⟨rfl, fun p hp y hy => ?_⟩
  obtain ⟨q, hq, rfl⟩ := List.mem_map.1 hp
  rcases List.mem_append.1 hy with hy | hy
  · exact h q hq y hy
  · exact List.mem_singleton.1 hy

theorem Topic.Only.republish {α : Type} {t : Topic α} {x : α} (h : t.Only x) : t.republish.Only x := by
  unfold Topic.republish
  rw [h.1]
  dsimp only
  split
  · exact Topic.Only.publish h.2
  · exact h

theorem Topic.Only.go {α : Type} {t : Topic α} {x : α} (h : t.Only x) (i : Nat) : (t.go i).Only x :=
  ⟨h.1, fun p hp => h.2 p (List.mem_filter.1 hp).1⟩

theorem Topic.Only.come {α : Type} {t : Topic α} {x : α} (h : t.Only x) (i : Nat) (v : Bool) : (t.come i v).Only x := by
  refine ⟨h.1, fun p hp => ?_⟩
  rcases List.mem_cons.1 hp with rfl | hp
  · intro y hy
    cases v
    · simp [h.1] at hy; exact hy
    · simp at hy
  · exact (h.go i).2 p hp

theorem Topic.Only.served {α : Type} {t : Topic α} {x : α} (h : t.Only x) {i : Nat} {l : List α} (hl : (i, l) ∈ t.listeners) :
    (i, l ++ [x]) ∈ t.republish.listeners := by
  unfold Topic.republish
  rw [h.1]
  dsimp only
  rw [if_pos (List.length_pos_of_mem hl)]
  exact List.mem_map.2 ⟨(i, l), hl, rfl⟩

theorem run_only {x : MessageTypes} {y : List Package} (es : List Ev) : ∀ m : Mgr, m.messages.Only x → m.packages.Only y →
    (m.run es).messages.Only x ∧ (m.run es).packages.Only y := by
  induction es with
  | nil => intro m h1 h2; exact ⟨h1, h2⟩
  | cons e es ih =>
    intro m h1 h2
    cases e with
    | come i v => exact ih _ (h1.come i v) (h2.come i v)
    | go i => exact ih _ (h1.go i) (h2.go i)
    | timer => exact ih _ h1.republish h2.republish
    | install s ps => exact ih (m.step (.install s ps)) h1 h2

theorem init_only (s : System) (ps : List Package) (x : MessageTypes) (hx : messageList s = some x) :
    (Mgr.init ⟨s, ps, {}, {}⟩).1.messages.Only x ∧ (Mgr.init ⟨s, ps, {}, {}⟩).1.packages.Only (packagesList ps) := by
  simp only [Mgr.init, hx]
  exact ⟨Topic.Only.publish (fun p hp => nomatch hp), Topic.Only.publish (fun p hp => nomatch hp)⟩

/-- Whoever listens when the timer fires receives both lists of the start, whatever happened in between, and nothing else was ever sent. -/
theorem c120_republished (s : System) (ps : List Package) (x : MessageTypes) (hx : messageList s = some x) (es : List Ev) :
    (∀ i l, (i, l) ∈ ((Mgr.init ⟨s, ps, {}, {}⟩).1.run es).messages.listeners →
      (∀ y ∈ l, y = x) ∧ (i, l ++ [x]) ∈ (((Mgr.init ⟨s, ps, {}, {}⟩).1.run es).step .timer).messages.listeners) ∧
    ∀ i l, (i, l) ∈ ((Mgr.init ⟨s, ps, {}, {}⟩).1.run es).packages.listeners →
      (∀ y ∈ l, y = packagesList ps) ∧
      (i, l ++ [packagesList ps]) ∈ (((Mgr.init ⟨s, ps, {}, {}⟩).1.run es).step .timer).packages.listeners := by
  obtain ⟨h1, h2⟩ := init_only s ps x hx
  obtain ⟨k1, k2⟩ := run_only es _ h1 h2
  exact ⟨fun i l hl => ⟨k1.2 _ hl, k1.served hl⟩, fun i l hl => ⟨k2.2 _ hl, k2.served hl⟩⟩

/-- A listener that is not volatile has the lists as soon as it comes. -/
theorem c120_durable (s : System) (ps : List Package) (x : MessageTypes) (hx : messageList s = some x) (es : List Ev) (i : Nat) :
    (i, [x]) ∈ (((Mgr.init ⟨s, ps, {}, {}⟩).1.run es).step (.come i false)).messages.listeners ∧
    (i, [packagesList ps]) ∈ (((Mgr.init ⟨s, ps, {}, {}⟩).1.run es).step (.come i false)).packages.listeners := by
  obtain ⟨h1, h2⟩ := init_only s ps x hx
  obtain ⟨k1, k2⟩ := run_only es _ h1 h2
  simp [Mgr.step, Topic.come, k1.1, k2.1]

/-- What is installed later is never published: the timer repeats the lists of the start. -/
theorem c120_stale : ∃ (s s' : System) (ps ps' : List Package) (x : MessageTypes), messageList s' ≠ some x ∧ packagesList ps ≠ packagesList ps' ∧
    ((((Mgr.init ⟨s, ps, {}, {}⟩).1.run [.install s' ps', .come 1 true, .timer]).messages.listeners) = [(1, [x])]) ∧
    ((((Mgr.init ⟨s, ps, {}, {}⟩).1.run [.install s' ps', .come 1 true, .timer]).packages.listeners) = [(1, [packagesList ps])]) :=
  ⟨⟨[], [], []⟩, ⟨[(1, .fields [])], [2], []⟩, [], [⟨3, ['/', 'w']⟩], ⟨[], [], []⟩, by decide, by decide, by decide, by decide⟩

/-! ### C120: channels -/

theorem channels_some (l : List (Nat × List Nat)) (h : ∀ p ∈ l, p.2 ≠ []) : ∃ r, channels l = some r ∧ r.map (·.1) = l.map (·.1) ∧
    ∀ n t, (n, t) ∈ r ↔ ∃ rest, (n, t :: rest) ∈ l := by
  induction l with
  | nil => exact ⟨[], rfl, rfl, by simp⟩
  | cons a l ih =>
    obtain ⟨n, ts⟩ := a
    obtain ⟨r, h1, h2, h3⟩ := ih fun p hp => h p (List.mem_cons_of_mem _ hp)
    cases ts with
    | nil => exact absurd rfl (h (n, []) (by simp))
    | cons t ts =>
      refine ⟨(n, t) :: r, by simp [channels, h1], by simp [h2], fun m u => ?_⟩
      simp only [List.mem_cons, Prod.mk.injEq, List.cons.injEq, h3]
      constructor
      · rintro (⟨rfl, rfl⟩ | ⟨rest, hr⟩)
        · exact ⟨ts, .inl ⟨rfl, rfl, rfl⟩⟩
        · exact ⟨rest, .inr hr⟩
      · rintro ⟨rest, ⟨rfl, rfl, _⟩ | hr⟩
        · exact .inl ⟨rfl, rfl⟩
        · exact .inr ⟨rest, hr⟩

theorem channels_none (l : List (Nat × List Nat)) (h : ∃ p ∈ l, p.2 = []) : channels l = none := by
  induction l with
  | nil => obtain ⟨p, hp, _⟩ := h; cases hp
  | cons a l ih =>
    obtain ⟨n, ts⟩ := a
    cases ts with
    | nil => rfl
    | cons t ts =>
      obtain ⟨p, hp, e⟩ := h
      rcases List.mem_cons.1 hp with rfl | hp
      · cases e
      · simp [channels, ih ⟨p, hp, e⟩]

/-- If every name has a type, every topic, service and action is published once, in order, with the first of its types. -/
theorem c120_channels_partial (ts ss as : List (Nat × List Nat)) (h : ∀ p ∈ ts ++ ss ++ as, p.2 ≠ []) : ∃ t s a, channelsMsg ts ss as = some (t, s, a) ∧
    (t.map (·.1) = ts.map (·.1) ∧ s.map (·.1) = ss.map (·.1) ∧ a.map (·.1) = as.map (·.1)) ∧
    (∀ n k, (n, k) ∈ t ↔ ∃ rest, (n, k :: rest) ∈ ts) ∧ (∀ n k, (n, k) ∈ s ↔ ∃ rest, (n, k :: rest) ∈ ss) ∧
    ∀ n k, (n, k) ∈ a ↔ ∃ rest, (n, k :: rest) ∈ as := by
  obtain ⟨t, t1, t2, t3⟩ := channels_some ts fun p hp => h p (by simp [hp])
  obtain ⟨s, s1, s2, s3⟩ := channels_some ss fun p hp => h p (by simp [hp])
  obtain ⟨a, a1, a2, a3⟩ := channels_some as fun p hp => h p (by simp [hp])
  exact ⟨t, s, a, by simp [channelsMsg, t1, s1, a1], ⟨t2, s2, a2⟩, t3, s3, a3⟩

/-- One topic, service or action without type: nothing is published at all. -/
theorem c120_no_type (ts ss as : List (Nat × List Nat)) (h : ∃ p ∈ ts ++ ss ++ as, p.2 = []) : channelsMsg ts ss as = none := by
  obtain ⟨p, hp, e⟩ := h
  unfold channelsMsg
  rcases List.mem_append.1 hp with hp | hp
  · rcases List.mem_append.1 hp with hp | hp
    · rw [channels_none ts ⟨p, hp, e⟩]
    · rw [channels_none ss ⟨p, hp, e⟩]; split <;> simp_all
  · rw [channels_none as ⟨p, hp, e⟩]; split <;> simp_all

/-! ### Examples -/

example : Usual [⟨1, optRos ++ ['/', 'a']⟩, ⟨2, ['/', 'w']⟩] ∧ packagesList [⟨1, optRos ++ ['/', 'a']⟩, ⟨2, ['/', 'w']⟩] = [⟨2, ['/', 'w']⟩] := by
  refine ⟨fun p hp c rest e => ?_, by decide⟩
  rcases List.mem_cons.1 hp with rfl | hp
  · have := List.append_cancel_left (show optRos ++ ['/', 'a'] = optRos ++ c :: rest from e)
    simp at this
    exact this.1.symm
  · rcases List.mem_cons.1 hp with rfl | hp
    · simp [optRos] at e
    · cases hp

/-- A system with a message, one that cannot be inspected, one without known fields, a service and an action. -/
def sampleSystem : System := ⟨[(1, .fields [10, 11]), (2, .odd), (3, .bare)], [4], [5]⟩

example : (∀ p ∈ sampleSystem.messages, p.2 ≠ .missing) ∧ messageList sampleSystem = some ⟨[(1, [10, 11]), (3, [])], [4], [5]⟩ ∧
    ((Mgr.init ⟨sampleSystem, [], {}, {}⟩).1.run [.come 7 true, .timer, .come 8 true, .come 9 false]).messages.listeners.map (fun p => (p.1, p.2.length)) =
      [(9, 1), (8, 0), (7, 1)] := by
  refine ⟨by decide, by decide, by decide⟩

example : (Mgr.init ⟨⟨[(1, .fields []), (2, .missing)], [3], []⟩, [], {}, {}⟩).2 = false := by decide

example : (∀ p ∈ [(1, [2, 3])] ++ [(4, [5])] ++ [], p.2 ≠ []) ∧ channelsMsg [(1, [2, 3])] [(4, [5])] [] = some ([(1, 2)], [(4, 5)], []) ∧
    channelsMsg [(1, [2, 3])] [(4, [])] [] = none := by decide

end Verif.Files.Lists
