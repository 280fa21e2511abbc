/-! C104: name, path, tick frequency, root and public inputs and outputs in the published structure of a tree (tree_exec_manager.py 403-422, 439-452,
530-548, 585-621, 757-779, 898-907, 1431-1455; tree_edit_manager.py 257-267; node.py 1070-1169).

Of the nodes only ids and children matter here. Node ids are numbers, and a frequency is a whole number. All requests are ones that are accepted (the tree is
EDITABLE). -/

set_option autoImplicit false

namespace Verif.Exec.Meta

/-! ### The model -/

/-- The nodes of a tree with their children: `self.nodes` and `self._children`. -/
abbrev Topo := List (Nat × List Nat)

/-- One end of a wiring: ros_bt_py_interfaces/msg/NodeDataLocation.msg -/
abbrev Loc := Nat × String

/-- The fields of `self._tree_structure` in question. The id of the root is 0 if there is none (769). -/
structure Info where
  name : String
  path : String := ""
  freq : Int
  root : Nat := 0
  pubIn : List Loc := []
  pubOut : List Loc := []
  deriving DecidableEq, Repr

/-- The manager and what it has published last. -/
structure Sys where
  topo : Topo := []
  info : Info
  shown : Info
  deriving DecidableEq, Repr

/-- The outcome of `find_root`. -/
inductive Root | none | strange | node (r : Nat)
  deriving DecidableEq, Repr

/-- tree_exec_manager.py 585-621: `find_root`. -/
def findRoot (t : Topo) : Root :=
  if t.isEmpty then .none
  else
    match (t.map (·.1)).filter fun n => !(t.any fun p => p.2.contains n) with
    | [r] => .node r
    | _ => .strange

/-- node.py 1128-1167: the public inputs and outputs in the message made by `get_subtree_msg`, for the subscriptions of its nodes inwards and outwards. -/
def publicOf (incoming outgoing : List (Loc × Loc)) : List Loc × List Loc := (incoming.map (·.2), outgoing.map (·.1))

/-- tree_exec_manager.py 1431-1455: `structure_to_msg`. The lists `subscriptions` and `subscribers` of nodes are made in node.py 184-185 and
never written to. -/
def structureToMsg (s : Sys) : Sys :=
  match findRoot s.topo with
  | .node r => { s with info := { s.info with root := r, pubIn := (publicOf [] []).1, pubOut := (publicOf [] []).2 } }
  | _ => s

/-- tree_exec_manager.py 530-548: `publish_structure`. -/
def publish (s : Sys) : Sys := { structureToMsg s with shown := (structureToMsg s).info }

/-- tree_exec_manager.py 443-452: the setter of `tick_frequency_hz`. -/
def frequency (f : Int) : Int := if f = 0 then 10 else f

/-- tree_exec_manager.py 757-779: `clear`. -/
def clear (s : Sys) : Sys :=
  publish { s with topo := [], info := { s.info with name := "UNKNOWN TREE", path := "", root := 0, pubIn := [], pubOut := [] } }

/-- tree_exec_manager.py 898-922: the end of `load_tree`, with `find_root`. -/
def loaded (t : Topo) (m : Info) (s : Sys) : Sys :=
  let s := { s with topo := t, info := { s.info with name := m.name, path := m.path, freq := frequency m.freq, pubIn := m.pubIn, pubOut := m.pubOut } }
  match findRoot t with
  | .node r => publish { s with info := { s.info with root := r } }
  | _ => publish s

/-- What happens. -/
inductive Event
  /-- a tree with these nodes is loaded (tree_exec_manager.py 820-922) -/
  | load (t : Topo) (m : Info)
  /-- loading fails after the old tree has been removed; some nodes may have been made -/
  | loadFails (t : Topo)
  | clear
  /-- tree_edit_manager.py 257-267: `change_tree_name` -/
  | rename (name : String)
  /-- another edit, after which these are the nodes -/
  | edit (t : Topo)
  /-- TICK_PERIODICALLY or TICK_UNTIL_RESULT with a frequency (tree_exec_manager.py 1103); nothing is published -/
  | frequency (f : Int)
  deriving DecidableEq, Repr

def step : Event → Sys → Sys
  | .load t m, s => loaded t m (clear s)
  | .loadFails t, s => publish { clear s with topo := t }
  | .clear, s => clear s
  | .rename n, s => publish { s with info := { s.info with name := n } }
  | .edit t, s => publish { s with topo := t }
  | .frequency f, s => { s with info := { s.info with freq := frequency f } }

def run (es : List Event) (s : Sys) : Sys := es.foldl (fun s e => step e s) s

/-- tree_exec_manager.py 347-377: a new manager. -/
def start (name : String) (f : Int) : Sys := publish { info := { name := name, freq := frequency f }, shown := { name := name, freq := frequency f } }

/-! ### What is wanted -/

/-- `r` is a node, and the only one that is not a child. -/
def OnlyRoot (t : Topo) (r : Nat) : Prop :=
  (t.map (·.1)).Nodup ∧ r ∈ t.map (·.1) ∧ (∀ p ∈ t, r ∉ p.2) ∧ ∀ n ∈ t.map (·.1), n ≠ r → ∃ p ∈ t, n ∈ p.2

/-- The name a tree has been given last. -/
def nameAfter : List Event → String → String
  | [], n => n
  | .load _ m :: es, _ => nameAfter es m.name
  | .loadFails _ :: es, _ => nameAfter es "UNKNOWN TREE"
  | .clear :: es, _ => nameAfter es "UNKNOWN TREE"
  | .rename n :: es, _ => nameAfter es n
  | _ :: es, n => nameAfter es n

/-- The path of the tree loaded last. -/
def pathAfter : List Event → String → String
  | [], p => p
  | .load _ m :: es, _ => pathAfter es m.path
  | .loadFails _ :: es, _ => pathAfter es ""
  | .clear :: es, _ => pathAfter es ""
  | _ :: es, p => pathAfter es p

/-- The frequency asked for last, in Hertz; 0 stands for 10. -/
def freqAfter : List Event → Int → Int
  | [], f => f
  | .load _ m :: es, _ => freqAfter es (if m.freq = 0 then 10 else m.freq)
  | .frequency f :: es, _ => freqAfter es (if f = 0 then 10 else f)
  | _ :: es, f => freqAfter es f

/-- The nodes after the last edit. -/
def topoAfter : List Event → Topo → Topo
  | [], t => t
  | .load t _ :: es, _ => topoAfter es t
  | .loadFails t :: es, _ => topoAfter es t
  | .clear :: es, _ => topoAfter es []
  | .edit t :: es, _ => topoAfter es t
  | _ :: es, t => topoAfter es t

/-! ### Proofs -/

theorem publish_info (s : Sys) : (publish s).info.name = s.info.name ∧ (publish s).info.path = s.info.path ∧ (publish s).info.freq = s.info.freq ∧
    (publish s).topo = s.topo := by
  unfold publish structureToMsg
  dsimp only
  split <;> exact ⟨rfl, rfl, rfl, rfl⟩

theorem loaded_info (t : Topo) (m : Info) (s : Sys) : (loaded t m s).info.name = m.name ∧ (loaded t m s).info.path = m.path ∧
    (loaded t m s).info.freq = frequency m.freq ∧ (loaded t m s).topo = t := by
  unfold loaded
  dsimp only
  split
  · exact publish_info _
  · exact publish_info _

theorem clear_info (s : Sys) : (clear s).info.name = "UNKNOWN TREE" ∧ (clear s).info.path = "" ∧ (clear s).info.freq = s.info.freq ∧ (clear s).topo = [] :=
  publish_info _

theorem run_info (es : List Event) : ∀ s : Sys, (run es s).info.name = nameAfter es s.info.name ∧ (run es s).info.path = pathAfter es s.info.path ∧
    (run es s).info.freq = freqAfter es s.info.freq ∧ (run es s).topo = topoAfter es s.topo := by
  induction es with
  | nil => intro s; exact ⟨rfl, rfl, rfl, rfl⟩
  | cons e es ih =>
    intro s
    have h := ih (step e s)
    show (run es (step e s)).info.name = _ ∧ (run es (step e s)).info.path = _ ∧ (run es (step e s)).info.freq = _ ∧ (run es (step e s)).topo = _
    cases e with
    | load t m =>
      have g := loaded_info t m (clear s)
      unfold step at h ⊢
      rw [g.1, g.2.1, g.2.2.1, g.2.2.2] at h
      exact h
    | loadFails t =>
      have g := publish_info { clear s with topo := t }
      have g' := clear_info s
      unfold step at h ⊢
      rw [g.1, g.2.1, g.2.2.1, g.2.2.2] at h
      dsimp only at h
      rw [g'.1, g'.2.1, g'.2.2.1] at h
      exact h
    | clear =>
      have g' := clear_info s
      unfold step at h ⊢
      rw [g'.1, g'.2.1, g'.2.2.1, g'.2.2.2] at h
      exact h
    | rename n =>
      have g := publish_info { s with info := { s.info with name := n } }
      unfold step at h ⊢
      rw [g.1, g.2.1, g.2.2.1, g.2.2.2] at h
      exact h
    | edit t =>
      have g := publish_info { s with topo := t }
      unfold step at h ⊢
      rw [g.1, g.2.1, g.2.2.1, g.2.2.2] at h
      exact h
    | frequency f => exact h

/-- An event that publishes. -/
def publishes : Event → Bool
  | .frequency _ => false
  | _ => true

theorem step_publishes (e : Event) (s : Sys) (h : publishes e = true) : ∃ s', step e s = publish s' := by
  cases e with
  | load t m =>
    unfold step loaded
    dsimp only
    split
    · exact ⟨_, rfl⟩
    · exact ⟨_, rfl⟩
  | loadFails t => exact ⟨_, rfl⟩
  | clear => exact ⟨_, rfl⟩
  | rename n => exact ⟨_, rfl⟩
  | edit t => exact ⟨_, rfl⟩
  | frequency f => cases h

theorem publish_shown (s : Sys) : (publish s).shown = (publish s).info := rfl

theorem run_append (es : List Event) (e : Event) (s : Sys) : run (es ++ [e]) s = step e (run es s) := by simp [run]

/-- C104: after every load, edit or clearing, successful or not, the published name, path and tick frequency are the ones given last. -/
theorem c104_given (es : List Event) (e : Event) (h : publishes e = true) (name : String) (f : Int) :
    let x := (run (es ++ [e]) (start name f)).shown
    x.name = nameAfter (es ++ [e]) name ∧ x.path = pathAfter (es ++ [e]) "" ∧ x.freq = freqAfter (es ++ [e]) (if f = 0 then 10 else f) := by
  have hr := run_info (es ++ [e]) (start name f)
  have hs := publish_info { info := { name := name, freq := frequency f }, shown := { name := name, freq := frequency f } }
  have e1 : (run (es ++ [e]) (start name f)).shown = (run (es ++ [e]) (start name f)).info := by
    rw [run_append]
    obtain ⟨s', hs'⟩ := step_publishes e (run es (start name f)) h
    rw [hs', publish_shown]
  dsimp only
  rw [e1]
  unfold start at hr ⊢
  rw [hs.1, hs.2.1, hs.2.2.1] at hr
  exact ⟨hr.1, hr.2.1, hr.2.2.1⟩

theorem findRoot_of {t : Topo} {r : Nat} (h : OnlyRoot t r) : findRoot t = .node r := by
  obtain ⟨hn, hr, hc, ho⟩ := h
  unfold findRoot
  have hne : t.isEmpty = false := by cases t with
    | nil => cases hr
    | cons _ _ => rfl
  rw [hne]
  simp only [Bool.false_eq_true, if_false]
  have key : ∀ l : List Nat, l.Nodup → r ∈ l → ∀ q : Nat → Bool, q r = true → (∀ n ∈ l, n ≠ r → q n = false) → l.filter q = [r] := by
    intro l
    induction l with
    | nil => intro _ h; cases h
    | cons a l ih =>
      intro hnd hm q hq ho
      rw [List.nodup_cons] at hnd
      by_cases hr : a = r
      · subst hr
        rw [List.filter_cons_of_pos hq]
        congr 1
        rw [List.filter_eq_nil_iff]
        intro n hnl
        rw [ho n (List.mem_cons_of_mem _ hnl) (fun e => hnd.1 (e ▸ hnl))]
        simp
      · rw [List.filter_cons_of_neg (by rw [ho a List.mem_cons_self hr]; simp)]
        refine ih hnd.2 ?_ q hq (fun n hn => ho n (List.mem_cons_of_mem _ hn))
        rcases List.mem_cons.1 hm with h | h
        · exact absurd h.symm hr
        · exact h
  rw [key (t.map (·.1)) hn hr (fun n => !(t.any fun p => p.2.contains n))]
  · simp only [Bool.not_eq_true', List.any_eq_false]
    intro p hp
    simpa using hc p hp
  · intro n hn' hne'
    obtain ⟨p, hp, hnp⟩ := ho n hn' hne'
    simp only [Bool.not_eq_false', List.any_eq_true]
    exact ⟨p, hp, by simpa using hnp⟩

/-- What is published if there is a root. -/
theorem publish_root {s : Sys} {r : Nat} (h : findRoot s.topo = .node r) :
    (publish s).shown.root = r ∧ (publish s).shown.pubIn = [] ∧ (publish s).shown.pubOut = [] := by
  unfold publish structureToMsg
  simp [h, publicOf]

theorem shown_rooted (es : List Event) (e : Event) (h : publishes e = true) (name : String) (f : Int) (r : Nat)
    (hr : OnlyRoot (topoAfter (es ++ [e]) []) r) :
    let x := (run (es ++ [e]) (start name f)).shown
    x.root = r ∧ x.pubIn = [] ∧ x.pubOut = [] := by
  have hi := (run_info (es ++ [e]) (start name f)).2.2.2
  dsimp only
  rw [run_append] at hi ⊢
  obtain ⟨s', hs'⟩ := step_publishes e (run es (start name f)) h
  rw [hs'] at hi ⊢
  rw [(publish_info s').2.2.2] at hi
  have e0 : (start name f).topo = [] := (publish_info _).2.2.2
  rw [e0] at hi
  exact publish_root (by rw [hi]; exact findRoot_of hr)

/-- C104: if the tree has a root, it is the published one. -/
theorem c104_root_partial (es : List Event) (e : Event) (h : publishes e = true) (name : String) (f : Int) (r : Nat)
    (hr : OnlyRoot (topoAfter (es ++ [e]) []) r) : (run (es ++ [e]) (start name f)).shown.root = r := (shown_rooted es e h name f r hr).1

/-- C104, violated: the public inputs and outputs of a tree with a root are never published, whatever is loaded; loading forgets them. -/
theorem c104_public_lost (es : List Event) (t : Topo) (m : Info) (name : String) (f : Int) (r : Nat) (hr : OnlyRoot t r) :
    let s := run (es ++ [.load t m]) (start name f)
    s.shown.pubIn = [] ∧ s.shown.pubOut = [] ∧ s.info.pubIn = [] ∧ s.info.pubOut = [] := by
  have ht : topoAfter (es ++ [.load t m]) [] = t := by
    have : ∀ (es : List Event) (t0 : Topo), topoAfter (es ++ [.load t m]) t0 = t := by
      intro es
      induction es with
      | nil => intro t0; rfl
      | cons e es ih => intro t0; cases e <;> exact ih _
    exact this es []
  have h := shown_rooted es (.load t m) rfl name f r (by rw [ht]; exact hr)
  have e1 : (run (es ++ [.load t m]) (start name f)).shown = (run (es ++ [.load t m]) (start name f)).info := by
    rw [run_append]
    obtain ⟨s', hs'⟩ := step_publishes (.load t m) (run es (start name f)) rfl
    rw [hs', publish_shown]
  dsimp only at h ⊢
  rw [← e1]
  exact ⟨h.2.1, h.2.2, h.2.1, h.2.2⟩

/-- C104, violated: when the last node has been removed, or there are several roots, the published root is the old one, which may not exist any more. -/
theorem c104_old_root :
    (run [.edit [(7, [])], .edit []] (start "t" 10)).shown.root = 7 ∧
    (run [.edit [(7, [8]), (8, [])], .edit [(8, []), (9, [])]] (start "t" 10)).shown.root = 7 := by decide

/-! ### Examples -/

example : OnlyRoot [(7, [8, 9]), (8, []), (9, [])] 7 := by
  refine ⟨by decide, by decide, by decide, ?_⟩
  decide

example : (run [.load [(7, [8]), (8, [])] { name := "a", path := "p", freq := 0, pubIn := [(8, "x")] }, .rename "b", .edit [(8, [])]] (start "t" 3)).shown =
    { name := "b", path := "p", freq := 10, root := 8 } := by decide

end Verif.Exec.Meta
