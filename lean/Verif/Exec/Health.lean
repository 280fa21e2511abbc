import Verif.Exec.Calls

/-! C101: the diagnostics of the tree on the topic `/diagnostics` (tree_exec_manager.py 274-276, 382-385, 474-528, 778, 920-921).

The model is the one of `Verif/Exec/Model.lean` with the name of the tree, the object `diagnostic_status` and the messages published. `stem` is
`os.path.splitext(name)[0]`. -/

set_option autoImplicit false

namespace Verif.Exec.Health

open Verif.BT (Op Res BTState Ops)

variable {N : Type} {o : Ops N}

/-! ### The model -/

/-- diagnostic_msgs/DiagnosticStatus -/
inductive Level | ok | warn | error | stale
  deriving DecidableEq, Repr

/-- The strings in tree_exec_manager.py 514, 523, 527. -/
inductive Text | empty | ticking | notTicking | errorInTree
  deriving DecidableEq, Repr

/-- `self.diagnostic_status` (a new message has level OK and empty strings) -/
structure Status where
  level : Level := .ok
  text : Text := .empty
  name : String := ""
  deriving DecidableEq, Repr

/-- The manager, the name of the tree, the names of its nodes (as far as they are roots) and what has been published, each with the state of the
manager at this time. `publishing`: there is a `publish_diagnostic_callback`. -/
structure Sys (N : Type) where
  publishing : Bool
  mgr : Mgr N
  name : String := "UNKNOWN TREE"
  status : Status := {}
  published : List (Status × Mgr N) := []

/-- tree_exec_manager.py 474-503: `set_diagnostics_name`; `hasRoot`: there is a node with the id `root_id`. -/
def setName (stem : String → String) (hasRoot : Bool) (s : Sys N) : Sys N :=
  if s.name ≠ "" then { s with status := { s.status with name := stem s.name } }
  else if hasRoot then s
  else { s with status := { s.status with name := "" } }

/-- tree_exec_manager.py 505-507: `clear_diagnostics_name`. -/
def clearName (s : Sys N) : Sys N := { s with status := { s.status with name := "" } }

/-- tree_exec_manager.py 509-528: `diagnostic_callback`. -/
def timer (s : Sys N) : Sys N :=
  if !s.publishing then s
  else
    let status := match s.mgr.state with
      | .ticking => { s.status with level := .ok, text := .ticking }
      | .editable | .idle | .waiting | .stopRequested => { s.status with level := .warn, text := .notTicking }
      | .error => { s.status with level := .error, text := .errorInTree }
    { s with status := status, published := s.published ++ [(status, s.mgr)] }

/-- tree_exec_manager.py 772-778: what `clear` does about names. -/
def clear (s : Sys N) : Sys N := clearName { s with name := "UNKNOWN TREE" }

def isRoot : Topo N → Bool
  | .root _ => true
  | _ => false

/-- tree_exec_manager.py 820-922: what `load_tree` does about names and nodes. `fine`: it succeeds. -/
def load (stem : String → String) (name : String) (fine : Bool) (f : Topo N × Bool → Topo N × Bool) (s : Sys N) : Sys N :=
  if s.mgr.state ≠ .editable then s
  else
    let s := clear { s with mgr := (edit f s.mgr).1 }
    if !fine then s
    else
      let s := { s with name := name }
      if !s.publishing then setName stem (isRoot s.mgr.tree) s else s

/-- What can happen: one of the actions on the manager; a tree is loaded or cleared or gets another name (tree_edit_manager.py 257-264); the timer
(tree_exec_manager.py 382-385) goes off. -/
inductive Event (N : Type)
  | act (a : Action N)
  | load (name : String) (fine : Bool) (f : Topo N × Bool → Topo N × Bool)
  | clear (f : Topo N × Bool → Topo N × Bool)
  | rename (name : String)
  | timer

def step (o : Ops N) (stem : String → String) : Event N → Sys N → Sys N
  | .act a, s => { s with mgr := Exec.step o a s.mgr }
  | .load n b f, s => load stem n b f s
  | .clear f, s => if s.mgr.state ≠ .editable then s else clear { s with mgr := (edit f s.mgr).1 }
  | .rename n, s => if s.mgr.state ≠ .editable then s else { s with name := n }
  | .timer, s => timer s

def run (o : Ops N) (stem : String → String) (es : List (Event N)) (s : Sys N) : Sys N := es.foldl (fun s e => step o stem e s) s

/-! ### What is wanted -/

/-- The level that goes with a state of the tree. -/
def wanted : TState → Level
  | .ticking => .ok
  | .error => .error
  | _ => .warn

/-! ### Proofs -/

/-- What every event keeps. -/
structure Kept (s : Sys N) : Prop where
  inv : Inv s.mgr
  levels : ∀ p ∈ s.published, p.1.level = wanted p.2.state ∧ Inv p.2

theorem kept_clear {s : Sys N} (h : Kept s) (f : Topo N × Bool → Topo N × Bool) : Kept (clear { s with mgr := (edit f s.mgr).1 }) :=
  ⟨inv_edit f h.inv, h.levels⟩

theorem kept_step (stem : String → String) (e : Event N) {s : Sys N} (h : Kept s) : Kept (step o stem e s) := by
  cases e with
  | act a => exact ⟨inv_step a h.inv, h.levels⟩
  | load n b f =>
    show Kept (load stem n b f s)
    unfold load
    split
    · exact h
    · have h1 := kept_clear h f
      dsimp only
      split
      · exact h1
      · split
        · unfold setName
          split
          · exact ⟨h1.inv, h1.levels⟩
          · split
            · exact ⟨h1.inv, h1.levels⟩
            · exact ⟨h1.inv, h1.levels⟩
        · exact ⟨h1.inv, h1.levels⟩
  | clear f =>
    show Kept (if s.mgr.state ≠ .editable then s else _)
    split
    · exact h
    · exact kept_clear h f
  | rename n =>
    show Kept (if s.mgr.state ≠ .editable then s else _)
    split
    · exact h
    · exact ⟨h.inv, h.levels⟩
  | timer =>
    show Kept (timer s)
    unfold timer
    split
    · exact h
    · refine ⟨h.inv, fun p hp => ?_⟩
      rcases List.mem_append.1 hp with hp | hp
      · exact h.levels p hp
      · simp only [List.mem_singleton] at hp
        subst hp
        refine ⟨?_, h.inv⟩
        dsimp only
        cases s.mgr.state <;> rfl

theorem kept_run (stem : String → String) (es : List (Event N)) : ∀ {s : Sys N}, Kept s → Kept (run o stem es s) := by
  induction es with
  | nil => intro s h; exact h
  | cons e es ih => intro s h; exact ih (kept_step stem e h)

/-- A new system with nothing published. -/
def start (b : Bool) (m : Mgr N) : Sys N := { publishing := b, mgr := m }

/-- C101: every diagnostic message has the level OK exactly if the tree was being ticked (TICKING) when it was published, ERROR exactly if it was in
the state ERROR, and otherwise WARN. -/
theorem c101_levels_partial (stem : String → String) (b : Bool) (m : Mgr N) (h : Start m) (es : List (Event N)) :
    ∀ p ∈ (run o stem es (start b m)).published,
      (p.1.level = .ok ↔ p.2.state = .ticking) ∧ (p.1.level = .error ↔ p.2.state = .error) ∧ p.1.level ≠ .stale := by
  intro p hp
  have k : Kept (start b m) := ⟨inv_start h, fun p hp => by cases hp⟩
  have := ((kept_run (o := o) stem es k).levels p hp).1
  rw [this]
  cases p.2.state <;> simp [wanted]

/-- C101: while a message with another level than OK is published, no operation of a node is running, except that the tick thread may be unticking the
tree. -/
theorem c101_sound (stem : String → String) (b : Bool) (m : Mgr N) (h : Start m) (es : List (Event N)) :
    ∀ p ∈ (run o stem es (start b m)).published, p.1.level ≠ .ok → Executing p.2.thread → p.2.state = .idle ∧ p.2.thread = .alive .untick := by
  intro p hp hl hx
  have k : Kept (start b m) := ⟨inv_start h, fun p hp => by cases hp⟩
  obtain ⟨h1, h2⟩ := (kept_run (o := o) stem es k).levels p hp
  rw [h1] at hl
  by_cases hi : p.2.state = .idle
  · refine ⟨hi, ?_⟩
    obtain ⟨pc, e, n1, n2⟩ := hx
    rcases h2.idle hi pc e with e' | e' | e'
    · rw [e, e']
    · exact absurd e' n1
    · exact absurd e' n2
  · exfalso
    refine h2.quiet (fun e => ?_) hi hx
    rw [e] at hl
    exact hl rfl

theorem nameless_step (stem : String → String) (e : Event N) {s : Sys N} (hb : s.publishing = true) (hn : s.status.name = "")
    (hp : ∀ p ∈ s.published, p.1.name = "") :
    (step o stem e s).publishing = true ∧ (step o stem e s).status.name = "" ∧ ∀ p ∈ (step o stem e s).published, p.1.name = "" := by
  cases e with
  | act a => exact ⟨hb, hn, hp⟩
  | load n b f =>
    show (load stem n b f s).publishing = true ∧ (load stem n b f s).status.name = "" ∧ ∀ p ∈ (load stem n b f s).published, p.1.name = ""
    unfold load clear clearName
    split
    · exact ⟨hb, hn, hp⟩
    · dsimp only
      split
      · exact ⟨hb, rfl, hp⟩
      · rw [if_neg (by simp [hb])]
        exact ⟨hb, rfl, hp⟩
  | clear f =>
    show (if s.mgr.state ≠ .editable then s else _).publishing = true ∧ (if s.mgr.state ≠ .editable then s else _).status.name = "" ∧
      ∀ p ∈ (if s.mgr.state ≠ .editable then s else _).published, p.1.name = ""
    split
    · exact ⟨hb, hn, hp⟩
    · exact ⟨hb, rfl, hp⟩
  | rename n =>
    show (if s.mgr.state ≠ .editable then s else _).publishing = true ∧ (if s.mgr.state ≠ .editable then s else _).status.name = "" ∧
      ∀ p ∈ (if s.mgr.state ≠ .editable then s else _).published, p.1.name = ""
    split
    · exact ⟨hb, hn, hp⟩
    · exact ⟨hb, hn, hp⟩
  | timer =>
    show (timer s).publishing = true ∧ (timer s).status.name = "" ∧ ∀ p ∈ (timer s).published, p.1.name = ""
    unfold timer
    rw [if_neg (by simp [hb])]
    dsimp only
    have e : ∀ t : TState, (match t with
        | .ticking => { s.status with level := .ok, text := .ticking }
        | .editable | .idle | .waiting | .stopRequested => { s.status with level := .warn, text := .notTicking }
        | .error => { s.status with level := .error, text := .errorInTree } : Status).name = "" := by
      intro t; cases t <;> exact hn
    refine ⟨hb, e _, fun p hq => ?_⟩
    rcases List.mem_append.1 hq with hq | hq
    · exact hp p hq
    · simp only [List.mem_singleton] at hq
      subst hq
      exact e _

/-- C101, violated: whatever is loaded, no diagnostic message ever bears the name of a tree; `load_tree` sets the name only if nothing is published. -/
theorem c101_nameless (stem : String → String) (b : Bool) (m : Mgr N) (es : List (Event N)) :
    ∀ p ∈ (run o stem es (start b m)).published, p.1.name = "" := by
  cases b with
  | true =>
    have key : ∀ (es : List (Event N)) (s : Sys N), s.publishing = true → s.status.name = "" → (∀ p ∈ s.published, p.1.name = "") →
        ∀ p ∈ (run o stem es s).published, p.1.name = "" := by
      intro es
      induction es with
      | nil => intro s _ _ h; exact h
      | cons e es ih =>
        intro s h1 h2 h3
        obtain ⟨a, b, c⟩ := nameless_step (o := o) stem e h1 h2 h3
        exact ih _ a b c
    exact key es _ rfl rfl (fun p hp => by cases hp)
  | false =>
    have key : ∀ (es : List (Event N)) (s : Sys N), s.publishing = false → s.published = [] → (run o stem es s).published = [] := by
      intro es
      induction es with
      | nil => intro s _ h; exact h
      | cons e es ih =>
        intro s h1 h2
        have : (step o stem e s).publishing = false ∧ (step o stem e s).published = [] := by
          cases e with
          | act a => exact ⟨h1, h2⟩
          | load n b f =>
            show (load stem n b f s).publishing = false ∧ (load stem n b f s).published = []
            unfold load setName clear clearName
            split
            · exact ⟨h1, h2⟩
            · dsimp only
              split
              · exact ⟨h1, h2⟩
              · split
                · split
                  · exact ⟨h1, h2⟩
                  · split
                    · exact ⟨h1, h2⟩
                    · exact ⟨h1, h2⟩
                · exact ⟨h1, h2⟩
          | clear f =>
            show (if s.mgr.state ≠ .editable then s else _).publishing = false ∧ (if s.mgr.state ≠ .editable then s else _).published = []
            split
            · exact ⟨h1, h2⟩
            · exact ⟨h1, h2⟩
          | rename n =>
            show (if s.mgr.state ≠ .editable then s else _).publishing = false ∧ (if s.mgr.state ≠ .editable then s else _).published = []
            split
            · exact ⟨h1, h2⟩
            · exact ⟨h1, h2⟩
          | timer =>
            show (timer s).publishing = false ∧ (timer s).published = []
            unfold timer
            rw [if_pos (by simp [h1])]
            exact ⟨h1, h2⟩
        exact ih _ this.1 this.2
    intro p hp
    rw [key es (start false m) rfl rfl] at hp
    cases hp

/-- C101: a nameless tree with a root does not get the name of the root either; the name that was set before stays. -/
theorem c101_old_name (stem : String → String) (s : Sys N) (h : s.name = "") : (setName stem true s).status.name = s.status.name := by
  unfold setName
  rw [if_neg (by simp [h]), if_pos rfl]

/-! ### Examples -/

/-- A tree is loaded, ticked and stopped; the timer goes off four times. -/
example :
    let es : List (Event BTState) := [.timer, .load "patrol.yaml" true (fun _ => (.root .uninitialized, false)), .timer, .act (.command .tickPeriodically true), .act .think,
      .timer, .act (.command .stop true), .timer]
    Start ({ tree := .empty } : Mgr BTState) ∧
    ((run toy (fun s => s) es (start true { tree := .empty })).published.map fun p => (p.1.level, p.1.text, p.1.name)) =
      [(.warn, .notTicking, ""), (.warn, .notTicking, ""), (.ok, .ticking, ""), (.warn, .notTicking, "")] ∧
    (run toy (fun s => s) es (start true { tree := .empty })).name = "patrol.yaml" := by
  refine ⟨⟨rfl, rfl, rfl⟩, ?_⟩
  decide

end Verif.Exec.Health
