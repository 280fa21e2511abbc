/-! C102: log messages (`logging_manager.py`; node.py 871-958 hands them on with the id and name of the node).

There is one main logging manager (tree_node.py 277-280) and one for each Subtree node (ros_nodes/subtree.py 101-108), made by a node of a tree that has
one already. The least level is a class attribute, i.e. the same for all (logging_manager.py 52-53). Time stamps, file, function and line are left
out. -/

set_option autoImplicit false

namespace Verif.Exec.Log

/-! ### The model -/

/-- ros_bt_py_interfaces/msg/BTLogMessage.msg: the levels DEBUG, INFO, WARN, ERROR and FATAL. -/
inductive Severity | debug | info | warn | error | fatal
  deriving DecidableEq, Repr

/-- The numbers of the levels. -/
def Severity.num : Severity → Nat
  | .debug => 10
  | .info => 20
  | .warn => 30
  | .error => 40
  | .fatal => 50

/-- ros_bt_py_interfaces/msg/BTLogMessage.msg -/
structure Msg where
  level : Nat
  text : String
  treeId : Option Nat
  treeName : String
  nodeId : Option Nat
  nodeName : String
  deriving DecidableEq, Repr

/-- logging_manager.py 55-63: a `LoggingManager`. -/
structure Logger where
  callback : Bool
  treeId : Option Nat := none
  treeName : String := ""
  deriving DecidableEq, Repr

/-- All logging managers, the oldest first, the least level, what has been given to the publisher and what to the loggers of ROS. -/
structure Sys where
  loggers : List Logger
  min : Nat := 20
  published : List Msg := []
  ros : List Msg := []
  deriving DecidableEq, Repr

/-- A call of one of the methods `debug`, `info`, `warn`, `error` and `fatal`. -/
structure Call where
  sev : Severity
  text : String
  nodeId : Option Nat := none
  nodeName : String := ""
  internal : Bool := false
  deriving DecidableEq, Repr

/-- logging_manager.py 116-128: the message made by `log`. -/
def message (l : Logger) (c : Call) : Msg :=
  { level := c.sev.num, text := c.text, treeId := l.treeId, treeName := l.treeName, nodeId := c.nodeId, nodeName := c.nodeName }

/-- logging_manager.py 143-242: the five methods, with `log_level_inactive` (81-82) and 108-141. -/
def log (i : Nat) (c : Call) (s : Sys) : Sys :=
  match s.loggers[i]? with
  | none => s
  | some l =>
    if s.min > c.sev.num then s
    else
      let s := { s with ros := s.ros ++ [message l c] }
      if c.internal then s
      else if l.callback then { s with published := s.published ++ [message l c] } else s

/-- What can happen. -/
inductive Event
  /-- logging_manager.py 71-78: the service `set_log_level`, with a byte -/
  | setLevel (n : Nat)
  /-- logging_manager.py 65-69: tree id and name of the logging manager `i` are set by its tree manager (tree_exec_manager.py 399, 411) -/
  | setTree (i : Nat) (tid : Option Nat) (name : String)
  /-- ros_nodes/subtree.py 101-108: a node with the logging manager `i` makes one for its subtree -/
  | subtree (i : Nat)
  | log (i : Nat) (c : Call)
  deriving DecidableEq, Repr

def step : Event → Sys → Sys
  | .setLevel n, s => { s with min := n }
  | .setTree i tid name, s => { s with loggers := s.loggers.modify i fun l => { l with treeId := tid, treeName := name } }
  | .subtree i, s =>
    match s.loggers[i]? with
    | none => s
    | some l => { s with loggers := s.loggers ++ [{ callback := l.callback }] }
  | .log i c, s => log i c s

def run (es : List Event) (s : Sys) : Sys := es.foldl (fun s e => step e s) s

/-- tree_node.py 277-280: the main logging manager. -/
def start : Sys := { loggers := [{ callback := true }] }

/-! ### What is wanted -/

/-- The least level after a history: what has been asked for last, INFO at first. -/
def levelAfter : List Event → Nat → Nat
  | [], n => n
  | .setLevel k :: es, _ => levelAfter es k
  | _ :: es, n => levelAfter es n

/-- What the tree manager of the logging manager `i` has said last. -/
def treeAfter (i : Nat) : List Event → Option Nat × String → Option Nat × String
  | [], p => p
  | .setTree j t n :: es, p => treeAfter i es (if j = i then (t, n) else p)
  | _ :: es, p => treeAfter i es p

/-! ### Proofs -/

structure Kept (s s' : Sys) : Prop where
  grow : s.loggers.length ≤ s'.loggers.length
  calls : (∀ l ∈ s.loggers, l.callback = true) → ∀ l ∈ s'.loggers, l.callback = true

theorem log_frame (i : Nat) (c : Call) (s : Sys) : (log i c s).loggers = s.loggers ∧ (log i c s).min = s.min := by
  unfold log
  split
  · exact ⟨rfl, rfl⟩
  · split
    · exact ⟨rfl, rfl⟩
    · dsimp only
      split
      · exact ⟨rfl, rfl⟩
      · split
        · exact ⟨rfl, rfl⟩
        · exact ⟨rfl, rfl⟩

theorem modify_callback {l : List Logger} (h : ∀ x ∈ l, x.callback = true) (tid : Option Nat) (name : String) :
    ∀ i, ∀ x ∈ l.modify i (fun x => { x with treeId := tid, treeName := name }), x.callback = true := by
  induction l with
  | nil => intro i x hx; simp at hx
  | cons y l ih =>
    intro i x hx
    cases i with
    | zero =>
      simp only [List.modify_zero_cons, List.mem_cons] at hx
      rcases hx with rfl | hx
      · exact h y (by simp)
      · exact h x (by simp [hx])
    | succ i =>
      simp only [List.modify_succ_cons, List.mem_cons] at hx
      rcases hx with rfl | hx
      · exact h _ (by simp)
      · exact ih (fun x hx => h x (by simp [hx])) i x hx

theorem step_kept (e : Event) (s : Sys) : Kept s (step e s) := by
  cases e with
  | setLevel n => exact ⟨Nat.le_refl _, fun h => h⟩
  | setTree i tid name => exact ⟨by simp [step], fun h => modify_callback h tid name i⟩
  | subtree i =>
    cases hl : s.loggers[i]? with
    | none =>
      have e : step (.subtree i) s = s := by simp only [step, hl]
      rw [e]
      exact ⟨Nat.le_refl _, fun h => h⟩
    | some l =>
      have e : step (.subtree i) s = { s with loggers := s.loggers ++ [{ callback := l.callback }] } := by simp only [step, hl]
      rw [e]
      refine ⟨by simp, fun h x hx => ?_⟩
      rcases List.mem_append.1 hx with hx | hx
      · exact h x hx
      · simp only [List.mem_singleton] at hx
        subst hx
        exact h l (List.mem_of_getElem? hl)
  | log i c =>
    have := log_frame i c s
    exact ⟨by simp [step, this.1], fun h => by simpa [step, this.1] using h⟩

theorem run_kept (es : List Event) : ∀ s : Sys, Kept s (run es s) := by
  induction es with
  | nil => intro s; exact ⟨Nat.le_refl _, fun h => h⟩
  | cons e es ih =>
    intro s
    have h1 := step_kept e s
    have h2 := ih (step e s)
    exact ⟨Nat.le_trans h1.grow h2.grow, fun h => h2.calls (h1.calls h)⟩

theorem run_min (es : List Event) : ∀ s : Sys, (run es s).min = levelAfter es s.min := by
  induction es with
  | nil => intro s; rfl
  | cons e es ih =>
    intro s
    show (run es (step e s)).min = _
    rw [ih]
    cases e with
    | setLevel n => rfl
    | setTree i t n => rfl
    | subtree i =>
      have e : (step (.subtree i) s).min = s.min := by
        simp only [step]
        cases s.loggers[i]? <;> rfl
      rw [e]
      rfl
    | log i c =>
      have e : (step (.log i c) s).min = s.min := (log_frame i c s).2
      rw [e]
      rfl

/-- The tree of a logging manager that is there. -/
def treeOf (s : Sys) (i : Nat) : Option (Option Nat × String) := s.loggers[i]?.map fun l => (l.treeId, l.treeName)

theorem step_tree (e : Event) (s : Sys) (i : Nat) (p : Option Nat × String) (h : treeOf s i = some p) :
    treeOf (step e s) i = some (treeAfter i [e] p) := by
  cases e with
  | setLevel n => exact h
  | setTree j t n =>
    unfold treeOf at h ⊢
    unfold step
    simp only [treeAfter, List.getElem?_modify]
    cases hl : s.loggers[i]? with
    | none => rw [hl] at h; cases h
    | some l =>
      rw [hl] at h
      simp only [Option.map_some, Option.some.injEq] at h
      by_cases hj : j = i
      · simp [hj]
      · simp [hj, h]
  | subtree j =>
    unfold treeOf at h ⊢
    simp only [step, treeAfter]
    cases hl : s.loggers[j]? with
    | none => exact h
    | some l =>
      dsimp only
      rw [List.getElem?_append_left]
      · exact h
      · cases hi : s.loggers[i]? with
        | none => rw [hi] at h; cases h
        | some x => exact (List.getElem?_eq_some_iff.1 hi).1
  | log j c =>
    unfold treeOf at h ⊢
    unfold step
    rw [(log_frame j c s).1]
    exact h

theorem run_tree (es : List Event) (i : Nat) : ∀ (s : Sys) (p : Option Nat × String), treeOf s i = some p → treeOf (run es s) i = some (treeAfter i es p) := by
  induction es with
  | nil => intro s p h; exact h
  | cons e es ih =>
    intro s p h
    show treeOf (run es (step e s)) i = _
    rw [ih _ _ (step_tree e s i p h)]
    cases e <;> rfl

/-- C102: a log message is published if and only if it is not internal and its level is at least the one that has been asked for last (INFO at first),
no matter which tree or subtree it comes from. Then it bears the given text, the id and name of the node, and the id and name its tree was given
last. -/
theorem c102_published (before after : List Event) (i : Nat) (p : Option Nat × String) (hi : treeOf (run before start) i = some p) (c : Call) :
    let m : Msg := { level := c.sev.num, text := c.text, treeId := (treeAfter i after p).1, treeName := (treeAfter i after p).2,
                     nodeId := c.nodeId, nodeName := c.nodeName }
    (run (before ++ after ++ [.log i c]) start).published =
      (run (before ++ after) start).published ++
        if c.internal = false ∧ levelAfter (before ++ after) 20 ≤ c.sev.num then [m] else [] := by
  have e : run (before ++ after ++ [.log i c]) start = log i c (run (before ++ after) start) := by simp [run, step]
  have e2 : run (before ++ after) start = run after (run before start) := by simp [run]
  have ht := run_tree after i (run before start) p hi
  rw [← e2] at ht
  have hm := run_min (before ++ after) start
  have hc := (run_kept (before ++ after) start).calls (by intro l hl; simp [start] at hl; subst hl; rfl)
  dsimp only
  rw [e]
  generalize run (before ++ after) start = s at ht hm hc
  unfold treeOf at ht
  cases hl : s.loggers[i]? with
  | none => rw [hl] at ht; cases ht
  | some l =>
    rw [hl] at ht
    simp only [Option.map_some, Option.some.injEq] at ht
    have hcb := hc l (List.mem_of_getElem? hl)
    unfold log
    rw [hl]
    dsimp only
    have hm' : s.min = levelAfter (before ++ after) 20 := hm
    by_cases hlev : s.min > c.sev.num
    · rw [if_pos hlev, if_neg (by rw [← hm']; omega)]
      simp
    · rw [if_neg hlev]
      cases hint : c.internal with
      | true => simp
      | false =>
        have : levelAfter (before ++ after) 20 ≤ c.sev.num := by rw [← hm']; omega
        simp only [Bool.false_eq_true, if_false, hcb, if_true, true_and, this]
        congr 2
        unfold message
        rw [← ht]

/-- C102: as long as nobody asks for a level above FATAL, no fatal message is lost. -/
theorem c102_fatal_partial (before after : List Event) (i : Nat) (p : Option Nat × String) (hi : treeOf (run before start) i = some p)
    (h : ∀ n, .setLevel n ∈ before ++ after → n ≤ 50) (c : Call) (hc : c.sev = .fatal) (hn : c.internal = false) :
    (run (before ++ after ++ [.log i c]) start).published.length = (run (before ++ after) start).published.length + 1 := by
  have key : ∀ (es : List Event) (n : Nat), n ≤ 50 → (∀ k, .setLevel k ∈ es → k ≤ 50) → levelAfter es n ≤ 50 := by
    intro es
    induction es with
    | nil => intro n hn _; exact hn
    | cons e es ih =>
      intro n hn hk
      cases e with
      | setLevel k => exact ih k (hk k (by simp)) (fun k' h' => hk k' (by simp [h']))
      | _ => exact ih n hn (fun k' h' => hk k' (by simp [h']))
  have hl := key (before ++ after) 20 (by omega) h
  have := c102_published before after i p hi c
  dsimp only at this
  rw [this, if_pos ⟨hn, by rw [hc]; exact hl⟩]
  simp

/-- C102, violated: `set_log_level` takes any byte; above 50 even fatal messages are lost. -/
theorem c102_fatal_lost :
    (run [.setLevel 51, .log 0 { sev := .fatal, text := "x" }] start).published = [] ∧
    (run [.setLevel 51, .log 0 { sev := .fatal, text := "x" }] start).ros = [] := by decide

/-! ### The names of the loggers of ROS -/

/-- logging_manager.py 89: `re.sub(r"\W+", "_", name)`; `word` tells the characters of `\w`; the flag: inside a run of other ones. -/
def clean (word : Char → Bool) : Bool → List Char → List Char
  | _, [] => []
  | run, c :: cs => if word c then c :: clean word false cs else if run then clean word true cs else '_' :: clean word true cs

/-- logging_manager.py 84-90: `get_ros_log_name`; `uuid` is the text of the id. -/
def logName (word : Char → Bool) (uuid name : List Char) : List Char := clean word false name ++ '(' :: uuid ++ [')']

/-- logging_manager.py 92-106: `get_ros_logger`; `get_child` joins with a dot. A node is only looked at if there is a tree. -/
def loggerName (word : Char → Bool) (base : List Char) (tree : Option (List Char × List Char)) (node : Option (List Char × List Char)) : List Char :=
  match tree with
  | none => base
  | some t =>
    match node with
    | none => base ++ '.' :: logName word t.1 t.2
    | some n => base ++ '.' :: logName word t.1 t.2 ++ '.' :: logName word n.1 n.2

/-- The text of an id: digits, letters a to f and hyphens. -/
def IdText (u : List Char) : Prop := ∀ c ∈ u, c ∈ "0123456789abcdef-".toList

theorem clean_mem (word : Char → Bool) : ∀ (l : List Char) (b : Bool), ∀ c ∈ clean word b l, word c = true ∨ c = '_' := by
  intro l
  induction l with
  | nil => intro b c hc; simp [clean] at hc
  | cons x l ih =>
    intro b c hc
    unfold clean at hc
    split at hc
    · rename_i hx
      rcases List.mem_cons.1 hc with rfl | hc
      · exact .inl hx
      · exact ih _ c hc
    · split at hc
      · exact ih _ c hc
      · rcases List.mem_cons.1 hc with rfl | hc
        · exact .inr rfl
        · exact ih _ c hc

/-- What comes before the first `x` is determined. -/
theorem split_first {x : Char} : ∀ {a b c d : List Char}, x ∉ a → x ∉ b → a ++ x :: c = b ++ x :: d → a = b ∧ c = d := by
  intro a
  induction a with
  | nil =>
    intro b c d _ hb h
    cases b with
    | nil => simp at h; exact ⟨rfl, h⟩
    | cons y b => simp at h; exact absurd h.1 (by intro e; subst e; simp at hb)
  | cons y a ih =>
    intro b c d ha hb h
    cases b with
    | nil => simp at h; exact absurd h.1.symm (by intro e; subst e; simp at ha)
    | cons z b =>
      simp at h
      have := ih (b := b) (fun e => ha (by simp [e])) (fun e => hb (by simp [e])) h.2
      exact ⟨by rw [h.1, this.1], this.2⟩

theorem logName_no_dot {word : Char → Bool} (hd : word '.' = false) {u : List Char} (hu : IdText u) (n : List Char) : '.' ∉ logName word u n := by
  unfold logName
  intro h
  rcases List.mem_append.1 h with h | h
  · rcases List.mem_append.1 h with h | h
    · rcases clean_mem word n false _ h with h | h
      · rw [hd] at h; cases h
      · revert h; decide
    · rcases List.mem_cons.1 h with h | h
      · revert h; decide
      · have := hu _ h
        revert this; decide +kernel
  · revert h; decide

theorem logName_id {word : Char → Bool} (hp : word '(' = false) {u v n k : List Char} (h : logName word u n = logName word v k) : u = v := by
  have no : ∀ l : List Char, '(' ∉ clean word false l := by
    intro l hl
    rcases clean_mem word l false _ hl with h | h
    · rw [hp] at h; cases h
    · revert h; decide
  unfold logName at h
  simp only [List.append_assoc, List.cons_append] at h
  have := (split_first (no n) (no k) h).2
  exact List.append_cancel_right this

/-- C102: the loggers of ROS of different trees and nodes have different names, whatever the trees and nodes are called. -/
theorem c102_loggers {word : Char → Bool} (hd : word '.' = false) (hp : word '(' = false) (base : List Char) (t t' n n' : List Char × List Char)
    (ht : IdText t.1) (ht' : IdText t'.1) (h : loggerName word base (some t) (some n) = loggerName word base (some t') (some n')) :
    t.1 = t'.1 ∧ n.1 = n'.1 := by
  unfold loggerName at h
  dsimp only at h
  simp only [List.append_assoc, List.cons_append] at h
  have h := List.append_cancel_left h
  simp only [List.cons.injEq, true_and] at h
  have := split_first (logName_no_dot hd ht _) (logName_no_dot hd ht' _) h
  exact ⟨logName_id hp this.1, logName_id hp this.2⟩

/-! ### Examples -/

/-- The main tree makes a subtree; the level is set on the way. Only what is at least a warning comes out after that, also from the subtree. -/
example :
    let es : List Event := [.setTree 0 (some 7) "main", .log 0 { sev := .info, text := "a" }, .log 0 { sev := .debug, text := "b" }, .subtree 0,
      .setTree 1 (some 8) "sub", .setLevel 30, .log 1 { sev := .info, text := "c" }, .log 1 { sev := .error, text := "d", nodeId := some 3, nodeName := "n" },
      .log 0 { sev := .fatal, text := "e", internal := true }]
    (run es start).published = [⟨20, "a", some 7, "main", none, ""⟩, ⟨40, "d", some 8, "sub", some 3, "n"⟩] ∧ (run es start).ros.length = 3 ∧
    treeOf (run es start) 1 = some (some 8, "sub") := by decide +kernel

/-- Two trees with the same name. -/
example : loggerName (fun c => c.isAlphanum) "bt".toList (some ("a1".toList, "x y".toList)) (some ("b-2".toList, "n".toList)) = "bt.x_y(a1).n(b-2)".toList ∧
    IdText "a1".toList ∧ IdText "b-2".toList := by
  refine ⟨by decide +kernel, ?_, ?_⟩ <;> unfold IdText <;> decide +kernel

end Verif.Exec.Log
