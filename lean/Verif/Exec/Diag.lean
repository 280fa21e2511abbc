/-! C96: the diagnostics of nodes (`debug_manager.py`). An execution is given by the calls of `setup`, `tick`, `untick`, `reset` and `shutdown` of nodes that happen in it, one in another, and by the
points where another thread switches the collecting on or off. -/

set_option autoImplicit false

namespace Verif.Exec.Diag

/-- The calls that are reported. -/
inductive Kind
  | setup
  | tick
  | untick
  | reset
  | shutdown
  deriving DecidableEq

/-- A node: its id, its name, and the names of its parent, the parent of that, and so on. -/
structure Node where
  id : Nat
  name : String
  above : List String := []
  deriving DecidableEq

/-- `diagnostics_state` (debug_manager.py 55-72) and the strings in `report_tick` (debug_manager.py 166, 184). -/
inductive State
  | pre (k : Kind)
  | post (k : Kind)
  deriving DecidableEq

/-- A message: the node, the path and the value for the key `state`, if there is one. Time stamp, module and class are left out. -/
structure Msg where
  node : Nat
  name : String
  path : List String
  state : Option State
  deriving DecidableEq

/-- What happens: a call of a node with what happens in it (and whether it raises an exception after that) and what comes afterwards; or the switching of the collecting. -/
inductive Calls
  | done
  | call (k : Kind) (n : Node) (raises : Bool) (inner rest : Calls)
  | switch (b : Bool) (rest : Calls)
  deriving DecidableEq

/-- debug_manager.py 124-129, 170-175: the names from the node to the root, turned round. -/
def Node.path (n : Node) : List String := (n.name :: n.above).reverse

/-- debug_manager.py 113-132, 158-178: the message before; `report_state` sets no `state`. -/
def before (k : Kind) (n : Node) : Msg := ⟨n.id, n.name, n.path, if k = .tick then some (.pre .tick) else none⟩

/-- debug_manager.py 137-143, 183-189: the message after. -/
def after (k : Kind) (n : Node) : Msg := ⟨n.id, n.name, n.path, some (.post k)⟩

/-- What comes out: whether collecting is switched on, the messages, and whether an exception was raised. -/
structure Res where
  on : Bool
  msgs : List Msg
  raised : Bool
  deriving DecidableEq

/-- debug_manager.py 98-189: `report_state` and `report_tick` around the calls. If the collecting has been switched on during a call, the dict `diagnostics` has no `name`
and `_dict_to_diagnostics_msg` (debug_manager.py 84-96) raises `KeyError` out of it. An exception of the call leaves the generator at `yield`. -/
def run : Bool → Calls → Res
  | c, .done => ⟨c, [], false⟩
  | _, .switch b rest => run b rest
  | c, .call k n raises inner rest =>
    let ms := if c then [before k n] else []
    let r := run c inner
    if r.raised || raises then ⟨r.on, ms ++ r.msgs, true⟩
    else if r.on then
      if c then
        let r2 := run r.on rest
        ⟨r2.on, ms ++ r.msgs ++ after k n :: r2.msgs, r2.raised⟩
      else ⟨r.on, ms ++ r.msgs, true⟩
    else
      let r2 := run r.on rest
      ⟨r2.on, ms ++ r.msgs ++ r2.msgs, r2.raised⟩

/-! ### What users expect -/

/-- Nobody switches. -/
def Calls.Steady : Calls → Prop
  | .done => True
  | .switch _ _ => False
  | .call _ _ _ inner rest => inner.Steady ∧ rest.Steady

/-- An exception comes out of what happens, by itself. -/
def Calls.Raises : Calls → Prop
  | .done => False
  | .switch _ rest => rest.Raises
  | .call _ _ raises inner rest => inner.Raises ∨ raises = true ∨ rest.Raises

/-- How often a node is called. -/
def Calls.count (k : Kind) (i : Nat) : Calls → Nat
  | .done => 0
  | .switch _ rest => rest.count k i
  | .call k' n _ inner rest => (if k' = k ∧ n.id = i then 1 else 0) + inner.count k i + rest.count k i

/-- A node is called. -/
def Calls.Has (k : Kind) (n : Node) : Calls → Prop
  | .done => False
  | .switch _ rest => rest.Has k n
  | .call k' n' _ inner rest => (k' = k ∧ n' = n) ∨ inner.Has k n ∨ rest.Has k n

/-- A list of names leads from the root of the tree to a node: its last entry is the name of the node, and before that are the names of those above it, the farthest first. -/
def FromRoot (n : Node) (l : List String) : Prop := l.length = n.above.length + 1 ∧ l[n.above.length]? = some n.name ∧ ∀ i s, n.above[i]? = some s → l[n.above.length - 1 - i]? = some s

/-- Whether a message says that a call is over. -/
def Msg.closes (m : Msg) : Option Kind := match m.state with | some (.post k) => some k | _ => none

/-- Reading the messages with the calls that are open: a message that a call is over must be about the node whose call was begun last and is still open. -/
def reads : List Nat → List Msg → Option (List Nat)
  | open_, [] => some open_
  | open_, m :: r =>
    match m.closes with
    | none => reads (m.node :: open_) r
    | some _ =>
      match open_ with
      | [] => none
      | i :: rest => if i = m.node then reads rest r else none

/-! ### C96 -/

theorem reads_append (a b : List Msg) : ∀ o, reads o (a ++ b) = (reads o a).bind fun o' => reads o' b := by
  induction a with
  | nil => intro o; rfl
  | cons m a ih =>
    intro o
    simp only [List.cons_append, reads]
    split
    · exact ih _
    · split
      · rfl
      · split
        · exact ih _
        · rfl

theorem run_steady (c : Calls) : c.Steady → ∀ b, (run b c).on = b ∧ ((run b c).raised = true ↔ c.Raises) := by
  induction c with
  | done => intro _ b; exact ⟨rfl, by simp [run, Calls.Raises]⟩
  | switch b r _ => intro h; exact h.elim
  | call k n raises inner rest ih1 ih2 =>
    intro h b
    obtain ⟨h1, h2⟩ := ih1 h.1 b
    obtain ⟨h3, h4⟩ := ih2 h.2 b
    simp only [run, h1, Calls.Raises]
    by_cases hr : inner.Raises ∨ raises = true
    · have : ((run b inner).raised || raises) = true := by
        rw [Bool.or_eq_true, h2]; exact hr
      rw [if_pos this]
      exact ⟨rfl, by simp only [true_iff]; exact hr.elim Or.inl fun h => Or.inr (Or.inl h)⟩
    · have : ¬ ((run b inner).raised || raises) = true := by
        rw [Bool.or_eq_true, h2]; exact hr
      rw [if_neg this]
      have e : (inner.Raises ∨ raises = true ∨ rest.Raises) ↔ rest.Raises := by
        constructor
        · rintro (h | h | h)
          · exact absurd (Or.inl h) hr
          · exact absurd (Or.inr h) hr
          · exact h
        · exact fun h => Or.inr (Or.inr h)
      cases b
      · simp only [Bool.false_eq_true, if_false, e]; exact ⟨h3, h4⟩
      · simp only [if_true, e]; exact ⟨h3, h4⟩

/-- C96: as long as nobody switches, collecting diagnostics does not matter for what happens: exceptions come only from the nodes themselves. -/
theorem c96_transparent_partial (c : Calls) (h : c.Steady) (b : Bool) : (run b c).raised = true ↔ c.Raises := (run_steady c h b).2

/-- C96: with collecting switched off there is no message. -/
theorem c96_off (c : Calls) (h : c.Steady) : (run false c).msgs = [] := by
  induction c with
  | done => rfl
  | switch b r _ => exact h.elim
  | call k n raises inner rest ih1 ih2 =>
    have h1 := (run_steady inner h.1 false).1
    simp only [run, Bool.false_eq_true, if_false, h1, ih1 h.1, ih2 h.2, List.nil_append]
    split <;> rfl

/-- C96: with collecting switched on and no exception, every call of every node is reported once when it begins and once when it ends, and the messages are nested like the calls. -/
theorem c96_on_partial (c : Calls) (h : c.Steady) (hr : ¬ c.Raises) : (∀ o, reads o (run true c).msgs = some o) ∧
    ∀ k i, ((run true c).msgs.filter fun m => m.node = i ∧ m.closes = some k).length = c.count k i := by
  induction c with
  | done => exact ⟨fun _ => rfl, fun _ _ => rfl⟩
  | switch b r _ => exact h.elim
  | call k n raises inner rest ih1 ih2 =>
    simp only [Calls.Raises, not_or] at hr
    obtain ⟨i1, i2⟩ := ih1 h.1 hr.1
    obtain ⟨j1, j2⟩ := ih2 h.2 hr.2.2
    have h1 := (run_steady inner h.1 true).1
    have hn : ¬ ((run true inner).raised || raises) = true := by
      rw [Bool.or_eq_true, (run_steady inner h.1 true).2]
      rintro (e | e)
      · exact hr.1 e
      · exact hr.2.1 e
    have hb : (before k n).closes = none := by
      cases k <;> rfl
    simp only [run, h1, if_true, if_neg hn, List.cons_append, List.nil_append]
    constructor
    · intro o
      rw [reads.eq_def]
      dsimp only
      rw [hb]
      dsimp only
      rw [reads_append, i1]
      simp only [Option.bind_some, reads, after, Msg.closes, before, if_true]
      exact j1 o
    · intro k' i
      rw [List.filter_cons_of_neg (by rw [hb]; simp), List.filter_append, List.length_append, i2 k' i, List.filter_cons]
      simp only [Calls.count]
      have hc : (after k n).closes = some k := rfl
      have hm : (after k n).node = n.id := rfl
      rw [hc, hm]
      by_cases he : n.id = i ∧ some k = some k'
      · rw [if_pos (by simpa using he), List.length_cons, j2 k' i]
        obtain ⟨e1, e2⟩ := he
        rw [if_pos ⟨Option.some.inj e2, e1⟩]
        omega
      · rw [if_neg (by simpa using he), j2 k' i, if_neg]
        · omega
        · rintro ⟨rfl, e⟩
          exact he ⟨e, rfl⟩

theorem path_fromRoot (n : Node) : FromRoot n n.path := by
  refine ⟨by simp [Node.path], by simp [Node.path], fun i s h => ?_⟩
  have hi : i < n.above.length := (List.getElem?_eq_some_iff.1 h).1
  unfold Node.path
  rw [List.getElem?_reverse (by simp; omega)]
  rw [List.length_cons, show n.above.length + 1 - 1 - (n.above.length - 1 - i) = i + 1 by omega]
  exact h

theorem mem_run (c : Calls) : ∀ (b : Bool), ∀ m ∈ (run b c).msgs, ∃ k n, c.Has k n ∧ (m = before k n ∨ m = after k n) := by
  induction c with
  | done => intro b m hm; cases hm
  | switch b' r ih => intro b; exact ih b'
  | call k n raises inner rest ih1 ih2 =>
    intro b m hm
    have key : m = before k n ∨ m = after k n ∨ m ∈ (run b inner).msgs ∨ m ∈ (run (run b inner).on rest).msgs := by
      have : ∀ l : List Msg, m ∈ (if b = true then [before k n] else []) ++ l → m = before k n ∨ m ∈ l := by
        intro l h
        rcases List.mem_append.1 h with h | h
        · cases b
          · cases h
          · exact Or.inl (List.mem_singleton.1 h)
        · exact Or.inr h
      simp only [run] at hm
      generalize (if b = true then [before k n] else [] : List Msg) = pre at hm this
      split at hm
      · rcases this _ hm with h | h
        · exact Or.inl h
        · exact Or.inr (Or.inr (Or.inl h))
      · split at hm
        · split at hm
          · dsimp only at hm
            rw [List.append_assoc] at hm
            rcases this _ hm with h | h
            · exact Or.inl h
            · rcases List.mem_append.1 h with h | h
              · exact Or.inr (Or.inr (Or.inl h))
              · rcases List.mem_cons.1 h with h | h
                · exact Or.inr (Or.inl h)
                · exact Or.inr (Or.inr (Or.inr h))
          · rcases this _ hm with h | h
            · exact Or.inl h
            · exact Or.inr (Or.inr (Or.inl h))
        · dsimp only at hm
          rw [List.append_assoc] at hm
          rcases this _ hm with h | h
          · exact Or.inl h
          · rcases List.mem_append.1 h with h | h
            · exact Or.inr (Or.inr (Or.inl h))
            · exact Or.inr (Or.inr (Or.inr h))
    rcases key with h | h | h | h
    · exact ⟨k, n, Or.inl ⟨rfl, rfl⟩, Or.inl h⟩
    · exact ⟨k, n, Or.inl ⟨rfl, rfl⟩, Or.inr h⟩
    · obtain ⟨k', n', h1, h2⟩ := ih1 b m h
      exact ⟨k', n', Or.inr (Or.inl h1), h2⟩
    · obtain ⟨k', n', h1, h2⟩ := ih2 _ m h
      exact ⟨k', n', Or.inr (Or.inr h1), h2⟩

/-- C96: whoever switches when, every message is about a node that is called in the execution, and gives the names on the way from the root of the tree to that node. -/
theorem c96_path (c : Calls) (b : Bool) : ∀ m ∈ (run b c).msgs, ∃ k n, c.Has k n ∧ m.node = n.id ∧ m.name = n.name ∧ FromRoot n m.path := by
  intro m hm
  obtain ⟨k, n, h1, h2⟩ := mem_run c b m hm
  refine ⟨k, n, h1, ?_⟩
  rcases h2 with rfl | rfl
  · exact ⟨rfl, rfl, path_fromRoot n⟩
  · exact ⟨rfl, rfl, path_fromRoot n⟩

/-- Violation of C96: if collecting is switched on while a node is called, the call raises an exception, whatever node it is and whatever else happens. -/
theorem c96_switched_on (k : Kind) (n : Node) (inner rest : Calls) (h : (run false inner).on = true) : (run false (.call k n false inner rest)).raised = true := by
  simp only [run, h, Bool.or_false, Bool.false_eq_true, if_false, if_true]
  split <;> rfl

/-- Violation of C96: if it is switched off while a node is called, the end of that call is not reported. -/
theorem c96_switched_off (k : Kind) (n : Node) : (run true (.call k n false (.switch false .done) .done)).msgs = [before k n] := rfl

/-- Violation of C96: a call that raises an exception is reported when it begins, but not when it ends. -/
theorem c96_raised (k : Kind) (n : Node) (inner rest : Calls) :
    (run true (.call k n true inner rest)).msgs = before k n :: (run true inner).msgs := by
  simp only [run, Bool.or_true, if_true]
  rfl

/-- Violation of C96: no message says that a setup, untick, reset or shutdown begins (there are strings for that, but they are not used). -/
theorem c96_no_pre (c : Calls) (b : Bool) (k : Kind) (hk : k ≠ .tick) : ∀ m ∈ (run b c).msgs, m.state ≠ some (.pre k) := by
  intro m hm
  obtain ⟨j, n, _, h⟩ := mem_run c b m hm
  rcases h with rfl | rfl
  · intro e
    cases j <;> cases e
    exact hk rfl
  · intro e; cases e

/-! ### Samples -/

/-- A setup and a tick of a root with a child. -/
def sample : Calls :=
  .call .setup ⟨1, "root", []⟩ false (.call .setup ⟨2, "leaf", ["root"]⟩ false .done .done) (.call .tick ⟨1, "root", []⟩ false (.call .tick ⟨2, "leaf", ["root"]⟩ false .done .done) .done)

example : sample.Steady ∧ ¬ sample.Raises ∧ sample.count .tick 2 = 1 := by simp [sample, Calls.Steady, Calls.Raises, Calls.count]

example : (run true sample).msgs = [⟨1, "root", ["root"], none⟩, ⟨2, "leaf", ["root", "leaf"], none⟩, ⟨2, "leaf", ["root", "leaf"], some (.post .setup)⟩, ⟨1, "root", ["root"], some (.post .setup)⟩,
    ⟨1, "root", ["root"], some (.pre .tick)⟩, ⟨2, "leaf", ["root", "leaf"], some (.pre .tick)⟩, ⟨2, "leaf", ["root", "leaf"], some (.post .tick)⟩, ⟨1, "root", ["root"], some (.post .tick)⟩] := by decide

/-- For `c96_switched_on`: switching between two ticks is harmless, switching while the child is ticked is not. -/
example : (run false (.call .tick ⟨1, "root", []⟩ false .done (.switch true (.call .tick ⟨1, "root", []⟩ false .done .done)))).raised = false ∧
    (run false (.call .tick ⟨1, "root", []⟩ false (.call .tick ⟨2, "leaf", ["root"]⟩ false .done (.switch true .done)) .done)).raised = true := by decide

end Verif.Exec.Diag
