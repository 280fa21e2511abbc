import Verif.BT.Sem
import Verif.Data.Updates

/-! C124: whole trees with their data. Here the nodes of a tree are run together with the data flow: what a hook finds at its inputs is what the hooks of
other nodes have put there. `Verif/BT` leaves the data open, `Verif/Data` the order in which the nodes are called. -/

set_option autoImplicit false

namespace Verif.Whole.Values

open Verif.Data
open Verif.BT (BTState Res Op)

/-! ### The model -/

/-- The operations between setup and shutdown: `Node.tick` (node.py 408), `untick` (515) and `reset` (579). -/
inductive Act
  | tick | untick | reset
  deriving DecidableEq

/-- The same among all operations. -/
def Act.op : Act → Op
  | .tick => .tick
  | .untick => .untick
  | .reset => .reset

/-- The body of a hook (`_do_tick`, `_do_untick`, `_do_reset` of any class): it may call operations of children, look at their state, look at
the own inputs and outputs (node_config.py 66-107) and set outputs (109-123). `M` is what the class keeps in its attributes. -/
inductive Hook (M : Type)
  | done (m : M) (r : Res)
  | call (a : Act) (i : Nat) (k : Res → Hook M)
  | peek (i : Nat) (k : BTState → Hook M)
  | read (k : NodeData → Hook M)
  | write (key : String) (v : Val) (k : Ans → Hook M)

/-- A node (node.py 132-266) whose children are of type `N`: any class. Its hooks get the number of calls so far (so that the outside world may answer
differently each time), the state, the attributes and the names of the children. -/
structure Node (M N : Type) where
  id : Nat
  name : Nat
  state : BTState
  mem : M
  ctr : Nat
  hook : Act → Nat → BTState → M → List Nat → Hook M
  children : List N

/-- The hook `_do_tick` of the node `id` is entered; the data of all nodes at this moment. -/
structure Snap where
  id : Nat
  sys : Sys

/-- What an operation leads to. -/
structure Out (N : Type) where
  node : N
  res : Res
  sys : Sys
  seen : List Snap

/-- What a node may do with a child. -/
structure Ops (N : Type) where
  run : Act → N → Sys → Out N
  state : N → BTState
  name : N → Nat

/-- What a hook leads to. -/
structure Done (M N : Type) where
  children : List N
  mem : M
  res : Res
  sys : Sys
  seen : List Snap

variable {M N : Type}

/-- Runs a hook of the node `id`. (A call of a child that does not exist cannot be written in Python; the model lets it answer `Err`.) -/
def exec (o : Ops N) (id : Nat) : Hook M → List N → Sys → Done M N
  | .done m r, cs, y => ⟨cs, m, r, y, []⟩
  | .call a i k, cs, y =>
    match cs[i]? with
    | none => exec o id (k .err) cs y
    | some c =>
      let out := o.run a c y
      let rest := exec o id (k out.res) (cs.set i out.node) out.sys
      { rest with seen := out.seen ++ rest.seen }
  | .peek i k, cs, y =>
    match cs[i]? with
    | none => exec o id (k .uninitialized) cs y
    | some c => exec o id (k (o.state c)) cs y
  | .read k, cs, y => exec o id (k ((y.flow.nodes.lookup id).getD ⟨[], []⟩)) cs y
  | .write key v k, cs, y =>
    let r := y.flow.step (.write id key v)
    exec o id (k r.2) cs { y with flow := r.1 }

namespace Node

/-- The hook of the node for an operation. -/
def body (o : Ops N) (a : Act) (nd : Node M N) : Hook M := nd.hook a nd.ctr nd.state nd.mem (nd.children.map o.name)

/-- The node after its hook. -/
def after (nd : Node M N) (x : Done M N) (s : BTState) : Node M N :=
  { nd with state := s, mem := x.mem, ctr := nd.ctr + 1, children := x.children }

/-- The node after a call without hook. -/
def skip (nd : Node M N) (s : BTState) : Node M N := { nd with state := s, ctr := nd.ctr + 1 }

/-- node.py 423-484: `tick`. The phases of `Sys` are only there to be observed: they say which ticks are under way and which nodes are BROKEN. (A
`TypeError` while pushing counts as `Err`.) -/
def tick (o : Ops N) (nd : Node M N) (y : Sys) : Out (Node M N) :=
  if BT.accepts .tick nd.state then
    let b := y.flow.step (.begin nd.id)
    if b.2 = .ok then
      let y1 := Sys.enter { y with flow := b.1 } nd.id .active
      let x := exec o nd.id (nd.body o .tick) nd.children y1
      let seen := ⟨nd.id, y1⟩ :: x.seen
      match x.res with
      | .err => ⟨nd.after x .broken, .err, x.sys.enter nd.id .broken, seen⟩
      | .ok s =>
        if BT.allowedAfter .tick s then
          let e := x.sys.flow.step (.finish nd.id)
          if e.2 = .ok then ⟨nd.after x s, .ok s, Sys.enter { x.sys with flow := e.1 } nd.id .idle, seen⟩
          else ⟨nd.after x .broken, .err, Sys.enter { x.sys with flow := e.1 } nd.id .broken, seen⟩
        else ⟨nd.after x s, .err, Sys.enter { x.sys with flow := x.sys.flow.allInputs nd.id Cont.resetUpdated } nd.id .idle, seen⟩
    else ⟨nd.skip .broken, .err, y.enter nd.id .broken, []⟩
  else ⟨nd.skip nd.state, .err, y, []⟩

/-- node.py 531-559: `untick`. -/
def untick (o : Ops N) (nd : Node M N) (y : Sys) : Out (Node M N) :=
  if BT.accepts .untick nd.state then
    let x := exec o nd.id (nd.body o .untick) nd.children y
    match x.res with
    | .err => ⟨nd.after x .broken, .err, x.sys.enter nd.id .broken, x.seen⟩
    | .ok s =>
      if BT.allowedAfter .untick s then ⟨nd.after x s, .ok s, { x.sys with flow := (x.sys.flow.step (.untick nd.id)).1 }, x.seen⟩
      else ⟨nd.after x s, .err, x.sys, x.seen⟩
  else ⟨nd.skip nd.state, .err, y, []⟩

/-- node.py 593-626: `reset`. -/
def reset (o : Ops N) (nd : Node M N) (y : Sys) : Out (Node M N) :=
  if BT.accepts .reset nd.state then
    let x := exec o nd.id (nd.body o .reset) nd.children { y with flow := (y.flow.step (.reset nd.id)).1 }
    match x.res with
    | .err => ⟨nd.after x .broken, .err, x.sys.enter nd.id .broken, x.seen⟩
    | .ok s => ⟨nd.after x s, if BT.allowedAfter .reset s then .ok s else .err, x.sys, x.seen⟩
  else ⟨nd.skip nd.state, .err, y, []⟩

/-- The operations of a node. -/
def ops (o : Ops N) : Ops (Node M N) where
  run := fun
    | .tick => tick o
    | .untick => untick o
    | .reset => reset o
  state := Node.state
  name := Node.name

end Node

/-- Trees of depth at most `n`. -/
def Tree (M : Type) : Nat → Type
  | 0 => Empty
  | n + 1 => Node M (Tree M n)

/-- The operations of trees. -/
def ops (M : Type) : (n : Nat) → Ops (Tree M n)
  | 0 => ⟨fun _ t => Empty.elim t, fun t => Empty.elim t, fun t => Empty.elim t⟩
  | n + 1 => Node.ops (ops M n)

/-- What happens to a tree: an operation of the root (tree_exec_manager.py 689-740), or data from a surrounding tree (C92). -/
inductive Move
  | act (a : Act)
  | incoming
  | offer (n : Nat) (k : String) (c : Cont)

/-- One move. -/
def step (n : Nat) (t : Tree M n) (y : Sys) : Move → Out (Tree M n)
  | .act a => (ops M n).run a t y
  | .incoming => ⟨t, .ok .idle, { y with flow := (y.flow.step .incoming).1 }, []⟩
  | .offer m k c => ⟨t, .ok .idle, { y with flow := (y.flow.step (.offer m k c)).1 }, []⟩

/-- A history: the tree and the data at its end, and what all hooks have found. -/
def runs (n : Nat) : List Move → Tree M n → Sys → Tree M n × Sys × List Snap
  | [], t, y => (t, y, [])
  | a :: as, t, y =>
    let out := step n t y a
    let (t', y', seen) := runs n as out.node out.sys
    (t', y', out.seen ++ seen)

/-! ### What is asked of the nodes -/

/-- A hook that behaves: `_do_tick` answers with a state in which a tick may end, or with an error, if its children do so; outputs are set in ticks only, and
each of them once at most (those of `ws` have been set). `I` is anything that the hooks keep true of the attributes. -/
def Fit (I : M → Prop) (a : Act) : List String → Hook M → Prop
  | _, .done m r => I m ∧ (a = .tick → ∀ s, r = .ok s → BT.allowedAfter .tick s = true)
  | ws, .call b _ k => ∀ r, (∀ s, r = .ok s → BT.allowedAfter b.op s = true) → Fit I a ws (k r)
  | ws, .peek _ k => ∀ s, Fit I a ws (k s)
  | ws, .read k => ∀ d, Fit I a ws (k d)
  | ws, .write key _ k => a = .tick ∧ key ∉ ws ∧ ∀ r, Fit I a (key :: ws) (k r)

/-- All hooks of a node behave. -/
def Node.Fit (I : M → Prop) (nd : Node M N) : Prop := ∀ a c s m l, I m → Values.Fit I a [] (nd.hook a c s m l)

/-- All nodes of a tree do. -/
def AllFit (I : M → Prop) : (n : Nat) → Tree M n → Prop
  | 0, t => Empty.elim t
  | n + 1, (t : Node M (Tree M n)) => (t.Fit I ∧ I t.mem) ∧ ∀ c ∈ t.children, AllFit I n c

/-- All nodes of a tree with their states. -/
def states : (n : Nat) → Tree M n → List (Nat × BTState)
  | 0, t => Empty.elim t
  | n + 1, (t : Node M (Tree M n)) => (t.id, t.state) :: t.children.flatMap (states n)

/-- The node `a` is the node `b` or above it. -/
def above : (n : Nat) → Tree M n → Nat → Nat → Prop
  | 0, t => Empty.elim t
  | n + 1, (t : Node M (Tree M n)) => fun a b => a = t.id ∧ b ∈ (states (n + 1) t).map (·.1) ∨ ∃ c ∈ t.children, above n c a b

/-! ### What the children of a node may be assumed to do -/

/-- No tick of these nodes is under way, and the nodes that accept ticks are not BROKEN. -/
def Calm (l : List (Nat × BTState)) (ph : Nat → Phase) : Prop :=
  ∀ p ∈ l, ph p.1 ≠ .active ∧ (BT.accepts .tick p.2 = true → ph p.1 = .idle)

theorem calm_congr {l : List (Nat × BTState)} {ph ph' : Nat → Phase} (h : Calm l ph) (e : ∀ p ∈ l, ph' p.1 = ph p.1) : Calm l ph' :=
  fun p hp => by rw [e p hp]; exact h p hp

/-- What is not touched: the connections, and phases and outputs of other nodes. -/
structure Frame (l : List Nat) (y y' : Sys) : Prop where
  conns : y'.flow.conns = y.flow.conns
  phase : ∀ n, n ∉ l → y'.phase n = y.phase n
  output : ∀ n, n ∉ l → ∀ k, y'.flow.output n k = y.flow.output n k

theorem Frame.refl (l : List Nat) (y : Sys) : Frame l y y := ⟨rfl, fun _ _ => rfl, fun _ _ _ => rfl⟩

theorem Frame.trans {l : List Nat} {y y' y'' : Sys} (h : Frame l y y') (g : Frame l y' y'') : Frame l y y'' :=
  ⟨g.conns.trans h.conns, fun n hn => (g.phase n hn).trans (h.phase n hn), fun n hn k => (g.output n hn k).trans (h.output n hn k)⟩

theorem Frame.mono {l l' : List Nat} {y y' : Sys} (h : Frame l y y') (e : ∀ n ∈ l, n ∈ l') : Frame l' y y' :=
  ⟨h.conns, fun n hn => h.phase n (fun g => hn (e n g)), fun n hn => h.output n (fun g => hn (e n g))⟩

/-- A hook that was entered: the tick is under way, the data is in step, no ticks are under way but those of nodes above it and those that were before. -/
structure Fine (l : List Nat) (ab : Nat → Nat → Prop) (y : Sys) (s : Snap) : Prop where
  sync : InStep s.sys
  mem : s.id ∈ l
  active : s.sys.phase s.id = .active
  conns : s.sys.flow.conns = y.flow.conns
  path : ∀ m, s.sys.phase m = .active → y.phase m = .active ∨ ab m s.id

/-- An operation is correct. -/
structure Right (sts : N → List (Nat × BTState)) (abv : N → Nat → Nat → Prop) (good : N → Prop) (a : Act) (c : N) (y : Sys) (out : Out N) : Prop where
  sync : InStep out.sys
  calm : Calm (sts out.node) out.sys.phase
  good : good out.node
  ids : (sts out.node).map (·.1) = (sts c).map (·.1)
  shape : ∀ a b, abv out.node a b ↔ abv c a b
  frame : Frame ((sts c).map (·.1)) y out.sys
  res : ∀ s, out.res = .ok s → BT.allowedAfter a.op s = true
  seen : ∀ s ∈ out.seen, Fine ((sts c).map (·.1)) (abv c) y s

/-- All operations are. -/
def Sound (o : Ops N) (sts : N → List (Nat × BTState)) (abv : N → Nat → Nat → Prop) (good : N → Prop) : Prop :=
  ∀ a c y, good c → ((sts c).map (·.1)).Nodup → Calm (sts c) y.phase → InStep y → Right sts abv good a c y (o.run a c y)

/-! ### Hooks -/

/-- The numbers of all nodes below. -/
def under (sts : N → List (Nat × BTState)) (cs : List N) : List Nat := cs.flatMap fun c => (sts c).map (·.1)

/-- One node is above another below one of the children. -/
def inside (abv : N → Nat → Nat → Prop) (cs : List N) (a b : Nat) : Prop := ∃ c ∈ cs, abv c a b

theorem inside_set {abv : N → Nat → Nat → Prop} {cs : List N} {i : Nat} {c c' : N} (h : cs[i]? = some c) (e : ∀ a b, abv c' a b ↔ abv c a b) (a b : Nat) :
    inside abv (cs.set i c') a b ↔ inside abv cs a b := by
  induction cs generalizing i with
  | nil => cases h
  | cons d cs ih =>
    cases i with
    | zero => cases h; simp only [List.set, inside, List.mem_cons, or_and_right, exists_or, exists_eq_left, e]
    | succ i =>
      have := ih (i := i) (by simpa using h)
      simp only [inside] at this
      simp only [List.set, inside, List.mem_cons, or_and_right, exists_or, exists_eq_left, this]

theorem under_set {sts : N → List (Nat × BTState)} {cs : List N} {i : Nat} {c c' : N} (h : cs[i]? = some c) (e : (sts c').map (·.1) = (sts c).map (·.1)) :
    under sts (cs.set i c') = under sts cs := by
  induction cs generalizing i with
  | nil => cases h
  | cons d cs ih =>
    cases i with
    | zero => cases h; simp only [List.set, under, List.flatMap_cons, e]
    | succ i =>
      have := ih (i := i) (by simpa using h)
      simp only [under] at this
      simp only [List.set, under, List.flatMap_cons, this]

theorem under_mem {sts : N → List (Nat × BTState)} {cs : List N} {c : N} (h : c ∈ cs) : ∀ n ∈ (sts c).map (·.1), n ∈ under sts cs :=
  fun _ hn => List.mem_flatMap.2 ⟨c, h, hn⟩

theorem under_nodup {sts : N → List (Nat × BTState)} {cs : List N} {c : N} (h : (under sts cs).Nodup) (hc : c ∈ cs) : ((sts c).map (·.1)).Nodup :=
  (List.pairwise_flatMap.1 h).1 c hc

/-- Other children are not touched. -/
theorem apart {sts : N → List (Nat × BTState)} {cs : List N} {i j : Nat} {c d : N} (h : (under sts cs).Nodup) (hc : cs[i]? = some c) (hd : cs[j]? = some d)
    (hij : i ≠ j) : ∀ n ∈ (sts d).map (·.1), n ∉ (sts c).map (·.1) := by
  have := (List.pairwise_flatMap.1 h).2
  rw [List.pairwise_iff_getElem] at this
  obtain ⟨h1, rfl⟩ := List.getElem?_eq_some_iff.1 hc
  obtain ⟨h2, rfl⟩ := List.getElem?_eq_some_iff.1 hd
  intro n hn hn'
  rcases Nat.lt_or_gt_of_ne hij with g | g
  · exact this i j h1 h2 g n hn' n hn rfl
  · exact this j i h2 h1 g n hn n hn' rfl

/-- What holds while a hook of the node `id` runs. -/
structure Within (sts : N → List (Nat × BTState)) (good : N → Prop) (id : Nat) (a : Act) (ws : List String) (cs : List N) (y : Sys) : Prop where
  sync : InStep y
  nodup : (under sts cs).Nodup
  own : id ∉ under sts cs
  calm : ∀ c ∈ cs, Calm (sts c) y.phase
  good : ∀ c ∈ cs, good c
  active : a = .tick → y.phase id = .active ∧ ∀ k, k ∉ ws → ∀ c, y.flow.output id k = some c → c.updated = false

/-- What holds when it has run. -/
structure Ended (sts : N → List (Nat × BTState)) (abv : N → Nat → Nat → Prop) (good : N → Prop) (I : M → Prop) (id : Nat) (a : Act) (cs : List N) (y : Sys) (x : Done M N) : Prop where
  sync : InStep x.sys
  calm : ∀ c ∈ x.children, Calm (sts c) x.sys.phase
  good : ∀ c ∈ x.children, good c
  mem : I x.mem
  shape : ∀ a b, inside abv x.children a b ↔ inside abv cs a b
  ids : under sts x.children = under sts cs
  conns : x.sys.flow.conns = y.flow.conns
  phase : ∀ n, n ∉ under sts cs → x.sys.phase n = y.phase n
  output : ∀ n, n ∉ under sts cs → n ≠ id → ∀ k, x.sys.flow.output n k = y.flow.output n k
  res : a = .tick → ∀ s, x.res = .ok s → BT.allowedAfter .tick s = true
  seen : ∀ s ∈ x.seen, Fine (under sts cs) (inside abv cs) y s

theorem exec_ended {o : Ops N} {sts : N → List (Nat × BTState)} {abv : N → Nat → Nat → Prop} {good : N → Prop} (ho : Sound o sts abv good) {I : M → Prop} (id : Nat) (a : Act) (p : Hook M) :
    ∀ ws cs y, Fit I a ws p → Within sts good id a ws cs y → Ended sts abv good I id a cs y (exec o id p cs y) := by
  induction p with
  | done m r =>
    intro ws cs y hp h
    exact ⟨h.sync, h.calm, h.good, hp.1, (fun _ _ => Iff.rfl), rfl, rfl, fun _ _ => rfl, fun _ _ _ _ => rfl, hp.2, (fun s hs => by cases hs)⟩
  | peek i k ih =>
    intro ws cs y hp h
    simp only [exec]
    split <;> exact ih _ ws cs y (hp _) h
  | read k ih =>
    intro ws cs y hp h
    exact ih _ ws cs y (hp _) h
  | write key v k ih =>
    intro ws cs y hp h
    obtain ⟨ha, hk, hf⟩ := hp
    obtain ⟨h1, h2⟩ := h.active ha
    simp only [exec]
    have hout : ∀ n j, ¬ (n = id ∧ j = key) → (y.flow.step (.write id key v)).1.output n j = y.flow.output n j := by
      intro n j hn
      simp only [Flow.step, Flow.write]
      split
      · rfl
      · rw [output_setOutput, if_neg hn]
    have hconns : (y.flow.step (.write id key v)).1.conns = y.flow.conns := by
      simp only [Flow.step, Flow.write]
      split <;> rfl
    have sy : InStep { y with flow := (y.flow.step (.write id key v)).1 } := by
      refine inStep_step (.write id key v) h.sync ?_ (by simp only [Sys.step, h1, if_true])
      intro c hc hu
      rw [h2 key hk c hc] at hu; cases hu
    have e := ih (y.flow.step (.write id key v)).2 (key :: ws) cs { y with flow := (y.flow.step (.write id key v)).1 } (hf _)
      ⟨sy, h.nodup, h.own, h.calm, h.good, fun _ => ⟨h1, fun j hj c hc => ?_⟩⟩
    · exact ⟨e.sync, e.calm, e.good, e.mem, e.shape, e.ids, e.conns.trans hconns, e.phase, fun n hn hid j => (e.output n hn hid j).trans (hout n j (fun g => hid g.1)), e.res,
        fun s hs => let ⟨g1, g2, g3, g4, g5⟩ := e.seen s hs; ⟨g1, g2, g3, g4.trans hconns, g5⟩⟩
    · dsimp only at hc
      rw [List.mem_cons, not_or] at hj
      rw [hout _ _ (fun g => hj.1 g.2)] at hc
      exact h2 j hj.2 c hc
  | call b i k ih =>
    intro ws cs y hp h
    simp only [exec]
    split
    · exact ih _ ws cs y (hp _ (fun s hs => by cases hs)) h
    · rename_i c hc
      have hm := List.mem_of_getElem? hc
      have r := ho b c y (h.good c hm) (under_nodup h.nodup hm) (h.calm c hm) h.sync
      generalize o.run b c y = out at r
      have hu : under sts (cs.set i out.node) = under sts cs := under_set hc r.ids
      have hfr := r.frame.mono (under_mem (sts := sts) hm)
      have mem : ∀ d ∈ cs.set i out.node, d = out.node ∨ ∃ j, i ≠ j ∧ cs[j]? = some d := by
        intro d hd
        obtain ⟨j, hj⟩ := List.mem_iff_getElem?.1 hd
        rw [List.getElem?_set] at hj
        split at hj
        · split at hj
          · exact .inl (Option.some.inj hj).symm
          · cases hj
        · rename_i hij
          exact .inr ⟨j, hij, hj⟩
      have e := ih out.res ws (cs.set i out.node) out.sys (hp _ r.res) ⟨r.sync, by rw [hu]; exact h.nodup, by rw [hu]; exact h.own,
        (fun d hd => ?_), (fun d hd => ?_), fun ha => ?_⟩
      · have hv := inside_set (abv := abv) hc r.shape
        have old : ∀ m, out.sys.phase m = .active → y.phase m = .active := by
          intro m hm
          by_cases g : m ∈ (sts c).map (·.1)
          · rw [← r.ids] at g
            obtain ⟨p, hp, rfl⟩ := List.mem_map.1 g
            exact absurd hm (r.calm p hp).1
          · rw [← r.frame.phase m g]; exact hm
        exact ⟨e.sync, e.calm, e.good, e.mem, (fun a b => (e.shape a b).trans (hv a b)), e.ids.trans hu, e.conns.trans hfr.conns, fun n hn => (e.phase n (by rw [hu]; exact hn)).trans (hfr.phase n hn),
          fun n hn hid j => (e.output n (by rw [hu]; exact hn) hid j).trans (hfr.output n hn j), e.res,
          fun s hs => (List.mem_append.1 hs).elim (fun hs => let ⟨g1, g2, g3, g4, g5⟩ := r.seen s hs; ⟨g1, under_mem (sts := sts) hm _ g2, g3, g4, fun m h => (g5 m h).imp (fun g => g) fun g => ⟨c, hm, g⟩⟩)
            (fun hs => let ⟨g1, g2, g3, g4, g5⟩ := e.seen s hs
              ⟨g1, (by rw [← hu]; exact g2), g3, g4.trans hfr.conns, fun m h => (g5 m h).imp (old m) (hv m s.id).1⟩)⟩
      · rcases mem d hd with rfl | ⟨j, hij, hj⟩
        · exact r.calm
        · exact calm_congr (h.calm d (List.mem_of_getElem? hj)) fun p hp => r.frame.phase _ (apart h.nodup hc hj hij _ (List.mem_map_of_mem hp))
      · rcases mem d hd with rfl | ⟨j, _, hj⟩
        · exact r.good
        · exact h.good d (List.mem_of_getElem? hj)
      · obtain ⟨h1, h2⟩ := h.active ha
        refine ⟨(hfr.phase _ h.own).trans h1, fun k hk c hc => ?_⟩
        rw [hfr.output _ h.own] at hc
        exact h2 k hk c hc

/-! ### Nodes -/

/-- All nodes of a tree with their states, given those of the children. -/
def nodeStates (sts : N → List (Nat × BTState)) (nd : Node M N) : List (Nat × BTState) := (nd.id, nd.state) :: nd.children.flatMap sts

/-- All hooks behave. -/
def nodeGood (I : M → Prop) (good : N → Prop) (nd : Node M N) : Prop := (nd.Fit I ∧ I nd.mem) ∧ ∀ c ∈ nd.children, good c

/-- Which nodes are above which, given the same for the children. -/
def nodeAbove (sts : N → List (Nat × BTState)) (abv : N → Nat → Nat → Prop) (nd : Node M N) (a b : Nat) : Prop :=
  a = nd.id ∧ b ∈ (nodeStates sts nd).map (·.1) ∨ ∃ c ∈ nd.children, abv c a b

theorem map_under (sts : N → List (Nat × BTState)) (cs : List N) : (cs.flatMap sts).map (·.1) = under sts cs := List.map_flatMap ..

/-- Between two moments only the node `id` itself was touched. -/
structure Only (id : Nat) (y y' : Sys) : Prop where
  conns : y'.flow.conns = y.flow.conns
  phase : ∀ n, n ≠ id → y'.phase n = y.phase n
  output : ∀ n, n ≠ id → ∀ k, y'.flow.output n k = y.flow.output n k

theorem only_enter (y : Sys) (id : Nat) (p : Phase) : Only id y (y.enter id p) :=
  ⟨rfl, fun n hn => by simp only [Sys.enter, if_neg hn], fun _ _ _ => rfl⟩

theorem Only.refl (id : Nat) (y : Sys) : Only id y y := ⟨rfl, fun _ _ => rfl, fun _ _ _ => rfl⟩

theorem Only.trans {id : Nat} {y y' y'' : Sys} (h : Only id y y') (g : Only id y' y'') : Only id y y'' :=
  ⟨g.conns.trans h.conns, fun n hn => (g.phase n hn).trans (h.phase n hn), fun n hn k => (g.output n hn k).trans (h.output n hn k)⟩

/-- The events of a node touch nothing else. -/
def own (id : Nat) : Ev → Prop
  | .begin m | .write m _ _ | .finish m | .fail m | .reset m | .untick m => m = id
  | _ => False

theorem step_output_other (f : Flow) {id n : Nat} {e : Ev} (he : own id e) (hn : n ≠ id) (k : String) : (f.step e).1.output n k = f.output n k := by
  cases e with
  | begin m =>
    cases he
    simp only [Flow.step, Flow.begin]
    split
    · rfl
    · split
      · rw [output_allOutputs, if_neg hn]
      · rfl
  | write m j v =>
    cases he
    simp only [Flow.step, Flow.write]
    split
    · rfl
    · rw [output_setOutput, if_neg (fun g => hn g.1)]
  | finish m =>
    simp only [Flow.step]
    cases hf : f.finish m with
    | mk f' a =>
      unfold Flow.finish at hf
      rcases pushOutputs_cases hf with ⟨e, _⟩ | ⟨g, b, _, hp, _, _, _, e3, _⟩
      · show f'.output n k = _
        rw [e, output_allInputs]
      · show f'.output n k = _
        rw [e3, (pushConns_frame _ _ _ _ _ hp).2.2.2.1, output_allInputs]
  | fail m => rfl
  | untick m => cases he; simp only [Flow.step]; rw [output_allOutputs, if_neg hn]
  | reset m => cases he; simp only [Flow.step, Flow.reset]; rw [output_allOutputs, if_neg hn, output_allInputs]
  | setup => cases he
  | incoming => cases he
  | offer => cases he

theorem step_conns (f : Flow) (e : Ev) : (f.step e).1.conns = f.conns := by
  cases e with
  | begin n =>
    simp only [Flow.step, Flow.begin]
    split
    · rfl
    · split <;> rfl
  | write n k v => simp only [Flow.step, Flow.write]; split <;> rfl
  | finish n =>
    simp only [Flow.step]
    cases hf : f.finish n with
    | mk f' a =>
      unfold Flow.finish at hf
      rcases pushOutputs_cases hf with ⟨e, _⟩ | ⟨g, b, _, hp, _, e1, _⟩
      · show f'.conns = _
        rw [e]; rfl
      · show f'.conns = _
        rw [e1, (pushConns_frame _ _ _ _ _ hp).1]; rfl
  | fail n | untick n | reset n | setup | offer n k c => rfl
  | incoming =>
    simp only [Flow.step]
    rw [(pushIncoming_frame f.incoming f _ _ rfl).1]

theorem only_step (y : Sys) {id : Nat} {e : Ev} (he : own id e) : Only id y { y with flow := (y.flow.step e).1 } :=
  ⟨step_conns _ _, fun _ _ => rfl, fun _ hn k => step_output_other _ he hn k⟩

/-- An operation whose hook has run and which has ended in the state `s`. -/
theorem right_after {sts : N → List (Nat × BTState)} {abv : N → Nat → Nat → Prop} {good : N → Prop} {I : M → Prop} {a : Act} {nd : Node M N} {y y1 z : Sys} {x : Done M N} {s : BTState} {r : Res}
    {seen : List Snap} (hg : nodeGood I good nd) (hn : (nd.id :: under sts nd.children).Nodup) (e : Ended sts abv good I nd.id a nd.children y1 x)
    (h1 : Only nd.id y y1) (h2 : Only nd.id x.sys z) (hz : InStep z) (hp : z.phase nd.id ≠ .active) (hi : BT.accepts .tick s = true → z.phase nd.id = .idle)
    (hr : ∀ s, r = .ok s → BT.allowedAfter a.op s = true) (hs : ∀ t ∈ seen, Fine (nd.id :: under sts nd.children) (nodeAbove sts abv nd) y t) :
    Right (nodeStates sts) (nodeAbove sts abv) (nodeGood I good) a nd y ⟨nd.after x s, r, z, seen⟩ := by
  have hid : nd.id ∉ under sts nd.children := (List.nodup_cons.1 hn).1
  have ids : (nodeStates sts (nd.after x s)).map (·.1) = (nodeStates sts nd).map (·.1) := by
    simp only [nodeStates, List.map_cons, map_under, Node.after, e.ids]
  have ids' : (nodeStates sts nd).map (·.1) = nd.id :: under sts nd.children := by simp only [nodeStates, List.map_cons, map_under]
  refine ⟨hz, fun p hp' => ?_, ⟨⟨hg.1.1, e.mem⟩, e.good⟩, ids, (fun a b => ?_), ?_, hr, by rw [ids']; exact hs⟩
  · rcases List.mem_cons.1 hp' with rfl | hp'
    · exact ⟨hp, hi⟩
    · obtain ⟨c, hc, hpc⟩ := List.mem_flatMap.1 hp'
      have : p.1 ≠ nd.id := by
        rintro g
        refine hid (g ▸ ?_)
        have : p.1 ∈ under sts x.children := List.mem_flatMap.2 ⟨c, hc, List.mem_map_of_mem hpc⟩
        rw [e.ids] at this
        exact this
      dsimp only
      rw [h2.phase _ this]
      exact e.calm c hc p hpc
  · have := e.shape a b
    simp only [inside] at this
    simp only [nodeAbove, ids]
    simp only [Node.after, this]
  · rw [ids']
    refine ⟨h2.conns.trans (e.conns.trans h1.conns), fun n hn => ?_, fun n hn k => ?_⟩
    · rw [List.mem_cons, not_or] at hn
      exact (h2.phase n hn.1).trans ((e.phase n hn.2).trans (h1.phase n hn.1))
    · rw [List.mem_cons, not_or] at hn
      exact (h2.output n hn.1 k).trans ((e.output n hn.2 hn.1 k).trans (h1.output n hn.1 k))

theorem inStep_broken {y : Sys} (h : InStep y) (n : Nat) : InStep (y.enter n .broken) := by
  refine ⟨h.one, h.apart, h.dynamic, fun s xs x h1 h2 hp c v hc hv => ?_⟩
  simp only [Sys.enter] at hp ⊢
  split at hp
  · exact absurd rfl hp
  · rename_i hs
    rw [if_neg hs]
    exact h.sync s xs x h1 h2 hp c v hc hv

/-- An operation that is refused. -/
theorem right_refused {sts : N → List (Nat × BTState)} {abv : N → Nat → Nat → Prop} {good : N → Prop} {I : M → Prop} {a : Act} {nd : Node M N} {y : Sys} (hg : nodeGood I good nd)
    (hc : Calm (nodeStates sts nd) y.phase) (hy : InStep y) : Right (nodeStates sts) (nodeAbove sts abv) (nodeGood I good) a nd y ⟨nd.skip nd.state, .err, y, []⟩ :=
  ⟨hy, hc, hg, rfl, (fun _ _ => Iff.rfl), Frame.refl _ _, (fun _ h => by cases h), (fun _ h => by cases h)⟩

theorem entered (y : Sys) (n : Nat) (p : Phase) : (y.enter n p).phase n = p := by simp only [Sys.enter, if_true]

theorem node_sound {o : Ops N} {sts : N → List (Nat × BTState)} {abv : N → Nat → Nat → Prop} {good : N → Prop} (ho : Sound o sts abv good) :
    ∀ I, Sound (Node.ops (M := M) o) (nodeStates sts) (nodeAbove sts abv) (nodeGood I good) := by
  intro I a nd y hg hn hc hy
  have ids' : (nodeStates sts nd).map (·.1) = nd.id :: under sts nd.children := by simp only [nodeStates, List.map_cons, map_under]
  rw [ids'] at hn
  obtain ⟨hid, hnd⟩ := List.nodup_cons.1 hn
  have kids : ∀ {ph : Nat → Phase}, (∀ n, n ≠ nd.id → ph n = y.phase n) → ∀ c ∈ nd.children, Calm (sts c) ph := by
    intro ph h c hm p hp
    rw [h p.1 (fun g => hid (g ▸ List.mem_flatMap.2 ⟨c, hm, List.mem_map_of_mem hp⟩))]
    exact hc p (List.mem_cons_of_mem _ (List.mem_flatMap.2 ⟨c, hm, hp⟩))
  have idle : BT.accepts .tick nd.state = true → y.phase nd.id = .idle := (hc _ (List.mem_cons_self)).2
  have lift : ∀ {y1 : Sys} {s : Snap}, Only nd.id y y1 → Fine (under sts nd.children) (inside abv nd.children) y1 s →
      Fine (nd.id :: under sts nd.children) (nodeAbove sts abv nd) y s := by
    intro y1 s h ⟨g1, g2, g3, g4, g5⟩
    refine ⟨g1, List.mem_cons_of_mem _ g2, g3, g4.trans h.conns, fun m hm => ?_⟩
    rcases g5 m hm with g | g
    · by_cases e : m = nd.id
      · exact .inr (.inl ⟨e, by rw [ids']; exact List.mem_cons_of_mem _ g2⟩)
      · rw [h.phase m e] at g; exact .inl g
    · exact .inr (.inr g)
  cases a with
  | tick =>
    show Right _ _ _ _ _ _ (Node.tick o nd y)
    unfold Node.tick
    split
    · rename_i hacc
      have hph := idle hacc
      dsimp only
      split
      · rename_i hb
        have h1 : Only nd.id y (Sys.enter { y with flow := (y.flow.step (.begin nd.id)).1 } nd.id .active) :=
          (only_step y (e := .begin nd.id) rfl).trans (only_enter _ _ _)
        have s1 : InStep (Sys.enter { y with flow := (y.flow.step (.begin nd.id)).1 } nd.id .active) :=
          inStep_step (.begin nd.id) hy trivial (by simp only [Sys.step, hph, if_true, hb])
        have u1 : ∀ k c, (Sys.enter { y with flow := (y.flow.step (.begin nd.id)).1 } nd.id .active).flow.output nd.id k = some c → c.updated = false := by
          intro k c h
          simp only [Sys.enter, Flow.step, Flow.begin] at h hb
          split at hb
          · cases hb
          · rename_i d hd
            split at hb
            · rename_i hv
              simp only [hd] at h
              rw [if_pos hv, output_allOutputs, if_pos rfl] at h
              cases hq : y.flow.output nd.id k with
              | none => rw [hq] at h; cases h
              | some c0 => rw [hq] at h; cases h; rfl
            · cases hb
        have p1 := entered { y with flow := (y.flow.step (.begin nd.id)).1 } nd.id .active
        generalize Sys.enter { y with flow := (y.flow.step (.begin nd.id)).1 } nd.id .active = y1 at h1 s1 u1 p1
        have e := exec_ended ho nd.id .tick (nd.body o .tick) [] nd.children y1 (hg.1.1 _ _ _ _ _ hg.1.2)
          ⟨s1, hnd, hid, kids h1.phase, hg.2, fun _ => ⟨p1, fun k _ c hc => u1 k c hc⟩⟩
        generalize exec o nd.id (nd.body o .tick) nd.children y1 = x at e
        have px : x.sys.phase nd.id = .active := (e.phase _ hid).trans p1
        have seen : ∀ t ∈ (⟨nd.id, y1⟩ : Snap) :: x.seen, Fine (nd.id :: under sts nd.children) (nodeAbove sts abv nd) y t := by
          intro t ht
          rcases List.mem_cons.1 ht with rfl | ht
          · refine ⟨s1, List.mem_cons_self, p1, h1.conns, fun m hm => ?_⟩
            by_cases e : m = nd.id
            · exact .inr (.inl ⟨e, by rw [ids']; exact List.mem_cons_self⟩)
            · rw [h1.phase m e] at hm; exact .inl hm
          · exact lift h1 (e.seen t ht)
        split
        · exact right_after hg hn e h1 (only_enter _ _ _) (inStep_broken e.sync _) (by rw [entered]; simp) (fun h => by cases h) (fun s h => by cases h) seen
        · rename_i s hs
          rw [if_pos (e.res rfl s hs)]
          have step : x.sys.step (.finish nd.id) = some (Sys.enter { x.sys with flow := (x.sys.flow.step (.finish nd.id)).1 } nd.id
              (if (x.sys.flow.step (.finish nd.id)).2 = .ok then .idle else .broken)) := by simp only [Sys.step, px, if_true]
          have s2 := inStep_step (.finish nd.id) e.sync trivial step
          have h2 : ∀ p, Only nd.id x.sys (Sys.enter { x.sys with flow := (x.sys.flow.step (.finish nd.id)).1 } nd.id p) :=
            fun p => (only_step x.sys (e := .finish nd.id) rfl).trans (only_enter _ _ _)
          split
          · rename_i hf
            rw [if_pos hf] at s2
            exact right_after hg hn e h1 (h2 _) s2 (by rw [entered]; simp) (fun _ => entered _ _ _) (fun s' h => by cases h; exact e.res rfl s hs) seen
          · rename_i hf
            rw [if_neg hf] at s2
            exact right_after hg hn e h1 (h2 _) s2 (by rw [entered]; simp) (fun h => by cases h) (fun s h => by cases h) seen
      · refine ⟨inStep_broken hy _, fun p hp => ?_, hg, rfl, (fun _ _ => Iff.rfl), ?_, (fun _ h => by cases h), (fun _ h => by cases h)⟩
        · rcases List.mem_cons.1 hp with rfl | hp
          · exact ⟨(by dsimp only [Node.skip]; rw [entered]; simp), fun h => by cases h⟩
          · obtain ⟨c, hm, hpc⟩ := List.mem_flatMap.1 hp
            exact kids (only_enter y nd.id .broken).phase c hm p hpc
        · rw [ids']
          exact ⟨rfl, fun n hn => (only_enter y nd.id .broken).phase n (fun g => hn (g ▸ List.mem_cons_self)), fun _ _ _ => rfl⟩
    · exact right_refused hg hc hy
  | untick =>
    show Right _ _ _ _ _ _ (Node.untick o nd y)
    unfold Node.untick
    split
    · rename_i hacc
      have hph := idle hacc
      dsimp only
      have e := exec_ended ho nd.id .untick (nd.body o .untick) [] nd.children y (hg.1.1 _ _ _ _ _ hg.1.2)
        ⟨hy, hnd, hid, kids (fun _ _ => rfl), hg.2, (fun h => by cases h)⟩
      generalize exec o nd.id (nd.body o .untick) nd.children y = x at e
      have px : x.sys.phase nd.id = .idle := (e.phase _ hid).trans hph
      have seen : ∀ t ∈ x.seen, Fine (nd.id :: under sts nd.children) (nodeAbove sts abv nd) y t := fun t ht => lift (Only.refl _ _) (e.seen t ht)
      split
      · exact right_after hg hn e (Only.refl _ _) (only_enter _ _ _) (inStep_broken e.sync _) (by rw [entered]; simp) (fun h => by cases h)
          (fun s h => by cases h) seen
      · rename_i s _
        split
        · rename_i hs
          exact right_after hg hn e (Only.refl _ _) (only_step _ (e := .untick nd.id) rfl)
            (inStep_step (.untick nd.id) e.sync trivial (by simp only [Sys.step, px, if_true])) (by dsimp only; rw [px]; simp) (fun _ => px)
            (fun s' h => by cases h; exact hs) seen
        · exact right_after hg hn e (Only.refl _ _) (Only.refl _ _) e.sync (by rw [px]; simp) (fun _ => px) (fun s h => by cases h) seen
    · exact right_refused hg hc hy
  | reset =>
    show Right _ _ _ _ _ _ (Node.reset o nd y)
    unfold Node.reset
    split
    · rename_i hacc
      have hph := idle hacc
      dsimp only
      have h1 : Only nd.id y { y with flow := (y.flow.step (.reset nd.id)).1 } := only_step y (e := .reset nd.id) rfl
      have s1 : InStep { y with flow := (y.flow.step (.reset nd.id)).1 } := inStep_step (.reset nd.id) hy trivial (by simp only [Sys.step, hph, if_true])
      have e := exec_ended ho nd.id .reset (nd.body o .reset) [] nd.children { y with flow := (y.flow.step (.reset nd.id)).1 } (hg.1.1 _ _ _ _ _ hg.1.2)
        ⟨s1, hnd, hid, kids (fun _ _ => rfl), hg.2, (fun h => by cases h)⟩
      generalize exec o nd.id (nd.body o .reset) nd.children { y with flow := (y.flow.step (.reset nd.id)).1 } = x at e
      have px : x.sys.phase nd.id = .idle := (e.phase _ hid).trans hph
      have seen : ∀ t ∈ x.seen, Fine (nd.id :: under sts nd.children) (nodeAbove sts abv nd) y t := fun t ht => lift h1 (e.seen t ht)
      split
      · exact right_after hg hn e h1 (only_enter _ _ _) (inStep_broken e.sync _) (by rw [entered]; simp) (fun h => by cases h) (fun s h => by cases h) seen
      · rename_i s _
        refine right_after hg hn e h1 (Only.refl _ _) e.sync (by rw [px]; simp) (fun _ => px) (fun s' h => ?_) seen
        split at h
        · rename_i hs; cases h; exact hs
        · cases h
    · exact right_refused hg hc hy

theorem tree_sound (I : M → Prop) (n : Nat) : Sound (ops M n) (states n) (above n) (AllFit I n) := by
  induction n with
  | zero => intro a t; exact Empty.elim t
  | succ n ih =>
    exact node_sound (M := M) ih I

/-! ### Histories -/

/-- What the history keeps. -/
structure Kept (I : M → Prop) (n : Nat) (t : Tree M n) (y : Sys) : Prop where
  sync : InStep y
  calm : Calm (states n t) y.phase
  fit : AllFit I n t
  nodup : ((states n t).map (·.1)).Nodup

theorem kept_step {I : M → Prop} {n : Nat} {t : Tree M n} {y : Sys} (h : Kept I n t y) (m : Move) :
    Kept I n (step n t y m).node (step n t y m).sys ∧ (step n t y m).sys.flow.conns = y.flow.conns ∧
    (states n (step n t y m).node).map (·.1) = (states n t).map (·.1) ∧ (∀ a b, above n (step n t y m).node a b ↔ above n t a b) ∧
    (∀ k, k ∉ (states n t).map (·.1) → (step n t y m).sys.phase k = y.phase k) ∧ ∀ s ∈ (step n t y m).seen, Fine ((states n t).map (·.1)) (above n t) y s := by
  cases m with
  | act a =>
    have r := tree_sound I n a t y h.fit h.nodup h.calm h.sync
    exact ⟨⟨r.sync, r.calm, r.good, by simp only [step]; rw [r.ids]; exact h.nodup⟩, r.frame.conns, r.ids, r.shape, r.frame.phase, r.seen⟩
  | incoming =>
    exact ⟨⟨inStep_step .incoming h.sync trivial rfl, h.calm, h.fit, h.nodup⟩, step_conns _ _, rfl, (fun _ _ => Iff.rfl), (fun _ _ => rfl), (fun _ h => by cases h)⟩
  | offer m k c =>
    exact ⟨⟨inStep_step (.offer m k c) h.sync trivial rfl, h.calm, h.fit, h.nodup⟩, rfl, rfl, (fun _ _ => Iff.rfl), (fun _ _ => rfl), (fun _ h => by cases h)⟩

theorem kept_runs {I : M → Prop} {n : Nat} (ms : List Move) : ∀ {t : Tree M n} {y : Sys}, Kept I n t y →
    Kept I n (runs n ms t y).1 (runs n ms t y).2.1 ∧ (runs n ms t y).2.1.flow.conns = y.flow.conns ∧
    ∀ s ∈ (runs n ms t y).2.2, Fine ((states n t).map (·.1)) (above n t) y s := by
  induction ms with
  | nil => intro t y h; exact ⟨h, rfl, (fun _ h => by cases h)⟩
  | cons m ms ih =>
    intro t y h
    obtain ⟨g1, g2, g3, g5, g6, g4⟩ := kept_step h m
    obtain ⟨k1, k2, k3⟩ := ih g1
    simp only [runs]
    refine ⟨k1, k2.trans g2, fun s hs => ?_⟩
    rcases List.mem_append.1 hs with hs | hs
    · exact g4 s hs
    · obtain ⟨a1, a2, a3, a4, a5⟩ := k3 s hs
      refine ⟨a1, (by rw [← g3]; exact a2), a3, a4.trans g2, fun k hk => ?_⟩
      rcases a5 k hk with g | g
      · by_cases e : k ∈ (states n t).map (·.1)
        · rw [← g3] at e
          obtain ⟨p, hp, rfl⟩ := List.mem_map.1 e
          exact absurd g (g1.calm p hp).1
        · exact .inl (by rw [← g6 k e]; exact g)
      · exact .inr ((g5 _ _).1 g)

/-! ### The claims -/

/-- What is asked of the tree: the hooks behave, the nodes are different, no input has two sources, or one and also data from a surrounding tree; outputs are
not static. -/
structure Ready (I : M → Prop) (n : Nat) (t : Tree M n) (f : Flow) : Prop where
  fit : AllFit I n t
  nodup : ((states n t).map (·.1)).Nodup
  one : OneSource f.conns
  apart : IncomingApart f
  dynamic : DynamicOutputs f

theorem kept_ready {I : M → Prop} {n : Nat} {t : Tree M n} {f : Flow} (h : Ready I n t f) : Kept I n t (started f) :=
  ⟨inStep_started h.one h.apart h.dynamic, fun _ _ => ⟨(by simp [started]), fun _ => rfl⟩, h.fit, h.nodup⟩

/-- C124: whatever the hooks compute and whatever happens: whenever the `_do_tick` of a node is entered, each of its wired inputs holds what the output it is
wired to holds, unless the node with the output is BROKEN, or is the node itself or above it (so that its tick is not over) and has set the output in this
tick. -/
theorem c124_at_hooks_partial (I : M → Prop) (n : Nat) (t : Tree M n) (f : Flow) (h : Ready I n t f) (ms : List Move) :
    ∀ s ∈ (runs n ms t (started f)).2.2, ∀ src xs x, f.conns.lookup src = some xs → x ∈ xs → x.target = s.id →
      ∀ c v, s.sys.flow.output src x.sourceKey = some c → c.value = some v →
        Holds s.sys.flow x v ∨ s.sys.phase src = .broken ∨ above n t src s.id ∧ c.updated = true := by
  intro s hs src xs x h1 h2 _ c v hc hv
  obtain ⟨a1, _, _, a4, a5⟩ := (kept_runs ms (kept_ready h)).2.2 s hs
  by_cases hb : s.sys.phase src = .broken
  · exact .inr (.inl hb)
  · rcases a1.sync src xs x (by rw [a4]; exact h1) h2 hb c v hc hv with g | g
    · rcases a5 src g.1 with g' | g'
      · cases g'
      · exact .inr (.inr ⟨g', g.2⟩)
    · exact .inl g

/-- C124: between two operations of the root all values of all nodes that are not BROKEN have arrived. -/
theorem c124_at_rest_partial (I : M → Prop) (n : Nat) (t : Tree M n) (f : Flow) (h : Ready I n t f) (ms : List Move) (src : Nat) (st : BTState)
    (hm : (src, st) ∈ states n (runs n ms t (started f)).1) (hst : BT.accepts .tick st = true) :
    ∀ xs x, f.conns.lookup src = some xs → x ∈ xs → ∀ c v, (runs n ms t (started f)).2.1.flow.output src x.sourceKey = some c → c.value = some v →
      Holds (runs n ms t (started f)).2.1.flow x v := by
  intro xs x h1 h2 c v hc hv
  obtain ⟨k, hcn, _⟩ := kept_runs ms (kept_ready h)
  have hi := (k.calm _ hm).2 hst
  rcases k.sync.sync src xs x (by rw [hcn]; exact h1) h2 (by rw [show (runs n ms t (started f)).2.1.phase src = .idle from hi]; simp) c v hc hv with g | g
  · rw [show (runs n ms t (started f)).2.1.phase src = .idle from hi] at g; cases g.1
  · exact g

/-! ### Examples and exclusions -/

/-- A leaf with this tick; the other hooks do nothing. -/
def leaf (id : Nat) (tick : Nat → Hook Unit) : Node Unit Empty :=
  ⟨id, id, .idle, (), 0, (fun | .tick, c, _, _, _ => tick c | _, _, _, _, _ => .done () (.ok .idle)), []⟩

/-- A parent of two that ticks both. -/
def both (tick : Hook Unit → Hook Unit) (a b : Node Unit Empty) : Node Unit (Node Unit Empty) :=
  ⟨2, 2, .idle, (), 0, (fun
    | .tick, _, _, _, _ => tick (.call .tick 0 fun _ => .call .tick 1 fun _ => .done () (.ok .succeeded))
    | a, _, _, _, _ => .call a 0 fun _ => .call a 1 fun _ => .done () (.ok .idle)), [a, b]⟩

/-- Its output is the number of ticks so far. -/
def source : Node Unit Empty := leaf 0 fun c => .write "out" (.int c) fun _ => .done () (.ok .succeeded)

/-- Its output is its input and 10. -/
def sink (id : Nat) : Node Unit Empty := leaf id fun _ => .read fun d =>
  match (d.inputs.lookup "in").bind (·.value) with
  | some (.int i) => .write "out" (.int (i + 10)) fun _ => .done () (.ok .succeeded)
  | _ => .done () (.ok .failed)

/-- The output of 0 is wired to the input of 1. -/
def trio : Flow :=
  ⟨[(0, ⟨[], [("out", num)]⟩), (1, ⟨[("in", num)], [("out", num)]⟩), (2, ⟨[], []⟩)], [(0, [⟨"out", 1, "in"⟩]), (1, []), (2, [])], [], []⟩

theorem trio_fine : OneSource trio.conns ∧ IncomingApart trio ∧ DynamicOutputs trio := by
  have hl : ∀ s xs, trio.conns.lookup s = some xs → s = 0 ∧ xs = [⟨"out", 1, "in"⟩] ∨ xs = [] := by
    intro s xs h
    match s, h with
    | 0, h => cases h; exact .inl ⟨rfl, rfl⟩
    | 1, h => cases h; exact .inr rfl
    | 2, h => cases h; exact .inr rfl
    | n + 3, h => simp [trio, List.lookup] at h
  refine ⟨⟨fun s xs h => ?_, fun s s' xs xs' x x' h h' hx hx' _ => ?_⟩, fun s xs x _ _ => rfl, fun n k c h => ?_⟩
  · rcases hl s xs h with ⟨_, rfl⟩ | rfl <;> decide
  · rcases hl s xs h with ⟨rfl, rfl⟩ | rfl
    · rcases hl s' xs' h' with ⟨rfl, _⟩ | rfl
      · rfl
      · cases hx'
    · cases hx
  · have hb : ∀ d : NodeData, d.outputs = [("out", num)] → d.outputs.lookup k = some c → c.isStatic = false := by
      intro d hd h
      rw [hd] at h
      simp only [List.lookup] at h
      split at h
      · cases h; rfl
      · cases h
    match n, h with
    | 0, h => exact hb ⟨[], [("out", num)]⟩ rfl h
    | 1, h => exact hb ⟨[("in", num)], [("out", num)]⟩ rfl h
    | 2, h => cases h
    | n + 3, h => simp [trio, Flow.output, List.lookup] at h

/-- Both in a tree. -/
def couple : Tree Unit 2 := both id source (sink 1)

theorem couple_ready : Ready (fun _ => True) 2 couple trio := by
  refine ⟨⟨⟨fun a c s m l _ => ?_, trivial⟩, fun t ht => ?_⟩, by decide, trio_fine.1, trio_fine.2.1, trio_fine.2.2⟩
  · cases a
    · exact fun _ _ _ _ => ⟨trivial, fun _ s h => by cases h; decide⟩
    · exact fun _ _ _ _ => ⟨trivial, fun h => by cases h⟩
    · exact fun _ _ _ _ => ⟨trivial, fun h => by cases h⟩
  · rcases List.mem_cons.1 ht with rfl | ht
    · refine ⟨⟨fun a c s m l _ => ?_, trivial⟩, fun t ht => by cases ht⟩
      cases a
      · exact ⟨rfl, (by simp), fun _ => ⟨trivial, fun _ s h => by cases h; decide⟩⟩
      · exact ⟨trivial, fun h => by cases h⟩
      · exact ⟨trivial, fun h => by cases h⟩
    · cases List.mem_singleton.1 ht
      refine ⟨⟨fun a c s m l _ => ?_, trivial⟩, fun t ht => by cases ht⟩
      cases a
      · intro d
        dsimp only
        split
        · exact ⟨rfl, (by simp), fun _ => ⟨trivial, fun _ s h => by cases h; decide⟩⟩
        · exact ⟨trivial, fun _ s h => by cases h; decide⟩
      · exact ⟨trivial, fun h => by cases h⟩
      · exact ⟨trivial, fun h => by cases h⟩

/-- What the second leaf finds at its input at the start of its ticks. -/
def found (t : Tree Unit 2) (ms : List Move) : List (Option (Option Int × Bool)) :=
  ((runs 2 ms t (started trio)).2.2.filter (·.id == 1)).map fun s => Flow.look (s.sys.flow.input 1 "in")

example : found couple [.act .tick, .act .tick, .act .reset, .act .tick] = [some (some 0, true), some (some 1, true), some (some 3, true)] ∧
    Flow.look ((runs 2 [.act .tick, .act .tick] couple (started trio)).2.1.flow.output 1 "out") = some (some 11, true) ∧
    states 2 (runs 2 [.act .tick, .act .tick] couple (started trio)).1 = [(2, .succeeded), (0, .succeeded), (1, .succeeded)] := by decide +kernel

/-- Sets its output to 1 in the first tick and does something else later. -/
def source' (later : Hook Unit) : Node Unit Empty := leaf 0 fun
  | 0 => .write "out" (.int 1) fun _ => .done () (.ok .succeeded)
  | _ + 1 => later

/-- What both ends of the wiring hold at the end. -/
def ends (t : Tree Unit 2) (ms : List Move) : Option (Option Int × Bool) × Option (Option Int × Bool) :=
  (Flow.look ((runs 2 ms t (started trio)).2.1.flow.output 0 "out"), Flow.look ((runs 2 ms t (started trio)).2.1.flow.input 1 "in"))

/-- A hook sets its output to 5 twice. -/
def twice : Tree Unit 2 := both id (source' (.write "out" (.int 5) fun _ => .write "out" (.int 5) fun _ => .done () (.ok .succeeded))) (sink 1)

/-- A hook that has set its output to 5 answers IDLE. -/
def resting : Tree Unit 2 := both id (source' (.write "out" (.int 5) fun _ => .done () (.ok .idle))) (sink 1)

/-- A hook that has set its output to 5 fails. -/
def failing : Tree Unit 2 := both id (source' (.write "out" (.int 5) fun _ => .done () .err)) (sink 1)

/-- A parent sets its output and then ticks a child that is wired to it (the first time it does not). -/
def parent : Tree Unit 2 := (⟨0, 0, .idle, (), 0, (fun
  | .tick, c, _, _, _ => .write "out" (.int (if c = 0 then 1 else 5)) fun _ =>
    if c = 0 then .done () (.ok .succeeded) else .call .tick 0 fun _ => .done () (.ok .succeeded)
  | _, _, _, _, _ => .done () (.ok .idle)), [sink 1]⟩ : Node Unit (Node Unit Empty))

/-- The code violates C124 without the exclusions. After a first tick with the value 1: (1) a hook sets its output to 5 twice; (2) a hook that has set its
output to 5 answers IDLE; (3) a hook that has set its output to 5 fails: the node that is ticked next finds the old value, in (1) in all later
ticks. (4) A parent sets its output to 1 or 5 and ticks a child that is wired to it: the child finds the value of the tick before. -/
theorem c124_excluded :
    found twice [.act .tick, .act .tick, .act .tick] = [some (some 1, true), some (some 1, false), some (some 1, false)] ∧
    ends twice [.act .tick, .act .tick, .act .tick] = (some (some 5, false), some (some 1, false)) ∧
    found resting [.act .tick, .act .tick] = [some (some 1, true), some (some 1, false)] ∧
    ends resting [.act .tick, .act .tick] = (some (some 5, true), some (some 1, false)) ∧
    found failing [.act .tick, .act .tick] = [some (some 1, true), some (some 1, false)] ∧
    ends failing [.act .tick, .act .tick] = (some (some 5, true), some (some 1, false)) ∧
    found parent [.act .tick, .act .tick, .act .tick] = [some (some 1, true), some (some 5, true)] ∧
    ends parent [.act .tick, .act .tick] = (some (some 5, true), some (some 5, true)) := by
  refine ⟨?_, ?_, ?_, ?_, ?_, ?_, ?_, ?_⟩ <;> decide +kernel

end Verif.Whole.Values
