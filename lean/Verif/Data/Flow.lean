import Verif.Data.Permitted

/-! Model of data flow: `data_flow_manager.py` and the parts of `node.py` that move data.

Nodes are known by number. A tick of a node is split into `begin`, the writes of its hook, and `finish`, since its
children are ticked in between. Values are not shared between containers (`deepcopy`, data_types.py 268, 279). -/

set_option autoImplicit false

namespace Verif.Data

/-! ### Dictionaries -/

/-- Changes the entry of a key. -/
def modify {K V : Type} [DecidableEq K] (k : K) (f : V → V) : List (K × V) → List (K × V)
  | [] => []
  | (l, v) :: r => if l = k then (l, f v) :: r else (l, v) :: modify k f r

/-- Changes all entries. -/
def mapAll {K V : Type} (f : V → V) (d : List (K × V)) : List (K × V) := d.map fun p => (p.1, f p.2)

theorem lookup_modify {K V : Type} [BEq K] [LawfulBEq K] [DecidableEq K] (k k' : K) (f : V → V) (d : List (K × V)) :
    (modify k f d).lookup k' = if k' = k then (d.lookup k').map f else d.lookup k' := by
  induction d with
  | nil => simp [modify]
  | cons p d ih =>
    obtain ⟨l, v⟩ := p
    simp only [modify]
    by_cases h : l = k
    · subst h
      rw [if_pos rfl]
      by_cases h' : k' = l
      · subst h'; simp [List.lookup]
      · have : (k' == l) = false := by simpa using h'
        simp [List.lookup, this, h']
    · rw [if_neg h]
      by_cases h' : k' = l
      · subst h'; simp [List.lookup, h]
      · have : (k' == l) = false := by simpa using h'
        simp only [List.lookup, this]
        exact ih

theorem lookup_mapAll {K V : Type} [BEq K] [LawfulBEq K] (k : K) (f : V → V) (d : List (K × V)) :
    (mapAll f d).lookup k = (d.lookup k).map f := by
  induction d with
  | nil => rfl
  | cons p d ih =>
    obtain ⟨l, v⟩ := p
    simp only [mapAll, List.map_cons, List.lookup]
    by_cases h : k = l
    · subst h; simp
    · have : (k == l) = false := by simpa using h
      simp only [this]
      exact ih

/-! ### The model -/

/-- node_config.py 137-170: the inputs and outputs of a node. -/
structure NodeData where
  inputs : List (String × Cont)
  outputs : List (String × Cont)

/-- data_flow_manager.py 42-58: `Connection` -/
structure Conn where
  sourceKey : String
  target : Nat
  targetKey : String
  deriving DecidableEq

/-- msg/Wiring.msg -/
structure Wire where
  source : Nat
  conn : Conn

/-- data_flow_manager.py 61-83: `DataFlowManager`. Incoming and outgoing data are keyed by node and data key (in the code
by a string that joins them with a dot). -/
structure Flow where
  nodes : List (Nat × NodeData)
  conns : List (Nat × List Conn)
  incoming : List ((Nat × String) × Cont) := []
  outgoing : List ((Nat × String) × Cont) := []

/-- data_flow_manager.py 92-111: the loop over the wirings; `none`: `KeyError`. -/
def connect : List Wire → List (Nat × List Conn) → Option (List (Nat × List Conn))
  | [], cs => some cs
  | w :: ws, cs => if (cs.lookup w.source).isSome then connect ws (modify w.source (· ++ [w.conn]) cs) else none

/-- data_flow_manager.py 85-112: `initialize`. -/
def Flow.initialize (f : Flow) (nodes : List (Nat × NodeData)) (wires : List Wire) : Option Flow :=
  (connect wires (nodes.map fun p => (p.1, []))).map fun cs => { f with nodes := nodes, conns := cs }

/-- `nodes[n].node_config.inputs[k]` -/
def Flow.input (f : Flow) (n : Nat) (k : String) : Option Cont := (f.nodes.lookup n).bind (·.inputs.lookup k)

/-- `nodes[n].node_config.outputs[k]` -/
def Flow.output (f : Flow) (n : Nat) (k : String) : Option Cont := (f.nodes.lookup n).bind (·.outputs.lookup k)

/-- Changes an input. -/
def Flow.setInput (f : Flow) (n : Nat) (k : String) (c : Cont) : Flow :=
  { f with nodes := modify n (fun d => { d with inputs := modify k (fun _ => c) d.inputs }) f.nodes }

/-- Changes an output. -/
def Flow.setOutput (f : Flow) (n : Nat) (k : String) (c : Cont) : Flow :=
  { f with nodes := modify n (fun d => { d with outputs := modify k (fun _ => c) d.outputs }) f.nodes }

/-- data_flow_manager.py 131-142: one value for one input; a missing node or input is a `KeyError`. -/
def Flow.deliver (f : Flow) (n : Nat) (k : String) (v : Val) : Flow × Ans :=
  match f.input n k with
  | none => (f, .err)
  | some c => (f.setInput n k (c.set v).1, (c.set v).2)

/-- data_flow_manager.py 120-142: the loop over the connections. -/
def pushConns (s : Nat) : List Conn → Flow → Flow × Ans
  | [], f => (f, .ok)
  | x :: xs, f =>
    match f.output s x.sourceKey with
    | none => (f, .err)
    | some c =>
      if c.updated then
        match c.value with
        | none => pushConns s xs f
        | some v =>
          match f.deliver x.target x.targetKey v with
          | (f', .ok) => pushConns s xs f'
          | r => r
      else pushConns s xs f

/-- data_flow_manager.py 143-158: the loop over the outputs, for outgoing data. -/
def pushOutgoing (s : Nat) : List (String × Cont) → Flow → Flow × Ans
  | [], f => (f, .ok)
  | (k, c) :: r, f =>
    if c.updated then
      match f.outgoing.lookup (s, k), c.value with
      | some o, some v =>
        let f' := { f with outgoing := modify (s, k) (fun _ => (o.set v).1) f.outgoing }
        match (o.set v).2 with
        | .ok => pushOutgoing s r f'
        | a => (f', a)
      | _, _ => pushOutgoing s r f
    else pushOutgoing s r f

/-- data_flow_manager.py 114-159: `push_outputs`. -/
def Flow.pushOutputs (f : Flow) (s : Nat) : Flow × Ans :=
  match f.nodes.lookup s, f.conns.lookup s with
  | some d, some cs =>
    match pushConns s cs f with
    | (f, .ok) => pushOutgoing s d.outputs f
    | r => r
  | _, _ => (f, .err)

/-- data_flow_manager.py 161-184: `push_incoming_data`. A data key with a dot makes three parts of the string: `ValueError`,
ignored. -/
def pushIncoming : List ((Nat × String) × Cont) → Flow → Flow × Ans
  | [], f => (f, .ok)
  | ((n, k), c) :: r, f =>
    if c.updated then
      match c.value with
      | none => pushIncoming r f
      | some v =>
        if k.toList.contains '.' then pushIncoming r f
        else if (f.input n k).isNone then pushIncoming r f
        else
          match f.deliver n k v with
          | (f', .ok) => pushIncoming r f'
          | a => a
    else pushIncoming r f

/-- Changes all inputs of a node. -/
def Flow.allInputs (f : Flow) (n : Nat) (g : Cont → Cont) : Flow :=
  { f with nodes := modify n (fun d => { d with inputs := mapAll g d.inputs }) f.nodes }

/-- Changes all outputs of a node. -/
def Flow.allOutputs (f : Flow) (n : Nat) (g : Cont → Cont) : Flow :=
  { f with nodes := modify n (fun d => { d with outputs := mapAll g d.outputs }) f.nodes }

/-- What happens to the data of the nodes. -/
inductive Ev
  /-- node.py 434-442: a tick begins. -/
  | begin (n : Nat)
  /-- node_config.py 109-123: the hook sets an output. -/
  | write (n : Nat) (k : String) (v : Val)
  /-- node.py 456-482: the hook has answered. -/
  | finish (n : Nat)
  /-- node.py 445-447: the hook has failed. -/
  | fail (n : Nat)
  /-- node.py 555-556: the node has been unticked. -/
  | untick (n : Nat)
  /-- node.py 603-609: the node is reset. -/
  | reset (n : Nat)
  /-- node.py 365-372, for all nodes: the tree is set up. -/
  | setup
  /-- tree_exec_manager.py 689-694, ros_nodes/subtree.py 223-227 -/
  | incoming
  /-- The surrounding tree changes the data it offers (the inputs of a Subtree node). -/
  | offer (n : Nat) (k : String) (c : Cont)

/-- node.py 434-442 -/
def Flow.begin (f : Flow) (n : Nat) : Flow × Ans :=
  match f.nodes.lookup n with
  | none => (f, .err)
  | some d => if d.inputs.all (·.2.value.isSome) then (f.allOutputs n Cont.resetUpdated, .ok) else (f, .err)

/-- node_config.py 109-123 -/
def Flow.write (f : Flow) (n : Nat) (k : String) (v : Val) : Flow × Ans :=
  match f.output n k with
  | none => (f, .err)
  | some c => (f.setOutput n k (c.set v).1, (c.set v).2)

/-- node.py 456-482 -/
def Flow.finish (f : Flow) (n : Nat) : Flow × Ans := (f.allInputs n Cont.resetUpdated).pushOutputs n

/-- node.py 603-609 -/
def Flow.reset (f : Flow) (n : Nat) : Flow := (f.allInputs n Cont.flagUpdated).allOutputs n fun c => c.resetValue.resetUpdated

/-- node.py 365-372 for all nodes. -/
def Flow.setup (f : Flow) : Flow :=
  { f with nodes := mapAll (fun d => { inputs := mapAll (fun c => c.resetValue.flagUpdated) d.inputs,
                                       outputs := mapAll (fun c => c.resetValue.resetUpdated) d.outputs }) f.nodes }

/-- The effect of an event. -/
def Flow.step (f : Flow) : Ev → Flow × Ans
  | .begin n => f.begin n
  | .write n k v => f.write n k v
  | .finish n => f.finish n
  | .fail _ => (f, .ok)
  | .untick n => (f.allOutputs n Cont.resetUpdated, .ok)
  | .reset n => (f.reset n, .ok)
  | .setup => (f.setup, .ok)
  | .incoming => pushIncoming f.incoming f
  | .offer n k c => ({ f with incoming := modify (n, k) (fun _ => c) f.incoming }, .ok)

/-- The effect of a sequence of events. -/
def Flow.run (f : Flow) (es : List Ev) : Flow := es.foldl (fun f e => (f.step e).1) f

/-! ### Reading what has been changed -/

theorem input_setInput (f : Flow) (n n' : Nat) (k k' : String) (c : Cont) :
    (f.setInput n k c).input n' k' = if n' = n ∧ k' = k then (f.input n' k').map (fun _ => c) else f.input n' k' := by
  unfold Flow.setInput Flow.input
  dsimp only
  rw [lookup_modify]
  by_cases h : n' = n
  · subst h
    rw [if_pos rfl]
    cases hl : f.nodes.lookup n' with
    | none => simp
    | some d =>
      simp only [Option.map_some, Option.bind_some, lookup_modify]
      by_cases hk : k' = k <;> simp [hk]
  · rw [if_neg h, if_neg (fun g => h g.1)]

theorem output_setInput (f : Flow) (n n' : Nat) (k k' : String) (c : Cont) : (f.setInput n k c).output n' k' = f.output n' k' := by
  unfold Flow.setInput Flow.output
  dsimp only
  rw [lookup_modify]
  split
  · cases f.nodes.lookup n' <;> simp
  · rfl

theorem output_setOutput (f : Flow) (n n' : Nat) (k k' : String) (c : Cont) :
    (f.setOutput n k c).output n' k' = if n' = n ∧ k' = k then (f.output n' k').map (fun _ => c) else f.output n' k' := by
  unfold Flow.setOutput Flow.output
  dsimp only
  rw [lookup_modify]
  by_cases h : n' = n
  · subst h
    rw [if_pos rfl]
    cases hl : f.nodes.lookup n' with
    | none => simp
    | some d =>
      simp only [Option.map_some, Option.bind_some, lookup_modify]
      by_cases hk : k' = k <;> simp [hk]
  · rw [if_neg h, if_neg (fun g => h g.1)]

theorem input_setOutput (f : Flow) (n n' : Nat) (k k' : String) (c : Cont) : (f.setOutput n k c).input n' k' = f.input n' k' := by
  unfold Flow.setOutput Flow.input
  dsimp only
  rw [lookup_modify]
  split
  · cases f.nodes.lookup n' <;> simp
  · rfl

theorem input_allInputs (f : Flow) (n n' : Nat) (k : String) (g : Cont → Cont) :
    (f.allInputs n g).input n' k = if n' = n then (f.input n' k).map g else f.input n' k := by
  unfold Flow.allInputs Flow.input
  dsimp only
  rw [lookup_modify]
  split
  · cases f.nodes.lookup n' <;> simp [lookup_mapAll]
  · rfl

theorem output_allInputs (f : Flow) (n n' : Nat) (k : String) (g : Cont → Cont) : (f.allInputs n g).output n' k = f.output n' k := by
  unfold Flow.allInputs Flow.output
  dsimp only
  rw [lookup_modify]
  split
  · cases f.nodes.lookup n' <;> simp
  · rfl

theorem output_allOutputs (f : Flow) (n n' : Nat) (k : String) (g : Cont → Cont) :
    (f.allOutputs n g).output n' k = if n' = n then (f.output n' k).map g else f.output n' k := by
  unfold Flow.allOutputs Flow.output
  dsimp only
  rw [lookup_modify]
  split
  · cases f.nodes.lookup n' <;> simp [lookup_mapAll]
  · rfl

theorem input_allOutputs (f : Flow) (n n' : Nat) (k : String) (g : Cont → Cont) : (f.allOutputs n g).input n' k = f.input n' k := by
  unfold Flow.allOutputs Flow.input
  dsimp only
  rw [lookup_modify]
  split
  · cases f.nodes.lookup n' <;> simp
  · rfl

theorem input_setup (f : Flow) (n : Nat) (k : String) : f.setup.input n k = (f.input n k).map (fun c => c.resetValue.flagUpdated) := by
  unfold Flow.setup Flow.input
  dsimp only
  rw [lookup_mapAll]
  cases f.nodes.lookup n <;> simp [lookup_mapAll]

theorem output_setup (f : Flow) (n : Nat) (k : String) : f.setup.output n k = (f.output n k).map (fun c => c.resetValue.resetUpdated) := by
  unfold Flow.setup Flow.output
  dsimp only
  rw [lookup_mapAll]
  cases f.nodes.lookup n <;> simp [lookup_mapAll]

/-- Delivering changes one input. -/
theorem deliver_cases {f f' : Flow} {n : Nat} {k : String} {v : Val} {a : Ans} (h : f.deliver n k v = (f', a)) :
    f'.conns = f.conns ∧ f'.incoming = f.incoming ∧ f'.outgoing = f.outgoing ∧ (∀ n' k', f'.output n' k' = f.output n' k') ∧
    (∀ n' k', ¬ (n' = n ∧ k' = k) → f'.input n' k' = f.input n' k') ∧
    (f.input n k = none ∧ a = .err ∧ f' = f ∨ ∃ c, f.input n k = some c ∧ a = (c.set v).2 ∧ f'.input n k = some (c.set v).1) := by
  unfold Flow.deliver at h
  cases hi : f.input n k with
  | none =>
    rw [hi] at h
    cases h
    exact ⟨rfl, rfl, rfl, fun _ _ => rfl, fun _ _ _ => rfl, .inl ⟨rfl, rfl, rfl⟩⟩
  | some c =>
    rw [hi] at h
    cases h
    refine ⟨rfl, rfl, rfl, fun _ _ => output_setInput .., fun n' k' hn => by rw [input_setInput, if_neg hn], .inr ⟨c, rfl, rfl, ?_⟩⟩
    rw [input_setInput, if_pos ⟨rfl, rfl⟩, hi]
    rfl

end Verif.Data
