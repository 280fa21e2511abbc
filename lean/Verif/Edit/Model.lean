/-! Model of tree editing: `tree_edit_manager.py`, the link functions of `node.py`, and loading,
publishing and root discovery in `tree_exec_manager.py`.

Python nodes are objects that refer to each other; the dictionary `self.nodes` maps node ids to
objects. Both levels are modelled: a heap of objects, addressed by `Ref`, and the dictionary. So an
object that has been dropped from the dictionary may still be referred to by other objects, as in
the code.

Simplifications: a UUID is a number (the nil UUID is 0); a UUID string that does not parse is `none`
and UUID strings are in canonical form; what `Node.from_msg` makes out of a node message (class, name,
options, inputs, outputs, `max_children`) is a `Spec`, or `none` if it fails; the compatibility of data
types is an arbitrary relation `C`; a publish callback is set (the normal case), so that
`publish_structure` mirrors the links into `_children` after every edit service. -/

set_option autoImplicit false

namespace Verif.Edit

/-- A node id (UUID). -/
abbrev Id := Nat

/-- Identity of a Python object. -/
abbrev Ref := Nat

/-- node.py 961-1068: what `Node.from_msg` takes from a message. `ins` and `outs` list keys and
types; `cls` stands for everything else (class, name, option values). -/
structure Spec where
  cls : Nat := 0
  max : Option Nat := none
  ins : List (Nat × Nat) := []
  outs : List (Nat × Nat) := []
  deriving DecidableEq, Repr

/-- A `Node` object: the attributes `node_id`, `node_config`, `parent`, `children`. -/
structure Obj where
  nid : Id := 0
  spec : Spec := {}
  parent : Option Ref := none
  children : List Ref := []
  deriving DecidableEq, Repr

/-- ros_bt_py_interfaces/msg/Wiring.msg, NodeDataLocation.msg -/
structure Wiring where
  src : Option Id
  srcKey : Nat
  tgt : Option Id
  tgtKey : Nat
  deriving DecidableEq, Repr

/-- The manager: heap, `self.nodes` (in dictionary order), `self._children`, `self.wirings`. -/
structure St where
  heap : Ref → Obj := fun _ => {}
  next : Ref := 0
  nodes : List (Id × Ref) := []
  adj : List (Id × List Id) := []
  wirings : List Wiring := []

/-- How a service call ends: `response.success`, an exception, or never. -/
inductive Resp | ok | err | crash | hang
  deriving DecidableEq, Repr

/-! ### Dictionaries -/

/-- `d[k] = v` -/
def dictSet {α : Type} : List (Nat × α) → Nat → α → List (Nat × α)
  | [], k, v => [(k, v)]
  | (k', v') :: d, k, v => if k' = k then (k, v) :: d else (k', v') :: dictSet d k v

/-- `d.pop(k, None)` -/
def dictDel {α : Type} (d : List (Nat × α)) (k : Nat) : List (Nat × α) := d.filter fun x => x.1 ≠ k

/-- `d.get(k)` -/
def dictGet {α : Type} (d : List (Nat × α)) (k : Nat) : Option α := (d.find? fun x => x.1 = k).map (·.2)

/-! ### Objects -/

/-- Assignment to attributes of the object `r`. -/
def St.upd (s : St) (r : Ref) (f : Obj → Obj) : St :=
  { s with heap := fun x => if x = r then f (s.heap r) else s.heap x }

/-- `[child.node_id for child in self.children]` -/
def St.childIds (s : St) (r : Ref) : List Id := (s.heap r).children.map fun c => (s.heap c).nid

/-- node.py 809-815: the position at which `add_child` inserts (Python slice semantics). -/
def insertPos (len : Nat) (at_ : Option Int) : Nat :=
  let i : Int := match at_ with | none => len | some i => i
  let i := if i < 0 then i + len + 1 else i
  let i := if i < 0 then i + len else i
  min i.toNat len

/-- node.py 790-820: `add_child`; `none` is `Err`. -/
def addChild (s : St) (p c : Ref) (at_ : Option Int) : Option St :=
  let o := s.heap p
  if o.spec.max = some o.children.length then none
  else if (s.heap c).nid ∈ s.childIds p then none
  else
    let i := insertPos o.children.length at_
    some ((s.upd p fun o => { o with children := o.children.take i ++ c :: o.children.drop i }).upd c
      fun o => { o with parent := some p })

/-- node.py 772-787: `get_child_index`. -/
def childIndex (s : St) (p : Ref) (cid : Id) : Option Nat := (s.childIds p).idxOf? cid

/-- node.py 823-836: `remove_child`; `none` is `Err`. -/
def removeChild (s : St) (p : Ref) (cid : Id) : Option (St × Ref) :=
  match childIndex s p cid with
  | none => none
  | some i =>
    match (s.heap p).children[i]? with
    | none => none
    | some c =>
      some ((s.upd p fun o => { o with children := o.children.eraseIdx i }).upd c
        fun o => { o with parent := none }, c)

/-- tree_exec_manager.py 467-472: `_sync_children`. -/
def sync (s : St) : St := { s with adj := s.nodes.map fun x => (x.1, s.childIds x.2) }

/-- tree_exec_manager.py 1347-1371: `instantiate_node_from_msg` (after `from_msg` has succeeded). -/
def instantiate (s : St) (i : Id) (sp : Spec) : St × Ref :=
  let r := s.next
  ({ s with
      heap := fun x => if x = r then { nid := i, spec := sp } else s.heap x
      next := r + 1
      nodes := dictSet s.nodes i r
      adj := if (dictGet s.adj i).isSome then s.adj else s.adj ++ [(i, [])] }, r)

/-! ### Wirings -/

/-- ros_helpers.py 55-60: `wiring_has_id` -/
def Wiring.hasId (w : Wiring) (i : Id) : Bool :=
  match w.src, w.tgt with
  | some a, some b => a = i || b = i
  | _, _ => false

/-- tree_exec_manager.py 1373-1429: `validate_wiring`. -/
def validate (C : Nat → Nat → Bool) (s : St) (w : Wiring) : Bool :=
  match w.src, w.tgt with
  | some a, some b =>
    match dictGet s.nodes a, dictGet s.nodes b with
    | some ra, some rb =>
      match dictGet (s.heap ra).spec.outs w.srcKey, dictGet (s.heap rb).spec.ins w.tgtKey with
      | some to, some ti => C ti to
      | _, _ => false
    | _, _ => false
  | _, _ => false

/-- tree_edit_manager.py 920-952: the body of `wire_data`. -/
def wireData (C : Nat → Nat → Bool) (s : St) (ws : List Wiring) (ignore : Bool) : St × Resp :=
  if ignore then ({ s with wirings := s.wirings ++ ws.filter (validate C s) }, .ok)
  else if ws.all (validate C s) then ({ s with wirings := s.wirings ++ ws }, .ok)
  else (s, .err)

/-- tree_edit_manager.py 980-981: `for wiring in successful_unwirings: self.wirings.remove(wiring)`;
`list.remove` raises `ValueError` if the element is missing. -/
def removeAll : List Wiring → List Wiring → List Wiring × Bool
  | l, [] => (l, true)
  | l, w :: ws => if w ∈ l then removeAll (l.erase w) ws else (l, false)

/-- tree_edit_manager.py 956-984: the body of `unwire_data`. -/
def unwireData (s : St) (ws : List Wiring) (ignore : Bool) : St × Resp :=
  if !ignore && !ws.all (· ∈ s.wirings) then (s, .err)
  else
    let r := removeAll s.wirings (ws.filter (· ∈ s.wirings))
    ({ s with wirings := r.1 }, if r.2 then .ok else .crash)

/-! ### Cycle search -/

/-- tree_edit_manager.py 78-94: the inner loop of `find_nodes_in_cycles` for one start id, with a
bound on the number of rounds; `none`: not finished. The result says whether the candidates are safe
or lie on a cycle. The final `if not current_node.parent` (line 93) extends `safe_node_ids` after the
loop has ended because the parent is missing; when the loop is left by `break`, `current_node.parent` is
set (a parent that is not in the tree leaves `current_node` at a node with a parent; the others are
only reached at nodes whose chain goes on, or again safe), so nothing is added twice except safe ids. -/
def chase (s : St) (start : Id) (safe : List Id) : Nat → Ref → List Id → Option (Bool × List Id)
  | fuel, cur, cand =>
    match (s.heap cur).parent with
    | none => some (true, cand)
    | some p =>
      match fuel with
      | 0 => none
      | fuel + 1 =>
        match dictGet s.nodes (s.heap p).nid with
        | none => some (true, cand)
        | some cur' =>
          let cand := cand ++ [(s.heap cur').nid]
          if (s.heap cur').nid = start then some (false, cand)
          else if (s.heap cur').nid ∈ safe then some (true, cand)
          else chase s start safe fuel cur' cand

/-- tree_edit_manager.py 75-96: the outer loop of `find_nodes_in_cycles`. -/
def findCyclesLoop (s : St) (fuel : Nat) : List (Id × Ref) → List Id → List Id → Option (List Id)
  | [], _, cyc => some cyc
  | (i, r) :: l, safe, cyc =>
    match chase s i safe fuel r [i] with
    | none => none
    | some (true, cand) => findCyclesLoop s fuel l (safe ++ cand) cyc
    | some (false, cand) => findCyclesLoop s fuel l safe (cyc ++ cand)

/-- tree_edit_manager.py 69-96: `find_nodes_in_cycles`, `none` if it takes more than `fuel` rounds for
one start id. -/
def findCycles (s : St) (fuel : Nat) : Option (List Id) := findCyclesLoop s fuel s.nodes [] []

/-! ### Removing -/

/-- tree_edit_manager.py 296-304: the work list of `remove_node`. `pending` is reversed (its head is
the end of the Python list). -/
def collect (s : St) : Nat → List Id → List Id → List Id
  | 0, _, acc => acc
  | _, [], acc => acc
  | fuel + 1, cur :: pending, acc =>
    let r := ((dictGet s.adj cur).getD []).foldl (fun (st : List Id × List Id) c =>
        if (dictGet s.nodes c).isSome && c ∉ st.2 then (c :: st.1, st.2 ++ [c]) else st) (pending, acc)
    collect s fuel r.1 r.2

/-- tree_edit_manager.py 307-351: dropping the nodes `del` from the tree. Objects registered in
`self.nodes` are changed; the loops run over all of them. -/
def dropNodes (s : St) (del : List Id) : St :=
  { s with
    wirings := s.wirings.filter fun w => !del.any w.hasId
    heap := fun r =>
      let o := s.heap r
      if s.nodes.any (·.2 = r) then
        if o.nid ∈ del then { o with parent := none, children := [] }
        else { o with
          children := o.children.filter fun c => (s.heap c).nid ∉ del
          parent := match o.parent with
            | some p => if (s.heap p).nid ∈ del then none else some p
            | none => none }
      else o
    adj := (s.adj.filter fun x => x.1 ∉ del).map fun x => (x.1, x.2.filter (· ∉ del))
    nodes := s.nodes.filter fun x => x.1 ∉ del }

/-- tree_edit_manager.py 269-355: the body of `remove_node`. -/
def removeNode (s : St) (node : Option Id) (withChildren : Bool) : St × Resp :=
  match node with
  | none => (s, .err)
  | some i =>
    if (dictGet s.nodes i).isNone then (s, .err)
    else
      let s := sync s
      let del := if withChildren then collect s (s.nodes.length + 1) [i] [i] else [i]
      (dropNodes s del, .ok)

/-- tree_edit_manager.py 256-267: the end of every service call publishes (see the file comment). -/
def edit (f : St → St × Resp) (s : St) : St × Resp := (sync (f s).1, (f s).2)

/-! ### Adding -/

/-- tree_edit_manager.py 129-253: the body of `add_node_at_index` (and of `add_node`, 104-126, with
index -1). `uuid` is the id drawn by `uuid.uuid4()`. Lines 191-202: the message's `child_ids` are strings,
the keys of `self.nodes` are `UUID`s, so every listed child counts as missing. -/
def addNode (s : St) (uuid : Id) (sp : Option Spec) (parent : Option Id) (index : Int) (childIds : List Id) :
    St × Resp :=
  match sp with
  | none => (s, .err)
  | some sp =>
    let (s, inst) := instantiate s uuid sp
    match parent with
    | none => (s, .err)
    | some p =>
      match (if p = 0 then some (some s)
             else match dictGet s.nodes p with
              | none => none
              | some rp => some (addChild s rp inst (some index))) with
      | none => ((edit (removeNode · (some uuid) false) s).1, .err)
      | some none => (s, .err)
      | some (some s) =>
        let missing := !childIds.isEmpty
        let s := if missing then (edit (removeNode · (some uuid) false) s).1 else s
        match findCycles s (s.nodes.length + 1) with
        | none => (s, .hang)
        | some (_ :: _) =>
          -- the instance has no children here; lines 221-226 do nothing
          ((edit (removeNode · (some uuid) false) s).1, .err)
        | some [] => (s, if missing then .err else .ok)

/-! ### Moving -/

/-- tree_edit_manager.py 707-714: the descendants according to `_children`. -/
def descendants (s : St) : Nat → List Id → List Id → List Id
  | 0, _, acc => acc
  | _, [], acc => acc
  | fuel + 1, d :: pending, acc =>
    if d ∈ acc then descendants s fuel pending acc
    else descendants s fuel (((dictGet s.adj d).getD []).reverse ++ pending) (acc ++ [d])

/-- Enough rounds for `descendants`. -/
def descFuel (s : St) (pending : List Id) : Nat := pending.length + (s.adj.map fun x => x.2.length).sum

/-- tree_edit_manager.py 647-755: the body of `move_node`. -/
def moveNode (s : St) (node parent : Option Id) (index : Int) : St × Resp :=
  match node, parent with
  | none, _ => (s, .err)
  | _, none => (s, .err)
  | some i, some p =>
    match dictGet s.nodes i with
    | none => (s, .err)
    | some r =>
      if p = 0 then
        match (s.heap r).parent with
        | none => (sync s, .ok)
        | some q =>
          match removeChild s q (s.heap r).nid with
          | none => (s, .err)
          | some (s, _) => (sync s, .ok)
      else
        match dictGet s.nodes p with
        | none => (s, .err)
        | some rp =>
          if (s.heap rp).spec.max = some (s.heap rp).children.length then (s, .err)
          else
            let start := ((dictGet s.adj i).getD []).reverse
            if (s.heap rp).nid ∈ descendants s (descFuel s start) start [] then (s, .err)
            else
              match (match (s.heap r).parent with
                | none => some s
                | some q => (removeChild s q (s.heap r).nid).map (·.1)) with
              | none => (s, .err)
              | some s' =>
                match addChild s' rp r (some index) with
                | none => (s', .err)
                | some s'' => (sync s'', .ok)

/-! ### Replacing -/

/-- tree_edit_manager.py 862-883: moving the children from the old to the new node. The flag is
false if the loop is left with an error. -/
def moveChildren (old new : Ref) (skip : Option Id) : List Id → St → St × Bool
  | [], s => (s, true)
  | c :: cs, s =>
    match removeChild s old c with
    | none => (s, false)
    | some (s, rc) =>
      if skip = some c then moveChildren old new skip cs s
      else
        match addChild s new rc none with
        | none => (s, false)
        | some s => moveChildren old new skip cs s

/-- tree_edit_manager.py 795-808: does a node with this `max_children` have too little room for `n`
children? -/
def tooMany (max : Option Nat) (n : Nat) : Bool := match max with | none => false | some m => m < n

/-- tree_edit_manager.py 820-858: the index at which `replace_node` will put the new node. -/
def replaceIndex (s : St) (o n : Obj) : Nat :=
  let idx := match o.parent with
    | none => 0
    | some q => (childIndex s q o.nid).getD 0
  match n.parent, o.parent with
  | some a, some b =>
    if (s.heap a).nid = (s.heap b).nid ∧ 0 < idx then
      match childIndex s a n.nid with
      | some k => if k < idx then idx - 1 else idx
      | none => idx
    else idx
  | _, _ => idx

/-- tree_edit_manager.py 759-916: the body of `replace_node`. -/
def replaceNode (s : St) (old new : Option Id) : St × Resp :=
  match old, new with
  | none, _ => (s, .err)
  | _, none => (s, .err)
  | some i, some j =>
    match dictGet s.nodes i, dictGet s.nodes j with
    | none, _ => (s, .err)
    | _, none => (s, .err)
    | some ro, some rn =>
      let o := s.heap ro
      let n := s.heap rn
      if tooMany n.spec.max o.children.length then (s, .err)
      else
        let idx := replaceIndex s o n
        let (s, done) := moveChildren ro rn (some n.nid) (s.childIds ro) s
        if !done then (s, .err)
        else
          match edit (removeNode · (some o.nid) true) s with
          | (s, .ok) =>
            match o.parent with
            | none => (s, .ok)
            | some q => edit (moveNode · (some n.nid) (some (s.heap q).nid) (Int.ofNat idx)) s
          | (s, e) => (s, e)

/-! ### Exchanging a node object -/

/-- tree_edit_manager.py 413-449 and 560-616: putting `new` into the place of `old` in the parent of
`old`. The answer `hang` (used here only) is the error after the `old` node has been put back. -/
def swapInParent (s : St) (old new : Ref) : St × Resp :=
  match (s.heap old).parent with
  | none => (s, .ok)
  | some q =>
    match childIndex s q (s.heap old).nid with
    | none => (s, .err)
    | some k =>
      match removeChild s q (s.heap old).nid with
      | none => (s, .err)
      | some (s, _) =>
        match addChild s q new (some k) with
        | some s => (s, .ok)
        | none => (((addChild s q old (some k)).getD s), .hang)

/-- tree_edit_manager.py 359-484: the body of `morph_node`. -/
def morphNode (C : Nat → Nat → Bool) (s : St) (node : Option Id) (sp : Option Spec) : St × Resp :=
  match node with
  | none => (s, .err)
  | some i =>
    match dictGet s.nodes i with
    | none => (s, .err)
    | some old =>
      match sp with
      | none => (s, .err)
      | some sp =>
        let (s, new) := instantiate s i sp
        let ws := s.wirings.filter (·.hasId (s.heap old).nid)
        match edit (unwireData · ws false) s with
        | (s, .ok) =>
          match swapInParent s old new with
          | (s, .ok) =>
            let (s, done) := moveChildren old new none (s.childIds old) s
            if !done then (s, .err)
            else
              let s := { s with nodes := dictSet (dictDel s.nodes (s.heap old).nid) (s.heap new).nid new
                                adj := dictSet (dictDel s.adj (s.heap old).nid) (s.heap new).nid (s.childIds new) }
              match edit (wireData C · ws true) s with
              | (s, .ok) => (s, .ok)
              | (s, _) => (s, .err)
          | (s, .hang) => ((edit (wireData C · ws true) s).1, .err)
          | (s, _) => (s, .err)
        | (s, .crash) => (s, .crash)
        | (s, _) => (s, .err)

/-- tree_edit_manager.py 488-643: the body of `set_options`. The new node has the same class as the
old one, hence the same `max_children`. -/
def setOptions (C : Nat → Nat → Bool) (s : St) (node : Option Id) (sp : Option Spec) : St × Resp :=
  match node with
  | none => (s, .err)
  | some i =>
    match dictGet s.nodes i with
    | none => (s, .err)
    | some old =>
      let s := sync s
      match sp with
      | none => (s, .err)
      | some sp =>
        let (s, new) := instantiate s (s.heap old).nid { sp with max := (s.heap old).spec.max }
        let ws := s.wirings.filter (·.hasId i)
        match edit (unwireData · ws false) s with
        | (s, .ok) =>
          match swapInParent s old new with
          | (s, .ok) =>
            let s := { s with nodes := dictSet s.nodes i new, adj := dictSet s.adj i (s.childIds new) }
            let s := (edit (wireData C · ws true) s).1
            let (s, done) := moveChildren old new none (s.childIds old) s
            if done then (sync s, .ok) else (s, .err)
          | (s, .hang) => ((edit (wireData C · ws true) s).1, .err)
          | (s, _) => (s, .err)
        | (s, .crash) => (s, .crash)
        | (s, _) => (s, .err)

/-! ### Loading and publishing -/

/-- ros_bt_py_interfaces/msg/NodeStructure.msg as far as it matters here. -/
structure NodeMsg where
  nid : Option Id
  spec : Option Spec
  childIds : List (Option Id)
  deriving DecidableEq, Repr

/-- ros_bt_py_interfaces/msg/TreeStructure.msg: nodes and wirings. -/
structure TreeMsg where
  nodes : List NodeMsg
  wirings : List Wiring
  deriving DecidableEq, Repr

/-- tree_exec_manager.py 756-780: the body of `clear`. -/
def clear (s : St) : St × Resp := ({ s with nodes := [], adj := [], wirings := [] }, .ok)

/-- tree_exec_manager.py 854-866: instantiating all nodes of the message. -/
def loadNodes : List NodeMsg → St → St × Bool
  | [], s => (s, true)
  | m :: ms, s =>
    match m.nid, m.spec with
    | some i, some sp => loadNodes ms (instantiate s i sp).1
    | _, _ => (s, false)

/-- tree_exec_manager.py 871-885: adding the children of one node. -/
def loadChildren (i : Id) : List (Option Id) → St → St × Resp
  | [], s => (s, .ok)
  | none :: _, s => (s, .err)
  | some c :: cs, s =>
    match dictGet s.nodes i, dictGet s.nodes c with
    | some ri, some rc =>
      match addChild s ri rc none with
      | some s => loadChildren i cs s
      | none => (s, .err)
    | _, _ => (s, .crash)

/-- tree_exec_manager.py 868-885: adding the children of all nodes. -/
def loadLinks : List NodeMsg → St → St × Resp
  | [], s => (s, .ok)
  | m :: ms, s =>
    match loadChildren (m.nid.getD 0) m.childIds s with
    | (s, .ok) => loadLinks ms s
    | (s, e) => (s, e)

/-- tree_exec_manager.py 820-922: the body of `load_tree`. `none`: `load_tree_from_file` (169-227) fails, as it does
for a message without nodes and path; so the message has nodes. Only nodes, links and wirings are modelled. -/
def loadTree (C : Nat → Nat → Bool) (s : St) (msg : Option TreeMsg) : St × Resp :=
  match msg with
  | none => (s, .err)
  | some t =>
    let s := (edit clear s).1
    let (s, done) := loadNodes t.nodes s
    if !done then (s, .err)
    else
      match loadLinks t.nodes s with
      | (s, .ok) =>
        if t.wirings.all (validate C s) then (sync { s with wirings := t.wirings }, .ok) else (s, .err)
      | (s, e) => (s, e)

/-- tree_exec_manager.py 585-621: `find_root`; `none` is `Err`, `some none` the empty tree. -/
def findRoot (s : St) : Option (Option Ref) :=
  if s.nodes.isEmpty then some none
  else
    let childIds := s.nodes.flatMap fun x => s.childIds x.2
    match s.nodes.filter fun x => (s.heap x.2).nid ∉ childIds with
    | [x] => some (some x.2)
    | _ => none

/-- node.py 1170-1216: `to_structure_msg`. -/
def nodeMsg (s : St) (r : Ref) : NodeMsg :=
  { nid := some (s.heap r).nid, spec := some (s.heap r).spec, childIds := (s.childIds r).map some }

/-- node.py 1070-1076: `get_children_recursive`, cut off at depth `fuel`. -/
def preorder (s : St) : Nat → Ref → List Ref
  | 0, _ => []
  | fuel + 1, r => r :: (s.heap r).children.flatMap (preorder s fuel)

/-- tree_exec_manager.py 1431-1455: `structure_to_msg` (and the attribute `data_wirings` of the
published message, which is `self.wirings`). -/
def structureMsg (s : St) : TreeMsg :=
  { wirings := s.wirings
    nodes := match findRoot s with
      | some none => []
      | some (some r) => (preorder s s.nodes.length r).map (nodeMsg s)
      | none => s.nodes.map fun x => nodeMsg s x.2 }

/-- tree_exec_manager.py 784-797: `reload_tree`. The message passed to `load_tree` is the object
`self._tree_structure` itself; `clear`, called by `load_tree`, empties its wirings and, by publishing,
its nodes. -/
def reloadTree (C : Nat → Nat → Bool) (s : St) : St × Resp :=
  if (structureMsg s).nodes.isEmpty then (s, .err) else loadTree C s (some { nodes := [], wirings := [] })

/-! ### Requests -/

/-- The edit services. -/
inductive Req
  | add (uuid : Id) (sp : Option Spec) (parent : Option Id) (index : Int) (childIds : List Id)
  | remove (node : Option Id) (withChildren : Bool)
  | morph (node : Option Id) (sp : Option Spec)
  | setOptions (node : Option Id) (sp : Option Spec)
  | move (node parent : Option Id) (index : Int)
  | replace (old new : Option Id)
  | wire (ws : List Wiring) (ignore : Bool)
  | unwire (ws : List Wiring) (ignore : Bool)
  | load (msg : Option TreeMsg)
  | reload
  | clear
  | rename

/-- The service handlers, with the decorator `is_edit_service` (tree_exec_manager.py 92-124) in state
EDITABLE. -/
def handle (C : Nat → Nat → Bool) : Req → St → St × Resp
  | .add u sp p i cs => edit (addNode · u sp p i cs)
  | .remove n b => edit (removeNode · n b)
  | .morph n sp => edit (morphNode C · n sp)
  | .setOptions n sp => edit (setOptions C · n sp)
  | .move n p i => edit (moveNode · n p i)
  | .replace a b => edit (replaceNode · a b)
  | .wire ws b => edit (wireData C · ws b)
  | .unwire ws b => edit (unwireData · ws b)
  | .load m => edit (loadTree C · m)
  | .reload => edit (reloadTree C ·)
  | .clear => edit clear
  | .rename => edit fun s => (s, .ok)

/-- A history of requests. -/
def history (C : Nat → Nat → Bool) (rs : List Req) (s : St) : St := rs.foldl (fun s r => (handle C r s).1) s

end Verif.Edit
