import Verif.BT.Basic

/-!
# The hooks of the control-flow nodes

Each definition mirrors the `_do_*` methods of one class.
The argument `n` is the number of children, `st` the node's own `state` when the hook is called,
`m` the instance attributes, `e` the answers of the outside world in this call.
-/

set_option autoImplicit false

namespace Verif.BT

namespace Prog

/-- `for child in children: match child.op(): case Err(e): return Err(e)` followed by the rest `k`
of the hook. Models e.g. `sequence.py:75-80`, `91-96`, `109-114`, `120-125`, `129-134`. -/
def forAll (op : Op) (m : Mem) : List Nat → Prog → Prog
  | [], k => k
  | i :: is, k => .call op i fun
    | .err => .done m .err
    | .ok _ => forAll op m is k

/-- `for child in children: return child.op().map(f)` and, without children, `return Ok(dflt)`.
Models e.g. `decorators.py:49-63`. -/
def onHead (n : Nat) (op : Op) (m : Mem) (f : BTState → BTState) (dflt : BTState) : Prog :=
  if n = 0 then .done m (.ok dflt)
  else .call op 0 fun r => .done m (r.map f)

/-- `for child in children: match child.untick(): case Err(e): return Err(e)` then
`return Ok(PAUSED)`. Models `decorators.py:313-320` and siblings. -/
def untickPaused (n : Nat) (m : Mem) : Prog :=
  forAll .untick m (List.range n) (.done m (.ok .paused))

/-- Call `op` on all children, then return `Ok(s)`. Models e.g. `sequence.py:74-81` (setup),
`119-126` (untick), `128-135` (reset). -/
def allThen (n : Nat) (op : Op) (m : Mem) (s : BTState) : Prog :=
  forAll op m (List.range n) (.done m (.ok s))

/-- `if self.state in [SUCCEEDED, FAILED]: for child in children: reset`.
Models `sequence.py:90-96`, `fallback.py:69-75`, `158-164`, `parallel.py:97-103`. -/
def resetIfFinished (n : Nat) (st : BTState) (m : Mem) (k : Prog) : Prog :=
  if st = .succeeded ∨ st = .failed then forAll .reset m (List.range n) k else k

/-- The tick loop of Sequence and MemorySequence over the remaining child indices.
`mem = true` records the running child. Models `sequence.py:99-117` and `211-235`. -/
def seqLoop (mem : Bool) (m : Mem) : List Nat → Prog
  | [] => .done m (.ok .succeeded)
  | i :: is => .call .tick i fun
    | .err => .done m .err
    | .ok s =>
      if s = .succeeded then seqLoop mem m is
      else if s = .running then
        .done (if mem then { m with lastRunning := i } else m) (.ok s)
      else forAll .untick m is (.done m (.ok s))

/-- The tick loop of Fallback and MemoryFallback. Models `fallback.py:167-185` and `278-300`. -/
def fbLoop (mem : Bool) (m : Mem) : List Nat → Prog
  | [] => .done m (.ok .failed)
  | i :: is => .call .tick i fun
    | .err => .done m .err
    | .ok s =>
      if s = .running then
        .done (if mem then { m with lastRunning := i } else m) (.ok s)
      else if s = .succeeded then forAll .untick m is (.done m (.ok s))
      else fbLoop mem m is

/-- `for child in children: if child.state in [SUCCEEDED, FAILED]: continue; child.untick()`
and then `return Ok(s)`. Models `parallel.py:120-128`, `131-139`, `354-362`, `365-373`. -/
def parFinish (m : Mem) (s : BTState) : List Nat → Prog
  | [] => .done m (.ok s)
  | i :: is => .peek i fun st =>
    if st = .succeeded ∨ st = .failed then parFinish m s is
    else .call .untick i fun
      | .err => .done m .err
      | .ok _ => parFinish m s is

/-- Counting of `child.state` after the (possible) tick of a child in the loop of the parallel
nodes (`parallel.py:114-117`, `348-351`). -/
def countState (st : BTState) (sf : Nat × Nat) : Nat × Nat :=
  if st = .succeeded then (sf.1 + 1, sf.2)
  else if st = .failed then (sf.1, sf.2 + 1)
  else sf

/-- The tick loop of Parallel and ParallelFailureTolerance: `successes`/`failures` are counted
by the children's state. `k` receives the final counts. Models `parallel.py:105-117` and `339-351`. -/
def parLoop (m : Mem) (k : Nat → Nat → Prog) : List Nat → Nat × Nat → Prog
  | [], sf => k sf.1 sf.2
  | i :: is, sf => .peek i fun st =>
    if st = .succeeded ∨ st = .failed then parLoop m k is (countState st sf)
    else .call .tick i fun
      | .err => .done m .err
      | .ok _ => .peek i fun st' => parLoop m k is (countState st' sf)

/-- `tick` then, if the child's result is `on`, reset it and return RUNNING, otherwise return
the child's result. Models `decorators.py:185-196` (UntilSuccess), `516-528` (RepeatUntilFail),
`565-577` (RepeatIfFail). -/
def tickResetOn (n : Nat) (on : BTState) (m : Mem) : Prog :=
  if n = 0 then .done m (.ok .succeeded)
  else .call .tick 0 fun
    | .err => .done m .err
    | .ok s =>
      if s = on then .call .reset 0 fun r => .done m (r.map fun _ => .running)
      else .done m (.ok s)

/-- Untick all entries of the child map whose name differs from the selected one.
Models `fallback.py:77-84`, `enum_switch.py:143-150`. -/
def untickOthers (m : Mem) (name : Nat) : List (Nat × Nat) → Prog → Prog
  | [], k => k
  | (nm, i) :: rest, k =>
    if nm = name then untickOthers m name rest k
    else .call .untick i fun
      | .err => .done m .err
      | .ok _ => untickOthers m name rest k

end Prog

open Prog

/-- Dictionary insertion as in the dict comprehension `{child.name: child ...}`: an existing key
keeps its position and gets the new value. Models `fallback.py:49`, `enum_switch.py:104`. -/
def dictInsert (d : List (Nat × Nat)) (k v : Nat) : List (Nat × Nat) :=
  match d with
  | [] => [(k, v)]
  | (k', v') :: rest => if k' = k then (k', v) :: rest else (k', v') :: dictInsert rest k v

/-- Builds `child_map` from the children's names in order; values are child indices.
Models `fallback.py:49`, `enum_switch.py:104` (there the key is the last dot-separated part of the
name; the model's `name` is that key). -/
def buildMap (names : List Nat) : List (Nat × Nat) :=
  (names.zipIdx).foldl (fun d p => dictInsert d p.1 p.2) []

/-- Dictionary lookup. Models `name not in self.child_map` / `self.child_map[name]`
(`fallback.py:64`, `85`). -/
def dictGet (d : List (Nat × Nat)) (k : Nat) : Option Nat :=
  (d.find? fun p => p.1 = k).map (·.2)

/-- `_do_setup` of every class. `n = names.length`. -/
def setupHook (k : Kind) (m : Mem) (e : Env) (names : List Nat) : Prog :=
  let n := names.length
  match k with
  -- user hook of a leaf
  | .leaf => .done m e.hook
  -- sequence.py:74-81, fallback.py:143-150
  | .sequence | .fallback => allThen n .setup m .idle
  -- sequence.py:184-192, fallback.py:251-259
  | .memSequence | .memFallback =>
    allThen n .setup { m with lastRunning := 0 } .idle
  -- fallback.py:48-56, enum_switch.py:97-113
  | .nameSwitch | .enumSwitch =>
    allThen n .setup { m with childMap := buildMap names } .idle
  -- parallel.py:72-92
  | .parallel =>
    if e.cfgOk then
      let m' := { m with needed := e.num }
      if (n : Int) < e.num then .done m' .err else allThen n .setup m' .idle
    else .done m .err
  -- parallel.py:301-326 (reading `tolerate_failures` is covered by the same `cfgOk`)
  | .parallelTol =>
    if e.cfgOk then
      let m' := { m with needed := e.num }
      if (n : Int) < e.num then .done m' .err
      else allThen n .setup { m' with tolerate := e.num2 } .idle
    else .done m .err
  -- decorators.py:49-52, 139-142, 180-183, 223-226, 458-461, 511-514, 560-563, 672-675
  | .ignoreFailure | .ignoreSuccess | .untilSuccess | .inverter
  | .repeatAlways | .repeatUntilFail | .repeatIfFail | .watch =>
    onHead n .setup m id .idle
  -- getters.py:60-68 (the flag `succeed_on_stale_data` only influences `Env.own`)
  | .getter => if e.cfgOk then onHead n .setup m id .idle else .done m .err
  -- decorators.py:89-97
  | .ignoreRunning =>
    if e.cfgOk then onHead n .setup { m with runIsSucc := e.flag } id .idle
    else .done m .err
  -- decorators.py:273-282, 341-350 (RepeatNoAutoReset inherits it, 396)
  | .retry | .repeat | .repeatNoAutoReset =>
    let m0 := { m with count := 0 }
    if e.cfgOk then onHead n .setup { m0 with limit := e.num } id .idle
    else .done m0 .err
  -- decorators.py:610-621; `e.cfgOk`/`e.flag`: outcome and `can_execute` of the child's
  -- `calculate_utility()`
  | .optional =>
    let m0 := { m with execChild := false }
    if n = 0 then .done m0 (.ok .idle)
    else if e.cfgOk then
      if e.flag then onHead n .setup { m0 with execChild := true } id .idle
      else .done m0 (.ok .idle)
    else .done m0 .err
  -- list.py:179-187; node.py:370-372 empties the output
  | .iterateList =>
    onHead n .setup { m with outChanged := true, counter := 0, item := none } id .idle
  -- throttle.py:54-68
  | .throttle =>
    if e.cfgOk then
      onHead n .setup { m with lastTick := none, lastRes := .ok .failed, limit := e.num } id .idle
    else .done m .err
  -- throttle.py:118-132
  | .throttleSuccess =>
    if e.cfgOk then
      onHead n .setup { m with lastTick := none, limit := e.num } id .idle
    else .done m .err
  -- subtree.py:196-217; the only "child" is the root of the nested tree; `cfgOk` is `find_root`,
  -- `outOk` is `data_flow_manager.initialize`
  | .subtree =>
    if e.cfgOk then
      if n = 0 then .done { m with rootSet := false } (.ok .idle)
      else
        let m' := { m with rootSet := true }
        if e.outOk then .call .setup 0 fun r => .done m' r
        else .done m' .err
    else .done m .err

/-- `IterateList._do_tick` after the reaction to a changed input. Models `list.py:199-242`;
`in_list[self.counter]` outside the list raises IndexError, modelled as Err. -/
def iterateTick (n : Nat) (m : Mem) (e : Env) : Prog :=
  if e.listLen = 0 then .done m (.ok .succeeded)
  else if e.listLen ≤ m.counter then .done m .err
  else if e.outOk then
    let m := { m with item := some m.counter }
    if n = 0 then
      let m1 := { m with counter := m.counter + 1 }
      if m1.counter = e.listLen then
        .done { m1 with outChanged := true, counter := 0 } (.ok .succeeded)
      else .done m1 (.ok .running)
    else if m.outChanged then .done { m with outChanged := false } (.ok .running)
    else .call .tick 0 fun
      | .err => .done m .err
      | .ok s =>
        if s = .succeeded then
          if m.counter + 1 = e.listLen then
            .done { m with outChanged := true, counter := 0 } (.ok .succeeded)
          else
            .done { m with outChanged := true, counter := m.counter + 1 } (.ok .running)
        else if s = .failed then .done m (.ok .failed)
        else .done m (.ok .running)
  else .done m .err

/-- `_do_tick` of every class. -/
def tickHook (k : Kind) (st : BTState) (m : Mem) (e : Env) (names : List Nat) : Prog :=
  let n := names.length
  match k with
  | .leaf => .done m e.hook
  -- sequence.py:84-117
  | .sequence =>
    if n = 0 then .done m (.ok .succeeded)
    else resetIfFinished n st m (seqLoop false m (List.range n))
  -- sequence.py:194-235
  | .memSequence =>
    if n = 0 then .done m (.ok .succeeded)
    else
      let m' := if st = .succeeded ∨ st = .failed then { m with lastRunning := 0 } else m
      resetIfFinished n st m' (seqLoop true m' ((List.range n).drop m'.lastRunning))
  -- fallback.py:152-185
  | .fallback =>
    if n = 0 then .done m (.ok .failed)
    else resetIfFinished n st m (fbLoop false m (List.range n))
  -- fallback.py:261-300
  | .memFallback =>
    if n = 0 then .done m (.ok .failed)
    else
      let m' := if st = .succeeded ∨ st = .failed then { m with lastRunning := 0 } else m
      resetIfFinished n st m' (fbLoop true m' ((List.range n).drop m'.lastRunning))
  -- fallback.py:58-85, enum_switch.py:115-151
  | .nameSwitch | .enumSwitch =>
    if e.cfgOk then
      match e.key with
      | none => .done m (.ok .failed)
      | some name =>
        match dictGet m.childMap name with
        | none => .done m (.ok .failed)
        | some j =>
          resetIfFinished n st m
            (untickOthers m name m.childMap (.call .tick j fun r => .done m r))
    else .done m .err
  -- parallel.py:94-140
  | .parallel =>
    resetIfFinished n st m <| parLoop m (fun s f =>
      if m.needed ≤ (s : Int) then parFinish m .succeeded (List.range n)
      else if (n : Int) - m.needed < (f : Int) then parFinish m .failed (List.range n)
      else .done m (.ok .running)) (List.range n) (0, 0)
  -- parallel.py:328-374
  | .parallelTol =>
    resetIfFinished n st m <| parLoop m (fun s f =>
      if m.needed ≤ (s : Int) then parFinish m .succeeded (List.range n)
      else if m.tolerate < (f : Int) then parFinish m .failed (List.range n)
      else .done m (.ok .running)) (List.range n) (0, 0)
  -- decorators.py:54-63
  | .ignoreFailure =>
    onHead n .tick m (fun s => if s = .failed then .succeeded else s) .succeeded
  -- decorators.py:99-114
  | .ignoreRunning =>
    onHead n .tick m (fun s =>
      if s ≠ .running then s else if m.runIsSucc then .succeeded else .failed) .failed
  -- decorators.py:144-153
  | .ignoreSuccess =>
    onHead n .tick m (fun s => if s = .succeeded then .failed else s) .failed
  -- decorators.py:185-196
  | .untilSuccess => tickResetOn n .failed m
  -- decorators.py:228-241
  | .inverter =>
    onHead n .tick m (fun s =>
      if s = .failed then .succeeded else if s = .succeeded then .failed else s) .succeeded
  -- decorators.py:284-302
  | .retry =>
    if n = 0 then .done m (.ok .succeeded)
    else .call .tick 0 fun
      | .err => .done m .err
      | .ok s =>
        if s = .failed then
          if m.count < m.limit then
            .call .reset 0 fun r =>
              .done { m with count := m.count + 1 } (r.map fun _ => .running)
          else .done { m with count := 0 } (.ok .failed)
        else .done m (.ok s)
  -- decorators.py:352-368
  | .repeat =>
    if n = 0 then .done m (.ok .succeeded)
    else .call .tick 0 fun
      | .err => .done m .err
      | .ok s =>
        if s = .succeeded then
          if m.count < m.limit then
            .call .reset 0 fun r =>
              .done { m with count := m.count + 1 } (r.map fun _ => .running)
          else .done m (.ok .succeeded)
        else .done m (.ok s)
  -- decorators.py:411-437
  | .repeatNoAutoReset =>
    if e.cfgOk then
      let m' := if e.flag then { m with count := 0 } else m
      if m'.count < m'.limit then
        if n = 0 then .done m' (.ok .succeeded)
        else .call .tick 0 fun
          | .err => .done m' .err
          | .ok s =>
            if s = .succeeded then
              if m'.count < m'.limit then
                .call .reset 0 fun r =>
                  .done { m' with count := m'.count + 1 } (r.map fun _ => .running)
              else .done m' (.ok .succeeded)
            else .done m' (.ok s)
      else .done m' (.ok .succeeded)
    else .done m .err
  -- decorators.py:463-479
  | .repeatAlways =>
    if n = 0 then .done m (.ok .succeeded)
    else .call .tick 0 fun
      | .err => .done m .err
      | .ok s =>
        if s ≠ .running then
          .call .reset 0 fun
            | .err => .done m .err
            | .ok _ => .done m (.ok .running)
        else .done m (.ok .running)
  -- decorators.py:516-528
  | .repeatUntilFail => tickResetOn n .succeeded m
  -- decorators.py:565-577
  | .repeatIfFail => tickResetOn n .failed m
  -- decorators.py:623-627
  | .optional =>
    if m.execChild then .call .tick 0 fun r => .done m r
    else .done m (.ok .succeeded)
  -- decorators.py:677-695
  | .watch =>
    if n = 0 then .done m (.ok .succeeded)
    else if e.cfgOk then
      if e.flag then
        .call .untick 0 fun
          | .err => .done m .err
          | .ok _ => .call .tick 0 fun r => .done m r
      else .call .tick 0 fun r => .done m r
    else .done m .err
  -- list.py:189-197
  | .iterateList =>
    if e.cfgOk then
      iterateTick n (if e.flag then { m with outChanged := true, counter := 0 } else m) e
    else .done m .err
  -- getters.py:70-75 with 113-149 (and GetDictItem 163, GetMultipleDictItems 216, GetAttr 269)
  | .getter =>
    if n = 0 then .done m e.own.toRes
    else .call .tick 0 fun
      | .err => .done m .err
      | .ok s =>
        if s = .failed ∨ s = .running then .done m (.ok s) else .done m e.own.toRes
  -- throttle.py:70-86; times are integers
  | .throttle =>
    if m.lastTick.all (fun t => m.limit < e.now - t) then
      if n = 0 then .done m m.lastRes
      else .call .tick 0 fun r =>
        if r = .ok .running then .done m r
        else
          .call .reset 0 fun r' =>
            let m' := { m with lastRes := r, lastTick := some e.now }
            if r' = .err then .done m' .err else .done m' r
    else .done m m.lastRes
  -- throttle.py:134-148; `result == BTNodeState.RUNNING` compares a `Result` object with a
  -- string and is always False (vendor/result/result.py:71), so are both returns
  | .throttleSuccess =>
    if m.lastTick.all (fun t => m.limit < e.now - t) then
      if n = 0 then .done m (.ok .failed)
      else .call .tick 0 fun _ => .done m (.ok .failed)
    else .done m (.ok .failed)
  -- subtree.py:219-237; `cfgOk` is `push_incoming_data`
  | .subtree =>
    if m.rootSet then
      if e.cfgOk then .call .tick 0 fun r => .done m r else .done m .err
    else .done m .err

/-- `_do_untick` of every class. -/
def untickHook (k : Kind) (m : Mem) (e : Env) (names : List Nat) : Prog :=
  let n := names.length
  match k with
  | .leaf => .done m e.hook
  -- sequence.py:119-126, fallback.py:87-94, 187-194, 302-309, parallel.py:154-161, 388-395,
  -- enum_switch.py:153-160
  | .sequence | .fallback | .memFallback | .nameSwitch | .enumSwitch | .parallel
  | .parallelTol => allThen n .untick m .idle
  -- sequence.py:237-246
  | .memSequence => allThen n .untick { m with lastRunning := 0 } .idle
  -- decorators.py:73-76, 124-127, 163-166, 206-209, 251-254, 705-708, getters.py:86-89,
  -- throttle.py:96-99, 159-162
  | .ignoreFailure | .ignoreRunning | .ignoreSuccess | .untilSuccess | .inverter | .watch
  | .getter | .throttle | .throttleSuccess => onHead n .untick m id .idle
  -- decorators.py:313-320, 379-386, 489-496, 538-545, 587-594, list.py:244-251
  | .retry | .repeat | .repeatNoAutoReset | .repeatAlways | .repeatUntilFail | .repeatIfFail
  | .iterateList => untickPaused n m
  -- decorators.py:638-642
  | .optional => if m.execChild then .call .untick 0 fun r => .done m r else .done m (.ok .idle)
  -- subtree.py:239-247
  | .subtree => if m.rootSet then .call .untick 0 fun r => .done m r else .done m .err

/-- `_do_reset` of every class. -/
def resetHook (k : Kind) (m : Mem) (e : Env) (names : List Nat) : Prog :=
  let n := names.length
  match k with
  | .leaf => .done m e.hook
  -- sequence.py:128-135, fallback.py:96-103, 196-203, parallel.py:145-152, 379-386,
  -- enum_switch.py:162-169
  | .sequence | .fallback | .nameSwitch | .enumSwitch | .parallel | .parallelTol =>
    allThen n .reset m .idle
  -- sequence.py:248-256, fallback.py:311-319
  | .memSequence | .memFallback => allThen n .reset { m with lastRunning := 0 } .idle
  -- decorators.py:68-71, 119-122, 158-161, 201-204, 246-249, 484-487, 533-536, 582-585, 700-703,
  -- getters.py:81-84, throttle.py:91-94
  | .ignoreFailure | .ignoreRunning | .ignoreSuccess | .untilSuccess | .inverter
  | .repeatAlways | .repeatUntilFail | .repeatIfFail | .watch | .getter | .throttle =>
    onHead n .reset m id .idle
  -- decorators.py:307-311, 373-377
  | .retry | .repeat => onHead n .reset { m with count := 0 } id .idle
  -- decorators.py:439-444
  | .repeatNoAutoReset =>
    if m.count < m.limit then onHead n .reset m id .idle else .done m (.ok .idle)
  -- decorators.py:632-636
  | .optional => if m.execChild then .call .reset 0 fun r => .done m r else .done m (.ok .idle)
  -- list.py:253-257; node.py:606-608 empties the output
  | .iterateList =>
    onHead n .reset { m with outChanged := true, counter := 0, item := none } id .idle
  -- throttle.py:153-157
  | .throttleSuccess => onHead n .reset { m with lastTick := none } id .idle
  -- subtree.py:249-257
  | .subtree => if m.rootSet then .call .reset 0 fun r => .done m r else .done m (.ok .idle)

/-- `_do_shutdown` of every class. Only the nested tree of a Subtree is shut down by the hook;
ordinary children are shut down by `Node.shutdown` itself. -/
def shutdownHook (k : Kind) (m : Mem) (e : Env) : Prog :=
  match k with
  | .leaf => .done m e.hook
  -- sequence.py:258-260, fallback.py:321-323
  | .memSequence | .memFallback => .done { m with lastRunning := 0 } (.ok .shutdown)
  -- subtree.py:259-267
  | .subtree =>
    if m.rootSet then .call .shutdown 0 fun r => .done m r else .done m (.ok .shutdown)
  -- sequence.py:137, fallback.py:105, 205, parallel.py:142, 376, decorators.py:65, 116, 155,
  -- 198, 243, 304, 370, 481, 530, 579, 629, 697, list.py:259, getters.py:78, throttle.py:88,
  -- 150, enum_switch.py:171
  | _ => .done m (.ok .shutdown)

/-- The hook belonging to an operation. Models the dispatch `self._do_*()` in `node.py:374`,
`444`, `539`, `611`, `672`. -/
def hookProg (k : Kind) (op : Op) (st : BTState) (m : Mem) (e : Env) (names : List Nat) : Prog :=
  match op with
  | .setup => setupHook k m e names
  | .tick => tickHook k st m e names
  | .untick => untickHook k m e names
  | .reset => resetHook k m e names
  | .shutdown => shutdownHook k m e

end Verif.BT
