/-! Model of the utility estimate (`calculate_utility`).

Numbers are rationals; `math.fsum` and `+` on float64 are modelled as exact addition. -/

set_option autoImplicit false

namespace Verif.Utility

/-- ros_bt_py_interfaces/msg/UtilityBounds.msg 28-42 (all fields default to `False` / `0.0`) -/
structure Bounds where
  can : Bool := false
  hasLS : Bool := false
  hasUS : Bool := false
  hasLF : Bool := false
  hasUF : Bool := false
  ls : Rat := 0
  us : Rat := 0
  lf : Rat := 0
  uf : Rat := 0
  deriving DecidableEq, Repr

/-- A `Result[UtilityBounds, BehaviorTreeException]`; the exception is reduced to a token. -/
abbrev Res := Except Unit Bounds

/-- The bounds of a node that executes at no cost: node.py 747-769 (`Node._do_calculate_utility`),
    also the start value in sequence.py 270-276 and fallback.py 335-341. -/
def free : Bounds := { can := true, hasLS := true, hasUS := true, hasLF := true, hasUF := true }

/-- sequence.py 282-288: one entry of `failure_bounds` before the loop. -/
def seqInit : Bounds := { hasLF := true, hasUF := true }

/-- sequence.py 302-305: the update of `bounds`. -/
def seqSum (b c : Bounds) : Bounds :=
  { b with hasLS := b.hasLS && c.hasLS, ls := b.ls + c.ls,
           hasUS := b.hasUS && c.hasUS, us := b.us + c.us }

/-- sequence.py 307-318: the update of `failure_bounds[index]`. -/
def seqOwn (f c : Bounds) : Bounds :=
  { f with lf := f.lf + c.lf, hasLF := f.hasLF && c.hasLF,
           uf := f.uf + c.uf, hasUF := f.hasUF && c.hasUF }

/-- sequence.py 321-333: the update of `failure_bounds[i]`, `i > index`. -/
def seqLater (f c : Bounds) : Bounds :=
  { f with lf := f.lf + c.ls, hasLF := f.hasLF && c.hasLS,
           uf := f.uf + c.us, hasUF := f.hasUF && c.hasUS }

/-- One assignment round of sequence.py 302-333 on the list `failure_bounds`. -/
def seqMarks (index : Nat) (c : Bounds) (fs : List Bounds) : List Bounds :=
  fs.mapIdx fun i f => if i = index then seqOwn f c else if index < i then seqLater f c else f

/-- sequence.py 290-333: the loop. `none`: early return because a child cannot execute (line 298-299;
    `unwrap_or(UtilityBounds(can_execute=False))` turns an `Err` into that case). -/
def seqLoop : Nat → List Res → Bounds → List Bounds → Option (Bounds × List Bounds)
  | _, [], b, fs => some (b, fs)
  | index, r :: rs, b, fs =>
    let c := match r with | .ok c => c | .error _ => {}
    if c.can then seqLoop (index + 1) rs (seqSum b c) (seqMarks index c fs) else none

/-- Python `min` of a non-empty sequence. -/
def minL : List Rat → Rat
  | [] => 0
  | [x] => x
  | x :: y :: l => min x (minL (y :: l))

/-- Python `max` of a non-empty sequence. -/
def maxL : List Rat → Rat
  | [] => 0
  | [x] => x
  | x :: y :: l => max x (maxL (y :: l))

/-- sequence.py 266-349: `calculate_utility_sequence`; the argument lists the children's estimates. -/
def calcSequence (rs : List Res) : Res :=
  if rs.isEmpty then .ok free
  else match seqLoop 0 rs free (rs.map fun _ => seqInit) with
    | none => .ok {}
    | some (b, fs) => .ok { b with
        lf := minL (fs.map (·.lf)), hasLF := b.hasLF && fs.all (·.hasLF),
        uf := maxL (fs.map (·.uf)), hasUF := b.hasUF && fs.all (·.hasUF) }

/-- fallback.py 364-370 -/
def fbInit : Bounds := { hasLS := true, hasUS := true }

/-- fallback.py 395-398 -/
def fbSum (b c : Bounds) : Bounds :=
  { b with hasLF := b.hasLF && c.hasLF, lf := b.lf + c.lf,
           hasUF := b.hasUF && c.hasUF, uf := b.uf + c.uf }

/-- fallback.py 400-411 -/
def fbOwn (f c : Bounds) : Bounds :=
  { f with ls := f.ls + c.ls, hasLS := f.hasLS && c.hasLS,
           us := f.us + c.us, hasUS := f.hasUS && c.hasUS }

/-- fallback.py 414-426 -/
def fbLater (f c : Bounds) : Bounds :=
  { f with ls := f.ls + c.lf, hasLS := f.hasLS && c.hasLF,
           us := f.us + c.uf, hasUS := f.hasUS && c.hasUF }

/-- One round of fallback.py 395-426 on the list `success_bounds`. -/
def fbMarks (index : Nat) (c : Bounds) (fs : List Bounds) : List Bounds :=
  fs.mapIdx fun i f => if i = index then fbOwn f c else if index < i then fbLater f c else f

/-- fallback.py 373-426. `inl` is an early return: the child's error (384-385) or an estimate without
    `can_execute` (388-389). -/
def fbLoop : Nat → List Res → Bounds → List Bounds → Res ⊕ (Bounds × List Bounds)
  | _, [], b, fs => .inr (b, fs)
  | _, .error e :: _, _, _ => .inl (.error e)
  | index, .ok c :: rs, b, fs =>
    if c.can then fbLoop (index + 1) rs (fbSum b c) (fbMarks index c fs) else .inl (.ok {})

/-- fallback.py 329-441: `calculate_utility_fallback`. -/
def calcFallback (rs : List Res) : Res :=
  if rs.isEmpty then .ok free
  else match fbLoop 0 rs free (rs.map fun _ => fbInit) with
    | .inl r => r
    | .inr (b, fs) => .ok { b with
        ls := minL (fs.map (·.ls)), hasLS := b.hasLS && fs.all (·.hasLS),
        us := maxL (fs.map (·.us)), hasUS := b.hasUS && fs.all (·.hasUS) }

/-- Insertion into a sorted list, in front of equal elements. -/
def insertBy (le : Bounds → Bounds → Bool) (a : Bounds) : List Bounds → List Bounds
  | [] => [a]
  | b :: l => if le a b then a :: b :: l else b :: insertBy le a l

/-- Stable sorting. -/
def sortBy (le : Bounds → Bounds → Bool) (xs : List Bounds) : List Bounds := xs.foldr (insertBy le) []

/-- Python `sorted(xs, key=key)`: stable, ascending (parallel.py 217, 245). -/
def sortAsc (key : Bounds → Rat) (xs : List Bounds) : List Bounds :=
  sortBy (fun a b => decide (key a ≤ key b)) xs

/-- Python `sorted(xs, reverse=True, key=key)`: stable, descending (parallel.py 227-229, 255-257). -/
def sortDesc (key : Bounds → Rat) (xs : List Bounds) : List Bounds :=
  sortBy (fun a b => decide (key b ≤ key a)) xs

/-- The estimates of a list of children if none is an error: parallel.py 186-206. -/
def allOk : List Res → Except Unit (List Bounds)
  | [] => .ok []
  | .error e :: _ => .error e
  | .ok b :: rs => (allOk rs).map (b :: ·)

/-- parallel.py 163-269 (`Parallel._do_calculate_utility`) and, word for word the same, parallel.py
    397-502 (`ParallelFailureTolerance._do_calculate_utility`). `need` is `_needed_successes`. -/
def calcParallel (need : Nat) (rs : List Res) : Res :=
  if rs.length < need then .error ()
  else match allOk rs with
    | .error e => .error e
    | .ok bs =>
      if bs.all (·.can) then
        let bestS := (sortAsc (·.ls) bs).take need
        let worstS := (sortDesc (·.us) bs).take need
        let ft := 1 + (rs.length - need)
        let bestF := (sortAsc (·.lf) bs).take ft
        let worstF := (sortDesc (·.uf) bs).take ft
        .ok { can := true
              hasLS := bestS.all (·.hasLS)
              ls := if bestS.all (·.hasLS) then (bestS.map (·.ls)).sum else 0
              hasUS := worstS.all (·.hasUS)
              us := if worstS.all (·.hasUS) then (worstS.map (·.us)).sum else 0
              hasLF := bestF.all (·.hasLF)
              lf := if bestF.all (·.hasLF) then (bestF.map (·.lf)).sum else 0
              hasUF := worstF.all (·.hasUF)
              uf := if worstF.all (·.hasUF) then (worstF.map (·.uf)).sum else 0 }
      else .ok {}

/-- node.py 1327-1339: `Decorator._do_calculate_utility`, inherited by every decorator but Optional. -/
def calcDecorator : List Res → Res
  | [] => .ok free
  | r :: _ => r

/-- decorators.py 644-659: `Optional._do_calculate_utility`. -/
def calcOptional : List Res → Res
  | [] => .ok { can := true }
  | .error e :: _ => .error e
  | .ok b :: rs => if b.can then .ok b else calcOptional rs

end Verif.Utility
