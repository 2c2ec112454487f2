import Verif.Pick.Spec
/-
Model of the selection of examples in /repo/crosshair/path_cover.py and /repo/crosshair/diff_behavior.py, and of the
optimisation of examples in /repo/crosshair/path_search.py.
-/
namespace Verif.Pick

/-- Python's `max` with a key, `lt` comparing keys: the first greatest element, and the other elements in order. -/
def maxFirst {α : Type} (lt : α → α → Bool) : List α → Option (α × List α)
  | [] => none
  | x :: xs =>
    match maxFirst lt xs with
    | none => some (x, [])
    | some (y, rest) => if lt x y then some (y, x :: rest) else some (x, xs)

/-! ### Covering examples -/

/-- What matters of a `PathSummary` (path_cover.py 42-51): the offsets covered, and the length of its formatted arguments;
`id` tells summaries apart. -/
structure Path where
  id : Nat
  offsets : List Nat
  size : Nat
deriving DecidableEq, Repr

/-- `len(p.coverage.offsets_covered - opcodes_found)`; the offsets of a path are all different. -/
def gain (found offsets : List Nat) : Nat := (offsets.filter fun o => decide (o ∉ found)).length

/-- The comparison of keys (path_cover.py 137-140). -/
def coverLt (found : List Nat) (a b : Path) : Bool :=
  if gain found a.offsets ≠ gain found b.offsets then decide (gain found a.offsets < gain found b.offsets)
  else decide (-(a.size : Int) < -(b.size : Int))

/-- The selection loop of `path_cover` (path_cover.py 132-150); `opcode` tells whether the coverage type is `OPCODE`. The first
argument bounds the number of rounds. -/
def selectPaths (opcode : Bool) : Nat → List Path → List Nat → List Path
  | 0, _, _ => []
  | fuel + 1, paths, found =>
    match maxFirst (coverLt found) paths with
    | none => []
    | some (best, rest) =>
      if opcode && decide (gain found best.offsets = 0) then []
      else best :: selectPaths opcode fuel rest (found ++ best.offsets)

/-- The selection of `path_cover`. -/
def pathCover (opcode : Bool) (paths : List Path) : List Path := selectPaths opcode paths.length paths []

/-! ### Differences -/

/-- What matters of a `BehaviorDiff` (diff_behavior.py 91-103): the offsets covered in the two functions, and the length of
its text. -/
structure Diff where
  id : Nat
  cover1 : List Nat
  cover2 : List Nat
  size : Nat
deriving DecidableEq, Repr

/-- `BehaviorDiff.reverse` (diff_behavior.py 99-102). -/
def Diff.reverse (d : Diff) : Diff := { d with cover1 := d.cover2, cover2 := d.cover1 }

/-- The numerator of the score in `diff_scorer` (diff_behavior.py 116-124).  The denominator is the same for all differences of
two functions, so it does not affect comparisons. -/
def diffScore (ops1 ops2 : List Nat) (d : Diff) : Nat :=
  (d.cover1.filter fun o => decide (o ∈ ops1)).length + (d.cover2.filter fun o => decide (o ∈ ops2)).length

/-- The comparison of scores: tuples of the coverage and the length of the text. -/
def diffLt (ops1 ops2 : List Nat) (a b : Diff) : Bool :=
  if diffScore ops1 ops2 a ≠ diffScore ops1 ops2 b then decide (diffScore ops1 ops2 a < diffScore ops1 ops2 b)
  else decide (a.size < b.size)

/-- The selection loop of `diff_behavior` (diff_behavior.py 160-177). -/
def selectDiffs : Nat → List Diff → List Nat → List Nat → List Diff
  | 0, _, _, _ => []
  | fuel + 1, diffs, ops1, ops2 =>
    match maxFirst (diffLt ops1 ops2) diffs with
    | none => []
    | some (best, rest) =>
      if diffScore ops1 ops2 best = 0 then []
      else best :: selectDiffs fuel rest (ops1.filter fun o => decide (o ∉ best.cover1)) (ops2.filter fun o => decide (o ∉ best.cover2))

/-- The differences reported by `diff_behavior` (diff_behavior.py 130-177), from those found in either order. -/
def diffReport (ops1 ops2 : List Nat) (found1 found2 : List Diff) : List Diff :=
  let all := found1 ++ found2.map Diff.reverse
  selectDiffs all.length all ops1 ops2

/-! ### Optimising -/

/-- What the solver knows of the score on one path: whether a score is possible that is at least the first bound and less
than the second one. -/
abbrev Solver := Option Int → Option Int → Bool

/-- The state of the loop in `path_search` (path_search.py 116-133): the constraints on the score so far, and the variables. -/
structure Bounds where
  lo : Int
  hi : Option Int
  knownMin : Int
  knownMax : Option Int
  test : Int
deriving DecidableEq, Repr

/-- The smaller of an upper bound and a number. -/
def capped (hi : Option Int) (t : Int) : Int :=
  match hi with
  | none => t
  | some h => min h t

/-- The loop (path_search.py 119-133); `smt_fork` with probability one takes the true branch if it is possible. -/
def minimise (possible : Solver) : Nat → Bounds → Option Int
  | 0, _ => none
  | fuel + 1, b =>
    if possible (some b.lo) (some (capped b.hi b.test)) then
      let b : Bounds := { b with hi := some (capped b.hi b.test), knownMax := some (b.test - 1) }
      if b.knownMin = b.test - 1 then some b.knownMin
      else minimise possible fuel { b with test := Int.fdiv (b.knownMin + (b.test - 1) + 1) 2 }
    else
      let b : Bounds := { b with lo := max b.lo b.test, knownMin := b.test }
      match b.knownMax with
      | none => minimise possible fuel { b with test := b.knownMin * 100 }
      | some kmax =>
        if b.knownMin = kmax then some b.knownMin
        else minimise possible fuel { b with test := Int.fdiv (b.knownMin + kmax + 1) 2 }

/-- What `on_path_complete` does with a path (path_search.py 83-137). -/
inductive PathResult where
  /-- the path is ignored -/
  | ignored
  /-- a new example with this score -/
  | found (score : Int)
  /-- the bound on the number of rounds was too small -/
  | unfinished
deriving DecidableEq, Repr

/-- `on_path_complete` for a path on which the function returned and the score is an integer (path_search.py 103-137).
`smt_fork` with probability zero takes the false branch if it is possible. -/
def scorePath (fuel : Nat) (possible : Solver) (best : Option Int) : PathResult :=
  if !possible (some 0) none then .ignored
  else
    match best with
    | none =>
      match minimise possible fuel ⟨0, none, 0, none, 1000⟩ with
      | some m => .found m
      | none => .unfinished
    | some b =>
      if !possible (some 0) (some b) then .ignored
      else
        match minimise possible fuel ⟨0, some b, 0, some b, Int.fdiv b 2⟩ with
        | some m => .found m
        | none => .unfinished

/-- The paths of a search in turn: the scores of the examples found, in order.  Paths without a solver ended with an exception or a
score that is not an integer.  The search stops when a score is zero. -/
def searchPaths (fuel : Nat) : List (Option Solver) → Option Int → List Int
  | [], _ => []
  | none :: rest, best => searchPaths fuel rest best
  | some possible :: rest, best =>
    match scorePath fuel possible best with
    | .ignored => searchPaths fuel rest best
    | .unfinished => []
    | .found m => if m = 0 then [m] else m :: searchPaths fuel rest (some m)

/-! ### Choosing branches -/

/-- The bias for a target location in `CoveragePathingOracle.pre_path_hook` (/repo/crosshair/pathing_oracle.py 78-83): expressions
count one up for each appearance, and one down for each negated one; `keys` are the (different) keys of the location's counter. -/
def tweak (keys : List Int) (e : Int) : Int :=
  keys.foldl (fun t k => if 0 ≤ k then (if k = e then t + 1 else t) else (if -k = e then t - 1 else t)) 0

/-- `_delta_probabilities` (pathing_oracle.py 60), in hundredths; `none` for a `KeyError`. -/
def deltaProbability : Int → Option Nat
  | -1 => some 10
  | 0 => some 25
  | 1 => some 90
  | _ => none

/-- `current_path_probabilities` (pathing_oracle.py 84-86, 97): the bias of each expression that appears. -/
def pathProbability (keys : List Int) (e : Int) : Option (Option Nat) :=
  if (keys.any fun k => decide (k = e ∨ -k = e)) then some (deltaProbability (tweak keys e)) else none

/-- `CoveragePathingOracle.decide` (pathing_oracle.py 149-169), in hundredths; the outer `none` for a `KeyError`. -/
def decideProbability (keys : List Int) (isPositive : Bool) (e : Int) (engine : Option Nat) : Option Nat :=
  if engine = some 0 ∨ engine = some 100 then engine
  else match pathProbability keys e with
    | none => some (engine.getD 25)
    | some none => none
    | some (some p) => some (if isPositive then p else 100 - p)

/-- `RandomizedBinaryPathNode.choose` (/repo/crosshair/statespace.py 526-542): `rand` is the random value in millionths, from 1 to
999999. -/
def chooseBranch (positiveOk negativeOk : Bool) (probability : Nat) (rand : Nat) : Bool :=
  if positiveOk && negativeOk then decide (rand < probability * 10000) else positiveOk

end Verif.Pick
