import Mathlib.Algebra.Order.Field.Rat

/-
Model of the simulated clocks: crosshair/libimpl/timelib.py 12-72.

A call to a clock gives a symbolic value, constrained by the postcondition of the clock's contract.  A path is a
sequence of calls with the values they give; it is explored when all postconditions hold.  Seconds are exact
rationals (the solver's reals), so `isfinite` holds always.
-/
namespace Verif.Clock

/-- timelib.py 12-17: `EarliestPossibleTime`. -/
structure Earliest where
  monotonic : Rat := 0
  processTime : Rat := 0
  deriving DecidableEq, Repr

/-- timelib.py 21: `_UNREALISTICALLY_LARGE_TIME_FLOAT`. -/
def huge : Rat := 60 * 60 * 24 * 365 * 100000

/-- The two clocks that never run backwards. -/
inductive Kind where
  | monotonic
  | processTime
  deriving DecidableEq, Repr

/-- Calls: to the clocks, giving seconds or nanoseconds, and to `sleep`. -/
inductive Call where
  | secs (k : Kind) (value : Rat)
  | nanos (k : Kind) (value : Int)
  | time (value : Rat)
  | timeNs (value : Int)
  | sleep (value : Rat)
  deriving DecidableEq, Repr

/-- `getattr(earliest_times, kind)`. -/
def Earliest.get (e : Earliest) : Kind → Rat
  | .monotonic => e.monotonic
  | .processTime => e.processTime

/-- `setattr(earliest_times, kind, value)`. -/
def Earliest.set (e : Earliest) (k : Kind) (v : Rat) : Earliest :=
  match k with
  | .monotonic => { e with monotonic := v }
  | .processTime => { e with processTime := v }

/-- timelib.py 24-29: `_gte_last`; the new state, and whether the value is acceptable. -/
def gteLast (e : Earliest) (k : Kind) (v : Rat) : Earliest × Bool :=
  (e.set k v, decide (e.get k ≤ v) && decide (v < huge))

/-- timelib.py 32-72: one call; `none` when its postcondition fails. -/
def step (e : Earliest) : Call → Option Earliest
  | .secs k v => match gteLast e k v with
    | (e', true) => some e'
    | (_, false) => none
  | .nanos k n => match gteLast e k ((n : Rat) / 1000000000) with
    | (e', true) => some e'
    | (_, false) => none
  | .time v => if 0 < v then some e else none
  | .timeNs n => if 0 < n then some e else none
  | .sleep d => some { e with monotonic := e.monotonic + d }

/-- A path; `none` when it is not explored. -/
def run (e : Earliest) : List Call → Option Earliest
  | [] => some e
  | c :: cs => match step e c with
    | none => none
    | some e' => run e' cs

end Verif.Clock
