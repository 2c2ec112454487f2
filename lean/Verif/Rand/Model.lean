import Mathlib.Algebra.Order.Field.Rat

/-
Model of symbolic random generators: crosshair/libimpl/randomlib.py 11-92, and of the contract of `randrange`
(124-154).

All copies of a generator share one list of values, which grows on demand.  The values that the solver chooses
when the list grows are given by a function `fresh`.  Floats are exact rationals.  Not modelled: pickling,
the methods that Python builds from `random` and `getrandbits`.
-/
namespace Verif.Rand

/-- An element of `_future_values`. -/
inductive Val where
  | int (n : Int)
  | float (q : Rat)
  deriving DecidableEq, Repr

/-- A request to a generator; `below cap` also stands for `getrandbits(k)` with `cap = 2**k` (74-75). -/
inductive Req where
  | random
  | below (cap : Int)
  deriving DecidableEq, Repr

/-- The generators that share a list of values: the list, and the position of each generator. -/
structure World where
  future : List Val
  idx : List Nat
  deriving DecidableEq, Repr

/-- What the solver chooses for a new element at a position, and the hash of a float. -/
structure Oracle where
  fresh : Nat → Req → Val
  hash : Rat → Int

/-- randomlib.py 53-57 and 66-70: what a stored value means for a request. -/
def view (o : Oracle) : Req → Val → Rat
  | .random, .int n => if n ≠ 0 then 1 / ((n.natAbs : Int) : Rat) else 0
  | .random, .float q => q
  | .below cap, .float q => (((o.hash q).natAbs : Int).fmod cap : Int)
  | .below _, .int n => n

/-- What happens: a request to generator `g`, a copy of `g` (28-40), or `g.seed(s)`, which the class does not
override. -/
inductive Event where
  | ask (g : Nat) (r : Req)
  | copy (g : Nat)
  | seed (g : Nat) (s : Int)
  deriving DecidableEq, Repr

/-- The result of an event. -/
inductive Out where
  | value (q : Rat)
  | made (g : Nat)
  | unit
  | indexError
  | noSuchGenerator
  deriving DecidableEq, Repr

/-- randomlib.py 28-75. -/
def step (o : Oracle) (w : World) : Event → Out × World
  | .ask g r =>
    match w.idx[g]? with
    | none => (.noSuchGenerator, w)
    | some i =>
      let future := if w.future.length ≤ i then w.future ++ [o.fresh w.future.length r] else w.future
      match future[i]? with
      | none => (.indexError, { w with future := future })
      | some v => (.value (view o r v), { future := future, idx := w.idx.set g (i + 1) })
  | .copy g =>
    match w.idx[g]? with
    | none => (.noSuchGenerator, w)
    | some i => (.made w.idx.length, { w with idx := w.idx ++ [i] })
  | .seed g _ =>
    match w.idx[g]? with
    | none => (.noSuchGenerator, w)
    | some _ => (.unit, w)

/-- A history. -/
def run (o : Oracle) (w : World) : List Event → List Out × World
  | [] => ([], w)
  | e :: es =>
    let (x, w') := step o w e
    let (xs, w'') := run o w' es
    (x :: xs, w'')

/-- randomlib.py 95-99: a generator as it is created. -/
def start : World := ⟨[], [0]⟩

/-- randomlib.py 126-130: the precondition of `randrange`. -/
def rangePre (start : Int) (stop : Option Int) (step : Int) : Bool :=
  match stop with
  | none => step == 1 && decide (start ≥ 1)
  | some stop => start != stop && step != 0 && (decide (stop - start > 0) == decide (step > 0))

/-- randomlib.py 131-134: the postcondition of `randrange`. -/
def rangePost (ret start : Int) (stop : Option Int) (step : Int) : Bool :=
  (match stop with
    | none => decide (0 ≤ ret) && decide (ret < start)
    | some stop => decide (start ≤ ret) && decide (ret < stop)) &&
  (step == 1 || (ret - start).fmod step == 0)

end Verif.Rand
