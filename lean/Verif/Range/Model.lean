/-
Model of CrossHair's `range` replacement: `SymbolicRange`,
/repo/crosshair/libimpl/builtinslib.py:2484-2642.

Numbers are the values the symbolic integers stand for; `//` and `%` are `Int.fdiv` and `Int.fmod`
(see `Verif.Ints.floordiv_mod_agree`).  Only integer arguments are modelled: the code for values
of other types compares with every element in turn.
-/
namespace Verif.Range

/-- Python exceptions raised by the modelled code. -/
inductive PyErr where
  | valueError
  | indexError
  deriving DecidableEq, Repr

/-- A range object (builtinslib.py:2485-2487). -/
structure Rng where
  start : Int
  stop : Int
  step : Int
  deriving DecidableEq, Repr

/-- `__init__` with one, two or three arguments (builtinslib.py:2489-2511). -/
def mk1 (a : Int) : Except PyErr Rng := .ok ⟨0, a, 1⟩
@[inherit_doc mk1] def mk2 (a b : Int) : Except PyErr Rng := .ok ⟨a, b, 1⟩
@[inherit_doc mk1] def mk3 (a b c : Int) : Except PyErr Rng :=
  if c = 0 then .error .valueError else .ok ⟨a, b, c⟩

/-- The loop of `__iter__` for `step < 0` (builtinslib.py:2579-2582). -/
def iterDown (start stop step : Int) : List Int :=
  if start > stop ∧ step < 0 then start :: iterDown (start + step) stop step else []
  termination_by (start - stop).toNat
  decreasing_by omega

/-- The loop of `__iter__` for the other steps (builtinslib.py:2584-2586); the code never has
`step = 0` here, see `mk3`. -/
def iterUp (start stop step : Int) : List Int :=
  if start < stop ∧ 0 < step then start :: iterUp (start + step) stop step else []
  termination_by (stop - start).toNat
  decreasing_by omega

/-- `__iter__` (builtinslib.py:2577-2586), as the list of everything yielded. -/
def Rng.iter (r : Rng) : List Int :=
  if r.step < 0 then iterDown r.start r.stop r.step else iterUp r.start r.stop r.step

/-- `__len__` (builtinslib.py:2608-2617). -/
def Rng.len (r : Rng) : Int :=
  if decide (r.step > 0) ≠ decide (r.stop > r.start) then 0
  else
    let width : Int := (r.stop - r.start).natAbs
    if r.step ≠ 1 then
      let step : Int := r.step.natAbs
      width.fdiv step + min 1 (width.fmod step)
    else width

/-- `__getitem__` with an integer (builtinslib.py:2545-2549). -/
def Rng.get (r : Rng) (i : Int) : Except PyErr Int :=
  let length := r.len
  let i := i + (if i < 0 then 1 else 0) * length
  if i < 0 ∨ i ≥ length then .error .indexError else .ok (r.start + r.step * i)

/-- `__contains__` (builtinslib.py:2551-2558). -/
def Rng.contains (r : Rng) (v : Int) : Bool :=
  if r.step > 0 then
    decide (r.start ≤ v) && decide (v < r.stop) && decide ((v - r.start).fmod r.step = 0)
  else
    decide (r.stop < v) && decide (v ≤ r.start) && decide ((v - r.start).fmod r.step = 0)

/-- `count` (builtinslib.py:2560-2562). -/
def Rng.count (r : Rng) (v : Int) : Nat := (r.contains v).toNat

/-- `index` (builtinslib.py:2565-2568, 2575). -/
def Rng.index (r : Rng) (v : Int) : Except PyErr Int :=
  if r.contains v then .ok ((v - r.start).fdiv r.step) else .error .valueError

/-- The comparison loop of `__eq__` (builtinslib.py:2600-2603). -/
def eqLoop : List Int → List Int → Bool
  | v1 :: a, v2 :: b => if v1 ≠ v2 then false else eqLoop a b
  | _, _ => true

/-- `__eq__` with another range (builtinslib.py:2595-2603). -/
def Rng.eq (r s : Rng) : Bool := if r.len ≠ s.len then false else eqLoop r.iter s.iter

/-- `__bool__` (builtinslib.py:2605-2606). -/
def Rng.bool (r : Rng) : Bool := decide (r.len > 0)

/-- `__reversed__` (builtinslib.py:2626-2642). -/
def Rng.reversed (r : Rng) : List Int :=
  if r.step < 1 then
    let width := r.start - r.stop
    if width ≤ 0 then []
    else
      let revstep := -r.step
      let ll := width.fdiv revstep + min 1 (width.fmod revstep)
      let tail := width - (ll - 1) * revstep
      Rng.iter ⟨r.stop + tail, r.start + tail, revstep⟩
  else
    let width := r.stop - r.start
    if width ≤ 0 then []
    else
      let ll := width.fdiv r.step + min 1 (width.fmod r.step)
      let tail := width - (ll - 1) * r.step
      Rng.iter ⟨r.stop - tail, r.start - tail, -r.step⟩

end Verif.Range
