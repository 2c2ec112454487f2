import Mathlib.Algebra.Order.Field.Rat

/-! Symbolic types: crosshair/type_repo.py, crosshair/core.py 415-454 and `SymbolicType` of crosshair/libimpl/builtinslib.py.

Python's classes are numbers here, and what Python knows of them is a `World`. -/
namespace Verif.Types

/-- type_repo.py:91-99 `MAYBE_SORT`. -/
inductive Maybe where
  | yes
  | no
  | exception
deriving DecidableEq

/-- What Python knows of its classes. `issub` is type_repo.py:102-106 `_pyissubclass`. -/
structure World where
  issub : Nat → Nat → Maybe
  abstract : Nat → Bool
  bases : Nat → List Nat

/-! ## The repository -/

/-- The formulas that are given to the solver: over constants for types and the function `SMT_SUBTYPE_FN`. -/
inductive Fact where
  | distinct (a b : Nat)
  | rel (a b : Nat) (m : Maybe)
deriving DecidableEq

/-- type_repo.py:116-121 `SymbolicTypeRepository`: the types that it has constants for (`pytype_to_smt`), and what it has told the solver. -/
structure Repo where
  known : List Nat := []
  facts : List Fact := []
deriving DecidableEq

/-- type_repo.py:139-149: what is told about a new type and one that is known. -/
def pairFacts (w : World) (t other : Nat) : List Fact :=
  [.distinct other t, .rel t other (w.issub t other), .rel other t (w.issub other t)]

/-- type_repo.py:129-153 `get_type`. The names of constants have the class's address in them, so different types have different constants.
The check for classes of symbolic values is left out. -/
def getType (w : World) (r : Repo) (t : Nat) : Repo :=
  if t ∈ r.known then r
  else { known := r.known ++ [t], facts := r.facts ++ (r.known.flatMap (pairFacts w t) ++ [.rel t t (w.issub t t)]) }

/-- What the solver may take types, constants and the function to be. -/
structure Interp where
  Dom : Type
  const : Nat → Dom
  fn : Dom → Dom → Maybe

/-- A fact holds. -/
def Interp.holds (i : Interp) : Fact → Prop
  | .distinct a b => i.const a ≠ i.const b
  | .rel a b m => i.fn (i.const a) (i.const b) = m

/-! ## Subclasses -/

/-- type_repo.py:51-80 `get_subclass_map`: the classes that are found in modules that are not ignored, each with the answer whether it may be
used (`_class_known_to_be_copyable` and `is_hashable`), make the direct subclasses of each class. -/
def subclassMap (w : World) (found : List (Nat × Bool)) (base : Nat) : List Nat :=
  let classes := ((found.filter (·.2)).map (·.1)).eraseDups
  if base ∈ classes then classes.filter fun c => base ∈ w.bases c else []

/-- core.py:424-432 the loop of `iter_types`: `n` rounds at most. -/
def visit (children : Nat → List Nat) : Nat → List Nat → Option (List Nat)
  | 0, _ => none
  | _ + 1, [] => some []
  | n + 1, cur :: queue => (visit children n (queue ++ children cur)).map (cur :: ·)

/-- core.py:415-419 `with_uniform_probabilities`, with rational numbers; `idx` counts from zero. -/
def withProbabilities (count : Nat) : Nat → List Nat → List (Nat × ℚ)
  | _, [] => []
  | idx, t :: ts => (t, 1 / ((count : ℚ) - (idx : ℚ))) :: withProbabilities count (idx + 1) ts

/-- core.py:433-438: more weight for the first type if that is the base type. -/
def bias (fromType : Nat) : List (Nat × ℚ) → List (Nat × ℚ)
  | [] => []
  | (t, p) :: l => if t = fromType then (t, (p + 3) / 4) :: l else (t, p) :: l

/-- core.py:422-439 `iter_types`. -/
def iterTypes (w : World) (children : Nat → List Nat) (fuel : Nat) (fromType : Nat) (includeAbstract : Bool) : Option (List (Nat × ℚ)) :=
  (visit children fuel [fromType]).map fun visited =>
    let types := visited.filter fun t => includeAbstract || !w.abstract t
    bias fromType (withProbabilities types.length 0 types)

/-- What `choose_type` does: it returns a type or `None`, or there is an internal error. -/
inductive Choice where
  | type (t : Nat)
  | none
  | internal
deriving DecidableEq

/-- core.py:446-454: `forks` are the answers of `smt_fork` (`true` when there are no more). -/
def chooseLoop : List (Nat × ℚ) → List Bool → Choice
  | [], _ => .internal
  | (t, p) :: l, forks => if p = 1 then .type t else if forks.headD true then .type t else chooseLoop l forks.tail

/-- core.py:442-454 `choose_type`. -/
def choose (pairs : List (Nat × ℚ)) (forks : List Bool) : Choice := if pairs.isEmpty then .none else chooseLoop pairs forks

/-! ## Symbolic types -/

/-- builtinslib.py:2701-2725 `SymbolicType`: its variable under the interpretation that the path follows, its `pytype_cap`, and its
`_realization`; with it, the repository. -/
structure Sym (i : Interp) where
  var : i.Dom
  cap : Nat
  realization : Option Nat := none
  repo : Repo

/-- What is asked of a symbolic type returns an answer, or raises `TypeError` (as `issubclass` does), gives up the path (`IgnoreAttempt`), or is not
supported. -/
inductive Ans (α : Type) where
  | ok (a : α)
  | typeError
  | ignored
  | unsupported
deriving DecidableEq

/-- The class `object`, and `_EAGER_OBJECT_SUBTYPES` (builtinslib.py:2698). -/
def object : Nat := 0
def eager : List Nat := [1, 2]

/-- builtinslib.py:2704-2722 `__init__`: the constraint that is added says that the variable is below the cap. -/
def start {i : Interp} (w : World) (r : Repo) (cap : Nat) (var : i.Dom) : Sym i := { var, cap, repo := getType w r cap }

/-- The constraint of `__init__`. -/
def capped {i : Interp} (cap : Nat) (var : i.Dom) : Prop := i.fn var (i.const cap) = .yes

open Classical in
/-- builtinslib.py:2810-2815, 2820-2825: the types are tried one after the other. -/
noncomputable def tryTypes {i : Interp} (w : World) (s : Sym i) : List Nat → Option Nat × Sym i
  | [] => (none, s)
  | t :: ts =>
    let s := { s with repo := getType w s.repo t }
    if s.var = i.const t then (some t, s) else tryTypes w s ts

/-- builtinslib.py:2798-2827 `_realized` and `_realize`: `below` are the types of `iter_types(cap, include_abstract=True)`. -/
noncomputable def realize {i : Interp} (w : World) (below : Nat → List Nat) (s : Sym i) : Ans Nat × Sym i :=
  match s.realization with
  | some t => (.ok t, s)
  | none =>
    match tryTypes w s (if s.cap = object then eager else below s.cap) with
    | (some t, s) => (.ok t, { s with realization := some t })
    | (none, s) => (if s.cap = object then .unsupported else .ignored, s)

/-- Python's own `issubclass`. -/
def pyIssub (w : World) (a b : Nat) : Ans Bool :=
  match w.issub a b with
  | .yes => .ok true
  | .no => .ok false
  | .exception => .typeError

/-- builtinslib.py:2783-2789: lower the cap. The check of `issubclass` against the cap may raise. -/
def lowerCap {i : Interp} (w : World) (s : Sym i) (other : Nat) (ret : Bool) : Ans Bool × Sym i :=
  if other = s.cap then (.ok ret, s)
  else
    match w.issub other s.cap with
    | .exception => (.typeError, s)
    | .no => (.ok ret, s)
    | .yes => (.ok ret, if ret then { s with cap := other } else s)

/-- builtinslib.py:2760-2790 `_is_subclass_of_`, for a class that is not symbolic. The `SymbolicBool` that is returned has the value that the
path's interpretation gives it. -/
noncomputable def isSubclassOf {i : Interp} (w : World) (below : Nat → List Nat) (s : Sym i) (other : Nat) : Ans Bool × Sym i :=
  let s := { s with repo := getType w s.repo other }
  match i.fn s.var (i.const other) with
  | .exception =>
    match realize w below s with
    | (.ok t, s) => (pyIssub w t other, s)
    | (.typeError, s) => (.typeError, s)
    | (.ignored, s) => (.ignored, s)
    | (.unsupported, s) => (.unsupported, s)
  | .yes => lowerCap w s other true
  | .no => lowerCap w s other false

/-- builtinslib.py:2741-2758 `_is_superclass_of_`, for a class that is not symbolic. -/
noncomputable def isSuperclassOf {i : Interp} (w : World) (below : Nat → List Nat) (s : Sym i) (other : Nat) : Ans Bool × Sym i :=
  let s := { s with repo := getType w s.repo other }
  match i.fn (i.const other) s.var with
  | .exception =>
    match realize w below s with
    | (.ok t, s) => (pyIssub w other t, s)
    | (.typeError, s) => (.typeError, s)
    | (.ignored, s) => (.ignored, s)
    | (.unsupported, s) => (.unsupported, s)
  | .yes => (.ok true, s)
  | .no => (.ok false, s)

end Verif.Types
