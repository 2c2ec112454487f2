/-
Values and types for the comparison of symbolic with concrete runs of an operation, independently of the code.
-/
namespace Verif.Differential

/-- Python values.  `atom t n` is the `n`-th value of a class `t` of plain values (numbers, strings, …). -/
inductive Val where
  | none
  | atom (type : Nat) (n : Int)
  | list (items : List Val)
  | set (items : List Val)
  | frozenset (items : List Val)
  | tuple (items : List Val)
  | dict (items : List (Val × Val))
  /-- A class; `builtin` for `int`, `str`, `list` and the other canonical types. -/
  | cls (builtin : Bool) (n : Nat)
  /-- A function or another callable. -/
  | function (n : Nat)
  /-- Another object, equal only to itself. -/
  | handle (n : Nat)
deriving Repr

mutual
/-- Values that can be compared: they do not contain, at any depth, functions, classes other than the canonical ones, or objects
equal only to themselves. -/
def Comparable : Val → Prop
  | .none | .atom .. => True
  | .list l | .set l | .frozenset l | .tuple l => ComparableAll l
  | .dict d => ComparableItems d
  | .cls builtin _ => builtin = true
  | .function _ | .handle _ => False
def ComparableAll : List Val → Prop
  | [] => True
  | v :: rest => Comparable v ∧ ComparableAll rest
def ComparableItems : List (Val × Val) → Prop
  | [] => True
  | (k, v) :: rest => Comparable k ∧ Comparable v ∧ ComparableItems rest
end

mutual
/-- How deep containers are nested. -/
def depth : Val → Nat
  | .list l | .set l | .frozenset l | .tuple l => 1 + depthAll l
  | .dict d => 1 + depthItems d
  | _ => 0
def depthAll : List Val → Nat
  | [] => 0
  | v :: rest => max (depth v) (depthAll rest)
def depthItems : List (Val × Val) → Nat
  | [] => 0
  | (k, v) :: rest => max (depth k) (max (depth v) (depthItems rest))
end

/-- Types. -/
inductive Ty where
  /-- A class of plain values. -/
  | atom (type : Nat)
  | noneType
  | int
  | list (t : Ty)
  | set (t : Ty)
  | frozenset (t : Ty)
  | tuple (ts : List Ty)
  | dict (k v : Ty)
  | union (ts : List Ty)
  /-- The class of classes, of functions, or of other objects. -/
  | metaclass
  | functionType
  | handleType
deriving Repr

mutual
/-- The values of a type. -/
def HasType : Ty → Val → Prop
  | .atom t, v => ∃ n, v = .atom t n
  | .noneType, v => v = .none
  | .int, v => ∃ n, v = .atom 0 n
  | .list t, v => ∃ l, v = .list l ∧ ∀ x ∈ l, HasType t x
  | .set t, v => ∃ l, v = .set l ∧ ∀ x ∈ l, HasType t x
  | .frozenset t, v => ∃ l, v = .frozenset l ∧ ∀ x ∈ l, HasType t x
  | .tuple ts, v => ∃ l, v = .tuple l ∧ HasTypes ts l
  | .dict k t, v => ∃ d, v = .dict d ∧ ∀ x ∈ d, HasType k x.1 ∧ HasType t x.2
  | .union ts, v => HasTypeAny ts v
  | .metaclass, v => ∃ b n, v = .cls b n
  | .functionType, v => ∃ n, v = .function n
  | .handleType, v => ∃ n, v = .handle n
def HasTypes : List Ty → List Val → Prop
  | [], l => l = []
  | t :: ts, l => ∃ x rest, l = x :: rest ∧ HasType t x ∧ HasTypes ts rest
def HasTypeAny : List Ty → Val → Prop
  | [], _ => False
  | t :: ts, v => HasType t v ∨ HasTypeAny ts v
end

/-- What a symbolic run of an operation with pinned arguments comes to. -/
inductive Symbolic (R : Type) where
  | unpinned
  | unsupported
  | result (r : R)
deriving DecidableEq

/-- What the comparison of an operation on an input consists of: the symbolic run, two concrete runs, and whether the result of the
concrete runs is a value that is not comparable. -/
structure Trial (R : Type) where
  symbolic : Symbolic R
  first : R
  second : R
  opaqueResult : Bool

/-- Inputs on which the two ways of running can be compared at all: the symbolic run has a result, the operation is deterministic and
its result comparable. -/
def Trial.Checkable {R : Type} (same : R → R → Bool) (t : Trial R) : Prop :=
  (∃ r, t.symbolic = .result r) ∧ same t.first t.second = true ∧ t.opaqueResult = false

/-- Inputs on which they differ. -/
def Trial.Diverges {R : Type} (same : R → R → Bool) (t : Trial R) : Prop :=
  t.Checkable same ∧ ∃ r, t.symbolic = .result r ∧ same t.first r = false

end Verif.Differential
