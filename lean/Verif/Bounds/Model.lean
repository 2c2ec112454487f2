import Verif.Bounds.Spec
/-
Model of `SymbolicBoundedInt` and of the decision triggers of `SymbolicBool` in /repo/crosshair/libimpl/builtinslib.py (1154-1181,
1410-1527). Constraints that are given to the solver are kept in a list.
-/
namespace Verif.Bounds

/-- A `SymbolicBoundedInt`: its expression and bounds. -/
structure Obj where
  expr : Expr
  lo : Option Int
  hi : Option Int
deriving DecidableEq, Repr

/-- A constraint: a lower or upper bound, or that a comparison has a result. -/
inductive Atom
  | ge (e : Expr) (m : Int)
  | le (e : Expr) (m : Int)
  | is (e : Expr) (cmp : Cmp) (c : Int) (b : Bool)
deriving DecidableEq, Repr

def Atom.holds (v : Val) : Atom → Prop
  | .ge e m => m ≤ e.eval v
  | .le e m => e.eval v ≤ m
  | .is e cmp c b => cmp.holds (e.eval v) c = b

/-- The result of a comparison: a `bool`, or a `SymbolicBool` with a trigger for the object. -/
inductive Slot
  | concrete (b : Bool)
  | pending (obj : Nat) (e : Expr) (cmp : Cmp) (c : Int)
deriving DecidableEq, Repr

structure State where
  objs : List Obj := []
  slots : List Slot := []
  vars : Nat := 0
  path : List Atom := []
  answers : List (Nat × Bool) := []

/-- The constraints of `__init__` (1421-1424). -/
def initAtoms (o : Obj) : List Atom :=
  (match o.lo with | some m => [Atom.ge o.expr m] | none => []) ++ (match o.hi with | some m => [Atom.le o.expr m] | none => [])

/-- `__lt__` and `__gt__` with an `int` (1426-1463), before triggers are called. -/
def compare (i : Nat) (o : Obj) (c : Int) : Cmp → Slot
  | .lt =>
    if o.lo.any (c < ·) then .concrete false
    else if o.hi.any (c > ·) then .concrete true
    else .pending i o.expr .lt c
  | .gt =>
    if o.hi.any (c > ·) then .concrete false
    else if o.lo.any (c < ·) then .concrete true
    else .pending i o.expr .gt c

/-- `_ch_intersect_bounds` (1472-1489): the new object and the constraints. -/
def intersect (o : Obj) (newLo newHi : Option Int) : Obj × List Atom :=
  let (o, a) := match newLo with
    | some m => if o.lo.all (m > ·) then ({ o with lo := some m }, [Atom.ge o.expr m]) else (o, [])
    | none => (o, [])
  match newHi with
  | some m => if o.hi.all (m < ·) then ({ o with hi := some m }, a ++ [Atom.le o.expr m]) else (o, a)
  | none => (o, a)

/-- The triggers (1435-1441, 1455-1461). -/
def trigger (o : Obj) (cmp : Cmp) (c : Int) (b : Bool) : Obj × List Atom :=
  match cmp, b with
  | .lt, true => intersect o none (some (c - 1))
  | .lt, false => intersect o (some c) none
  | .gt, true => intersect o (some (c + 1)) none
  | .gt, false => intersect o none (some c)

/-- One operation; `make` is `make_bounded_int` (1522-1525), `neg` is in `_unary_op` (1491-1497; `+` gives
the same object, and `abs` an integer without bounds), and `decide` is `SymbolicBool.__ch_realize__` (1174-1179). -/
def step (s : State) : Op → State
  | .make lo hi =>
    let o : Obj := ⟨⟨s.vars, false⟩, lo, hi⟩
    { s with objs := s.objs ++ [o], vars := s.vars + 1, path := s.path ++ initAtoms o }
  | .neg i =>
    match s.objs[i]? with
    | some o =>
      let n : Obj := ⟨⟨o.expr.var, !o.expr.negative⟩, o.hi.map (- ·), o.lo.map (- ·)⟩
      { s with objs := s.objs ++ [n], path := s.path ++ initAtoms n }
    | none => s
  | .compare i cmp c =>
    match s.objs[i]? with
    | some o => { s with slots := s.slots ++ [compare i o c cmp] }
    | none => s
  | .decide k choice =>
    match s.slots[k]? with
    | some (.concrete b) => { s with answers := s.answers ++ [(k, b)] }
    | some (.pending i e cmp c) =>
      match s.objs[i]? with
      | some o =>
        let (o, atoms) := trigger o cmp c choice
        { s with objs := s.objs.set i o, path := s.path ++ [Atom.is e cmp c choice] ++ atoms, answers := s.answers ++ [(k, choice)] }
      | none => s
    | none => s

def run (ops : List Op) : State := ops.foldl step {}

/-- The constraints hold. -/
def State.Holds (s : State) (v : Val) : Prop := ∀ a ∈ s.path, a.holds v

end Verif.Bounds
