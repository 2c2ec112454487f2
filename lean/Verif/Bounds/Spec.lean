import Mathlib.Data.Int.Notation
/-
What a program does with integers that it does not know: make them (with limits), negate them, compare them with constants, and decide by
results of comparisons. (Nothing here is about CrossHair.)
-/
namespace Verif.Bounds

/-- An unknown integer, or its negative. -/
structure Expr where
  var : Nat
  negative : Bool
deriving DecidableEq, Repr

inductive Cmp | lt | gt
deriving DecidableEq, Repr

/-- What the program does. Integers and results of comparisons are numbered as they come; `decide k choice` looks at the `k`th result:
what it is, is chosen (by the solver) as `choice`, unless it is already known. -/
inductive Op
  | make (lo hi : Option Int)
  | neg (i : Nat)
  | compare (i : Nat) (cmp : Cmp) (c : Int)
  | decide (k : Nat) (choice : Bool)
deriving DecidableEq, Repr

/-- A valuation of the unknown integers. -/
abbrev Val := Nat → Int

def Expr.eval (v : Val) (e : Expr) : Int := if e.negative then -(v e.var) else v e.var

def Cmp.holds : Cmp → Int → Int → Bool
  | .lt, a, b => decide (a < b)
  | .gt, a, b => decide (b < a)

/-- `lo ≤ x ≤ hi`. -/
def within (lo hi : Option Int) (x : Int) : Prop := (∀ m, lo = some m → m ≤ x) ∧ (∀ m, hi = some m → x ≤ m)

/-- What the program has made: its integers, its comparisons, and the limits it wanted. -/
structure Ref where
  exprs : List Expr := []
  comps : List (Expr × Cmp × Int) := []
  wanted : List (Option Int × Option Int) := []

def Ref.step (r : Ref) : Op → Ref
  | .make lo hi => { r with exprs := r.exprs ++ [⟨r.wanted.length, false⟩], wanted := r.wanted ++ [(lo, hi)] }
  | .neg i =>
    match r.exprs[i]? with
    | some e => { r with exprs := r.exprs ++ [⟨e.var, !e.negative⟩] }
    | none => r
  | .compare i cmp c =>
    match r.exprs[i]? with
    | some e => { r with comps := r.comps ++ [(e, cmp, c)] }
    | none => r
  | .decide _ _ => r

def Ref.run (ops : List Op) : Ref := ops.foldl Ref.step {}

/-- The integers have the wanted limits. -/
def Ref.Wanted (r : Ref) (v : Val) : Prop := ∀ n lo hi, r.wanted[n]? = some (lo, hi) → within lo hi (v n)

/-- The answer for a comparison is what it is for the integers. -/
def Ref.Right (r : Ref) (v : Val) (a : Nat × Bool) : Prop := ∃ e cmp c, r.comps[a.1]? = some (e, cmp, c) ∧ cmp.holds (e.eval v) c = a.2

end Verif.Bounds
