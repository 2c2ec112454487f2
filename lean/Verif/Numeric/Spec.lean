import Verif.Numeric.Model
/-
What the results of operators on symbolic numbers are measured by: the Python number that an
operand stands for, and Python's own arithmetic on those (Python.lean).
-/
namespace Verif.Numeric

/-- What is assumed of the numbers that `z3.RealVal` reads off printed floats: the sign is right,
the opposite of a float is read as the opposite number, and integers up to `2 ** 53` are read
exactly. -/
structure Env.Ok (E : Env) : Prop where
  pos : ∀ q, 0 < E.lit q ↔ 0 < q
  neg : ∀ q, E.lit q < 0 ↔ q < 0
  int : ∀ n : Int, n.natAbs ≤ 2 ^ 53 → E.lit n = n
  odd : ∀ q, E.lit (-q) = -E.lit q

/-- The Python number that an operand stands for. -/
def num (E : Env) : Val → Num
  | .symBool b => .int (if b then 1 else 0)
  | .symInt n => .int n
  | .realF q => .flt (.fin q)
  | .precise f => .flt f
  | .pyBool b => .int (if b then 1 else 0)
  | .pyInt n => .int n
  | .pyFloat (.fin q) => .flt (.fin (if E.real then E.lit q else q))
  | .pyFloat f => .flt f
  | .finF q => .flt (.fin (if E.real then E.lit q else q))
  | .nonFin f => .flt f

/-- The truth value that an operand stands for. -/
def truth : Val → Option Bool
  | .symBool b => some b
  | .pyBool b => some b
  | _ => none

/-- An operand as it occurs in a program under test on a path with real-based floats: a symbolic
truth value, integer or real-based float, or a native number. -/
def IsOperand (v : Val) : Prop :=
  (∃ b, v = .symBool b) ∨ (∃ n, v = .symInt n) ∨ (∃ q, v = .realF q) ∨
  (∃ b, v = .pyBool b) ∨ (∃ n, v = .pyInt n) ∨ ∃ f, v = .pyFloat f

/-- An operand that is an integer or a truth value. -/
def IsInt (v : Val) : Prop :=
  (∃ b, v = .symBool b) ∨ (∃ n, v = .symInt n) ∨ (∃ b, v = .pyBool b) ∨ ∃ n, v = .pyInt n

/-- A symbolic operand. -/
def IsSymbolic (v : Val) : Prop :=
  (∃ b, v = .symBool b) ∨ (∃ n, v = .symInt n) ∨ (∃ q, v = .realF q) ∨ ∃ f, v = .precise f

/-- A native integer in the range that floats represent without gaps. -/
def InRange (v : Val) : Prop := ∀ n, v = .pyInt n → -(2 ^ 53) ≤ n ∧ n ≤ 2 ^ 53

/-- The sign of a float; that of NaN is taken as positive. -/
def negative : Fl → Bool
  | .fin q => decide (q < 0)
  | .inf s => s
  | .nan => false

/-- The magnitude of a float. -/
def magnitude : Fl → Fl
  | .fin q => .fin |q|
  | .inf _ => .inf false
  | .nan => .nan

/-- The float of the given sign and magnitude. -/
def withSign (neg : Bool) : Fl → Fl
  | .fin q => .fin (if neg then -q else q)
  | .inf _ => .inf neg
  | .nan => .nan

end Verif.Numeric
