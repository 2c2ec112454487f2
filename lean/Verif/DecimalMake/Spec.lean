/- Specification for the ways to make decimals. -/
import Verif.DecimalMake.Model
import Verif.DecimalDigits.Spec

namespace Verif.DecimalMake
open Verif.Decimal Verif.DecimalMore Verif.DecimalDigits

/-- A digit, as an integer. -/
def IsDigit (x : Item) : Prop := ∃ n : ℕ, n < 10 ∧ x = .int n

/-- Floats have powers of two as denominators. -/
def PyFloat.Ok : PyFloat → Prop
  | .fin _ _ d => ∃ j, d = 2 ^ j
  | _ => True

/-- The value of a float with this sign and this ratio. -/
def ratio (negative : Bool) (n d : ℕ) : ℚ := (if negative then -1 else 1) * ((n : ℚ) / d)

/-- A decimal is below a rational number. -/
def Below : Dec → ℚ → Prop
  | .fin s i e, q => value s i e < q
  | .inf s, _ => s = true
  | .nan .., _ => False

/-- A decimal is equal to a rational number. -/
def Equals : Dec → ℚ → Prop
  | .fin s i e, q => value s i e = q
  | _, _ => False

/-- A decimal is above a rational number. -/
def Above : Dec → ℚ → Prop
  | .fin s i e, q => q < value s i e
  | .inf s, _ => s = false
  | .nan .., _ => False

/-- Comparisons of `s` and `o` answer as if a decimal was compared with a number that it is below, equal to, or above; none signals. -/
structure Answers (c : Ctx) (s o : Dec) (below equal above : Prop) : Prop where
  quiet : (lt s o).1 = [] ∧ (le s o).1 = [] ∧ (gt s o).1 = [] ∧ (ge s o).1 = [] ∧ (eq c s o).1 = []
  lt : (lt s o).2 = true ↔ below
  le : (le s o).2 = true ↔ below ∨ equal
  gt : (gt s o).2 = true ↔ above
  ge : (ge s o).2 = true ↔ above ∨ equal
  eq : (eq c s o).2 = true ↔ equal

/-- The decimal is the integer `n`. -/
def IsInt (d : Dec) (n : ℤ) : Prop := ∃ s i e, d = .fin s i e ∧ value s i e = n

end Verif.DecimalMake
