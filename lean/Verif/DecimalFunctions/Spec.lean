/- Specification of the exponential and the logarithms of decimals: the true values, in real numbers. -/
import Verif.DecimalFunctions.Model
import Verif.DecimalMore.Sqrt
import Mathlib.Analysis.SpecialFunctions.Log.Base

namespace Verif.DecimalFunctions
open Verif.Decimal

/-- `ten p` are the first digits of the natural logarithm of ten: `p` of them after the point, cut off. -/
def IsLogTen (ten : ℕ → ℤ) : Prop := ∀ p : ℕ, ten p = ⌊(10 : ℝ) ^ p * Real.log 10⌋

/-- `o` is the value `v ≠ 0`, which has infinitely many digits, correctly rounded half to even in the context `c`: whatever ideal exponent
below the unit of the last digit is assumed. -/
def IsRounded (c : Ctx) (v : ℝ) (o : Out Dec) : Prop :=
  ∀ e : ℤ, (∀ adj : ℤ, (10 : ℝ) ^ adj ≤ |v| → e < adj - c.prec + 1) → IsResult { c with rounding := .halfEven } v false e o

end Verif.DecimalFunctions
