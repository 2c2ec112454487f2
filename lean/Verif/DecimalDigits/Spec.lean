/- Specification of the operations on the digits of decimals, and of choices between decimals. -/
import Verif.DecimalDigits.Model
import Verif.DecimalMore.Spec

namespace Verif.DecimalDigits
open Verif.Decimal Verif.DecimalMore

/-- The digit at a place, counted from the last one. -/
def digitAt (n k : ℕ) : ℕ := n / 10 ^ k % 10

/-- Logical operands: not negative, with exponent zero, and only zeros and ones. -/
def IsLogical (d : Dec) (n : ℕ) : Prop := ∃ i, d = .fin false i 0 ∧ IsCoeff i ∧ number i = n ∧ ∀ k, digitAt n k ≤ 1

/-- A digit that is one, or not. -/
def bit (n k : ℕ) : Bool := digitAt n k == 1

/-- `d` is the integer `n`, written with exponent zero. -/
def IsCount (d : Dec) (n : ℤ) : Prop := ∃ s i, d = .fin s i 0 ∧ IsCoeff i ∧ value s i 0 = n

/-- What becomes of an operand that is the result: it is rounded to the context. -/
def IsRounded (c : Ctx) (d : Dec) (o : Out Dec) : Prop :=
  match d with
  | .fin s i e => IsResult c (value s i e) s e o
  | d => o = ([], d)

/-- Which of two numbers comes first: the smaller one, or if they are equal the first one in the total order of representations. -/
def Before (a b : Dec) : Prop := Less ℚ a b ∨ (Same ℚ a b ∧ TotalBelow a b)

/-- The same without signs, but if magnitudes are equal the total order still looks at the signs. -/
def BeforeMag (a b : Dec) : Prop :=
  match a, b with
  | .fin s1 i1 e1, .fin s2 i2 e2 => |value s1 i1 e1| < |value s2 i2 e2| ∨ (|value s1 i1 e1| = |value s2 i2 e2| ∧ TotalBelow a b)
  | .fin .., .inf _ => True
  | .inf s1, .inf s2 => s1 = true ∧ s2 = false
  | _, _ => False

/-- The decimal with the other's sign. -/
def withSign (s : Bool) : Dec → Dec
  | .fin _ i e => .fin s i e
  | .inf _ => .inf s
  | .nan _ p g => .nan s p g

/-- The classes of numbers. -/
inductive HasClass (c : Ctx) : Dec → String → Prop
  | sNaN (s p) : HasClass c (.nan s p true) "sNaN"
  | nan (s p) : HasClass c (.nan s p false) "NaN"
  | posInf : HasClass c (.inf false) "+Infinity"
  | negInf : HasClass c (.inf true) "-Infinity"
  | posZero (i e) : value false i e = 0 → HasClass c (.fin false i e) "+Zero"
  | negZero (i e) : value true i e = 0 → HasClass c (.fin true i e) "-Zero"
  | posSub (s i e) : 0 < value s i e → value s i e < 10 ^ c.emin → HasClass c (.fin s i e) "+Subnormal"
  | negSub (s i e) : value s i e < 0 → -10 ^ c.emin < value s i e → HasClass c (.fin s i e) "-Subnormal"
  | posNormal (s i e) : 10 ^ c.emin ≤ value s i e → HasClass c (.fin s i e) "+Normal"
  | negNormal (s i e) : value s i e ≤ -10 ^ c.emin → HasClass c (.fin s i e) "-Normal"

end Verif.DecimalDigits
