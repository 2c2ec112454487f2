/- Specification for the further operations on decimals. -/
import Verif.Decimal.Spec
import Mathlib.Data.Rat.Floor
import Mathlib.Algebra.Order.Field.Rat

namespace Verif.DecimalMore
open Verif.Decimal

/-- The hash of an integer in Python: its remainder by the prime `2 ^ 61 - 1`, with its sign, and `-2` instead of `-1`. -/
def intHash (n : ℤ) : ℤ :=
  let h := (n.natAbs % (2 ^ 61 - 1) : ℕ)
  if n < 0 then (if h = 1 then -2 else -h) else h

/-- The value of a finite decimal among the rationals. -/
def value (s : Bool) (i : Digits) (e : ℤ) : ℚ := finValue s i e

/-- Payloads are written without zeros in front. -/
def IsPayload (p : Digits) : Prop := p.head? ≠ some 0 ∧ ∀ x ∈ p, x < 10

/-- Decimals as they are made: also the payloads of NaNs are well-formed. -/
def Proper : Dec → Prop
  | .fin _ i _ => IsCoeff i
  | .inf _ => True
  | .nan _ p _ => IsPayload p

/-- Numbers, infinities, signaling NaNs and quiet NaNs, in this order, if they are positive. -/
def layer : Dec → ℕ
  | .fin .. => 0
  | .inf _ => 1
  | .nan _ _ true => 2
  | .nan _ _ false => 3

/-- The total order of positive representations: by layers, then by value and exponent, or by payload. -/
def MagnitudeBelow (a b : Dec) : Prop :=
  layer a < layer b ∨ match a, b with
    | .fin _ i1 e1, .fin _ i2 e2 => value false i1 e1 < value false i2 e2 ∨ (value false i1 e1 = value false i2 e2 ∧ e1 < e2)
    | .nan _ p1 g1, .nan _ p2 g2 => g1 = g2 ∧ number p1 < number p2
    | _, _ => False

/-- The sign bit. -/
def negative : Dec → Bool
  | .fin s _ _ => s
  | .inf s => s
  | .nan s _ _ => s

/-- The total order of representations: negative ones first, in reverse order. -/
def TotalBelow (a b : Dec) : Prop :=
  match negative a, negative b with
  | true, false => True
  | false, true => False
  | false, false => MagnitudeBelow a b
  | true, true => MagnitudeBelow b a

/-- The text of a number: a sign if it is negative, the digits before the point, a point and the digits after it if there are any,
and the exponent with its sign if it is not zero. -/
def Written (capitals s : Bool) (before after : Digits) (x : ℤ) (cs : List Char) : Prop :=
  ∃ ds, IsCoeff ds ∧ number ds = x.natAbs ∧
    cs = (if s then ['-'] else []) ++ before.map Nat.digitChar ++ (if after = [] then [] else '.' :: after.map Nat.digitChar) ++
      (if x = 0 then [] else (if capitals then 'E' else 'e') :: (if x < 0 then '-' else '+') :: ds.map Nat.digitChar)

/-- A number that a context can hold. -/
def Holds (c : Ctx) (w : ℚ) : Prop := ∃ s i e, Fits c i e ∧ w = value s i e

end Verif.DecimalMore
