/-
Specification of decimal arithmetic: what the numbers mean, what rounding is, and what the result of an operation with a given exact value is.
Values are in any ordered field with a floor (the rationals, or the reals for square roots).
-/
import Verif.Decimal.Model
import Mathlib.Algebra.Order.Floor.Ring
import Mathlib.Algebra.Order.Field.Power

namespace Verif.Decimal

/-- The number written by a string of digits. -/
def number : Digits → Nat
  | [] => 0
  | d :: ds => d * 10 ^ ds.length + number ds

/-- A coefficient: at least one digit, and no zero in front except for zero itself. -/
def IsCoeff (ds : Digits) : Prop := ds = [0] ∨ ∃ d rest, ds = d :: rest ∧ d ≠ 0 ∧ ∀ x ∈ d :: rest, x < 10

/-- Contexts that Python can have: at least one digit, and exponents around zero. -/
structure Ctx.Ok (c : Ctx) : Prop where
  prec : 1 ≤ c.prec
  emin : c.emin ≤ 0
  emax : 0 ≤ c.emax

/-- Decimals that can be made: coefficients are well-formed. -/
def Dec.Ok : Dec → Prop
  | .fin _ i _ => IsCoeff i
  | _ => True

section
variable {K : Type} [Field K] [LinearOrder K] [FloorRing K]

/-- Rounding a magnitude to an integer, for a number that is negative or not. -/
def roundAbs (m : Mode) (negative : Bool) (x : K) : ℤ :=
  match m with
  | .down => ⌊x⌋
  | .up => ⌈x⌉
  | .ceiling => if negative then ⌊x⌋ else ⌈x⌉
  | .floor => if negative then ⌈x⌉ else ⌊x⌋
  | .halfUp => ⌊x + 1 / 2⌋
  | .halfDown => ⌈x - 1 / 2⌉
  | .halfEven => if x - ⌊x⌋ = 1 / 2 ∧ ⌊x⌋ % 2 = 0 then ⌊x⌋ else ⌊x + 1 / 2⌋
  | .r05up => if ⌊x⌋ % 5 = 0 then ⌈x⌉ else ⌊x⌋

/-- The value of a finite decimal. -/
def finValue (s : Bool) (i : Digits) (e : ℤ) : K := (if s then -1 else 1) * (number i * 10 ^ e)

/-- Signals in the order of their precedence. -/
def precedence : List Sig := [.overflow, .underflow, .subnormal, .inexact, .rounded, .clamped]

/-- Exactly these signals are raised, by precedence. -/
def Raises (p : Sig → Prop) (l : List Sig) : Prop := l.Sublist precedence ∧ ∀ g, g ∈ l ↔ p g

/-- What becomes of a number that is too large: the largest number if the mode rounds towards it, else an infinity. -/
def tooLarge (c : Ctx) (negative : Bool) : Dec :=
  match c.rounding, negative with
  | .down, _ | .r05up, _ | .ceiling, true | .floor, false => .fin negative (List.replicate c.prec 9) (c.emax - c.prec + 1)
  | _, _ => .inf negative

/-- The number can be held in a context. -/
structure Fits (c : Ctx) (coeff : Digits) (x : ℤ) : Prop where
  wellFormed : IsCoeff coeff
  length : coeff.length ≤ c.prec
  least : c.emin - c.prec + 1 ≤ x
  most : coeff ≠ [0] → x + coeff.length - 1 ≤ c.emax
  clamped : c.clamp = true → x ≤ c.emax - c.prec + 1

/-- `o` is the result of an operation, in context `c`, whose exact value has magnitude `M > 0`, and for which the exponent `e` is the ideal
one. With the unit that `prec` digits allow (not below the smallest one), the magnitude is rounded to a whole number of units. -/
def IsRounding (c : Ctx) (negative : Bool) (M : K) (e : ℤ) (o : List Sig × Dec) : Prop :=
  ∀ adj : ℤ, (10 : K) ^ adj ≤ M → M < 10 ^ (adj + 1) →
    let q := max (adj - c.prec + 1) (c.emin - c.prec + 1)
    let n := roundAbs c.rounding negative (M / 10 ^ q)
    ((10 : K) ^ (c.emax + 1) ≤ n * 10 ^ q →
      o.2 = tooLarge c negative ∧ Raises (fun g => g = .overflow ∨ g = .inexact ∨ g = .rounded) o.1) ∧
    (n * 10 ^ q < (10 : K) ^ (c.emax + 1) →
      ∃ coeff x, o.2 = .fin negative coeff x ∧ Fits c coeff x ∧ (number coeff : K) * 10 ^ x = n * 10 ^ q ∧
        x = (if e < q then (if n = 10 ^ c.prec then q + 1 else q) else if c.clamp then min e (c.emax - c.prec + 1) else e) ∧
        Raises (fun g => match g with
          | .subnormal => M < 10 ^ c.emin
          | .inexact => (n : K) * 10 ^ q ≠ M
          | .underflow => M < 10 ^ c.emin ∧ (n : K) * 10 ^ q ≠ M
          | .rounded => e < q
          | .clamped => n = 0 ∨ (q ≤ e ∧ c.clamp = true ∧ c.emax - c.prec + 1 < e)
          | _ => False) o.1)

/-- The result of an operation that gives a zero with ideal exponent `e`: the exponent is brought into the range of the context. -/
def IsZeroResult (c : Ctx) (negative : Bool) (e : ℤ) (o : List Sig × Dec) : Prop :=
  let x := min (max e (c.emin - c.prec + 1)) (if c.clamp then c.emax - c.prec + 1 else c.emax)
  o.2 = .fin negative [0] x ∧ o.1 = if x = e then [] else [.clamped]

/-- `o` is the result of an operation, in context `c`, whose exact value is `v`; `e` is the ideal exponent, and the last thing needed is the
sign of the zero if `v` is zero. -/
structure IsResult (c : Ctx) (v : K) (zeroNegative : Bool) (e : ℤ) (o : List Sig × Dec) : Prop where
  zero : v = 0 → IsZeroResult c zeroNegative e o
  negative : v < 0 → IsRounding c true (-v) e o
  positive : 0 < v → IsRounding c false v e o

/-- The sign of a zero that is the sum of two numbers with these signs. -/
def sumZero (c : Ctx) (s1 s2 : Bool) : Bool := if s1 = s2 then s1 else decide (c.rounding = .floor)

/-- The order of numbers and infinities. -/
def Less (K : Type) [Field K] [LinearOrder K] : Dec → Dec → Prop
  | .fin s1 i1 e1, .fin s2 i2 e2 => (finValue s1 i1 e1 : K) < finValue s2 i2 e2
  | .inf s1, .inf s2 => s1 = true ∧ s2 = false
  | .inf s1, .fin .. => s1 = true
  | .fin .., .inf s2 => s2 = false
  | _, _ => False

/-- Equality of numbers and infinities. -/
def Same (K : Type) [Field K] : Dec → Dec → Prop
  | .fin s1 i1 e1, .fin s2 i2 e2 => (finValue s1 i1 e1 : K) = finValue s2 i2 e2
  | .inf s1, .inf s2 => s1 = s2
  | _, _ => False

end

/-- The part of a number before the point. -/
def truncate {K : Type} [Field K] [LinearOrder K] [FloorRing K] (x : K) : ℤ := if 0 ≤ x then ⌊x⌋ else ⌈x⌉

/-- `n` is the integer nearest to `x`, the even one of two. -/
def IsNearestEven {K : Type} [Field K] [LinearOrder K] (x : K) (n : ℤ) : Prop := |x - n| ≤ 1 / 2 ∧ (|x - n| = 1 / 2 → n % 2 = 0)

/-- The decimal is a NaN. -/
def IsNaN (d : Dec) : Prop := ∃ s p g, d = .nan s p g

/-- The NaN that decides the result: the first signaling one, or else the first one. -/
def decisive (ops : List Dec) : Option Dec :=
  (ops.find? fun d => match d with | .nan _ _ true => true | _ => false).or (ops.find? fun d => match d with | .nan .. => true | _ => false)

/-- `r` is what becomes of a NaN: it is quiet, has the same sign, and of the payload the last digits that there is room for. -/
def IsQuieted (c : Ctx) (s : Bool) (p : Digits) (r : Dec) : Prop :=
  let room := if c.clamp then c.prec - 1 else c.prec
  ∃ p', r = .nan s p' false ∧ p'.length ≤ room ∧ number p' = number p % 10 ^ room ∧ (p.length ≤ room → p' = p) ∧
    (room < p.length → p'.head? ≠ some 0)

end Verif.Decimal
