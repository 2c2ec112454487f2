import Verif.Numeric.Python
/-
What conversions of floats to integers, of integers and texts to floats, and rounding are measured by.
-/
namespace Verif.Floats

open Verif.Numeric (Fl Num Err)

/-! ### Integers near a number -/

/-- The integer part: towards zero. -/
def Truncated (x : ℚ) (n : Int) : Prop := (0 ≤ x → (n : ℚ) ≤ x ∧ x < n + 1) ∧ (x < 0 → x ≤ n ∧ (n : ℚ) < x + 1)

/-- The largest integer not above the number. -/
def Below (x : ℚ) (n : Int) : Prop := (n : ℚ) ≤ x ∧ ∀ k : Int, (k : ℚ) ≤ x → k ≤ n

/-- The smallest integer not below the number. -/
def Above (x : ℚ) (n : Int) : Prop := x ≤ n ∧ ∀ k : Int, x ≤ k → n ≤ k

/-- The nearest integer; of two, the even one. -/
def NearestEven (x : ℚ) (n : Int) : Prop := (∀ k : Int, |x - n| ≤ |x - k|) ∧ ∀ k : Int, k ≠ n → |x - k| = |x - n| → n % 2 = 0

/-! ### Floats of double precision -/

/-- A finite float. -/
def IsDouble (d : ℚ) : Prop := ∃ m e : Int, d = m * (2 : ℚ) ^ e ∧ |m| < 2 ^ 53 ∧ -1074 ≤ e ∧ e ≤ 971

/-- A finite float whose last bit is zero. -/
def EvenDouble (d : ℚ) : Prop := ∃ m e : Int, d = m * (2 : ℚ) ^ e ∧ |m| < 2 ^ 53 ∧ -1074 ≤ e ∧ e ≤ 971 ∧ m % 2 = 0

/-- The float that a number is rounded to: the nearest one; of two, the one whose last bit is zero; infinity from half a step above the
largest float. -/
def RoundsTo (q : ℚ) : Fl → Prop
  | .fin d => |q| < 2 ^ 1024 - 2 ^ 970 ∧ IsDouble d ∧ (∀ d', IsDouble d' → |q - d| ≤ |q - d'|) ∧
      ∀ d', IsDouble d' → d' ≠ d → |q - d'| = |q - d| → EvenDouble d
  | .inf neg => 2 ^ 1024 - 2 ^ 970 ≤ |q| ∧ (neg = true ↔ q < 0)
  | .nan => False

/-! ### Texts of numbers -/

/-- The number that a text of decimal digits is. -/
inductive Decimal : List Char → Nat → Prop
  | nil : Decimal [] 0
  | snoc (cs : List Char) (n : Nat) (c : Char) (h : Decimal cs n) (hc : '0' ≤ c ∧ c ≤ '9') : Decimal (cs ++ [c]) (10 * n + (c.toNat - 48))

/-- The number that a text is, without exponent: a sign or none, digits, and perhaps a point and more digits. -/
inductive Literal : List Char → ℚ → Prop
  | plain (cs : List Char) (n : Nat) (h : Decimal cs n) (hne : cs ≠ []) : Literal cs n
  | point (cs ds : List Char) (n k : Nat) (h : Decimal cs n) (hne : cs ≠ []) (hd : Decimal ds k) :
      Literal (cs ++ '.' :: ds) (n + k / 10 ^ ds.length)
  | plus (cs : List Char) (q : ℚ) (h : Literal cs q) (h1 : ∀ t, cs ≠ '+' :: t ∧ cs ≠ '-' :: t) : Literal ('+' :: cs) q
  | minus (cs : List Char) (q : ℚ) (h : Literal cs q) (h1 : ∀ t, cs ≠ '+' :: t ∧ cs ≠ '-' :: t) : Literal ('-' :: cs) (-q)

end Verif.Floats
