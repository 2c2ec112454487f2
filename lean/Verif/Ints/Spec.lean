import Verif.Ints.Model
/-
What Python's integers are documented to do, stated without reference to CrossHair's code.
-/
namespace Verif.Ints

/-- `q` and `r` are Python's `x // y` and `x % y`: the remainder has the sign of the divisor and
is smaller than it. -/
def IsDivMod (x y q r : Int) : Prop :=
  x = q * y + r ∧ ((0 ≤ r ∧ r < y) ∨ (y < r ∧ r ≤ 0))

/-- Bit `i` of the infinite two's complement representation of `x`. -/
def bit (x : Int) (i : Nat) : Bool :=
  match x with
  | .ofNat n => n.testBit i
  | .negSucc n => !n.testBit i

/-- Number of ones in the binary numeral of `n`. -/
def popcount (n : Nat) : Nat :=
  if n = 0 then 0 else n % 2 + popcount (n / 2)

/-- `r` is `x` rounded to a multiple of `f`, ties going to the even multiple. -/
def IsRounded (x f r : Int) : Prop :=
  ∃ k, r = k * f ∧ 2 * (x - r) ≤ f ∧ -f ≤ 2 * (x - r) ∧
    (2 * (x - r) = f ∨ 2 * (x - r) = -f → k % 2 = 0)

/-- The number a little-endian list of bytes stands for. -/
def littleValue : List Int → Int
  | [] => 0
  | b :: bs => b + 256 * littleValue bs

/-- Every element is a byte. -/
def AreBytes (bs : List Int) : Prop := ∀ b ∈ bs, 0 ≤ b ∧ b < 256

/-- CPython accepts `x.to_bytes(n, _, signed=s)`: the number is in range for `n` bytes. -/
def Fits (x : Int) (n : Nat) (signed : Bool) : Prop :=
  if signed then (if n = 0 then x = 0 else -(256 ^ n) ≤ 2 * x ∧ 2 * x < 256 ^ n)
  else 0 ≤ x ∧ x < 256 ^ n

/-- The number a list of digit characters (most significant first) stands for. -/
def digitsValue (base : Nat) (s : List Nat) : Nat :=
  s.foldl (fun acc c => acc * base + (c - 48)) 0

/-- Every character is an ASCII digit below `base`. -/
def AreDigits (base : Nat) (s : List Nat) : Prop := ∀ c ∈ s, 48 ≤ c ∧ c < 48 + base

/-- `s` is the usual decimal numeral of `n`: digits only, at least one, no superfluous leading
zero, and the right value. -/
def IsNumeral (s : List Nat) (n : Nat) : Prop :=
  s ≠ [] ∧ AreDigits 10 s ∧ digitsValue 10 s = n ∧ (s.head? = some 48 → s = [48])

/-- Code points of a text. -/
def codes (s : String) : List Nat := s.toList.map Char.toNat

/-! Histories of a bounded integer -/

/-- The number lies within the recorded bounds. -/
def Within (x : Int) (b : Bounds) : Prop :=
  (∀ m, b.min = some m → m ≤ x) ∧ (∀ m, b.max = some m → x ≤ m)

/-- What can happen to a bounded integer during a run: it is compared with a number, and later a
comparison that was left to the solver may be decided. -/
inductive Event where
  | askLt (other : Int)
  | askGt (other : Int)
  | decideLt (other : Int)
  | decideGt (other : Int)

/-- One event for the integer of value `x`. Decisions are taken according to the value; an early
answer, if one is given, is recorded together with the right answer. -/
def step (x : Int) (b : Bounds) : Event → Bounds × Option (Bool × Bool)
  | .askLt o => (b, (b.lt o).map fun a => (a, decide (x < o)))
  | .askGt o => (b, (b.gt o).map fun a => (a, decide (x > o)))
  | .decideLt o => (b.decidedLt o (decide (x < o)), none)
  | .decideGt o => (b.decidedGt o (decide (x > o)), none)

/-- A history of events. -/
def trace (x : Int) : Bounds → List Event → Bounds × List (Bool × Bool)
  | b, [] => (b, [])
  | b, e :: es =>
    let (b', a) := step x b e
    let (b'', as) := trace x b' es
    (b'', a.toList ++ as)

end Verif.Ints
