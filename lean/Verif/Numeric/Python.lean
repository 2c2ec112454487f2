import Mathlib.Data.Rat.Floor
import Mathlib.Algebra.Order.Field.Rat
import Mathlib.Data.Int.Bitwise
/-
Python's own numbers: integers of any size and floats.  Nothing here is CrossHair's: this is what
the interpreter does with native operands.  It is used in two ways, as the meaning of the
operations that CrossHair hands over to the interpreter, and as the yardstick for its own.

A float is a rational number, an infinity or NaN.  The sign of zero is not modelled.  What a
finite result is rounded to is a parameter `rnd`; ideal arithmetic is `rnd = .fin`.
-/
namespace Verif.Numeric

/-- Floats. -/
inductive Fl where
  | fin (q : ℚ)
  /-- Infinity; the flag says that it is negative. -/
  | inf (neg : Bool)
  | nan
  deriving DecidableEq

/-- Python's numbers; a truth value counts as an integer. -/
inductive Num where
  | int (n : Int)
  | flt (f : Fl)
  deriving DecidableEq

inductive Err where
  | zeroDivision
  | valueError
  | overflow
  | typeError
  /-- The operation is not supported for these operands (`NotImplemented`). -/
  | notImplemented
  /-- The solver cannot express the operation (`UnknownSatisfiability`). -/
  | unknownSat
  /-- An internal error: a term of the wrong sort, or `None`, is given to the solver. -/
  | internal
  /-- The model ran out of its bound on nested calls. -/
  | fuel
  deriving DecidableEq

/-- The operators that numbers are combined with. -/
inductive Op where
  | eq | ne | ge | gt | le | lt
  | add | sub | mul | truediv | floordiv | mod | pow
  | and | or | xor | rshift | lshift
  deriving DecidableEq

namespace Py

def fneg : Fl → Fl
  | .fin q => .fin (-q)
  | .inf s => .inf !s
  | .nan => .nan

def fadd (rnd : ℚ → Fl) : Fl → Fl → Fl
  | .fin a, .fin b => rnd (a + b)
  | .inf s, .inf t => if s = t then .inf s else .nan
  | .inf s, .fin _ => .inf s
  | .fin _, .inf s => .inf s
  | .nan, _ => .nan
  | _, .nan => .nan

def fsub (rnd : ℚ → Fl) (x y : Fl) : Fl := fadd rnd x (fneg y)

/-- Infinity times a number of the given sign. -/
def infTimes (s : Bool) (q : ℚ) : Fl :=
  if q = 0 then .nan else .inf (xor s (decide (q < 0)))

def fmul (rnd : ℚ → Fl) : Fl → Fl → Fl
  | .fin a, .fin b => rnd (a * b)
  | .inf s, .inf t => .inf (xor s t)
  | .inf s, .fin q => infTimes s q
  | .fin q, .inf s => infTimes s q
  | .nan, _ => .nan
  | _, .nan => .nan

def fdiv (rnd : ℚ → Fl) (x y : Fl) : Except Err Fl :=
  if y = .fin 0 then .error .zeroDivision
  else .ok (match x, y with
    | .fin a, .fin b => rnd (a / b)
    | .inf _, .inf _ => .nan
    | .inf s, .fin q => .inf (xor s (decide (q < 0)))
    | .fin _, .inf _ => .fin 0
    | .nan, _ => .nan
    | _, .nan => .nan)

/-- `divmod` of floats: quotient and remainder. -/
def fdivmod (rnd : ℚ → Fl) (x y : Fl) : Except Err (Fl × Fl) :=
  if y = .fin 0 then .error .zeroDivision
  else .ok (match x, y with
    | .fin a, .fin b => (rnd ⌊a / b⌋, rnd (a - b * ⌊a / b⌋))
    | .fin a, .inf s =>
        if a = 0 then (.fin 0, .fin 0)
        else if decide (a < 0) = s then (.fin 0, .fin a)
        else (.fin (-1), .inf s)
    | .inf _, _ => (.nan, .nan)
    | .nan, _ => (.nan, .nan)
    | _, .nan => (.nan, .nan))

def flt : Fl → Fl → Bool
  | .fin a, .fin b => decide (a < b)
  | .inf s, .inf t => s && !t
  | .inf s, .fin _ => s
  | .fin _, .inf s => !s
  | .nan, _ => false
  | _, .nan => false

def feq : Fl → Fl → Bool
  | .fin a, .fin b => decide (a = b)
  | .inf s, .inf t => s == t
  | .inf _, .fin _ => false
  | .fin _, .inf _ => false
  | .nan, _ => false
  | _, .nan => false

/-- Comparisons of floats. -/
def fcmp : Op → Fl → Fl → Bool
  | .eq, x, y => feq x y
  | .ne, x, y => !feq x y
  | .lt, x, y => flt x y
  | .gt, x, y => flt y x
  | .le, x, y => flt x y || feq x y
  | .ge, x, y => flt y x || feq x y
  | _, _, _ => false

/-- Powers with an operand that is not finite (`float.__pow__`, C's `pow`). -/
def fpowNF (x y : Fl) : Fl :=
  if y = .fin 0 then .fin 1
  else if x = .fin 1 then .fin 1
  else match x, y with
  | .nan, _ => .nan
  | _, .nan => .nan
  | .fin a, .inf s =>
      if |a| = 1 then .fin 1
      else if decide (1 < |a|) = s then .fin 0 else .inf false
  | .inf _, .inf s => if s then .fin 0 else .inf false
  | .inf s, .fin b =>
      let odd := b.den = 1 ∧ b.num % 2 = 1
      if b < 0 then .fin 0 else .inf (s && decide odd)
  | .fin _, .fin _ => .nan

/-- A number as a float: integers keep their value (ideal conversion). -/
def toFl : Num → Fl
  | .int n => .fin n
  | .flt f => f

/-- Integer arithmetic: `//` and `%` round towards minus infinity; `/` gives a float. -/
def iarith (rnd : ℚ → Fl) : Op → Int → Int → Except Err Num
  | .add, x, y => .ok (.int (x + y))
  | .sub, x, y => .ok (.int (x - y))
  | .mul, x, y => .ok (.int (x * y))
  | .floordiv, x, y => if y = 0 then .error .zeroDivision else .ok (.int (x.fdiv y))
  | .mod, x, y => if y = 0 then .error .zeroDivision else .ok (.int (x.fmod y))
  | .truediv, x, y => if y = 0 then .error .zeroDivision else .ok (.flt (rnd (x / y : ℚ)))
  | .and, x, y => .ok (.int (x.land y))
  | .or, x, y => .ok (.int (x.lor y))
  | .xor, x, y => .ok (.int (x.xor y))
  | .lshift, x, y => if y < 0 then .error .valueError else .ok (.int (x * 2 ^ y.toNat))
  | .rshift, x, y => if y < 0 then .error .valueError else .ok (.int (x.fdiv (2 ^ y.toNat)))
  | _, _, _ => .error .notImplemented

/-- Float arithmetic. -/
def farith (rnd : ℚ → Fl) : Op → Fl → Fl → Except Err Fl
  | .add, x, y => .ok (fadd rnd x y)
  | .sub, x, y => .ok (fsub rnd x y)
  | .mul, x, y => .ok (fmul rnd x y)
  | .truediv, x, y => fdiv rnd x y
  | .floordiv, x, y => (fdivmod rnd x y).map Prod.fst
  | .mod, x, y => (fdivmod rnd x y).map Prod.snd
  | _, _, _ => .error .notImplemented

/-- Arithmetic of Python's numbers (powers aside): two integers are combined as integers, anything
else as floats. -/
def arith (rnd : ℚ → Fl) (op : Op) : Num → Num → Except Err Num
  | .int x, .int y => iarith rnd op x y
  | x, y => (farith rnd op (toFl x) (toFl y)).map .flt

/-- Comparisons of Python's numbers are by value, whatever their kinds. -/
def compare (op : Op) (x y : Num) : Bool := fcmp op (toFl x) (toFl y)

end Py

/-- Comparison operators. -/
def Op.isCmp : Op → Bool
  | .eq | .ne | .ge | .gt | .le | .lt => true
  | _ => false

/-- `+ - * / // %`. -/
def Op.isArith : Op → Bool
  | .add | .sub | .mul | .truediv | .floordiv | .mod => true
  | _ => false

/-- `& | ^ << >>`. -/
def Op.isBit : Op → Bool
  | .and | .or | .xor | .lshift | .rshift => true
  | _ => false

end Verif.Numeric
