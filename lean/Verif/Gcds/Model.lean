import Verif.Gcds.Spec
import Verif.Ints.Model
/-
`_gcd` (crosshair/libimpl/mathlib.py 56-59) for any arguments.
-/
namespace Verif.Gcds

/-- The value of a number. -/
def Arg.val : Arg → Option Int
  | .int z => some z
  | .float z => some z
  | .other _ => none

/-- Whether it is a float. -/
def Arg.isFloat : Arg → Bool
  | .float _ => true
  | _ => false

/-- `_gcd(a=0, b=0)` (56-59): more arguments are a `TypeError`. The value is that of the loop on integers (`Verif.Ints.gcd`). The last `a` is the first
argument if the second is zero, the second if that divides the first, and otherwise a remainder, which is a float if one of them is. For objects that are no
numbers, `%` or `abs` is a `TypeError`; but if the second argument is not true, only `abs` of the first is taken. -/
def gcd : List Arg → Res
  | [] => .int (Ints.gcd 0 0)
  | [a] => match a.val with
    | none => .typeError
    | some x => if a.isFloat then .float (Ints.gcd x 0) else .int (Ints.gcd x 0)
  | [a, b] => match a.val, b.val with
    | some x, some y =>
      let float := if y = 0 then a.isFloat else if x.fmod y = 0 then b.isFloat else a.isFloat || b.isFloat
      if float then .float (Ints.gcd x y) else .int (Ints.gcd x y)
    | some x, none => if b = .other false then (if a.isFloat then .float (Ints.gcd x 0) else .int (Ints.gcd x 0)) else .typeError
    | none, _ => .typeError
  | _ => .typeError

end Verif.Gcds
