/-
Operations of /repo/crosshair/libimpl/decimallib.py on the digits of decimals, and choices between decimals: logical operations, shifts, rotations,
scaling, the exponent, classes, maxima and minima, the next number towards another, and rounding to integers with signals.
Simplified: as in `Verif.Decimal.Model`.
-/
import Verif.DecimalMore.Model

namespace Verif.DecimalDigits
open Verif.Decimal Verif.DecimalMore

/-! ### Logical operations -/

/-- `_islogical` (3175-3188); the digits of a logical operand, if it is one. -/
def logicalDigits : Dec → Option Digits
  | .fin s i e => if s || e ≠ 0 then none else if i.all (fun d => d == 0 || d == 1) then some i else none
  | _ => none

/-- One half of `_fill_logical` (3191-3195 and 3196-3200). -/
def fill (c : Ctx) (op : Digits) : Digits :=
  if c.prec > op.length then List.replicate (c.prec - op.length) 0 ++ op
  else if c.prec < op.length then op.drop (op.length - c.prec)
  else op

/-- The operations on digits (3217, 3240, 3257). -/
inductive Logic where
  | land | lor | lxor
  deriving DecidableEq

/-- `int(a) & int(b)`, `|` and `^`. -/
def Logic.apply : Logic → Nat → Nat → Nat
  | .land, a, b => a &&& b
  | .lor, a, b => a ||| b
  | .lxor, a, b => a ^^^ b

/-- `logical_and` (3203-3218), `logical_or` (3226-3241) and `logical_xor` (3243-3258), which differ only in the operation. -/
def logical (f : Logic) (c : Ctx) (a b : Dec) : Out Dec :=
  match logicalDigits a, logicalDigits b with
  | some x, some y =>
    let result := (List.zip (fill c x) (fill c y)).map fun p => f.apply p.1 p.2
    ([], .fin false (orZero (lstrip result)) 0)
  | _, _ => ([.invalidOperation], .NaN)

/-- `logical_invert` (3220-3224). -/
def logicalInvert (c : Ctx) (a : Dec) : Out Dec := logical .lxor c a (.fin false (List.replicate c.prec 1) 0)

/-! ### Shifts -/

/-- The digits padded or cut to the precision, in `rotate` (3478-3483) and `shift` (3536-3541). -/
def toRotate (c : Ctx) (int : Digits) : Digits :=
  let topad : Int := c.prec - int.length
  if topad > 0 then List.replicate topad.toNat 0 ++ int
  else if topad < 0 then int.drop (-topad).toNat
  else int

/-- The tests of the second operand in `rotate` (3465-3472), `shift` (3522-3530) and `scaleb` (3497-3505): `int(other)` if it is an integer
written with exponent zero and within the limit. -/
def count (limit : Int) : Dec → Option Int
  | .fin s i e =>
    if e ≠ 0 then none
    else if -limit ≤ toInteger s i e ∧ toInteger s i e ≤ limit then some (toInteger s i e) else none
  | _ => none

/-- A slice `ds[:n]`, counted from the end if `n` is negative. -/
def sliceTo (ds : Digits) (n : Int) : Digits := if n < 0 then ds.take (ds.length + n).toNat else ds.take n.toNat
/-- A slice `ds[n:]`. -/
def sliceFrom (ds : Digits) (n : Int) : Digits := if n < 0 then ds.drop (ds.length + n).toNat else ds.drop n.toNat

/-- `rotate` (3458-3488). -/
def rotate (c : Ctx) (a b : Dec) : Out Dec :=
  match checkNans c a b with
  | some o => o
  | none => match count c.prec b with
    | none => ([.invalidOperation], .NaN)
    | some torot => match a with
      | .fin s i e =>
        let rotdig := toRotate c i
        let rotated := sliceFrom rotdig torot ++ sliceTo rotdig torot
        ([], .fin s (orZero (lstrip rotated)) e)
      | a => ([], a)

/-- `shift` (3515-3550). -/
def shift (c : Ctx) (a b : Dec) : Out Dec :=
  match checkNans c a b with
  | some o => o
  | none => match count c.prec b with
    | none => ([.invalidOperation], .NaN)
    | some torot => match a with
      | .fin s i e =>
        let rotdig := toRotate c i
        let shifted := if torot < 0 then sliceTo rotdig torot else sliceFrom (pad rotdig torot) (-(c.prec : Int))
        ([], .fin s (orZero (lstrip shifted)) e)
      | a => ([], a)

/-- `scaleb` (3490-3513). -/
def scaleb (c : Ctx) (a b : Dec) : Out Dec :=
  match checkNans c a b with
  | some o => o
  | none => match count (2 * (c.emax + c.prec)) b with
    | none => ([.invalidOperation], .NaN)
    | some n => match a with
      | .fin s i e => fix c (.fin s i (e + n))
      | a => ([], a)

/-- `Decimal(n)` for an integer (308-316). -/
def ofInt (n : Int) : Dec := .fin (n < 0) (str n.natAbs) 0

/-- `logb` (3144-3173). -/
def logb (c : Ctx) (a : Dec) : Out Dec :=
  match checkNan c a with
  | some o => o
  | none =>
    if isInf a then ([], .inf false)
    else if isZero a then ([.divisionByZero], .inf true)
    else fix c (ofInt (adjusted a))

/-! ### Classes -/

/-- `is_normal` (2955-2961). -/
def isNormal (c : Ctx) : Dec → Bool
  | .fin s i e => if i == [0] then false else c.emin ≤ adjusted (.fin s i e)
  | _ => false
/-- `is_subnormal` (2975-2981). -/
def isSubnormal (c : Ctx) : Dec → Bool
  | .fin s i e => if i == [0] then false else adjusted (.fin s i e) < c.emin
  | _ => false

/-- What `number_class` (3411-3452) gives, as a text. -/
def numberClass (c : Ctx) (a : Dec) : String :=
  if nanKind a = 2 then "sNaN"
  else if nanKind a = 1 then "NaN"
  else if infinity a = 1 then "+Infinity"
  else if infinity a = -1 then "-Infinity"
  else if isZero a then (if signOf a then "-Zero" else "+Zero")
  else if isSubnormal c a then (if signOf a then "-Subnormal" else "+Subnormal")
  else if signOf a then "-Normal" else "+Normal"

/-- `same_quantum` (2404-2421). -/
def sameQuantum : Dec → Dec → Bool
  | .fin _ _ e1, .fin _ _ e2 => e1 == e2
  | a, b => (nanKind a ≠ 0 && nanKind b ≠ 0) || (isInf a && isInf b)

/-- `copy_sign` (2850-2853). -/
def copySign (a b : Dec) : Dec :=
  match a with
  | .fin _ i e => .fin (signOf b) i e
  | .inf _ => .inf (signOf b)
  | .nan _ p g => .nan (signOf b) p g

/-- `compare` (668-685). -/
def compare (c : Ctx) (a b : Dec) : Out Dec :=
  match checkNans c a b with
  | some o => o
  | none => ([], ofInt (Decimal.cmp a b))

/-- `_compare_check_nans` (518-549), with its result: `none` if neither operand is a NaN. -/
def signalNans (c : Ctx) (a b : Dec) : Option (Out Dec) :=
  match a, b with
  | .nan s p true, _ => some ([.invalidOperation], quiet c (.nan s p true))
  | _, .nan s p true => some ([.invalidOperation], quiet c (.nan s p true))
  | .nan s p false, _ => some ([.invalidOperation], quiet c (.nan s p false))
  | _, .nan s p false => some ([.invalidOperation], quiet c (.nan s p false))
  | _, _ => none

/-- `compare_signal` (2741-2752). -/
def compareSignal (c : Ctx) (a b : Dec) : Out Dec :=
  match signalNans c a b with
  | some o => o
  | none => compare c a b

/-- `compare_total_mag` (2827-2837). -/
def compareTotalMag (a b : Dec) : Int := compareTotal (copyAbs a) (copyAbs b)

/-! ### Maxima and minima -/

/-- The treatment of NaNs in `max` (2643-2653), `min` (2686-2696), `max_mag` (3267-3277) and `min_mag` (3297-3307). -/
def chooseNans (c : Ctx) (a b : Dec) : Option (Out Dec) :=
  if nanKind a = 0 ∧ nanKind b = 0 then none
  else if nanKind b = 1 ∧ nanKind a = 0 then some (fix c a)
  else if nanKind a = 1 ∧ nanKind b = 0 then some (fix c b)
  else checkNans c a b

/-- A comparison, and if it gives zero the total order (2655-2665, 2698-2700, 3279-3281, 3309-3311). -/
def orTotal (cmp : Int) (a b : Dec) : Int := if cmp = 0 then compareTotal a b else cmp

/-- `max` (2631-2672). -/
def max (c : Ctx) (a b : Dec) : Out Dec :=
  match chooseNans c a b with
  | some o => o
  | none => fix c (if orTotal (Decimal.cmp a b) a b = -1 then b else a)
/-- `min` (2674-2707). -/
def min (c : Ctx) (a b : Dec) : Out Dec :=
  match chooseNans c a b with
  | some o => o
  | none => fix c (if orTotal (Decimal.cmp a b) a b = -1 then a else b)
/-- `max_mag` (3260-3288). -/
def maxMag (c : Ctx) (a b : Dec) : Out Dec :=
  match chooseNans c a b with
  | some o => o
  | none => fix c (if orTotal (Decimal.cmp (copyAbs a) (copyAbs b)) a b = -1 then b else a)
/-- `min_mag` (3290-3318). -/
def minMag (c : Ctx) (a b : Dec) : Out Dec :=
  match chooseNans c a b with
  | some o => o
  | none => fix c (if orTotal (Decimal.cmp (copyAbs a) (copyAbs b)) a b = -1 then a else b)

/-! ### The next number towards another -/

/-- The flags raised at the end of `next_toward` (3392-3407). -/
def towardFlags (c : Ctx) (ans : Dec) : List Sig :=
  if isInf ans then [.overflow, .inexact, .rounded]
  else if adjusted ans < c.emin then [.underflow, .subnormal, .inexact, .rounded] ++ (if isZero ans then [.clamped] else [])
  else []

/-- `next_toward` (3364-3409). -/
def nextToward (c : Ctx) (a b : Dec) : Out Dec :=
  match checkNans c a b with
  | some o => o
  | none =>
    if Decimal.cmp a b = 0 then ([], copySign a b)
    else
      let ans := if Decimal.cmp a b = -1 then nextPlus c a else nextMinus c a
      (ans.1 ++ towardFlags c ans.2, ans.2)

/-! ### Integers -/

/-- `to_integral_exact` (2483-2511), with the rounding mode. -/
def toIntegralExact (c : Ctx) (m : Mode) (a : Dec) : Out Dec :=
  match checkNan c a with
  | some o => o
  | none => match a with
    | .fin s i e =>
      if e ≥ 0 then ([], .fin s i e)
      else if i == [0] then ([], .fin s [0] 0)
      else
        let ans := rescale m s i e 0
        ((if (Decimal.eq c ans (.fin s i e)).2 then [] else [.inexact]) ++ [.rounded], ans)
    | a => ([], a)

/-- `_isinteger` (2709-2716): `rest` are the last `-e` digits, or all. -/
def isInteger : Dec → Bool
  | .fin _ i e => if e ≥ 0 then true else (i.drop (i.length + e).toNat).all (· == 0)
  | _ => false

/-- `_iseven` (2718-2722), for integers; `_int[-1 + _exp]` exists then. -/
def isEven : Dec → Bool
  | .fin _ i e =>
    if i == [0] || e > 0 then true
    else (i.getD (i.length + e - 1).toNat 0) % 2 == 0
  | _ => false

/-- `_round` (2459-2481) to `places` significant digits. -/
def roundPlaces (m : Mode) (places : Nat) (a : Dec) : Dec :=
  match a with
  | .fin s i e =>
    if i == [0] then a
    else
      let adj := adjusted a
      match rescale m s i e (adj + 1 - places) with
      | .fin s' i' e' =>
        if adjusted (.fin s' i' e') ≠ adj then rescale m s' i' e' (adjusted (.fin s' i' e') + 1 - places) else .fin s' i' e'
      | d => d
  | a => a

end Verif.DecimalDigits
