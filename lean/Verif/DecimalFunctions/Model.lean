/-
Model of the exponential, the logarithms and the integer arithmetic behind them in /repo/crosshair/libimpl/decimallib.py (2855-2927,
2987-3142, 4343-4669).

Python integers are `Int`; `//` is `Int.fdiv` and `%` is `Int.fmod` (`/` and `%` where the divisor is a positive power), `x >> n` is division by
`2 ^ n` and `x & 1` is `x % 2`. Loops whose end depends on the digits of irrational numbers have a number of rounds as argument, and `none` is
"not finished within these rounds".
-/
import Verif.DecimalMore.Model

namespace Verif.DecimalFunctions
open Verif.Decimal

/-- `len(str(n))` for an integer. -/
def len (n : Int) : Nat := (str n.natAbs).length + if n < 0 then 1 else 0

/-! ### Integer arithmetic -/

/-- `_decimal_lshift_exact` (4343-4363). `val_n` is the number of zeros at the end of the digits. -/
def lshiftExact (n e : Int) : Option Int :=
  if n = 0 then some 0
  else if e ≥ 0 then some (n * 10 ^ e.toNat)
  else
    let s := str n.natAbs
    let val := (s.reverse.takeWhile (· == 0)).length
    if (val : Int) < -e then none else some (n.fdiv (10 ^ (-e).toNat))

/-- The loop of `_sqrt_nearest` (4378-4380). It ends within `a + n + 2` rounds, as is proved. -/
def sqrtLoop (n : Int) : Nat → Int → Int → Int
  | 0, a, _ => a
  | fuel + 1, a, b => if a = b then a else sqrtLoop n fuel ((a - (-n).fdiv a) / 2) a

/-- `_sqrt_nearest` (4366-4381); `none` is the `ValueError`. -/
def sqrtNearest (n a : Int) : Option Int :=
  if n ≤ 0 ∨ a ≤ 0 then none else some (sqrtLoop n ((a + n).toNat + 3) a 0)

/-- `_rshift_nearest` (4384-4392). -/
def rshiftNearest (x : Int) (shift : Nat) : Int :=
  let b : Int := 2 ^ shift
  let q := x / b
  q + if 2 * (x % b) + q % 2 > b then 1 else 0

/-- `_div_nearest` (4395-4402). -/
def divNearest (a b : Int) : Int :=
  let q := a.fdiv b
  let r := a.fmod b
  q + if 2 * r + q % 2 > b then 1 else 0

/-- The reduction of the argument in `_ilog` (4437-4444). -/
def ilogReduce (M : Int) (L : Nat) : Nat → Int → Nat → Option (Int × Nat)
  | 0, _, _ => none
  | fuel + 1, y, R =>
    if (R ≤ L ∧ (y.natAbs : Int) * 2 ^ (L - R) ≥ M) ∨ (R > L ∧ (y.natAbs : Int) / 2 ^ (R - L) ≥ M) then
      (sqrtNearest (M * (M + rshiftNearest y R)) M).bind fun s => ilogReduce M L fuel (divNearest (M * y * 2) (M + s)) (R + 1)
    else some (y, R)

/-- The number of terms of the series in `_ilog` and `_iexp` (4447, 4611): `-int(-10 * len(str(M)) // (3 * L))`. -/
def terms (M : Int) (L : Nat) : Int := -((-10 * (len M : Int)).fdiv (3 * L))

/-- The series in `_ilog` (4449-4451): `k` is the last value of the loop variable that is to come. -/
def ilogSeries (M yshift : Int) : Nat → Int → Int
  | 0, w => w
  | k + 1, w => ilogSeries M yshift k (divNearest M (k + 1 : Nat) - divNearest (yshift * w) M)

/-- `_ilog` (4405-4453). Simplified: the reduction of the argument gives up after 64 rounds; ten are enough where `_ilog` is used, as is
proved. -/
def ilog (x M : Int) (L : Nat := 8) : Option Int :=
  (ilogReduce M L 64 (x - M) 0).map fun (y, R) =>
    let T := terms M L
    let w := ilogSeries M (rshiftNearest y R) (T - 1).toNat (divNearest M T)
    divNearest (w * y) M

/-- The shift of the coefficient in `_dlog10` and `_dlog` (4475-4479, 4511-4515). -/
def shifted (c k : Int) : Int := if k ≥ 0 then c * 10 ^ k.toNat else divNearest c (10 ^ (-k).toNat)

/-- The exponent `f` in `_dlog10` and `_dlog` (4470-4471, 4505-4506). -/
def outerExp (c e : Int) : Int := e + len c - if e + len c ≥ 1 then 1 else 0

/-- `_dlog10` (4456-4488). `ten p` is `_log10_digits(p)`, see `getDigits`. -/
def dlog10 (ten : Nat → Int) (c e p : Int) : Option Int :=
  let p := p + 2
  let f := outerExp c e
  if p > 0 then
    let M : Int := 10 ^ p.toNat
    (ilog (shifted c (e + p - f)) M).map fun d => divNearest (f * M + divNearest (d * M) (ten p.toNat)) 100
  else some (divNearest (divNearest f (10 ^ (-p).toNat) + 0) 100)

/-- `f_log_ten` in `_dlog` (4524-4534). -/
def fLogTen (ten : Nat → Int) (f p : Int) : Int :=
  if f ≠ 0 then
    let extra : Int := len f.natAbs - 1
    if p + extra ≥ 0 then divNearest (f * ten (p + extra).toNat) (10 ^ extra.toNat) else 0
  else 0

/-- `_dlog` (4491-4537). -/
def dlog (ten : Nat → Int) (c e p : Int) : Option Int :=
  let p := p + 2
  let f := outerExp c e
  if p > 0 then (ilog (shifted c (e + p - f)) (10 ^ p.toNat)).map fun d => divNearest (fLogTen ten f p + d) 100
  else some (divNearest (fLogTen ten f p + 0) 100)

/-- `_Log10Memoize.digits` at first (4550). -/
def firstDigits : Digits :=
  [2,3,0,2,5,8,5,0,9,2,9,9,4,0,4,5,6,8,4,0,1,7,9,9,1,4,5,4,6,8,4,3,6,4,2,0,7,6,0,1,1,0,1,4,8,8,6]

/-- The loop of `getdigits` (4568-4576): more digits until one of the last `extra` is not zero. -/
def moreDigits (p : Nat) : Nat → Nat → Option Digits
  | 0, _ => none
  | fuel + 1, extra =>
    let M : Int := 10 ^ (p + extra + 2)
    (ilog (10 * M) M).bind fun l =>
      let digits := str (divNearest l 100).toNat
      if digits.drop (digits.length - extra) ≠ List.replicate extra 0 then some digits else moreDigits p fuel (extra + 3)

/-- `.rstrip("0")[:-1]`. -/
def stripLast (ds : Digits) : Digits := (ds.reverse.dropWhile (· == 0)).reverse.dropLast

/-- `_Log10Memoize.getdigits` (4552-4580) for `p >= 0`: the stored digits afterwards, and the result. -/
def getDigits (fuel : Nat) (stored : Digits) (p : Nat) : Option (Digits × Nat) :=
  if p ≥ stored.length then (moreDigits p fuel 3).map fun d => let s := stripLast d; (s, toInt (s.take (p + 1)))
  else some (stored, toInt (stored.take (p + 1)))

/-- `_nbits`: `int.bit_length`. -/
def nbits (n : Int) : Nat := if n = 0 then 0 else n.natAbs.log2 + 1

/-- The series in `_iexp` (4614-4615). -/
def iexpSeries (x Mshift : Int) : Nat → Int → Int
  | 0, y => y
  | i + 1, y => iexpSeries x Mshift i (divNearest (x * (Mshift + y)) (Mshift * (i + 1 : Nat)))

/-- The expansion in `_iexp` (4618-4620): `k` more rounds. -/
def iexpExpand (M : Int) : Nat → Int → Int
  | 0, y => y
  | k + 1, y => let Mshift := M * 2 ^ (k + 2); iexpExpand M k (divNearest (y * (y + Mshift)) Mshift)

/-- `_iexp` (4586-4622). -/
def iexp (x M : Int) (L : Nat := 8) : Int :=
  let R := nbits ((x * 2 ^ L).fdiv M)
  let T := terms M L
  M + iexpExpand M R (iexpSeries x (M * 2 ^ R) (T - 1).toNat (divNearest x T))

/-- `_dexp` (4625-4663). -/
def dexp (ten : Nat → Int) (c e p : Int) : Int × Int :=
  let p := p + 2
  let extra := max 0 (e + len c - 1)
  let q := p + extra
  let shift := e + q
  let cshift := if shift ≥ 0 then c * 10 ^ shift.toNat else c.fdiv (10 ^ (-shift).toNat)
  let quot := cshift.fdiv (ten q.toNat)
  let rem := divNearest (cshift.fmod (ten q.toNat)) (10 ^ extra.toNat)
  (divNearest (iexp rem (10 ^ p.toNat)) 1000, quot - p + 3)

/-! ### The methods -/

/-- The test in the loops of `exp`, `ln` and `log10` (2909, 3050, 3131): the digits after the first `p` leave no doubt about the rounding. The
exponent of the power is never negative, as is proved. -/
def clear (coeff : Int) (p : Nat) : Bool := coeff % (5 * 10 ^ ((str coeff.natAbs).length - p - 1)) != 0

/-- The last steps of `exp`, `ln` and `log10` (2919-2925, 3055-3059, 3137-3141): rounding half to even, with the exact sign of the result. -/
def finish (c : Ctx) (sign : Bool) (i : Digits) (e : Int) : Out Dec := fixFin { c with rounding := .halfEven } sign i e

/-- The loop of `exp` (2906-2911). -/
def expLoop (ten : Nat → Int) (c e : Int) (p : Nat) : Nat → Int → Option (Int × Int)
  | 0, _ => none
  | fuel + 1, extra =>
    let (coeff, x) := dexp ten c e (p + extra)
    if clear coeff p then some (coeff, x) else expLoop ten c e p fuel (extra + 3)

/-- `exp` (2877-2927) for numbers other than zero. -/
def expFin (ten : Nat → Int) (fuel : Nat) (c : Ctx) (s : Bool) (i : Digits) (e : Int) : Option (Out Dec) :=
  let p := c.prec
  let adj := e + i.length - 1
  if s = false ∧ adj > len ((c.emax + 1) * 3) then some (finish c false [1] (c.emax + 1))
  else if s = true ∧ adj > len ((-c.etiny + 1) * 3) then some (finish c false [1] (c.etiny - 1))
  else if s = false ∧ adj < -p then some (finish c false (1 :: (List.replicate (p - 1) 0 ++ [1])) (-p))
  else if s = true ∧ adj < -p - 1 then some (finish c false (List.replicate (p + 1) 9) (-p - 1))
  else (expLoop ten (if s then -(toInt i : Int) else toInt i) e p fuel 3).map fun (coeff, x) => finish c false (str coeff.natAbs) x

/-- `exp` (2855-2927). -/
def exp (ten : Nat → Int) (fuel : Nat) (c : Ctx) (a : Dec) : Option (Out Dec) :=
  match checkNan c a with
  | some o => some o
  | none => match a with
    | .inf true => some ([], .fin false [0] 0)
    | .fin s i e => if i == [0] then some ([], .fin false [1] 0) else expFin ten fuel c s i e
    | a => some ([], a)

/-- `_ln_exp_bound` (2987-3010). `10**-e` is a power of a number that is not negative there. -/
def lnBound (i : Digits) (e : Int) : Int :=
  let adj := e + i.length - 1
  if adj ≥ 1 then (len (adj * 23 / 10) : Int) - 1
  else if adj ≤ -2 then (len ((-1 - adj) * 23 / 10) : Int) - 1
  else if adj = 0 then
    let num := str (toInt i - 10 ^ (-e).toNat)
    let den := str (toInt i)
    (num.length : Int) - den.length - if strLt num den then 1 else 0
  else e + (str (10 ^ (-e).toNat - toInt i)).length - 1

/-- The loops of `ln` and `log10` (3046-3053, 3127-3134), with the function that approximates the logarithm. -/
def logLoop (approx : Int → Option Int) (p : Nat) : Nat → Int → Option (Int × Int)
  | 0, _ => none
  | fuel + 1, places =>
    (approx places).bind fun coeff => if clear coeff p then some (coeff, places) else logLoop approx p fuel (places + 3)

/-- The result from what the loop gave (3053-3059, 3134-3141). -/
def logResult (c : Ctx) (r : Int × Int) : Out Dec := finish c (decide (r.1 < 0)) (str r.1.natAbs) (-r.2)

/-- `ln` (3012-3060). -/
def ln (ten : Nat → Int) (fuel : Nat) (c : Ctx) (a : Dec) : Option (Out Dec) :=
  match checkNan c a with
  | some o => some o
  | none => match a with
    | .inf false => some ([], .inf false)
    | .fin s i e =>
      if i == [0] then some ([], .inf true)
      else if (eq c a (.fin false [1] 0)).2 then some ([], .fin false [0] 0)
      else if s then some ([.invalidOperation], .NaN)
      else (logLoop (dlog ten (toInt i) e) c.prec fuel (c.prec - lnBound i e + 2)).map (logResult c)
    | _ => some ([.invalidOperation], .NaN)

/-- `_log10_exp_bound` (3062-3091). -/
def log10Bound (i : Digits) (e : Int) : Int :=
  let adj := e + i.length - 1
  if adj ≥ 1 then (len adj : Int) - 1
  else if adj ≤ -2 then (len (-1 - adj) : Int) - 1
  else if adj = 0 then
    let num := str (toInt i - 10 ^ (-e).toNat)
    let den := str (231 * toInt i)
    (num.length : Int) - den.length - (if strLt num den then 1 else 0) + 2
  else
    let num := str (10 ^ (-e).toNat - toInt i)
    num.length + e - (if strLt num [2, 3, 1] then 1 else 0) - 1

/-- `log10` (3093-3142). -/
def log10 (ten : Nat → Int) (fuel : Nat) (c : Ctx) (a : Dec) : Option (Out Dec) :=
  match checkNan c a with
  | some o => some o
  | none => match a with
    | .inf false => some ([], .inf false)
    | .fin s i e =>
      if i == [0] then some ([], .inf true)
      else if s then some ([.invalidOperation], .NaN)
      else if i.take 1 == [1] && i.drop 1 == List.replicate (i.length - 1) 0 then
        let n := e + i.length - 1
        some (finish c (decide (n < 0)) (str n.natAbs) 0)
      else (logLoop (dlog10 ten (toInt i) e) c.prec fuel (c.prec - log10Bound i e + 2)).map (logResult c)
    | _ => some ([.invalidOperation], .NaN)

end Verif.DecimalFunctions
