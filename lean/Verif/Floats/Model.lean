import Verif.Floats.Spec
import Verif.Numeric.Model
/-
Model of symbolic floats' conversions (/repo/crosshair/libimpl/builtinslib.py). A float is based on the solver's real numbers (here:
rational numbers) or on its IEEE floats; which one is chosen for a whole path (455-459). The sign of zero is not modelled.
-/
namespace Verif.Floats

open Verif.Numeric (Fl Num Err nearest floatOfInt)

/-- What `z3.RealVal` reads of a native float as it is printed (1685-1688), and the native float that `10 ** -k` is. -/
structure Env where
  lit : ℚ → ℚ
  tenth : Nat → ℚ

/-- The second argument of `round`; `power` is ten to a float. -/
inductive Arg where
  | none
  | int (n : Int)
  | flt (q power : ℚ)
deriving DecidableEq, Repr

/-! ### Floats based on real numbers -/

/-- `RealBasedSymbolicFloat.__int__`, `__trunc__` (1690-1693, 1731-1734). -/
def realTrunc (x : ℚ) : Int := if x ≥ 0 then ⌊x⌋ else -⌊-x⌋

/-- `__floor__` (1722-1724); `ToInt` rounds down. -/
def realFloor (x : ℚ) : Int := ⌊x⌋

/-- `__ceil__` (1726-1729). -/
def realCeil (x : ℚ) : Int := if x = ⌊x⌋ then ⌊x⌋ else ⌊x⌋ + 1

/-- `__round__` without digits (1701-1714). The check that is deferred (1715-1720) is left out. -/
def realRound (x : ℚ) : Int :=
  let floor := ⌊x⌋
  let near := ⌊x + 1 / 2⌋
  if x ≠ floor + 1 / 2 then near else if floor % 2 = 0 then floor else floor + 1

/-- `is_integer` (1755-1757). -/
def realIsInteger (x : ℚ) : Bool := decide (x = ⌊x⌋)

/-- The number that the solver gets for the native `10 ** n` in an operation with a symbolic float: an integer is made a native float
(739-742) and read; so is a float. -/
def tenReal (E : Env) (n : Int) : Except Err ℚ :=
  if 0 ≤ n then (floatOfInt (10 ^ n.toNat)).map E.lit else .ok (E.lit (E.tenth (-n).toNat))

/-- `__round__` (1695-1720). -/
def realRoundArg (E : Env) (x : ℚ) : Arg → Except Err Num
  | .none => .ok (.int (realRound x))
  | .int n =>
    match tenReal E n with
    | .error e => .error e
    | .ok factor => if factor = 0 then .error .zeroDivision else .ok (.flt (.fin (realRound (x * factor) / factor)))
  | .flt _ power =>
    if E.lit power = 0 then .error .zeroDivision else .ok (.flt (.fin (realRound (x * E.lit power) / E.lit power)))

/-- `as_integer_ratio` (1736-1753): what the solver is told about the numbers, and the deferred check, for the native float `r` that
the float becomes. -/
def ratioOk (x : ℚ) (n d : Int) : Prop := d > 0 ∧ (n : ℚ) = d * x

def ratioCheck (r : ℚ) (n d : Int) : Bool := n == r.num && d == r.den

/-! ### IEEE floats -/

/-- The exponent of a number that is not 0: `2 ^ k ≤ |q| < 2 ^ (k + 1)`. -/
def exponent (q : ℚ) : Int :=
  let k : Int := (Nat.log2 q.num.natAbs : Int) - (Nat.log2 q.den : Int)
  if (2 : ℚ) ^ k ≤ |q| then k else k - 1

/-- `z3.fpRealToFP` with `RNE` (1296-1300), and the rounding of results: by the last place. -/
def toDouble (q : ℚ) : Fl :=
  if q = 0 then .fin 0
  else
    let e := max (-1074) (exponent q - 52)
    let v := nearest (q / (2 : ℚ) ^ e) * (2 : ℚ) ^ e
    if (2 : ℚ) ^ (1024 : Nat) ≤ |v| then .inf (decide (q < 0)) else .fin v

/-- `SymbolicInt.__float__` with IEEE floats (1294-1301). -/
def intToDouble (n : Int) : Fl := toDouble n

/-- `_check_finite_convert_to` (1621-1627). -/
def checkFinite : Fl → Except Err ℚ
  | .fin q => .ok q
  | .inf _ => .error .overflow
  | .nan => .error .valueError

/-- `PreciseIeeeSymbolicFloat.__int__` (1588-1593): rounded towards zero. -/
def ieeeInt (x : Fl) : Except Err Int := (checkFinite x).map realTrunc

/-- `__floor__`, `__ceil__`, `__trunc__` (1629-1632, 1644-1647, 1653-1656): the results are floats. -/
def ieeeFloor (x : Fl) : Except Err Num := (checkFinite x).map fun q => .flt (.fin (⌊q⌋ : Int))
def ieeeCeil (x : Fl) : Except Err Num := (checkFinite x).map fun q => .flt (.fin (⌈q⌉ : Int))
def ieeeTrunc (x : Fl) : Except Err Num := (checkFinite x).map fun q => .flt (.fin (realTrunc q : Int))

/-- `is_integer` (1663-1664). -/
def ieeeIsInteger (x : Fl) : Except Err Bool := (ieeeInt x).map fun n => x == .fin n

/-- `__round__` with `ndigits` None or equal to 0 (1595-1602, 1611-1619). -/
def ieeeRound0 (x : Fl) (digits : Bool) : Except Err Num :=
  match x with
  | .fin q => .ok (if digits then .flt (.fin (nearest q)) else .int (nearest q))
  | .inf s => if digits then .ok (.flt (.inf s)) else .error .overflow
  | .nan => if digits then .ok (.flt .nan) else .error .valueError

/-- The native float that `10 ** n` is in an operation with a symbolic float (739-742). -/
def tenFloat (E : Env) (n : Int) : Except Err ℚ := if 0 ≤ n then floatOfInt (10 ^ n.toNat) else .ok (E.tenth (-n).toNat)

/-- `__round__` (1595-1619). -/
def ieeeRound (E : Env) (x : Fl) : Arg → Except Err Num
  | .none => ieeeRound0 x false
  | .int n =>
    if n = 0 then ieeeRound0 x true
    else
      match tenFloat E n with
      | .error e => .error e
      | .ok factor =>
        match ieeeRound0 (Numeric.Py.fmul toDouble x (.fin factor)) true with
        | .ok (.flt y) => (Numeric.Py.fdiv toDouble y (.fin factor)).map .flt
        | r => r
  | .flt q _ => if q = 0 then ieeeRound0 x true else .error .typeError

/-! ### Texts -/

/-- The number of decimal digits, as `int` reads them. -/
def digits (cs : List Char) : Nat := cs.foldl (fun n c => 10 * n + (c.toNat - 48)) 0

def isDigit (c : Char) : Bool := '0' ≤ c ∧ c ≤ '9'

/-- The sign that `_FLOAT_REGEX` (4972-4979) finds. -/
def splitSign : List Char → Option Char × List Char
  | '+' :: t => (some '+', t)
  | '-' :: t => (some '-', t)
  | t => (none, t)

/-- The integer part and the fraction that `_FLOAT_REGEX` finds. -/
def splitPoint (rest : List Char) : Option (List Char × Option (List Char)) :=
  let int := rest.takeWhile isDigit
  if int.isEmpty then none
  else
    match rest.dropWhile isDigit with
    | [] => some (int, none)
    | '.' :: fs => if fs.all isDigit then some (int, some fs) else none
    | _ => none

/-- `_FLOAT_REGEX.fullmatch` (5002). -/
def floatMatch (s : List Char) : Option (Option Char × List Char × Option (List Char)) :=
  (splitPoint (splitSign s).2).map fun p => ((splitSign s).1, p)

/-- `_float` of a symbolic text, with real numbers (5001-5013); `none` if the text is made concrete instead (5016). -/
def realFloat (E : Env) (s : List Char) : Option (Except Err ℚ) :=
  (floatMatch s).map fun (sign, int, frac) =>
    let whole : ℚ := digits int
    let r : Except Err ℚ :=
      match frac with
      | some (f :: fs) => (tenReal E (f :: fs).length).map fun t => whole + digits (f :: fs) / t
      | _ => .ok whole
    r.map fun v => if sign = some '-' then -v else v

/-- `_float` of a symbolic text, with IEEE floats (5001-5013). -/
def ieeeFloat (E : Env) (s : List Char) : Option (Except Err Fl) :=
  (floatMatch s).map fun (sign, int, frac) =>
    let whole := intToDouble (digits int)
    let r : Except Err Fl :=
      match frac with
      | some (f :: fs) =>
        match tenFloat E (f :: fs).length with
        | .error e => .error e
        | .ok t => (Numeric.Py.fdiv toDouble (intToDouble (digits (f :: fs))) (.fin t)).map fun v => Numeric.Py.fadd toDouble whole v
      | _ => .ok whole
    r.map fun v => if sign = some '-' then Numeric.Py.fneg v else v

end Verif.Floats
