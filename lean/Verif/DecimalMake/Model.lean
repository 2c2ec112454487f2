/-
Model of the ways to make decimals in /repo/crosshair/libimpl/decimallib.py: from integers, from triples, from floats, from texts in a
context, of the conversions for comparisons with other numbers, and of powers modulo an integer.
-/
import Verif.DecimalDigits.Model

namespace Verif.DecimalMake
open Verif.Decimal Verif.DecimalMore Verif.DecimalDigits

/-! ### Triples -/

/-- What may be found in a triple: an integer, a text, or some other object. Booleans are integers. -/
inductive Item where
  | int (n : Int)
  | text (s : String)
  | other
  deriving DecidableEq, Repr

/-- The digits in the second place (350-362): zeros in front are skipped; `none` for the `ValueError`. -/
def readDigits : Digits → List Item → Option Digits
  | acc, [] => some acc
  | acc, .int n :: rest =>
    if 0 ≤ n ∧ n ≤ 9 then
      if acc ≠ [] ∨ n ≠ 0 then readDigits (acc ++ [n.toNat]) rest else readDigits acc rest
    else none
  | _, _ => none

/-- The sign in the first place (339-344). -/
def readSign : Item → Option Bool
  | .int n => if n = 0 then some false else if n = 1 then some true else none
  | _ => none

/-- `Decimal` of a triple (330-384), with the second place a list; `none` for the `ValueError`s. The exponent `n` is that of a quiet NaN, and
`N` that of a signaling one. Lists and tuples of another size are refused (331-336). -/
def fromTriple (sign : Item) (digits : List Item) (exp : Item) : Option Dec :=
  match readSign sign with
  | none => none
  | some s =>
    if exp = .text "F" then some (.inf s)
    else match readDigits [] digits with
      | none => none
      | some ds =>
        if exp = .text "n" then some (.nan s ds false)
        else if exp = .text "N" then some (.nan s ds true)
        else match exp with
          | .int e => some (.fin s (if ds = [] then [0] else ds) e)
          | _ => none

/-- The sign as it is kept. -/
def signItem (s : Bool) : Item := .int (if s then 1 else 0)

/-- `as_tuple` (712-718); the coefficient of an infinity is "0". -/
def asTuple : Dec → Item × List Item × Item
  | .fin s i e => (signItem s, i.map fun (d : Nat) => .int d, .int e)
  | .inf s => (signItem s, [.int 0], .text "F")
  | .nan s p signaling => (signItem s, p.map fun (d : Nat) => .int d, .text (if signaling then "N" else "n"))

/-! ### Floats -/

/-- A float: its sign and the ratio of integers of its magnitude (`as_integer_ratio`), or an infinity, or a NaN. -/
inductive PyFloat where
  | fin (negative : Bool) (n d : Nat)
  | inf (negative : Bool)
  | nan
  deriving DecidableEq, Repr

/-- `bit_length` of a natural number. -/
def bitLength (n : Nat) : Nat := if n = 0 then 0 else Nat.log2 n + 1

/-- `from_float` (408-456) of floats; infinities and NaNs are read from their `repr`, which are `inf`, `-inf` and `nan`. -/
def fromFloat : PyFloat → Option Dec
  | .fin s n d => let k := bitLength d - 1; some (.fin s (str (n * 5 ^ k)) (-(k : Int)))
  | .inf s => parse ((if s then ['-'] else []) ++ ['i', 'n', 'f'])
  | .nan => parse ['n', 'a', 'n']

/-! ### Comparisons with other numbers -/

/-- The other operand of a comparison: a decimal; a rational number (also the integers), with its numerator and denominator; a float; a
complex number that is not a float; or any other object. -/
inductive Other where
  | dec (d : Dec)
  | rational (n : Int) (d : Nat)
  | float (f : PyFloat)
  | complex (re im : PyFloat)
  | object
  deriving DecidableEq, Repr

/-- `im == 0`. -/
def PyFloat.isZero : PyFloat → Bool
  | .fin _ n _ => n == 0
  | _ => false

/-- The conversion of a float (4789-4799): whether `FloatOperation` is signaled, and the operands. For equality the flag is set without
an exception. -/
def withFloat (self : Dec) (f : PyFloat) : Option (Bool × Dec × Dec) := (fromFloat f).map fun d => (true, self, d)

/-- `_convert_for_comparison` (4757-4800); `none` for `NotImplemented`. -/
def forComparison (self : Dec) (equality : Bool) : Other → Option (Bool × Dec × Dec)
  | .dec d => some (false, self, d)
  | .rational n d =>
    some (false, match self with
      | .fin s i e => .fin s (str (toInt i * d)) e
      | x => x, ofInt n)
  | .float f => withFloat self f
  | .complex re im => if equality && im.isZero then withFloat self re else none
  | .object => none

/-! ### Powers modulo an integer -/

/-- Signaling NaNs. -/
def isSignaling : Dec → Bool
  | .nan _ _ g => g
  | _ => false

/-- NaNs. -/
def isNan : Dec → Bool
  | .nan .. => true
  | _ => false

/-- The NaNs among three operands (1752-1767): the first signaling one wins, then the first quiet one. -/
def nansOfThree (c : Ctx) (a b m : Dec) : Option (Out Dec) :=
  match [a, b, m].find? isSignaling with
  | some x => some ([.invalidOperation], quiet c x)
  | none => match [a, b, m].find? isNan with
    | some (.nan s p g) => some ([], fixNan c s p g)
    | _ => none

/-- The computation with integers (1813-1826): `round` is the mode of the current context. -/
def powerInt (round : Mode) (a b m : Dec) : Dec :=
  match a, b, m with
  | .fin s1 i1 e1, .fin s2 i2 e2, .fin s3 i3 e3 =>
    let sign := if isEven (.fin s2 i2 e2) then false else s1
    let modulo := (toInteger s3 i3 e3).natAbs
    match toIntegral round s1 i1 e1, toIntegral round s2 i2 e2 with
    | .fin _ bi be, .fin _ xi xe =>
      let base := (toInt bi % modulo * (10 ^ be.toNat % modulo)) % modulo
      let base := Nat.repeat (fun x => x ^ 10 % modulo) xe.toNat base
      .fin sign (str (base ^ toInt xi % modulo)) 0
    | _, _ => .NaN
  | _, _, _ => .NaN

/-- `_power_modulo` (1738-1826), for decimals. -/
def powerModulo (c : Ctx) (round : Mode) (a b m : Dec) : Out Dec :=
  match nansOfThree c a b m with
  | some o => o
  | none =>
    if !(isInteger a && isInteger b && isInteger m) then ([.invalidOperation], .NaN)
    else if (lt b (ofInt 0)).2 then ([.invalidOperation], .NaN)
    else if isZero m then ([.invalidOperation], .NaN)
    else if adjusted m ≥ c.prec then ([.invalidOperation], .NaN)
    else if isZero b && isZero a then ([.invalidOperation], .NaN)
    else ([], powerInt round a b m)

/-! ### Texts in a context -/

/-- The text begins or ends with a space, or has an underscore (3969). -/
def badText (space : Char → Bool) (cs : List Char) : Bool :=
  cs.head?.any space || cs.getLast?.any space || cs.contains '_'

/-- `Context.create_decimal` (3962-3980) of a text; `space` are the characters that `strip` removes. -/
def createDecimal (space : Char → Bool) (c : Ctx) (cs : List Char) : Out Dec :=
  if badText space cs then ([.invalidOperation], .NaN)
  else match parse cs with
    | none => ([.invalidOperation], .NaN)
    | some (.nan s p g) =>
      if p.length > c.prec - (if c.clamp then 1 else 0) then ([.invalidOperation], .NaN) else fix c (.nan s p g)
    | some d => fix c d

end Verif.DecimalMake
