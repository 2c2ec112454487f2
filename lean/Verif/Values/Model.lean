import Verif.Values.Spec
import Verif.Floats.Model
/-
The values of the solver as Python values: `model_value_to_python` (crosshair/statespace.py 179-201) and `parse_smtlib_literal`
(crosshair/smtlib.py).
-/
namespace Verif.Values

open Verif.Numeric (Fl)

/-- What can go wrong. -/
inductive Err where
  /-- `int` does not read a text. -/
  | valueError
  /-- `struct.pack` is given a number of more than 64 bits. -/
  | structError
  /-- A fraction is too large for a float. -/
  | overflow
  /-- An argument of a term that has none. -/
  | indexError
  deriving DecidableEq

/-! ### Floats -/

/-- `LITERAL_CONSTS` (smtlib.py 6-12). -/
def literalConsts : List (List Char × Dbl) :=
  [("(_ -zero 11 53)".toList, .zero true),
   ("(_ +zero 11 53)".toList, .zero false),
   ("(_ -oo 11 53)".toList, .inf true),
   ("(_ +oo 11 53)".toList, .inf false),
   ("(_ NaN 11 53)".toList, .nan)]

def isDigit (c : Char) : Bool := '0' ≤ c ∧ c ≤ '9'

/-- A fixed text of a pattern: what follows it. -/
def strip : List Char → List Char → Option (List Char)
  | [], s => some s
  | _ :: _, [] => none
  | p :: ps, c :: s => if p = c then strip ps s else none

/-- `\d+` of a pattern (of ASCII digits), followed by another character. -/
def someDigits (s : List Char) : Option (List Char × List Char) :=
  if s.takeWhile isDigit = [] then none else some (s.takeWhile isDigit, s.dropWhile isDigit)

/-- `.+\)` at the end of a pattern. -/
def upToParen (s : List Char) : Option (List Char) :=
  if s.getLast? = some ')' ∧ s.dropLast ≠ [] ∧ '\n' ∉ s.dropLast then some s.dropLast else none

/-- `_SL2_PARSE_FLOAT_RE.fullmatch` (5, 19): the groups without their letters. -/
def fpMatch (s : List Char) : Option (List Char × List Char × List Char) := do
  let s ← strip "(fp #b".toList s
  let (sign, s) ← someDigits s
  let s ← strip " #b".toList s
  let (exp, s) ← someDigits s
  let s ← strip " #x".toList s
  let significand ← upToParen s
  return (sign, exp, significand)

/-- A digit for `int`. -/
def digitValue (c : Char) : Option Nat :=
  if '0' ≤ c ∧ c ≤ '9' then some (c.toNat - 48)
  else if 'a' ≤ c ∧ c ≤ 'f' then some (c.toNat - 87)
  else if 'A' ≤ c ∧ c ≤ 'F' then some (c.toNat - 55)
  else none

/-- Reads digits after others. -/
def readDigits (base : Nat) : Nat → List Char → Except Err Nat
  | n, [] => .ok n
  | n, c :: cs =>
    match digitValue c with
    | some d => if d < base then readDigits base (base * n + d) cs else .error .valueError
    | none => .error .valueError

/-- `int("0" + g, base=0)` (21), by the letter of the group. Underscores between digits are left out. -/
def readInt (base : Nat) (cs : List Char) : Except Err Nat := if cs = [] then .error .valueError else readDigits base 0 cs

/-- `struct.unpack("d", struct.pack("Q", word))` (22-24). -/
def unpack (word : Nat) : Except Err Dbl :=
  if word ≥ 2 ^ 64 then .error .structError
  else
    let neg := decide (word / 2 ^ 63 = 1)
    let e : Nat := word / 2 ^ 52 % 2 ^ 11
    let f : Nat := word % 2 ^ 52
    if e = 2047 then .ok (if f = 0 then .inf neg else .nan)
    else if e = 0 then .ok (if f = 0 then .zero neg else .fin neg (f * 2 ^ (-1074 : Int)))
    else .ok (.fin neg ((2 ^ 52 + f) * 2 ^ ((e : Int) - 1075)))

/-- `parse_smtlib_literal` (15-24); the result `none` is Python's `None`. -/
def parseLiteral (s : List Char) : Except Err (Option Dbl) :=
  match literalConsts.lookup s with
  | some d => .ok (some d)
  | none =>
    match fpMatch s with
    | some (a, b, c) => do
      let sign ← readInt 2 a
      let exp ← readInt 2 b
      let significand ← readInt 16 c
      let d ← unpack (sign <<< 63 ||| exp <<< 52 ||| significand)
      return some d
    | none => .ok none

/-! ### Reals -/

/-- `float(value.as_fraction())` (statespace.py 184): the quotient of two integers, rounded correctly. -/
def fractionFloat (q : ℚ) : Except Err ℚ :=
  match Floats.toDouble q with
  | .fin d => .ok d
  | _ => .error .overflow

/-- The real numbers of models: rational ones, and irrational ones with what `approx(precision=20)` gives for them. -/
inductive RealValue where
  | rational (q : ℚ)
  | algebraic (approx : Nat → ℚ)

/-- `model_value_to_python` for reals (180-184). -/
def realToPython : RealValue → Except Err ℚ
  | .rational q => fractionFloat q
  | .algebraic approx => fractionFloat (approx 20)

/-! ### Sequences -/

/-- A Python value in a list: one for a value of the solver, or a list. -/
inductive Item (β : Type) where
  | elem (b : β)
  | list (items : List (Item β))

mutual
/-- `model_value_to_python` for sequences (185-192), with the conversion of items. `arg(0)` of a `concat` of one part is a sequence. -/
def seqToPython {α β : Type} (f : α → Except Err β) : Term α → Except Err (List (Item β))
  | .empty => .ok []
  | .unit a => do return [.elem (← f a)]
  | .concat [p] => do return [.list (← seqToPython f p)]
  | .concat [p, q] => do
    let first ← firstToPython f p
    let rest ← seqToPython f q
    return first :: rest
  | .concat _ => .ok []
/-- `model_value_to_python(value.arg(0).arg(0))` (188). -/
def firstToPython {α β : Type} (f : α → Except Err β) : Term α → Except Err (Item β)
  | .empty => .error .indexError
  | .unit a => do return .elem (← f a)
  | .concat [] => .error .indexError
  | .concat (p :: _) => do return .list (← seqToPython f p)
end

end Verif.Values
