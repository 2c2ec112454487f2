/-
More operations of `crosshair/libimpl/decimallib.py`: square roots, hashes, integer ratios, normalizing, the total order, neighbours and text.
Simplified: as in `Verif.Decimal.Model`.
-/
import Verif.Decimal.Model

namespace Verif.DecimalMore
open Verif.Decimal

/-! ### Square root -/

/-- Newton's method (2594-2601); the guesses decrease, so the first one is enough fuel. -/
def newton (c : Nat) : Nat → Nat → Nat
  | 0, n => n
  | fuel + 1, n =>
    let q := c / n
    if n ≤ q then n else newton c fuel ((n + q) / 2)

/-- The argument as `c * 100 ** e`, and the number of digits of `c` in base 100 (2571-2578). -/
def sqrtArgument (i : Digits) (e : Int) : Nat × Int × Int :=
  if e % 2 = 1 then (toInt i * 10, e / 2, i.length / 2 + 1) else (toInt i, e / 2, (i.length + 1) / 2)

/-- `sqrt` (2532-2629) for positive numbers. -/
def sqrtFin (ctx : Ctx) (i : Digits) (exp : Int) : Out Dec :=
  let prec := ctx.prec + 1
  let (c, e, d) := sqrtArgument i exp
  let shift : Int := prec - d
  let c' := if shift ≥ 0 then c * 100 ^ shift.toNat else c / 100 ^ (-shift).toNat
  let exact := if shift ≥ 0 then true else c % 100 ^ (-shift).toNat == 0
  let n := newton c' (10 ^ prec) (10 ^ prec)
  if exact && n * n == c' then
    fixFin { ctx with rounding := .halfEven } false (str (if shift ≥ 0 then n / 10 ^ shift.toNat else n * 10 ^ (-shift).toNat)) e
  else fixFin { ctx with rounding := .halfEven } false (str (if n % 5 = 0 then n + 1 else n)) (e - shift)

/-- `sqrt` (2532-2629). -/
def sqrt (c : Ctx) (a : Dec) : Out Dec :=
  match checkNan c a with
  | some o => o
  | none => match a with
    | .inf false => ([], .inf false)
    | .fin s i e =>
      if i == [0] then fixFin c s [0] (e / 2)
      else if s then ([.invalidOperation], .NaN)
      else sqrtFin c i e
    | _ => ([.invalidOperation], .NaN)

/-! ### Hash -/

/-- `_PyHASH_MODULUS` (5128), on 64-bit machines. -/
def modulus : Nat := 2305843009213693951
/-- `_PyHASH_10INV` (5133-5134), the value of `pow(10, modulus - 2, modulus)`. -/
def inverse10 : Nat := 2075258708292324556
/-- `_PyHASH_INF` (5130). -/
def hashInf : Int := 314159

/-- `exp_hash` (704-707). -/
def expHash (e : Int) : Nat := if e ≥ 0 then 10 ^ e.toNat % modulus else inverse10 ^ (-e).toNat % modulus

/-- `__hash__` (687-711) of numbers and infinities; `none` for NaNs. -/
def hash : Dec → Option Int
  | .inf s => some (if s then -hashInf else hashInf)
  | .nan .. => none
  | .fin s i e =>
    let h : Int := (toInt i * expHash e % modulus : Nat)
    let ans := if (ge (.fin s i e) (.fin false [0] 0)).2 then h else -h
    some (if ans = -1 then -2 else ans)

/-! ### Integer ratio -/

/-- Taking out factors of five (749-752). -/
def takeFives : Nat → Nat → Nat × Nat
  | 0, n => (n, 0)
  | d5 + 1, n => if n % 5 = 0 then takeFives d5 (n / 5) else (n, d5 + 1)

/-- Taking out factors of two (754-760): `(n & -n).bit_length() - 1` is how often two divides `n`, and `shift2` the smaller of it and `d2`.
Simplified: one factor at a time. -/
def takeTwos : Nat → Nat → Nat × Nat
  | 0, n => (n, 0)
  | d2 + 1, n => if n % 2 = 0 then takeTwos d2 (n / 2) else (n, d2 + 1)

/-- `as_integer_ratio` (720-769) for numbers. -/
def integerRatio (s : Bool) (i : Digits) (e : Int) : Int × Int :=
  if i == [0] then (0, 1)
  else
    let (n, d) :=
      if e ≥ 0 then (toInt i * 10 ^ e.toNat, 1)
      else
        let (n, d5) := takeFives (-e).toNat (toInt i)
        let (n, d2) := takeTwos (-e).toNat n
        (n, 5 ^ d5 * 2 ^ d2)
    (if s then -(n : Int) else n, d)

/-! ### Normalizing -/

/-- The loop that takes off zeros (2321-2325): digits in reverse, and exponent. -/
def dropZeros (expMax : Int) : Digits → Int → Digits × Int
  | 0 :: rest, exp => if exp < expMax then dropZeros expMax rest (exp + 1) else (0 :: rest, exp)
  | ds, exp => (ds, exp)

/-- `normalize` (2304-2326). -/
def normalizeDec (c : Ctx) (a : Dec) : Out Dec :=
  match checkNan c a with
  | some o => o
  | none => match fix c a with
    | (sigs, .fin s i e) =>
      if i == [0] then (sigs, .fin s [0] 0)
      else
        let (ds, e') := dropZeros (if c.clamp then c.etop else c.emax) i.reverse e
        (sigs, .fin s ds.reverse e')
    | o => o

/-! ### The total order -/

/-- `_isnan` (463-472). -/
def nanKind : Dec → Nat
  | .nan _ _ true => 2
  | .nan _ _ false => 1
  | _ => 0

/-- `<` on pairs of length and digits. -/
def keyLt (p q : Digits) : Bool := p.length < q.length || (p.length == q.length && strLt p q)

/-- `_int` of NaNs. -/
def payloadOf : Dec → Digits
  | .nan _ p _ => p
  | _ => []

/-- `_exp` of two numbers compared; for infinities it is the same. -/
def expLt : Dec → Dec → Bool
  | .fin _ _ e1, .fin _ _ e2 => e1 < e2
  | _, _ => false

/-- `compare_total` (2754-2825); -1, 0 or 1 for `_NegativeOne`, `_Zero` and `_One`. -/
def compareTotal (a b : Dec) : Int :=
  if signOf a && !signOf b then -1
  else if !signOf a && signOf b then 1
  else
    let sign := signOf a
    let n1 := nanKind a
    let n2 := nanKind b
    if n1 ≠ 0 || n2 ≠ 0 then
      if n1 = n2 then
        if keyLt (payloadOf a) (payloadOf b) then (if sign then 1 else -1)
        else if keyLt (payloadOf b) (payloadOf a) then (if sign then -1 else 1)
        else 0
      else if sign then
        if n1 = 1 then -1 else if n2 = 1 then 1 else if n1 = 2 then -1 else 1
      else
        if n1 = 1 then 1 else if n2 = 1 then -1 else if n1 = 2 then 1 else -1
    else if (lt a b).2 then -1
    else if (gt a b).2 then 1
    else if expLt a b then (if sign then 1 else -1)
    else if expLt b a then (if sign then -1 else 1)
    else 0

/-! ### Neighbours -/

/-- `next_plus` (3342-3362). The context's flags are not ignored: what `_fix` and `__add__` signal is raised if it is trapped (199-219). -/
def nextPlus (c : Ctx) (a : Dec) : Out Dec :=
  match checkNan c a with
  | some o => o
  | none => match a with
    | .inf false => ([], .inf false)
    | .inf true => ([], .fin true (List.replicate c.prec 9) c.etop)
    | a =>
      let c' := { c with rounding := .ceiling }
      let new := fix c' a
      if !(eq c' new.2 a).2 then new
      else
        let r := add c' a (.fin false [1] (c.etiny - 1))
        (new.1 ++ r.1, r.2)

/-- `next_minus` (3320-3340). -/
def nextMinus (c : Ctx) (a : Dec) : Out Dec :=
  match checkNan c a with
  | some o => o
  | none => match a with
    | .inf true => ([], .inf true)
    | .inf false => ([], .fin false (List.replicate c.prec 9) c.etop)
    | a =>
      let c' := { c with rounding := .floor }
      let new := fix c' a
      if !(eq c' new.2 a).2 then new
      else
        let r := sub c' a (.fin false [1] (c.etiny - 1))
        (new.1 ++ r.1, r.2)

/-! ### Text -/

/-- The character of a digit. -/
def digitChar (d : Nat) : Char := Char.ofNat (48 + d)

/-- Digits as text. -/
def digitText (ds : Digits) : List Char := ds.map digitChar

/-- `"%+d" % n`. -/
def signedText (n : Int) : List Char := (if n < 0 then '-' else '+') :: digitText (str n.natAbs)

/-- Where the point goes (796-810). -/
def dotPlace (eng : Bool) (i : Digits) (e : Int) : Int :=
  let leftdigits := e + i.length
  if e ≤ 0 && leftdigits > -6 then leftdigits
  else if !eng then 1
  else if i == [0] then (leftdigits + 1) % 3 - 1
  else (leftdigits - 1) % 3 + 1

/-- The text of a number for a place of the point (812-827). -/
def finText (capitals : Bool) (i : Digits) (leftdigits dotplace : Int) : List Char :=
  let intpart :=
    if dotplace ≤ 0 then ['0']
    else if dotplace ≥ i.length then digitText (pad i (dotplace - i.length))
    else digitText (i.take dotplace.toNat)
  let fracpart :=
    if dotplace ≤ 0 then '.' :: digitText (List.replicate (-dotplace).toNat 0 ++ i)
    else if dotplace ≥ i.length then []
    else '.' :: digitText (i.drop dotplace.toNat)
  let exp := if leftdigits = dotplace then [] else (if capitals then 'E' else 'e') :: signedText (leftdigits - dotplace)
  intpart ++ fracpart ++ exp

/-- `__str__` (776-827) and `to_eng_string` (829-837). -/
def text (capitals eng : Bool) : Dec → List Char
  | .inf s => (if s then ['-'] else []) ++ ['I', 'n', 'f', 'i', 'n', 'i', 't', 'y']
  | .nan s p false => (if s then ['-'] else []) ++ ['N', 'a', 'N'] ++ digitText p
  | .nan s p true => (if s then ['-'] else []) ++ ['s', 'N', 'a', 'N'] ++ digitText p
  | .fin s i e => (if s then ['-'] else []) ++ finText capitals i (e + i.length) (dotPlace eng i e)

/-- `\d`. Simplified: only ASCII digits. -/
def isDigit (ch : Char) : Bool := 48 ≤ ch.toNat && ch.toNat ≤ 57

/-- The value of a digit. -/
def digitValue (ch : Char) : Nat := ch.toNat - 48

/-- A leading run of digits, and the rest. -/
def digitRun : List Char → Digits × List Char
  | [] => ([], [])
  | ch :: rest => if isDigit ch then (digitValue ch :: (digitRun rest).1, (digitRun rest).2) else ([], ch :: rest)

/-- Letters match whatever their case (4838). Simplified: only ASCII. -/
def lower (ch : Char) : Char := if 65 ≤ ch.toNat && ch.toNat ≤ 90 then Char.ofNat (ch.toNat + 32) else ch

/-- `(?P<sign>[-+])?` (4822). -/
def parseSign : List Char → Bool × List Char
  | '-' :: rest => (true, rest)
  | '+' :: rest => (false, rest)
  | cs => (false, cs)

/-- `(E(?P<exp>[-+]?\d+))?` and the end (4827, 4836). -/
def parseExp (cs : List Char) : Option Int :=
  match cs with
  | [] => some 0
  | ch :: rest =>
    if lower ch = 'e' then
      let (neg, rest) := parseSign rest
      match digitRun rest with
      | (d :: ds, []) => some (if neg then -(toInt (d :: ds) : Int) else toInt (d :: ds))
      | _ => none
    else none

/-- The digits after a point (4826). -/
def parseFrac : List Char → Digits × List Char
  | '.' :: rest => digitRun rest
  | rest => ([], rest)

/-- A number (4824-4827) and its conversion (276-282). -/
def parseNumber (s : Bool) (cs : List Char) : Option Dec :=
  let (int, rest) := digitRun cs
  let (frac, rest) := parseFrac rest
  if int.isEmpty && frac.isEmpty then none
  else (parseExp rest).map fun exp => .fin s (str (toInt (int ++ frac))) (exp - frac.length)

/-- A NaN's payload (4833) and its conversion (287-291). -/
def parsePayload (s signaling : Bool) (cs : List Char) : Option Dec :=
  match digitRun cs with
  | (ds, []) => some (.nan s (lstrip (str (toInt ds))) signaling)
  | _ => none

/-- `Decimal(text)` (261-298), for text without spaces around it and without underscores; `none` for invalid text. -/
def parse (cs : List Char) : Option Dec :=
  let (s, cs) := parseSign cs
  match parseNumber s cs with
  | some d => some d
  | none =>
    if cs.map lower = ['i', 'n', 'f'] || cs.map lower = ['i', 'n', 'f', 'i', 'n', 'i', 't', 'y'] then some (.inf s)
    else if (cs.take 3).map lower = ['n', 'a', 'n'] then parsePayload s false (cs.drop 3)
    else if (cs.take 4).map lower = ['s', 'n', 'a', 'n'] then parsePayload s true (cs.drop 4)
    else none

end Verif.DecimalMore
