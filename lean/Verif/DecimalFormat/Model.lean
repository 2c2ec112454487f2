/-
Model of the formatting of decimals in /repo/crosshair/libimpl/decimallib.py: reading format specifiers (4850-4967), thousands separators,
padding and alignment (4970-5110), and `Decimal.__format__` (3584-3668). Text is a list of characters.
-/
import Verif.DecimalMore.Model

namespace Verif.DecimalFormat
open Verif.Decimal Verif.DecimalMore

/-- The exceptions that can come out. -/
inductive Err where
  | valueError | keyError
  deriving DecidableEq, Repr

/-- `[<>=^]` (4857). -/
inductive Align where
  | left | right | inner | center
  deriving DecidableEq, Repr

/-- `[-+ ]` (4859). -/
inductive SignOpt where
  | minus | plus | space
  deriving DecidableEq, Repr

/-- `[eEfFgGn%]` (4866). -/
inductive Kind where
  | e | E | f | F | g | G | n | percent
  deriving DecidableEq, Repr

/-- What `locale.localeconv()` tells (4952, 4958-4960). -/
structure Locale where
  thousandsSep : List Char
  grouping : List Nat
  decimalPoint : List Char
  deriving Repr

/-- The dictionary of a format specifier (4887-4900). -/
structure FSpec where
  fill : Char
  align : Align
  sign : SignOpt
  noNegZero : Bool
  alt : Bool
  zeropad : Bool
  width : Nat
  sep : List Char
  grouping : List Nat
  point : List Char
  precision : Option Nat
  kind : Option Kind
  deriving DecidableEq, Repr

/-! ### Reading specifiers -/

/-- `[<>=^]` (4857). -/
def alignOf : Char → Option Align
  | '<' => some .left
  | '>' => some .right
  | '=' => some .inner
  | '^' => some .center
  | _ => none

/-- `(?:(?P<fill>.)?(?P<align>[<>=^]))?` (4855-4858).  The text after it never matches with an alignment in front, so the first way that
works is the only one. -/
def takeAlign : List Char → (Option Char × Option Align) × List Char
  | c :: d :: rest =>
    match alignOf d with
    | some a => ((some c, some a), rest)
    | none =>
      match alignOf c with
      | some a => ((none, some a), d :: rest)
      | none => ((none, none), c :: d :: rest)
  | [c] =>
    match alignOf c with
    | some a => ((none, some a), [])
    | none => ((none, none), [c])
  | [] => ((none, none), [])

/-- `(?P<sign>[-+ ])?` (4859). -/
def takeSign : List Char → Option SignOpt × List Char
  | '-' :: rest => (some .minus, rest)
  | '+' :: rest => (some .plus, rest)
  | ' ' :: rest => (some .space, rest)
  | cs => (none, cs)

/-- `(c)?` for one character (4860-4862, 4864). -/
def takeChar (c : Char) : List Char → Bool × List Char
  | d :: rest => if d = c then (true, rest) else (false, d :: rest)
  | [] => (false, [])

/-- `(?P<minimumwidth>(?!0)\d+)?` (4863), and `int(... or "0")` (4936).  `\d` is simplified to ASCII digits. -/
def takeWidth (cs : List Char) : Nat × List Char :=
  match digitRun cs with
  | (0 :: _, _) => (0, cs)
  | (ds, rest) => (toInt ds, rest)

/-- `(?:\.(?P<precision>0|(?!0)\d+))?` (4865); what is left if a point is not followed by a number cannot be matched. -/
def takePrecision : List Char → Option Nat × List Char
  | '.' :: rest =>
    match digitRun rest with
    | ([], _) => (none, '.' :: rest)
    | (0 :: _, _) => (some 0, rest.tail)
    | (ds, rest') => (some (toInt ds), rest')
  | cs => (none, cs)

/-- `[eEfFgGn%]` (4866). -/
def kindOf : Char → Option Kind
  | 'e' => some .e
  | 'E' => some .E
  | 'f' => some .f
  | 'F' => some .F
  | 'g' => some .g
  | 'G' => some .G
  | 'n' => some .n
  | '%' => some .percent
  | _ => none

/-- `(?P<type>[eEfFgGn%])?\Z` (4866-4867). -/
def takeKind : List Char → Option (Option Kind)
  | [] => some none
  | [c] => (kindOf c).map some
  | _ => none

/-- The default for the precision 0 (4940-4944). -/
def fixPrecision (p : Option Nat) (k : Option Kind) : Option Nat :=
  if p = some 0 then
    match k with
    | none | some .g | some .G | some .n => some 1
    | _ => p
  else p

/-- The separators (4946-4965). -/
def addSeparators (loc : Locale) (comma : Bool) (f : FSpec) : Except Err FSpec :=
  if f.kind = some .n then
    if comma then .error .valueError
    else .ok { f with kind := some .g, sep := loc.thousandsSep, grouping := loc.grouping, point := loc.decimalPoint }
  else .ok { f with sep := if comma then [','] else [], grouping := [3, 0], point := ['.'] }

/-- `_parse_format_specifier` (4883-4967). -/
def parseSpec (loc : Locale) (cs : List Char) : Except Err FSpec :=
  let ((fill, align), r1) := takeAlign cs
  let (sign, r2) := takeSign r1
  let (noNegZero, r3) := takeChar 'z' r2
  let (alt, r4) := takeChar '#' r3
  let (zeropad, r5) := takeChar '0' r4
  let (width, r6) := takeWidth r5
  let (comma, r7) := takeChar ',' r6
  let (precision, r8) := takePrecision r7
  match takeKind r8 with
  | none => .error .valueError
  | some kind =>
    if zeropad && fill.isSome then .error .valueError
    else if zeropad && align.isSome then .error .valueError
    else addSeparators loc comma
      { fill := fill.getD ' ', align := align.getD .right, sign := sign.getD .minus, noNegZero, alt, zeropad, width, sep := [],
        grouping := [], point := [], precision := fixPrecision precision kind, kind }

/-! ### Laying out -/

/-- `_format_align` (4970-4997). -/
def formatAlign (sign body : List Char) (f : FSpec) : List Char :=
  let padding := List.replicate (f.width - sign.length - body.length) f.fill
  match f.align with
  | .left => sign ++ body ++ padding
  | .right => padding ++ sign ++ body
  | .inner => sign ++ padding ++ body
  | .center =>
    let half := padding.length / 2
    padding.take half ++ sign ++ body ++ padding.drop half

/-- `_group_lengths` (5000-5024): a sequence of lengths that may end.  `locale.CHAR_MAX` is 127. -/
def groupLengths (grouping : List Nat) : Except Err (Nat → Option Nat) :=
  if grouping = [] then .ok fun _ => none
  else if grouping.getLast? = some 0 ∧ grouping.length ≥ 2 then
    .ok fun i => if i < grouping.length - 1 then grouping[i]? else grouping[grouping.length - 2]?
  else if grouping.getLast? = some 127 then .ok fun i => grouping.dropLast[i]?
  else .error .valueError

/-- `digits[-n:]` for `n > 0`. -/
def lastN (n : Nat) (cs : List Char) : List Char := cs.drop (cs.length - n)

/-- `digits[:-n]` for `n > 0`. -/
def butLastN (n : Nat) (cs : List Char) : List Char := cs.take (cs.length - n)

/-- `"0" * (n - len(digits)) + digits[-n:]` (5053, 5061). -/
def padGroup (n : Nat) (cs : List Char) : List Char := List.replicate (n - cs.length) '0' ++ lastN n cs

/-- The loop of `_insert_thousands_sep` (5047-5061), from the group at a position on; the first argument limits the number of groups. -/
def groupsFrom (sizes : Nat → Option Nat) (sepLen : Nat) : Nat → Nat → List Char → Int → Except Err (List (List Char))
  | 0, _, _, _ => .ok []
  | fuel + 1, i, digits, minWidth =>
    match sizes i with
    | none => .ok [padGroup (max (max (digits.length : Int) minWidth) 1).toNat digits]
    | some g =>
      if g = 0 then .error .valueError
      else
        let gl := min (max (max (digits.length : Int) minWidth) 1) g
        let group := padGroup gl.toNat digits
        let digits' := butLastN gl.toNat digits
        let minWidth' := minWidth - gl
        if digits' = [] ∧ minWidth' ≤ 0 then .ok [group]
        else do
          let more ← groupsFrom sizes sepLen fuel (i + 1) digits' (minWidth' - sepLen)
          .ok (group :: more)

/-- `sep.join(reversed(groups))` (5062). -/
def joinReversed (sep : List Char) (groups : List (List Char)) : List Char := (groups.reverse.intersperse sep).flatten

/-- `_insert_thousands_sep` (5027-5062). -/
def insertSep (digits : List Char) (f : FSpec) (minWidth : Int) : Except Err (List Char) := do
  let sizes ← groupLengths f.grouping
  let groups ← groupsFrom sizes f.sep.length (digits.length + minWidth.toNat + 1) 0 digits minWidth
  .ok (joinReversed f.sep groups)

/-- `_format_sign` (5065-5072). -/
def formatSign (negative : Bool) (f : FSpec) : List Char :=
  if negative then ['-']
  else match f.sign with
    | .space => [' ']
    | .plus => ['+']
    | .minus => []

/-- The letter before the exponent (5099). -/
def expChar : Kind → Except Err Char
  | .E | .G => .ok 'E'
  | .e | .g => .ok 'e'
  | _ => .error .keyError

/-- The exponent (5098-5100). -/
def exponentPart (exp : Int) (k : Kind) : Except Err (List Char) :=
  if exp ≠ 0 ∨ k = .e ∨ k = .E then do
    let c ← expChar k
    .ok (c :: signedText exp)
  else .ok []

/-- `_format_number` (5075-5110). -/
def formatNumber (negative : Bool) (intpart fracpart : Digits) (exp : Int) (k : Kind) (f : FSpec) : Except Err (List Char) := do
  let sign := formatSign negative f
  let frac := if fracpart ≠ [] ∨ f.alt then f.point ++ digitText fracpart else []
  let expo ← exponentPart exp k
  let percent := if k = .percent then ['%'] else []
  let frac := frac ++ expo ++ percent
  let minWidth : Int := if f.zeropad then (f.width : Int) - frac.length - sign.length else 0
  let int ← insertSep (digitText intpart) f minWidth
  .ok (formatAlign sign (int ++ frac) f)

/-! ### Numbers -/

/-- `_round` (2459-2481) for finite numbers. -/
def round (m : Mode) (places : Nat) (s : Bool) (i : Digits) (e : Int) : Except Err Dec :=
  if places = 0 then .error .valueError
  else if i = [0] then .ok (.fin s i e)
  else
    let adj := adjusted (.fin s i e)
    match rescale m s i e (adj + 1 - places) with
    | .fin s' i' e' =>
      let adj' := adjusted (.fin s' i' e')
      .ok (if adj' ≠ adj then rescale m s' i' e' (adj' + 1 - places) else .fin s' i' e')
    | d => .ok d

/-- Fixed point (3625, 3631, 3643). -/
def Kind.fixed : Kind → Bool
  | .f | .F | .percent => true
  | _ => false

/-- With an exponent (3623, 3638). -/
def Kind.scientific : Kind → Bool
  | .e | .E => true
  | _ => false

/-- Rounding to the precision (3618-3628). -/
def roundFor (m : Mode) (k : Kind) (precision : Option Nat) (s : Bool) (i : Digits) (e : Int) : Except Err Dec :=
  match precision with
  | none => .ok (.fin s i e)
  | some p =>
    if k.scientific then round m (p + 1) s i e
    else if k.fixed then .ok (rescale m s i e (-p))
    else if i.length > p then round m p s i e
    else .ok (.fin s i e)

/-- Zeros with a positive exponent (3631-3632). -/
def zeroFor (m : Mode) (k : Kind) (s : Bool) (i : Digits) (e : Int) : Dec :=
  if i = [0] ∧ e > 0 ∧ k.fixed then rescale m s i e 0 else .fin s i e

/-- Where the point goes (3638-3651). -/
def pointPlace (k : Kind) (precision : Option Nat) (i : Digits) (e : Int) : Int :=
  let leftdigits := e + i.length
  if k.scientific then
    match precision with
    | some p => if i = [0] then 1 - p else 1
    | none => 1
  else if k.fixed then leftdigits
  else if e ≤ 0 ∧ leftdigits > -6 then leftdigits
  else 1

/-- The digits before and after the point (3654-3662). -/
def splitAt (i : Digits) (dotplace : Int) : Digits × Digits :=
  if dotplace < 0 then ([0], List.replicate (-dotplace).toNat 0 ++ i)
  else if dotplace > i.length then (pad i (dotplace - i.length), [])
  else (if i.take dotplace.toNat = [] then [0] else i.take dotplace.toNat, i.drop dotplace.toNat)

/-- `__format__` for finite numbers (3611-3668). -/
def formatFin (m : Mode) (capitals : Bool) (f : FSpec) (s : Bool) (i : Digits) (e : Int) : Except Err (List Char) := do
  let k := f.kind.getD (if capitals then .G else .g)
  let e := if k = .percent then e + 2 else e
  match ← roundFor m k f.precision s i e with
  | .fin s1 i1 e1 =>
    match zeroFor m k s1 i1 e1 with
    | .fin s2 i2 e2 =>
      let negative := if i2 = [0] ∧ f.noNegZero ∧ s2 then false else s2
      let leftdigits := e2 + i2.length
      let dotplace := pointPlace k f.precision i2 e2
      let (intpart, fracpart) := splitAt i2 dotplace
      formatNumber negative intpart fracpart (leftdigits - dotplace) k f
    | _ => .error .valueError
  | _ => .error .valueError

/-- `__format__` (3584-3668) with the specifier read. -/
def formatWith (m : Mode) (capitals : Bool) (f : FSpec) (d : Dec) : Except Err (List Char) :=
  match d with
  | .fin s i e => formatFin m capitals f s i e
  | d =>
    let body := text capitals false (copyAbs d) ++ (if f.kind = some .percent then ['%'] else [])
    .ok (formatAlign (formatSign (signOf d) f) body f)

/-- `__format__` (3584-3668). -/
def format (loc : Locale) (m : Mode) (capitals : Bool) (spec : List Char) (d : Dec) : Except Err (List Char) := do
  let f ← parseSpec loc spec
  formatWith m capitals f d

end Verif.DecimalFormat
