/-
Specification of the formatting of decimals: how a format specifier is written, how digits are separated into groups, how a text is padded to
a width, and which number is to be shown.
-/
import Verif.DecimalFormat.Model
import Verif.Decimal.Spec

namespace Verif.DecimalFormat
open Verif.Decimal

/-! ### Specifiers -/

/-- How an alignment is written. -/
def Align.char : Align → Char
  | .left => '<' | .right => '>' | .inner => '=' | .center => '^'

/-- How an option for signs is written. -/
def SignOpt.char : SignOpt → Char
  | .minus => '-' | .plus => '+' | .space => ' '

/-- How a type is written. -/
def Kind.char : Kind → Char
  | .e => 'e' | .E => 'E' | .f => 'f' | .F => 'F' | .g => 'g' | .G => 'G' | .n => 'n' | .percent => '%'

/-- The digits of a number in a specifier. -/
def numeral (n : Nat) : List Char := (Nat.toDigits 10 n)

/-- `[[fill]align][sign][z][#][0][minimumwidth][,][.precision][type]`: a fill character only with an alignment, and no width or a positive
one. -/
structure Written where
  align : Option (Option Char × Align)
  sign : Option SignOpt
  noNegZero : Bool
  alt : Bool
  zeropad : Bool
  width : Nat
  comma : Bool
  precision : Option Nat
  kind : Option Kind

/-- The text of a specifier. -/
def Written.text (w : Written) : List Char :=
  (match w.align with | none => [] | some (c, a) => c.toList ++ [a.char]) ++
  (w.sign.map SignOpt.char).toList ++
  (if w.noNegZero then ['z'] else []) ++
  (if w.alt then ['#'] else []) ++
  (if w.zeropad then ['0'] else []) ++
  (if w.width = 0 then [] else numeral w.width) ++
  (if w.comma then [','] else []) ++
  (match w.precision with | none => [] | some p => '.' :: numeral p) ++
  (w.kind.map Kind.char).toList

/-- The parts of a specifier that exclude each other: padding with zeros and an alignment; separators and the type of the locale. -/
def Written.Consistent (w : Written) : Prop :=
  (w.zeropad = true → w.align = none) ∧ (w.comma = true → w.kind ≠ some .n)

/-- What a specifier says. -/
def Written.meaning (loc : Locale) (w : Written) : FSpec where
  fill := match w.align with | some (some c, _) => c | _ => ' '
  align := match w.align with | some (_, a) => a | none => .right
  sign := w.sign.getD .minus
  noNegZero := w.noNegZero
  alt := w.alt
  zeropad := w.zeropad
  width := w.width
  sep := if w.kind = some .n then loc.thousandsSep else if w.comma then [','] else []
  grouping := if w.kind = some .n then loc.grouping else [3, 0]
  point := if w.kind = some .n then loc.decimalPoint else ['.']
  precision :=
    if w.precision = some 0 ∧ (w.kind = none ∨ w.kind = some .g ∨ w.kind = some .G ∨ w.kind = some .n) then some 1 else w.precision
  kind := if w.kind = some .n then some .g else w.kind

/-! ### Groups -/

/-- The lengths of the groups that a grouping says, from the right; without a length, a group goes on to the left end. The grouping ends
with 0 (the last length again and again), or with 127 (no more groups), or is empty. -/
inductive Sizes : List Nat → (Nat → Option Nat) → Prop
  | none : Sizes [] fun _ => Option.none
  | again (gs : List Nat) (g : Nat) : (∀ x ∈ gs ++ [g], 0 < x) → Sizes (gs ++ [g, 0]) fun i => some ((gs ++ [g]).getD i g)
  | noMore (gs : List Nat) : (∀ x ∈ gs, 0 < x) → Sizes (gs ++ [127]) fun i => gs[i]?

/-- `text` is `full`, which is not empty, with separators: counting from the right, the groups have the given lengths, only the leftmost one
may be shorter, and each group has a character. -/
inductive Grouped (sizes : Nat → Option Nat) (sep : List Char) : Nat → List Char → List Char → Prop
  | one {i : Nat} {full : List Char} : full ≠ [] → (∀ g, sizes i = some g → full.length ≤ g) → Grouped sizes sep i full full
  | more {i g : Nat} {full text tail : List Char} : sizes i = some g → tail.length = g → Grouped sizes sep (i + 1) full text →
      Grouped sizes sep i (full ++ tail) (text ++ sep ++ tail)

/-- `text` is `digits` with separators, after as few zeros as make it (at least) so wide. -/
def Separated (sizes : Nat → Option Nat) (sep : List Char) (digits : List Char) (width : Int) (text : List Char) : Prop :=
  ∃ zeros, Grouped sizes sep 0 (List.replicate zeros '0' ++ digits) text ∧ width ≤ text.length ∧
    ∀ fewer < zeros, ∀ other, Grouped sizes sep 0 (List.replicate fewer '0' ++ digits) other → (other.length : Int) < width

/-! ### Padding -/

/-- `text` is a sign and a body with padding, exactly as much as is needed for the width. -/
def Padded (fill : Char) (align : Align) (width : Nat) (sign body text : List Char) : Prop :=
  ∃ l m r : Nat, text = List.replicate l fill ++ sign ++ List.replicate m fill ++ body ++ List.replicate r fill ∧
    text.length = max width (sign.length + body.length) ∧
    match align with
    | .left => l = 0 ∧ m = 0
    | .right => m = 0 ∧ r = 0
    | .inner => l = 0 ∧ r = 0
    | .center => m = 0 ∧ l ≤ r ∧ r ≤ l + 1

/-! ### Numbers -/

section
variable {K : Type} [Field K] [LinearOrder K] [FloorRing K]

/-- `shown` is the magnitude `M` rounded to so many significant digits. -/
def Significant (m : Mode) (negative : Bool) (places : Nat) (M shown : K) : Prop :=
  (M = 0 → shown = 0) ∧
  ∀ adj : ℤ, (10 : K) ^ adj ≤ M → M < 10 ^ (adj + 1) →
    shown = roundAbs m negative (M / 10 ^ (adj + 1 - places)) * 10 ^ (adj + 1 - places)

/-- `shown` is the magnitude to be shown for a number of magnitude `M` whose coefficient has so many digits. -/
def Shown (m : Mode) (negative : Bool) (k : Kind) (precision : Option Nat) (M : K) (digits : Nat) (shown : K) : Prop :=
  match precision, k with
  | none, _ => shown = M
  | some p, .e | some p, .E => Significant m negative (p + 1) M shown
  | some p, .f | some p, .F | some p, .percent => shown = roundAbs m negative (M * 10 ^ p) / 10 ^ p
  | some p, .g | some p, .G | some p, .n => (digits ≤ p → shown = M) ∧ (p < digits → Significant m negative p M shown)

end

/-- The sign to be written. -/
def signFor (o : SignOpt) (negative : Bool) : List Char :=
  match negative, o with
  | true, _ => ['-']
  | false, .plus => ['+']
  | false, .space => [' ']
  | false, .minus => []

/-- Letter and exponent. -/
def exponentText (k : Kind) (x : Int) : List Char :=
  (if k = .E ∨ k = .G then 'E' else 'e') :: (if x < 0 then '-' else '+') :: numeral x.natAbs

/-- Digits as text. -/
def digitsText (ds : Digits) : List Char := ds.map Nat.digitChar

/-- What follows the whole part: the point and the digits after it, the exponent, and a percent sign. -/
def tailText (f : FSpec) (k : Kind) (frac : Digits) (x : Int) : List Char :=
  (if frac ≠ [] ∨ f.alt = true then f.point ++ digitsText frac else []) ++
  (if x ≠ 0 ∨ k = .e ∨ k = .E then exponentText k x else []) ++
  (if k = .percent then ['%'] else [])

/-- How the digits of the number are divided: `whole` before the point and `frac` after it, with the exponent `x`. -/
structure Layout (k : Kind) (precision : Option Nat) (whole frac : Digits) (x : Int) : Prop where
  /-- No zeros in front. -/
  noZeros : IsCoeff whole
  areDigits : ∀ d ∈ frac, d < 10
  /-- Fixed point: no exponent, and as many digits after the point as the precision says. -/
  fixed : k = .f ∨ k = .F ∨ k = .percent → x = 0 ∧ ∀ p, precision = some p → frac.length = p
  /-- Scientific: as many digits after the point as the precision says. -/
  scientific : k = .e ∨ k = .E → ∀ p, precision = some p → frac.length = p
  /-- With an exponent, there is one digit before the point, and it is zero only for zeros. -/
  normal : x ≠ 0 ∨ k = .e ∨ k = .E → whole.length = 1 ∧ (whole = [0] → number frac = 0)
  /-- General: no more digits than the precision says. -/
  general : k = .g ∨ k = .G → ∀ p, precision = some p → number (whole ++ frac) < 10 ^ p

end Verif.DecimalFormat
