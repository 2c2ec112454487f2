import Verif.Ints.Spec
/-
The struct format language and the layout it describes, as the Python documentation gives them.
-/
namespace Verif.Pack

open Verif.Ints (Fits AreBytes littleValue)

/-- Values: numbers (bools are 0 and 1), byte strings, and anything else. -/
inductive Val where
  | int (v : Int)
  | bytes (b : List Int)
  | other (id : Nat)
deriving DecidableEq, Repr

/-- Standard size and signedness of the integer codes. -/
def intCode (c : Char) : Option (Nat × Bool) :=
  if c = 'b' then some (1, true) else if c = 'B' then some (1, false)
  else if c = 'h' then some (2, true) else if c = 'H' then some (2, false)
  else if c = 'i' then some (4, true) else if c = 'I' then some (4, false)
  else if c = 'l' then some (4, true) else if c = 'L' then some (4, false)
  else if c = 'q' then some (8, true) else if c = 'Q' then some (8, false)
  else none

/-- Whitespace that may separate the items of a format. -/
def isFmtSpace (c : Char) : Bool := c ∈ [' ', '\t', '\n', '\r', Char.ofNat 11]

/-- The value of a repeat count: 1 if there is none. -/
def repeatCount (ds : List Char) : Nat :=
  if ds = [] then 1 else ds.foldl (fun n d => 10 * n + (d.toNat - 48)) 0

/-- The codes that are repeated by a count. -/
def plainCodes : List Char := "xcbB?hHiIlLqQefdnNPFD".toList
/-- The codes for which the count is a length. -/
def stringCodes : List Char := ['s', 'p']

/-- The grammar of formats after the byte order, with the items they list. -/
inductive Items : List Char → List (Char × Nat) → Prop where
  | nil : Items [] []
  | space {c : Char} {s : List Char} {l : List (Char × Nat)} : isFmtSpace c = true → Items s l → Items (c :: s) l
  | plain {ds : List Char} {c : Char} {s : List Char} {l : List (Char × Nat)} : (∀ d ∈ ds, d.isDigit = true) →
      c ∈ plainCodes → Items s l → Items (ds ++ c :: s) (List.replicate (repeatCount ds) (c, 1) ++ l)
  | string {ds : List Char} {c : Char} {s : List Char} {l : List (Char × Nat)} : (∀ d ∈ ds, d.isDigit = true) →
      c ∈ stringCodes → Items s l → Items (ds ++ c :: s) ((c, repeatCount ds) :: l)

/-- The byte order characters. -/
def orderChars : List Char := ['@', '=', '<', '>', '!']

/-- A format: an optional byte order (the default is native), then items. -/
inductive Format : List Char → Char → List (Char × Nat) → Prop where
  | explicit {p : Char} {s : List Char} {l : List (Char × Nat)} : p ∈ orderChars → Items s l → Format (p :: s) p l
  | default {s : List Char} {l : List (Char × Nat)} : (∀ c ∈ s.head?, c ∉ orderChars) → Items s l → Format s '@' l

/-- The number written by bytes in the given order. -/
def valueOf (big : Bool) (bs : List Int) : Int := littleValue (if big then bs.reverse else bs)

/-- `Layout big items vs bs`: the bytes `bs` are the values `vs` laid out by the items, without alignment.  Integers are
two's complement in the byte order, padding is zero bytes, `c` is one byte. -/
inductive Layout (big : Bool) : List (Char × Nat) → List Val → List Int → Prop where
  | nil : Layout big [] [] []
  | pad {items : List (Char × Nat)} {vs : List Val} {bs : List Int} : Layout big items vs bs → Layout big (('x', 1) :: items) vs (0 :: bs)
  | char {items : List (Char × Nat)} {vs : List Val} {bs : List Int} {b : Int} : Layout big items vs bs →
      Layout big (('c', 1) :: items) (.bytes [b] :: vs) (b :: bs)
  | int {items : List (Char × Nat)} {vs : List Val} {bs field : List Int} {c : Char} {v : Int} {n : Nat} {signed : Bool} :
      intCode c = some (n, signed) → Fits v n signed → field.length = n → AreBytes field →
      valueOf big field = v % 256 ^ n → Layout big items vs bs →
      Layout big ((c, 1) :: items) (.int v :: vs) (field ++ bs)

end Verif.Pack
