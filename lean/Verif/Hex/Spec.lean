/-
Hexadecimal text, stated without reference to CrossHair.  Characters are code points, bytes numbers below 256.
-/
namespace Verif.Hex

/-- The digits. -/
def lowerDigits : List Nat := "0123456789abcdef".toList.map Char.toNat
def upperDigits : List Nat := "0123456789ABCDEF".toList.map Char.toNat

/-- Character `c` is a digit of value `v`. -/
def IsDigit (c v : Nat) : Prop := lowerDigits[v]? = some c ∨ upperDigits[v]? = some c

/-- ASCII whitespace: tab, newline, vertical tab, form feed, carriage return, space. -/
def IsSpace (c : Nat) : Prop := c ∈ [9, 10, 11, 12, 13, 32]

/-- `HexText s b`: the text `s` denotes the bytes `b`, two digits each, with whitespace between bytes. -/
inductive HexText : List Nat → List Nat → Prop where
  | nil : HexText [] []
  | space {c : Nat} {s b : List Nat} : IsSpace c → HexText s b → HexText (c :: s) b
  | byte {h l x y : Nat} {s b : List Nat} : IsDigit h x → IsDigit l y → HexText s b → HexText (h :: l :: s) ((16 * x + y) :: b)

/-- The two lower case digits of a byte. -/
def byteText (b : Nat) : List Nat := [lowerDigits.getD (b / 16) 0, lowerDigits.getD (b % 16) 0]

/-- Pieces of `n` bytes from the left (the last may be shorter). -/
def piecesLeft (n : Nat) (l : List Nat) : List (List Nat) :=
  if h : n = 0 ∨ l = [] then [] else l.take n :: piecesLeft n (l.drop n)
termination_by l.length
decreasing_by
  rw [not_or] at h
  have : l.length ≠ 0 := fun h' => h.2 (List.length_eq_zero_iff.mp h')
  rw [List.length_drop]
  omega

/-- Pieces of `n` bytes from the right (the first may be shorter). -/
def piecesRight (n : Nat) (l : List Nat) : List (List Nat) :=
  if l.length % n = 0 then piecesLeft n l else l.take (l.length % n) :: piecesLeft n (l.drop (l.length % n))

/-- The text of the pieces, with a separator between them. -/
def piecesText (sep : Nat) (ps : List (List Nat)) : List Nat :=
  List.intercalate [sep] (ps.map fun p => p.flatMap byteText)

end Verif.Hex
