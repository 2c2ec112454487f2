/-
Base64 as RFC 4648 describes it, stated without reference to CrossHair.  An alphabet is a function from the values 0-63
to characters (numbers); "=" is 61 and newline is 10.
-/
namespace Verif.B64

/-- The low `w` bits of `x`, the most significant first. -/
def bitsOf : Nat → Nat → List Bool
  | 0, _ => []
  | w + 1, x => x.testBit w :: bitsOf w x

/-- The sextets of a byte string, three bytes to four; a shorter last group is completed with zero bits. -/
def sextets : List Nat → List Nat
  | a :: b :: c :: rest => a / 4 :: (a % 4 * 16 + b / 16) :: (b % 16 * 4 + c / 64) :: c % 64 :: sextets rest
  | [a, b] => [a / 4, a % 4 * 16 + b / 16, b % 16 * 4]
  | [a] => [a / 4, a % 4 * 16]
  | [] => []

/-- The bytes of a list of sextets, four to three; the unused bits of a shorter last group are dropped. -/
def bytesOf : List Nat → List Nat
  | w :: x :: y :: z :: rest => (w * 4 + x / 16) :: (x % 16 * 16 + y / 4) :: (y % 4 * 64 + z) :: bytesOf rest
  | [w, x, y] => [w * 4 + x / 16, x % 16 * 16 + y / 4]
  | [w, x] => [w * 4 + x / 16]
  | [_] => []
  | [] => []

/-- The last group is not a single sextet, and its unused bits are zero. -/
def NoSpareBits : List Nat → Prop
  | _ :: _ :: _ :: _ :: rest => NoSpareBits rest
  | [_, _, y] => y % 4 = 0
  | [_, x] => x % 16 = 0
  | [_] => False
  | [] => True

/-- Padding to a multiple of four characters. -/
def padding (n : Nat) : List Nat := List.replicate ((4 - n % 4) % 4) 61

/-- The encoding: the characters of the sextets, padded. -/
def encoded (alpha : Nat → Nat) (bytes : List Nat) : List Nat :=
  (sextets bytes).map alpha ++ padding (sextets bytes).length

/-- Lines of `n` characters (the last may be shorter). -/
def lines (n : Nat) (l : List Nat) : List (List Nat) :=
  if h : n = 0 ∨ l = [] then [] else l.take n :: lines n (l.drop n)
termination_by l.length
decreasing_by
  rw [not_or] at h
  have : l.length ≠ 0 := fun h' => h.2 (List.length_eq_zero_iff.mp h')
  rw [List.length_drop]
  omega

/-- A usable alphabet: 64 different characters, neither "=" nor newline. -/
structure Alphabet (alpha : List Nat) : Prop where
  length : alpha.length = 64
  nodup : alpha.Nodup
  noEquals : 61 ∉ alpha
  noNewline : 10 ∉ alpha

/-- The character of a value. -/
def charOf (alpha : List Nat) (v : Nat) : Nat := alpha.getD v 0

/-- The characters that belong to base64 text. -/
def isBase64 (alpha : List Nat) (c : Nat) : Bool := decide (c ∈ alpha) || decide (c = 61)

/-- The standard alphabet. -/
def stdAlphabet : List Nat :=
  "ABCDEFGHIJKLMNOPQRSTUVWXYZabcdefghijklmnopqrstuvwxyz0123456789+/".toList.map Char.toNat

end Verif.B64
