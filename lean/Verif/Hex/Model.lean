import Verif.Hex.Spec
/-
Model of the hexadecimal conversions in /repo/crosshair/libimpl/builtinslib.py.  Characters are code points.
-/
namespace Verif.Hex

/-- `make_hex_digit` (4034-4039); 48 is "0" and 87 is ten less than "a". -/
def makeHexDigit (value : Nat) : Nat :=
  let num := value % 16
  if num < 10 then 48 + num else 87 + num

/-- `parse_hex_digit` (4042-4049). -/
def parseHexDigit (c : Nat) : Option Nat :=
  if 48 ≤ c ∧ c < 58 then some (c - 48)
  else if 97 ≤ c ∧ c ≤ 102 then some (c - 87)
  else if 65 ≤ c ∧ c ≤ 70 then some (c - 55)
  else none

/-- `is_ascii_space_ord` (4052-4064). -/
def isAsciiSpaceOrd (c : Nat) : Bool := (decide (c ≥ 9) && decide (c ≤ 13)) || decide (c = 32)

/-- `BytesLike.hex` without a separator (4204-4214). -/
def hex (bytes : List Nat) : List Nat :=
  bytes.flatMap fun byt => [true, false].map fun ishigh => makeHexDigit (if ishigh then byt / 16 else byt)

/-- The loop of `hex` (4232-4238) from index `idx`. -/
def hexLoop (sep : List Nat) (n start : Nat) : Nat → List Nat → List Nat
  | _, [] => []
  | idx, byt :: rest =>
    (if idx ≠ start ∧ idx % n = 0 then sep else []) ++ [makeHexDigit (byt / 16), makeHexDigit byt] ++
      hexLoop sep n start (idx + 1) rest

/-- `BytesLike.hex` with a one-character ASCII separator (4221-4240). -/
def hexSep (bytes : List Nat) (sep : Nat) (bytesPerSep : Int) : List Nat :=
  if bytesPerSep ≥ 0 then
    if bytesPerSep = 0 then hexLoop [] 1 0 0 bytes
    else
      let start := bytes.length % bytesPerSep.toNat
      hexLoop [sep] bytesPerSep.toNat start start bytes
  else hexLoop [sep] (-bytesPerSep).toNat 0 0 bytes

/-- The loop of `fromhex` (4337-4355); `none` is the `ValueError`. -/
def fromhexLoop : Option Nat → List Nat → Option (List Nat)
  | high, [] => if high = none then some [] else none
  | high, c :: rest =>
    if c ≥ 128 then none                                       -- `not ch.isascii()`
    else if high = none ∧ isAsciiSpaceOrd c = true then fromhexLoop none rest
    else match parseHexDigit c with
      | none => none
      | some d =>
        match high with
        | none => fromhexLoop (some (d * 16)) rest
        | some h => (fromhexLoop none rest).map ((h + d) :: ·)

/-- `SymbolicBytes.fromhex` (4328-4360). -/
def fromhex (s : List Nat) : Option (List Nat) := fromhexLoop none s

end Verif.Hex
