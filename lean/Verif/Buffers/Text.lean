import Verif.Seq.Model
import Verif.Buffers.Base
/-
Model of the methods that symbolic `bytes`, `bytearray` and `memoryview` share,
/repo/crosshair/libimpl/builtinslib.py:4052-4199, 4311-4321, 4442-4457, 4527-4533, 4567-4570.

A byte string is the list of its byte values.
-/
namespace Verif.Buffers

/-- A Python Boolean as a number. -/
def ofBool (b : Bool) : Int := if b then 1 else 0

/-- `is_ascii_space_ord` (4052-4064). -/
def isAsciiSpaceOrd (c : Int) : Bool :=
  [[decide (c ≥ 0x09), decide (c ≤ 0x0D)].all id, decide (c = 0x20)].any id

/-- `_ch_swap_ascii_case` (4100-4113). -/
def swapAsciiCase (byte : Int) (doLower doUpper : Bool) : Int :=
  let delta := 0
  let delta := if doLower then
    delta + 0x20 * ofBool (decide (0x41 ≤ byte) && decide (byte ≤ 0x5A)) else delta
  let delta := if doUpper then
    delta - 0x20 * ofBool (decide (0x61 ≤ byte) && decide (byte ≤ 0x7A)) else delta
  byte + delta

/-- `lower` (4115-4118). -/
def lower (xs : List Int) : List Int := xs.map fun b => swapAsciiCase b true false

/-- `upper` (4120-4123). -/
def upper (xs : List Int) : List Int := xs.map fun b => swapAsciiCase b false true

/-- `swapcase` (4125-4128). -/
def swapcase (xs : List Int) : List Int := xs.map fun b => swapAsciiCase b true true

/-- `_ch_is_stripped` (4135-4138); `none` means whitespace. -/
def isStripped (byte : Int) (targets : Option (List Int)) : Bool :=
  match targets with
  | none => isAsciiSpaceOrd byte
  | some ts => ts.any fun t => decide (byte = t)

/-- The loop of `lstrip` (4142-4145) over the rest `bs` of the bytes `xs` from position `idx`. -/
def lstripLoop (targets : Option (List Int)) (xs : List Int) : Nat → List Int → List Int
  | _, [] => []
  | idx, b :: bs =>
    if !isStripped b targets then xs.drop idx else lstripLoop targets xs (idx + 1) bs

/-- `lstrip` (4140-4145). -/
def lstrip (targets : Option (List Int)) (xs : List Int) : List Int := lstripLoop targets xs 0 xs

/-- `rstrip` (4147-4153); the calls are at most as deep as the string is long. -/
def rstripN (targets : Option (List Int)) : Nat → List Int → List Int
  | 0, _ => []
  | fuel + 1, xs =>
    if xs.length = 0 then []
    else if isStripped (xs.getLastD 0) targets then rstripN targets fuel xs.dropLast
    else xs

@[inherit_doc rstripN]
def rstrip (targets : Option (List Int)) (xs : List Int) : List Int :=
  rstripN targets (xs.length + 1) xs

/-- `strip` (4155-4156). -/
def strip (targets : Option (List Int)) (xs : List Int) : List Int :=
  rstrip targets (lstrip targets xs)

/-- The types of operands: the three bytes-like types, an `array.array` of bytes, an `array.array`
of wider numbers, another sequence, and anything else. -/
inductive Ty where
  | bytes
  | bytearray
  | memoryview
  | arrayB
  | arrayWide
  | sequence
  | other
  deriving DecidableEq, Repr

/-- `isinstance(_, _ALL_BYTES_TYPES)` (4023). -/
def Ty.allBytes : Ty → Bool
  | .bytes | .bytearray | .memoryview | .arrayB | .arrayWide => true
  | _ => false

/-- The types that are implemented symbolically. -/
def Ty.symbolic : Ty → Bool
  | .bytes | .bytearray | .memoryview => true
  | _ => false

/-- `BytesLike.__eq__` (4068-4073). -/
def bytesEq (xs : List Int) (ty : Ty) (ys : List Int) : Bool :=
  if !ty.allBytes then false
  else if xs.length ≠ ys.length then false
  else decide (xs = ys)

/-- A comparison of two tuples.  (They compare like CrossHair's sequences, `Seq.seqLt`.) -/
def tupleCmp (op : Seq.CmpOp) (xs ys : List Int) : Bool :=
  let lt (a b : Int) := decide (a < b)
  match op with
  | .lt => Seq.seqLt lt xs ys
  | .le => Seq.seqLe lt xs ys
  | .gt => Seq.seqGt lt xs ys
  | .ge => Seq.seqGe lt xs ys

/-- `_cmp_op` of `BytesLike` (4164-4172), `SymbolicByteArray` (4442-4446) and `SymbolicMemoryView`
(4527-4533): compare as tuples, or `TypeError`. -/
def cmpOp (op : Seq.CmpOp) (self : Ty) (xs : List Int) (other : Ty) (ys : List Int) :
    Except Err Bool :=
  match self with
  | .bytearray => if other.allBytes then .ok (tupleCmp op xs ys) else .error .type
  | .memoryview => if other = .bytearray then .ok (tupleCmp op xs ys) else .error .type
  | _ => if other = self ∨ other = .bytearray then .ok (tupleCmp op xs ys) else .error .type

/-- What `buffer_to_byte_seq` (4001-4020) says about an operand: bytes, the operand itself, or
nothing. -/
inductive ByteSeq where
  | bytes
  | itself
  | none
  deriving DecidableEq, Repr

@[inherit_doc ByteSeq]
def bufferToByteSeq : Ty → ByteSeq
  | .bytes | .bytearray | .memoryview | .arrayB => .bytes
  | .arrayWide => .none
  | .sequence => .itself
  | .other => .none

/-- `self + other`: `SymbolicBytes.__add__` (4311-4321), `SymbolicByteArray.__add__` (4448-4457) and
`SymbolicMemoryView.__add__` (4567-4570).  For an operand without byte sequence `SymbolicBytes`
leaves the work to the native type: `raw` are the bytes in the memory of the operand, if it has
any. -/
def add (self : Ty) (xs : List Int) (other : Ty) (ys : List Int) (raw : Option (List Int)) :
    Except Err (Ty × List Int) :=
  match self with
  | .bytes =>
    match bufferToByteSeq other with
    | .itself => .error .type
    | .none =>
      match raw with
      | some rs => .ok (.bytes, xs ++ rs)
      | none => .error .type
    | .bytes => .ok (.bytes, xs ++ ys)
  | .bytearray =>
    match bufferToByteSeq other with
    | .itself => .error .type
    | .none => .error .type
    | .bytes => .ok (.bytearray, xs ++ ys)
  | _ => .error .type

/-- `left + self` when `left` is native: `BytesLike.__radd__` (4190-4199); `NotImplemented` becomes
a `TypeError`. -/
def radd (left : Ty) (ls : List Int) (self : Ty) (xs : List Int) : Except Err (Ty × List Int) :=
  match left with
  | .bytes => add .bytes ls self xs none
  | .bytearray => add .bytearray ls self xs none
  | _ => .error .type

/-- `_ch_search_operand_points` (4085-4091) for an integer: what `find`, `index` and `count` search
for. -/
def searchInt (n : Int) : Except Err (List Int) :=
  if [decide (n < 0), decide (n > 255)].any id then .error .value else .ok [n]

end Verif.Buffers
