import Verif.Pack.Spec
import Verif.Ints.Model
/-
Model of /repo/crosshair/libimpl/structlib.py.  Bytes are integers 0-255 (as in the model of `int.to_bytes`).
-/
namespace Verif.Pack

open Verif.Ints (toBytes fromBytes)

inductive Err where
  | structError | overflow | valueError
deriving DecidableEq, Repr

/-- `_STANDARD_SIZES` (36-61): 0 stands for native only, -1 for a count of characters. -/
def standardSize (fc : Char) : Option Int :=
  if fc ∈ ['x', 'c', 'b', 'B', '?'] then some 1
  else if fc ∈ ['h', 'H', 'e'] then some 2
  else if fc ∈ ['i', 'I', 'l', 'L', 'f'] then some 4
  else if fc ∈ ['q', 'Q', 'd', 'F'] then some 8
  else if fc = 'D' then some 16
  else if fc ∈ ['n', 'N', 'P'] then some 0
  else if fc ∈ ['s', 'p'] then some (-1)
  else none

/-- The loop of `_parse_format` (77-100), its three loops over characters merged into one; `ds` are the digits of the
count read so far.  Digits are ASCII. -/
def parseItems : List Char → List Char → Option (List (Char × Nat))
  | ds, [] => if ds = [] then some [] else none
  | ds, c :: rest =>
    if ds = [] ∧ isFmtSpace c = true then parseItems [] rest
    else if c.isDigit then parseItems (ds ++ [c]) rest
    else
      let count := if ds = [] then 1 else ds.foldl (fun n d => 10 * n + (d.toNat - 48)) 0
      if c ∈ ['s', 'p'] then (parseItems [] rest).map ((c, count) :: ·)
      else if (standardSize c).isSome then (parseItems [] rest).map (List.replicate count (c, 1) ++ ·)
      else none

/-- ASCII whitespace, for `str.strip`. -/
def isWs (c : Char) : Bool := c ∈ [' ', '\t', '\n', '\r', Char.ofNat 11, Char.ofNat 12]

/-- `fmt.strip()`. -/
def strip (s : List Char) : List Char := ((s.dropWhile isWs).reverse.dropWhile isWs).reverse

/-- `_parse_format` (64-101); `none` is a `struct.error`. -/
def parseFormat (fmt : List Char) : Option (Char × List (Char × Nat)) :=
  match strip fmt with
  | [] => none
  | c :: rest =>
    if c ∈ ['@', '=', '<', '>', '!'] then (parseItems [] rest).map fun l => (c, l)
    else (parseItems [] (c :: rest)).map fun l => ('@', l)

/-- What the code takes from the real `struct` module: the sizes of native-only codes, and packing and unpacking of
realized values with the codes for floats, strings and pointers. -/
structure Real where
  nativeSize : Char → Option Nat
  pack : Char → Nat → Val → Option (List Int)
  unpack : Char → Nat → List Int → Option Val

/-- `_get_item_size` (104-113). -/
def itemSize (real : Real) (fc : Char) (count : Nat) : Option Nat :=
  match standardSize fc with
  | none => none
  | some size =>
    if size = 0 then real.nativeSize fc
    else if size = -1 then some count
    else some (size.toNat * count)

/-- `_struct_items_total_size` (116-121). -/
def totalSize (real : Real) : List (Char × Nat) → Option Nat
  | [] => some 0
  | (fc, count) :: rest => (itemSize real fc count).bind fun n => (totalSize real rest).map (n + ·)

/-- `_is_int_format` (129-130), the signed codes (221), `_byteorder_for_int` (137-138). -/
def isIntFormat (fc : Char) : Bool := fc ∈ ['b', 'B', 'h', 'H', 'i', 'I', 'l', 'L', 'q', 'Q', 'n', 'N']
def isSigned (fc : Char) : Bool := fc ∈ ['b', 'h', 'l', 'q', 'i', 'n']
def byteorder (prefixChar : Char) : String := if prefixChar = '<' then "little" else "big"

/-- One turn of the loop of `_pack` (201-227) for a code with an argument. -/
def packItem (real : Real) (p fc : Char) (count : Nat) (val : Val) : Except Err (List Int) :=
  if fc = 'c' then
    match val with
    | .bytes b => if b.length ≠ 1 then .error .structError else .ok b
    | .int v => if 0 ≤ v ∧ v < 256 then .ok [v] else .error .valueError     -- `bytes([val])`
    | .other _ => .error .valueError
  else if fc = '?' then
    match val with
    | .int v => match toBytes v 1 (byteorder p) false with
      | .ok bs => .ok bs
      | .error _ => .error .overflow
    | _ => .error .valueError
  else if isIntFormat fc then
    match itemSize real fc count, val with
    | some size, .int v => match toBytes v size (byteorder p) (isSigned fc) with
      | .ok bs => .ok bs
      | .error _ => .error .structError
    | _, _ => .error .valueError
  else match real.pack fc count val with
    | some bs => .ok bs
    | none => .error .structError

/-- The loop of `_pack` (200-227). -/
def packLoop (real : Real) (p : Char) : List (Char × Nat) → List Val → Except Err (List Int)
  | [], _ => .ok []
  | (fc, count) :: items, args =>
    if fc = 'x' then (packLoop real p items args).map (List.replicate count 0 ++ ·)
    else match args with
      | [] => .error .structError                               -- not reachable after the count check
      | val :: args => (packItem real p fc count val).bind fun b => (packLoop real p items args).map (b ++ ·)

/-- `_pack` (185-237) after parsing; the check of the format by the real `calcsize` is not modelled. -/
def pack (real : Real) (p : Char) (items : List (Char × Nat)) (args : List Val) : Except Err (List Int) :=
  if (totalSize real items).isNone then .error .structError
  else if args.length ≠ (items.filter fun it => it.1 ≠ 'x').length then .error .structError
  else packLoop real p items args

/-- The loop of `_unpack` (256-284).  `none` is an error. -/
def unpackLoop (real : Real) (p : Char) : List (Char × Nat) → Nat → List Int → Option (List Val)
  | [], _, _ => some []
  | (fc, count) :: items, offset, buffer =>
    (itemSize real fc count).bind fun size =>
      let chunk := (buffer.drop offset).take size
      let rest := unpackLoop real p items (offset + size) buffer
      if fc = 'x' then rest
      else if fc = 'c' then rest.map (.bytes chunk :: ·)
      else if fc = '?' then rest.map (.int (if chunk.all (· = 0) then 0 else 1) :: ·)
      else if isIntFormat fc then
        match fromBytes chunk (byteorder p) (isSigned fc) with
        | .ok v => rest.map (.int v :: ·)
        | .error _ => none
      else (real.unpack fc count chunk).bind fun v => rest.map (v :: ·)

/-- `_unpack` (240-285) of a symbolic buffer, after parsing. -/
def unpack (real : Real) (p : Char) (items : List (Char × Nat)) (buffer : List Int) : Option (List Val) :=
  (totalSize real items).bind fun need =>
    if buffer.length < need then none else unpackLoop real p items 0 buffer

/-- Slice assignment to a bytearray. -/
def assignSlice (l : List Int) (start stop : Int) (new : List Int) : List Int :=
  let clip (i : Int) : Nat := if i < 0 then (i + l.length).toNat else min i.toNat l.length
  l.take (clip start) ++ new ++ l.drop (max (clip start) (clip stop))

/-- `_pack_into` (288-326) after parsing: the new contents of the buffer. -/
def packInto (real : Real) (p : Char) (items : List (Char × Nat)) (buffer : List Int) (offset : Int) (args : List Val) :
    Except Err (List Int) :=
  (pack real p items args).map fun packed => assignSlice buffer offset (offset + packed.length) packed

/-- The first `fuel` results of `_iter_unpack` (346-352) of a symbolic buffer from `offset`, and whether it has ended. -/
def iterUnpack (real : Real) (p : Char) (items : List (Char × Nat)) (size : Nat) : Nat → Nat → List Int → List (Option (List Val)) × Bool
  | 0, _, _ => ([], false)
  | fuel + 1, offset, buffer =>
    if offset + size ≤ buffer.length then
      let r := iterUnpack real p items size fuel (offset + size) buffer
      (unpack real p items ((buffer.drop offset).take size) :: r.1, r.2)
    else ([], true)

end Verif.Pack
