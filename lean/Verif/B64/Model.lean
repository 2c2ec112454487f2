import Verif.B64.Spec
/-
Model of /repo/crosshair/libimpl/binasciilib.py.  Bytes and characters are natural numbers; `none` is a `binascii.Error`.
-/
namespace Verif.B64

/-- The inner loop of `_bit_chunk_iter` (30-39): the chunks emitted, and the accumulator with its number of bits. -/
def drain (outBits acc bits : Nat) : List Nat × Nat × Nat :=
  if _h : 0 < outBits ∧ bits ≥ outBits then
    let remaining := bits - outBits
    if remaining = 0 then ([acc], 0, 0)
    else
      let r := drain outBits (acc % 2 ^ remaining) remaining
      (acc / 2 ^ remaining :: r.1, r.2.1, r.2.2)
  else ([], acc, bits)
termination_by bits
decreasing_by omega

/-- `_bit_chunk_iter` (20-42). -/
def bitChunks (inBits outBits : Nat) : Nat → Nat → List Nat → List Nat
  | acc, bits, [] => if bits > 0 then [acc * 2 ^ (outBits - bits)] else []
  | acc, bits, chunk :: rest =>
    let r := drain outBits (acc * 2 ^ inBits + chunk) (bits + inBits)
    r.1 ++ bitChunks inBits outBits r.2.1 r.2.2 rest

/-- One entry `(minval, maxval): target_start` of a table. -/
structure Entry where
  lo : Nat
  hi : Nat
  target : Nat
deriving DecidableEq, Repr

/-- The search through the table for one character (`_remap` 54-60). -/
def lookup (table : List Entry) (ch : Nat) : Option Nat :=
  (table.find? fun e => decide (e.lo ≤ ch) && decide (ch ≤ e.hi)).map fun e => ch - e.lo + e.target

/-- `_remap` (45-69); `strict` says that an error message was given. -/
def remap (table : List Entry) (strict : Bool) : Nat → List Nat → Option (List Nat × Nat)
  | pads, [] => some ([], pads)
  | pads, ch :: rest =>
    match lookup table ch with
    | some v => if pads ≠ 0 then none else (remap table strict pads rest).map fun r => (v :: r.1, r.2)
    | none =>
      if ch = 61 then remap table strict (pads + 1) rest
      else if strict then none
      else remap table strict pads rest

/-- Assignment to a dictionary with pairs of bounds as keys. -/
def tableSet (table : List Entry) (e : Entry) : List Entry :=
  if table.any (fun x => decide (x.lo = e.lo) && decide (x.hi = e.hi)) then
    table.map fun x => if x.lo = e.lo ∧ x.hi = e.hi then e else x
  else table ++ [e]

/-- `_reverse_map` (72-76). -/
def reverseMap (table : List Entry) : List Entry :=
  table.foldl (fun ret e => tableSet ret ⟨e.target, e.target + e.hi - e.lo, e.lo⟩) []

/-- `_DECODE_BASE64_MAP` (79-85). -/
def stdDecode : List Entry :=
  [⟨'A'.toNat, 'Z'.toNat, 0⟩, ⟨'a'.toNat, 'z'.toNat, 26⟩, ⟨'0'.toNat, '9'.toNat, 52⟩, ⟨'+'.toNat, '+'.toNat, 62⟩,
    ⟨'/'.toNat, '/'.toNat, 63⟩]

/-- The inner loop of `_encode_map_from_alphabet` (116-117).  The first argument bounds the number of turns. -/
def runEnd (alpha : List Nat) (start : Nat) : Nat → Nat → Nat
  | 0, v => v
  | fuel + 1, v =>
    if v + 1 < 64 ∧ alpha.getD (v + 1) 0 = alpha.getD start 0 + (v + 1 - start) then runEnd alpha start fuel (v + 1) else v

/-- The outer loop (114-119).  The first argument bounds the number of turns. -/
def encodeLoop (alpha : List Nat) : Nat → Nat → List Entry
  | 0, _ => []
  | fuel + 1, v =>
    if v < 64 then
      let last := runEnd alpha v 64 v
      ⟨v, last, alpha.getD v 0⟩ :: encodeLoop alpha fuel (last + 1)
    else []

/-- `_encode_map_from_alphabet` (103-120) of 64 characters.  The keys begin with different values, so each assignment
appends. -/
def encodeMapOf (alpha : List Nat) : List Entry := encodeLoop alpha 64 0

/-- The choice of table in `_b2a_base64` (130-133) and `_a2b_base64` (186-189). -/
def encodeMap (alpha : List Nat) : List Entry := if alpha = stdAlphabet then reverseMap stdDecode else encodeMapOf alpha
def decodeMap (alpha : List Nat) : List Entry := if alpha = stdAlphabet then stdDecode else reverseMap (encodeMapOf alpha)

/-- The wrapping loop of `_b2a_base64` (148-151). -/
def wrapLoop (width : Nat) : Nat → List Nat → List Nat
  | _, [] => []
  | idx, ch :: rest => (if idx ≠ 0 ∧ idx % width = 0 then [10, ch] else [ch]) ++ wrapLoop width (idx + 1) rest

/-- `_b2a_base64` (123-155) of bytes-like data and an alphabet of 64 characters. -/
def b2a (alpha : List Nat) (newline padded : Bool) (wrapcol : Nat) (data : List Nat) : List Nat :=
  match remap (encodeMap alpha) false 0 (bitChunks 8 6 0 0 data) with
  | none => []                                                 -- not reachable: values 0-63 are in the table
  | some (ints, _) =>
    let spillover := ints.length % 4
    let out := if padded = true ∧ spillover > 0 then ints ++ List.replicate (4 - spillover) 61 else ints
    let out := if wrapcol ≠ 0 ∧ out ≠ [] then wrapLoop (if wrapcol < 4 then 4 else wrapcol / 4 * 4) 0 out else out
    if newline then out ++ [10] else out

/-- `_a2b_base64` (158-215) of ASCII data and an alphabet of 64 characters, with `canonical` and `ignorechars` unset (with
either, the real implementation is called). -/
def a2b (alpha : List Nat) (strict padded : Bool) (data : List Nat) : Option (List Nat) :=
  match remap (decodeMap alpha) strict 0 data with
  | none => none
  | some (ints, pads) =>
    let count := ints.length
    if count % 4 ≠ 0 then
      if count % 4 = 1 then none
      else if padded = true ∧ pads < 4 - count % 4 then none
      else if padded = true ∧ strict = true ∧ pads > 4 - count % 4 then none
      else some (bitChunks 6 8 0 0 ints).dropLast
    else some (bitChunks 6 8 0 0 ints)

end Verif.B64
