/-! Encodings: crosshair/libimpl/encodings/{_encutil,utf_8,ascii,latin_1}.py. Strings are lists of code points, bytes are lists of numbers below 256. -/
namespace Verif.Codec

/-- encodings/_encutil.py:15-30 `UnexpectedEndError` and `MidChunkError`, without the reason. -/
inductive ChunkError where
  | unexpectedEnd
  | midChunk
deriving DecidableEq

/-- encodings/_encutil.py:52-66 `StemEncoder`: one chunk is what comes out, the new position, and an error. `none` is `IndexError`. -/
structure Stem where
  encodeChunk : List Nat → Nat → List Nat × Nat × Option ChunkError
  decodeChunk : List Nat → Nat → Option (List Nat × Nat × Option ChunkError)

/-! ## UTF-8 -/

/-- encodings/utf_8.py:13-33 `_encode_codepoint`. -/
def encodeCodepoint (c : Nat) : List Nat :=
  if c ≤ 0x7F then [c]
  else if c ≤ 0x7FF then [0xC0 + ((c >>> 6) &&& 0x1F), 0x80 + (c &&& 0x3F)]
  else if c ≤ 0xFFFF then [0xE0 + ((c >>> 12) &&& 0x0F), 0x80 + ((c >>> 6) &&& 0x3F), 0x80 + (c &&& 0x3F)]
  else [0xF0 + ((c >>> 18) &&& 0x07), 0x80 + ((c >>> 12) &&& 0x3F), 0x80 + ((c >>> 6) &&& 0x3F), 0x80 + (c &&& 0x3F)]

/-- encodings/utf_8.py:39-46 `Utf8StemEncoder._encode_chunk`. -/
def utf8EncodeChunk (s : List Nat) (start : Nat) : List Nat × Nat × Option ChunkError :=
  ((s.drop start).flatMap encodeCodepoint, s.length, none)

/-- encodings/utf_8.py:52-77: what the first byte says: the number of further bytes, the first bits, and the least and greatest code point. `none` is an
error. -/
def lead (byt : Nat) : Option (Nat × Nat × Nat × Nat) :=
  if byt ≥ 0b11000000 then
    if byt ≥ 0b11100000 then
      if byt ≥ 0b11110000 then
        if byt > 0b11110111 then none else some (3, byt &&& 0b111, 0x10000, 0x10FFFF)
      else if byt > 0b11101111 then none
      else some (2, byt &&& 0b1111, 0x800, 0xFFFF)
    else if byt > 0b11011111 then none
    else some (1, byt &&& 0b11111, 0x80, 0x7FF)
  else some (0, byt, 0, 0x7F)

/-- encodings/utf_8.py:80-85: the loop over `n` further bytes from position `idx`. -/
def further (byts : List Nat) : Nat → Nat → Nat → Option Nat
  | cp, _, 0 => some cp
  | cp, idx, n + 1 =>
    let byt := byts.getD idx 0
    if 0b10000000 ≤ byt ∧ byt ≤ 0b10111111 then further byts (cp * 64 + (byt - 0b10000000)) (idx + 1) n else none

/-- encodings/utf_8.py:48-89 `Utf8StemEncoder._decode_chunk`. -/
def utf8DecodeChunk (byts : List Nat) (start : Nat) : Option (List Nat × Nat × Option ChunkError) :=
  match byts[start]? with
  | none => none
  | some byt =>
    match lead byt with
    | none => some ([], start, some .midChunk)
    | some (n, cp, mincp, maxcp) =>
      if start + 1 + n > byts.length then some ([], start, some .unexpectedEnd)
      else
        match further byts cp (start + 1) n with
        | none => some ([], start, some .midChunk)
        | some cp => if mincp ≤ cp ∧ cp ≤ maxcp then some ([cp], start + 1 + n, none) else some ([], start, some .midChunk)

/-- encodings/utf_8.py:36-89. -/
def utf8 : Stem := ⟨utf8EncodeChunk, utf8DecodeChunk⟩

/-! ## Encodings with one byte per character -/

/-- encodings/ascii.py:16-27 and latin_1.py:16-28: the loop, with the number of characters of the encoding; what is left of the string is `l`. -/
def byteLoop (limit : Nat) : List Nat → Nat → List Nat × Nat × Option ChunkError
  | [], idx => ([], idx, none)
  | c :: l, idx =>
    if c ≥ limit then ([], idx, some .midChunk)
    else
      let (out, i, e) := byteLoop limit l (idx + 1)
      (c :: out, i, e)

/-- encodings/ascii.py:8-40. -/
def ascii : Stem := ⟨fun s start => byteLoop 0x80 (s.drop start) start, fun b start => some (byteLoop 0x80 (b.drop start) start)⟩

/-- encodings/latin_1.py:8-36. -/
def latin1 : Stem := ⟨fun s start => byteLoop 256 (s.drop start) start, fun b start => some (b.drop start, b.length, none)⟩

/-! ## Encoding and decoding -/

/-- The result of a call: a value, a `UnicodeError` with start and end, or another exception; `endless` is when the loop does not end within `fuel`. -/
inductive Res (α : Type) where
  | ok (a : α)
  | error (start stop : Nat)
  | crash
  | endless
deriving DecidableEq

/-- The `errors` argument. `custom` is any other handler that Python looks up by name: it is given start and end of the error, and returns the replacement
and the position to go on. (That it may return bytes for decoding is left out.) -/
inductive Errors (α : Type) where
  | strict
  | ignore
  | replace
  | custom (h : Nat → Nat → α × Nat)

/-- Prepend to what comes out. -/
def Res.prepend (out : List Nat) : Res (List Nat × Nat) → Res (List Nat × Nat)
  | .ok (r, i) => .ok (out ++ r, i)
  | .error a b => .error a b
  | .crash => .crash
  | .endless => .endless

/-- encodings/_encutil.py:92-127 `StemEncoder.decode`, from position `idx`. -/
def decodeLoop (c : Stem) (errors : Errors (List Nat)) (input : List Nat) : Nat → Nat → Res (List Nat × Nat)
  | 0, idx => if idx < input.length then .endless else .ok ([], idx)
  | fuel + 1, idx =>
    if idx < input.length then
      match c.decodeChunk input idx with
      | none => .crash
      | some (out, idx, none) => (decodeLoop c errors input fuel idx).prepend out
      | some (out, idx, some _) =>
        match errors with
        | .strict => .error idx (idx + 1)
        | .ignore => (decodeLoop c errors input fuel (idx + 1)).prepend out
        | .replace => (decodeLoop c errors input fuel (idx + 1)).prepend (out ++ [0xFFFD])
        | .custom h => (decodeLoop c errors input fuel (h idx (idx + 1)).2).prepend (out ++ (h idx (idx + 1)).1)
    else .ok ([], idx)

/-- encodings/_encutil.py:92-127 `StemEncoder.decode`. The fuel is enough if positions only grow. -/
def decode (c : Stem) (errors : Errors (List Nat)) (input : List Nat) : Res (List Nat × Nat) := decodeLoop c errors input input.length 0

/-- What a handler of encoding errors returns: bytes, or a string. -/
inductive Replacement where
  | bytes (b : List Nat)
  | str (s : List Nat)
deriving DecidableEq

/-- encodings/_encutil.py:68-90 `StemEncoder.encode`, from position `idx`; `encodeStr` encodes replacements. Handlers are looked up in all cases; that
for "ignore" returns an empty string, and that for "replace" a question mark for each character. -/
def encodeLoop (c : Stem) (encodeStr : List Nat → Res (List Nat × Nat)) (errors : Errors Replacement) (input : List Nat) :
    Nat → Nat → Res (List Nat × Nat)
  | 0, idx => if idx < input.length then .endless else .ok ([], idx)
  | fuel + 1, idx =>
    if idx < input.length then
      match c.encodeChunk input idx with
      | (out, idx, none) => (encodeLoop c encodeStr errors input fuel idx).prepend out
      | (out, idx, some _) =>
        let go (r : Replacement) (next : Nat) : Res (List Nat × Nat) :=
          match r with
          | .bytes b => (encodeLoop c encodeStr errors input fuel next).prepend (out ++ b)
          | .str s =>
            match encodeStr s with
            | .ok (b, _) => (encodeLoop c encodeStr errors input fuel next).prepend (out ++ b)
            | .error a b => .error a b
            | .crash => .crash
            | .endless => .endless
        match errors with
        | .strict => .error idx (idx + 1)
        | .ignore => go (.str []) (idx + 1)
        | .replace => go (.str [0x3F]) (idx + 1)
        | .custom h => go (h idx (idx + 1)).1 (h idx (idx + 1)).2
    else .ok ([], idx)

/-- encodings/_encutil.py:68-90 `StemEncoder.encode` with the handler "strict", as for replacements (line 88). -/
def encodeStrict (c : Stem) (input : List Nat) : Res (List Nat × Nat) := encodeLoop c (fun _ => .crash) .strict input input.length 0

/-- encodings/_encutil.py:68-90 `StemEncoder.encode`. -/
def encode (c : Stem) (errors : Errors Replacement) (input : List Nat) : Res (List Nat × Nat) :=
  encodeLoop c (encodeStrict c) errors input input.length 0

/-! ## Incremental decoding -/

/-- encodings/_encutil.py:152-169 `_buffer_decode`: one chunk. `handler` is for the errors argument; `none` is "strict". -/
def bufferDecode (c : Stem) (handler : Option (Nat → Nat → List Nat × Nat)) (data : List Nat) (final : Bool) : Res (List Nat × Nat) :=
  match c.decodeChunk data 0 with
  | none => .crash
  | some (out, idx, none) => .ok (out, idx)
  | some (out, idx, some e) =>
    if e = .unexpectedEnd || !final then .ok (out, idx)
    else
      match handler with
      | none => .error idx (idx + 1)
      | some h => .ok (out ++ (h idx (idx + 1)).1, (h idx (idx + 1)).2)

/-- Python's `codecs.BufferedIncrementalDecoder.decode`: what comes out, and the new buffer. -/
def incDecode (c : Stem) (handler : Option (Nat → Nat → List Nat × Nat)) (buffer input : List Nat) (final : Bool) : Res (List Nat × List Nat) :=
  match bufferDecode c handler (buffer ++ input) final with
  | .ok (out, consumed) => .ok (out, (buffer ++ input).drop consumed)
  | .error a b => .error a b
  | .crash => .crash
  | .endless => .endless

/-- Decoding pieces one after the other (none of them as the final one). -/
def incAll (c : Stem) (handler : Option (Nat → Nat → List Nat × Nat)) : List Nat → List (List Nat) → Res (List Nat × List Nat)
  | buffer, [] => .ok ([], buffer)
  | buffer, piece :: pieces =>
    match incDecode c handler buffer piece false with
    | .ok (out, buffer) =>
      match incAll c handler buffer pieces with
      | .ok (r, b) => .ok (out ++ r, b)
      | .error a b => .error a b
      | .crash => .crash
      | .endless => .endless
    | .error a b => .error a b
    | .crash => .crash
    | .endless => .endless

end Verif.Codec
