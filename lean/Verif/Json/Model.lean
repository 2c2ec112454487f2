/-! JSON encoding and decoding: crosshair/libimpl/jsonlib.py.

Characters are code points, `s[idx:]` stands for the text `s` with an index `idx` in it. -/
namespace Verif.Json

abbrev Str := List Nat

/-- What is needed of floats: `float.__repr__` and `float` (for finite values). -/
structure Floats where
  F : Type
  repr : F → Str
  parse : Str → F

/-- A JSON value; dictionaries have the keys in their order.  Values of other types, keys that are not strings, and
circular structures are not modelled (jsonlib.py:300-330, 375-385 and the `markers`). -/
inductive Json (F : Type) where
  | null
  | bool (b : Bool)
  | int (i : Int)
  | float (f : F)
  | nan
  | inf
  | negInf
  | str (s : Str)
  | arr (xs : List (Json F))
  | obj (kvs : List (Str × Json F))

def nullText : Str := [110, 117, 108, 108]
def trueText : Str := [116, 114, 117, 101]
def falseText : Str := [102, 97, 108, 115, 101]
def nanText : Str := [78, 97, 78]
def infText : Str := [73, 110, 102, 105, 110, 105, 116, 121]
def negInfText : Str := 45 :: infText

/-! ## Encoder -/

def hexDigit (n : Nat) : Nat := if n < 10 then 48 + n else 87 + n

/-- `"\\u{0:04x}".format(n)` for n < 0x10000. -/
def uText (n : Nat) : Str := [92, 117, hexDigit (n / 4096 % 16), hexDigit (n / 256 % 16), hexDigit (n / 16 % 16), hexDigit (n % 16)]

/-- jsonlib.py:31-41 `ESCAPE_DCT`. -/
def escapeDct (c : Nat) : Option Str :=
  if c = 92 then some [92, 92]
  else if c = 34 then some [92, 34]
  else if c = 8 then some [92, 98]
  else if c = 12 then some [92, 102]
  else if c = 10 then some [92, 110]
  else if c = 13 then some [92, 114]
  else if c = 9 then some [92, 116]
  else if c < 32 then some (uText c)
  else none

/-- jsonlib.py:28, 47-53 `py_encode_basestring`: the replacement of one character. -/
def encChar (c : Nat) : Str :=
  if c < 32 ∨ c = 92 ∨ c = 34 then (escapeDct c).getD [] else [c]

/-- jsonlib.py:29, 59-78 `py_encode_basestring_ascii`: the replacement of one character. -/
def encCharAscii (c : Nat) : Str :=
  if c = 92 ∨ c = 34 ∨ ¬(32 ≤ c ∧ c ≤ 126) then
    match escapeDct c with
    | some e => e
    | none =>
      if c < 0x10000 then uText c
      else uText (0xD800 ||| ((c - 0x10000) >>> 10 &&& 0x3FF)) ++ uText (0xDC00 ||| (c - 0x10000 &&& 0x3FF))
  else [c]

/-- jsonlib.py:47-78. -/
def encStr (ascii : Bool) (s : Str) : Str :=
  34 :: s.flatMap (if ascii then encCharAscii else encChar) ++ [34]

def natRepr : Nat → Nat → Str
  | 0, _ => []
  | fuel + 1, n => if n < 10 then [48 + n] else natRepr fuel (n / 10) ++ [48 + n % 10]

/-- `int.__repr__`. -/
def intRepr (i : Int) : Str :=
  if i < 0 then 45 :: natRepr (i.natAbs + 1) i.natAbs else natRepr (i.natAbs + 1) i.natAbs

/-- jsonlib.py:89-114 the arguments of `JSONEncoder`. -/
structure Opts where
  ascii : Bool := true
  indent : Option Str := none
  itemSep : Str := [44, 32]
  keySep : Str := [58, 32]
  sortKeys : Bool := false

/-- jsonlib.py:236, 277, 296, 367: a new line with the indentation for a level. -/
def Opts.newline (o : Opts) (level : Nat) : Str :=
  match o.indent with
  | none => []
  | some ind => 10 :: (List.replicate level ind).flatten

/-- `sorted(dct.items())`, by keys, which are distinct. -/
def insertKey {α : Type} (lt : Str → Str → Bool) (x : Str × α) : List (Str × α) → List (Str × α)
  | [] => [x]
  | y :: ys => if lt x.1 y.1 then x :: y :: ys else y :: insertKey lt x ys

def strLt : Str → Str → Bool
  | _, [] => false
  | [], _ :: _ => true
  | a :: as, b :: bs => a < b || (a == b && strLt as bs)

def sortedItems {α : Type} (xs : List (Str × α)) : List (Str × α) := xs.foldr (insertKey strLt) []

/-- jsonlib.py:301-333: the loop over the items of a dictionary. -/
def members (o : Opts) (sep : Str) (first : Bool) : List (Str × Str) → Str
  | [] => []
  | (k, t) :: kvs => (if first then [] else sep) ++ encStr o.ascii k ++ o.keySep ++ t ++ members o sep false kvs

mutual
/-- jsonlib.py:375-404 `_iterencode`, 225-281 `_iterencode_list`, 283-373 `_iterencode_dict`.  The values of a
dictionary are encoded before the items are sorted. -/
def enc (P : Floats) (o : Opts) (level : Nat) : Json P.F → Str
  | .null => nullText
  | .bool true => trueText
  | .bool false => falseText
  | .int i => intRepr i
  | .float f => P.repr f
  | .nan => nanText
  | .inf => infText
  | .negInf => negInfText
  | .str s => encStr o.ascii s
  | .arr [] => [91, 93]
  | .arr (x :: xs) =>
    items P o (level + 1) ([91] ++ o.newline (level + 1)) (x :: xs) ++ o.newline level ++ [93]
  | .obj [] => [123, 125]
  | .obj (kv :: kvs) =>
    [123] ++ o.newline (level + 1) ++
      members o (o.itemSep ++ o.newline (level + 1)) true
        (if o.sortKeys then sortedItems (values P o (level + 1) (kv :: kvs)) else values P o (level + 1) (kv :: kvs)) ++
      o.newline level ++ [125]
/-- jsonlib.py:243-275: the loop over the items of a list; `buf` is put in front of the first. -/
def items (P : Floats) (o : Opts) (level : Nat) (buf : Str) : List (Json P.F) → Str
  | [] => []
  | x :: xs => buf ++ enc P o level x ++ items P o level (o.itemSep ++ o.newline level) xs
def values (P : Floats) (o : Opts) (level : Nat) : List (Str × Json P.F) → List (Str × Str)
  | [] => []
  | (k, v) :: kvs => (k, enc P o level v) :: values P o level kvs
end

/-- jsonlib.py:790-835 `dumps`. -/
def dumps (P : Floats) (o : Opts) (v : Json P.F) : Str := enc P o 0 v

/-! ## Decoder -/

/-- What a function of the decoder has found, and the rest of the text. -/
inductive R (α : Type) where
  | ok (a : α) (rest : Str)
  /-- `StopIteration`, `JSONDecodeError` or another `ValueError` -/
  | bad
  /-- the model has run out of steps -/
  | outOfFuel

/-- jsonlib.py:578-579. -/
def isWs (c : Nat) : Bool := c == 32 || c == 9 || c == 10 || c == 13

def skipWs (s : Str) : Str := s.dropWhile isWs

def hexValue (c : Nat) : Option Nat :=
  if 48 ≤ c ∧ c ≤ 57 then some (c - 48)
  else if 97 ≤ c ∧ c ≤ 102 then some (c - 87)
  else if 65 ≤ c ∧ c ≤ 70 then some (c - 55)
  else none

/-- Python's white space (ASCII only). -/
def isSpace (c : Nat) : Bool := (9 ≤ c && c ≤ 13) || (28 ≤ c && c ≤ 32)

/-- The digits of `int(text, 16)`, with underscores between them. -/
def hexDigits (acc : Nat) : Str → Option Nat
  | [] => some acc
  | 95 :: c :: cs =>
    match hexValue c with
    | some d => hexDigits (acc * 16 + d) cs
    | none => none
  | c :: cs =>
    match hexValue c with
    | some d => hexDigits (acc * 16 + d) cs
    | none => none

/-- Digits after an optional prefix `0x`, which may be followed by an underscore. -/
def hexBody : Str → Option Nat
  | [] => none
  | 48 :: 120 :: 95 :: c :: cs => match hexValue c with | some d => hexDigits d cs | none => none
  | 48 :: 88 :: 95 :: c :: cs => match hexValue c with | some d => hexDigits d cs | none => none
  | 48 :: 120 :: c :: cs => match hexValue c with | some d => hexDigits d cs | none => none
  | 48 :: 88 :: c :: cs => match hexValue c with | some d => hexDigits d cs | none => none
  | c :: cs => match hexValue c with | some d => hexDigits d cs | none => none

/-- `int(text, 16)` (ASCII only). -/
def hexInt (s : Str) : Option Int :=
  match ((s.dropWhile isSpace).reverse.dropWhile isSpace).reverse with
  | 45 :: cs => (hexBody cs).map (fun n => -(n : Int))
  | 43 :: cs => (hexBody cs).map (fun n => (n : Int))
  | cs => (hexBody cs).map (fun n => (n : Int))

/-- jsonlib.py:518-526 `_decode_uXXXX`; the text begins behind the `u`. -/
def decodeU (s : Str) : Option (Int × Str) :=
  match s with
  | a :: b :: c :: d :: rest =>
    if b = 120 ∨ b = 88 then none else (hexInt [a, b, c, d]).map (fun n => (n, rest))
  | _ => none

/-- jsonlib.py:505-514 `BACKSLASH`. -/
def backslash (e : Nat) : Option Nat :=
  if e = 34 then some 34
  else if e = 92 then some 92
  else if e = 47 then some 47
  else if e = 98 then some 8
  else if e = 102 then some 12
  else if e = 110 then some 10
  else if e = 114 then some 13
  else if e = 116 then some 9
  else none

/-- `chr`. -/
def chr (u : Int) : Option Nat := if 0 ≤ u ∧ u ≤ 0x10FFFF then some u.toNat else none

/-- jsonlib.py:561-568: a second escape sequence completes a surrogate pair; the number of the character, and the rest. -/
def joinPair (uni : Int) (rest : Str) : Option (Int × Str) :=
  if 0xD800 ≤ uni ∧ uni ≤ 0xDBFF then
    match rest with
    | 92 :: 117 :: rest' =>
      match decodeU rest' with
      | none => none
      | some (uni2, rest2) =>
        if 0xDC00 ≤ uni2 ∧ uni2 ≤ 0xDFFF then some (0x10000 + ((uni - 0xD800) * 0x400 + (uni2 - 0xDC00)), rest2)
        else some (uni, rest)
    | _ => some (uni, rest)
  else some (uni, rest)

/-- jsonlib.py:549-569: an escape sequence; the text begins behind the backslash. -/
def escape (s : Str) : Option (Nat × Str) :=
  match s with
  | [] => none
  | e :: s =>
    if e ≠ 117 then (backslash e).map (fun c => (c, s))
    else
      match decodeU s with
      | none => none
      | some (uni, rest) =>
        match joinPair uni rest with
        | none => none
        | some (u, rest) => (chr u).map (fun c => (c, rest))

def R.cons (c : Nat) : R Str → R Str
  | .ok s rest => .ok (c :: s) rest
  | .bad => .bad
  | .outOfFuel => .outOfFuel

/-- jsonlib.py:529-571 `py_scanstring`, one character at a time; the text begins behind the opening quote. -/
def scanString (strict : Bool) : Nat → Str → R Str
  | 0, _ => .outOfFuel
  | _ + 1, [] => .bad
  | n + 1, c :: s =>
    if c = 34 then .ok [] s
    else if c = 92 then
      match escape s with
      | none => .bad
      | some (ch, rest) => (scanString strict n rest).cons ch
    else if c < 32 then
      if strict then .bad else (scanString strict n s).cons c
    else (scanString strict n s).cons c

def isDigit (c : Nat) : Bool := 48 ≤ c && c ≤ 57

/-- `-?` -/
def minus : Str → Str
  | 45 :: _ => [45]
  | _ => []

/-- `[-+]?` -/
def plusMinus : Str → Str
  | 45 :: _ => [45]
  | 43 :: _ => [43]
  | _ => []

/-- jsonlib.py:409-412 `NUMBER_RE`: the integer `-?(?:0|[1-9]\d*)`, and the rest. -/
def matchInteger (s : Str) : Option (Str × Str) :=
  match s.drop (minus s).length with
  | [] => none
  | c :: cs =>
    if c = 48 then some (minus s ++ [48], cs)
    else if isDigit c then some (minus s ++ c :: cs.takeWhile isDigit, cs.dropWhile isDigit)
    else none

/-- `(\.\d+)?` -/
def matchFrac (s : Str) : Str × Str :=
  match s with
  | 46 :: c :: cs => if isDigit c then (46 :: c :: cs.takeWhile isDigit, cs.dropWhile isDigit) else ([], s)
  | _ => ([], s)

/-- `([eE][-+]?\d+)?` -/
def matchExp : Str → Str × Str
  | [] => ([], [])
  | e :: cs =>
    if e = 101 ∨ e = 69 then
      match cs.drop (plusMinus cs).length with
      | d :: ds => if isDigit d then (e :: plusMinus cs ++ d :: ds.takeWhile isDigit, ds.dropWhile isDigit) else ([], e :: cs)
      | [] => ([], e :: cs)
    else ([], e :: cs)

def natParse (s : Str) : Nat := s.foldl (fun acc c => acc * 10 + (c - 48)) 0

/-- `int(text)`, for texts that `NUMBER_RE` finds. -/
def intParse (s : Str) : Int :=
  match s with
  | 45 :: cs => -(natParse cs : Int)
  | cs => (natParse cs : Int)

/-- jsonlib.py:446-467: what is not a string, object or array. -/
def scanOther (P : Floats) (s : Str) : R (Json P.F) :=
  if s.take 4 = nullText then .ok .null (s.drop 4)
  else if s.take 4 = trueText then .ok (.bool true) (s.drop 4)
  else if s.take 5 = falseText then .ok (.bool false) (s.drop 5)
  else
    match matchInteger s with
    | some (integer, rest) =>
      let (frac, rest) := matchFrac rest
      let (exp, rest) := matchExp rest
      if frac ≠ [] ∨ exp ≠ [] then .ok (.float (P.parse (integer ++ frac ++ exp))) rest
      else .ok (.int (intParse integer)) rest
    | none =>
      if s.take 3 = nanText then .ok .nan (s.drop 3)
      else if s.take 8 = infText then .ok .inf (s.drop 8)
      else if s.take 9 = negInfText then .ok .negInf (s.drop 9)
      else .bad

/-- `dct[k] = v`. -/
def setItem {α : Type} (k : Str) (v : α) : List (Str × α) → List (Str × α)
  | [] => [(k, v)]
  | (k', v') :: kvs => if k' = k then (k, v) :: kvs else (k', v') :: setItem k v kvs

/-- jsonlib.py:671 `dict(pairs)`. -/
def dictOf {α : Type} (pairs : List (Str × α)) : List (Str × α) := pairs.foldl (fun d kv => setItem kv.1 kv.2 d) []

/-- jsonlib.py:633-639, 706-712: white space in front of a value. -/
def skipFast (s : Str) : Str :=
  match s with
  | [] => []
  | c :: s' =>
    if isWs c then
      match s' with
      | [] => []
      | d :: s'' => if isWs d then skipWs s'' else d :: s''
    else c :: s'

mutual
/-- jsonlib.py:427-467 `_scan_once`. -/
def scan (P : Floats) (strict : Bool) : Nat → Str → R (Json P.F)
  | 0, _ => .outOfFuel
  | _ + 1, [] => .bad
  | n + 1, c :: s =>
    if c = 34 then
      match scanString strict (s.length + 1) s with
      | .ok t rest => .ok (.str t) rest
      | .bad => .bad
      | .outOfFuel => .outOfFuel
    else if c = 123 then object P strict n s
    else if c = 91 then array P strict n s
    else scanOther P (c :: s)
/-- jsonlib.py:678-687 `JSONArray`, up to the loop. -/
def array (P : Floats) (strict : Bool) : Nat → Str → R (Json P.F)
  | 0, _ => .outOfFuel
  | n + 1, s =>
    match skipWs s with
    | 93 :: rest => .ok (.arr []) rest
    | s' =>
      match elements P strict n s' with
      | .ok xs rest => .ok (.arr xs) rest
      | .bad => .bad
      | .outOfFuel => .outOfFuel
/-- jsonlib.py:688-714: the loop of `JSONArray`. -/
def elements (P : Floats) (strict : Bool) : Nat → Str → R (List (Json P.F))
  | 0, _ => .outOfFuel
  | n + 1, s =>
    match scan P strict n s with
    | .ok x rest =>
      match skipWs rest with
      | 93 :: rest' => .ok [x] rest'
      | 44 :: rest' =>
        match elements P strict n (skipFast rest') with
        | .ok xs rest'' => .ok (x :: xs) rest''
        | .bad => .bad
        | .outOfFuel => .outOfFuel
      | _ => .bad
    | .bad => .bad
    | .outOfFuel => .outOfFuel
/-- jsonlib.py:586-621 `JSONObject`, up to the loop, and its end. -/
def object (P : Floats) (strict : Bool) : Nat → Str → R (Json P.F)
  | 0, _ => .outOfFuel
  | n + 1, s =>
    match skipWs s with
    | 125 :: rest => .ok (.obj []) rest
    | 34 :: rest =>
      match entries P strict n rest with
      | .ok kvs rest => .ok (.obj (dictOf kvs)) rest
      | .bad => .bad
      | .outOfFuel => .outOfFuel
    | _ => .bad
/-- jsonlib.py:622-667: the loop of `JSONObject`; the text begins behind the quote of a key. -/
def entries (P : Floats) (strict : Bool) : Nat → Str → R (List (Str × Json P.F))
  | 0, _ => .outOfFuel
  | n + 1, s =>
    match scanString strict (s.length + 1) s with
    | .ok k rest =>
      match skipWs rest with
      | 58 :: rest =>
        match scan P strict n (skipFast rest) with
        | .ok v rest =>
          match skipWs rest with
          | 125 :: rest => .ok [(k, v)] rest
          | 44 :: rest =>
            match skipWs rest with
            | 34 :: rest =>
              match entries P strict n rest with
              | .ok kvs rest => .ok ((k, v) :: kvs) rest
              | .bad => .bad
              | .outOfFuel => .outOfFuel
            | _ => .bad
          | _ => .bad
        | .bad => .bad
        | .outOfFuel => .outOfFuel
      | _ => .bad
    | .bad => .bad
    | .outOfFuel => .outOfFuel
end

inductive Outcome (α : Type) where
  | value (a : α)
  | error
  | outOfFuel

/-- jsonlib.py:738-743 `JSONDecoder.decode`. -/
def decode (P : Floats) (strict : Bool) (s : Str) : Outcome (Json P.F) :=
  match scan P strict (3 * s.length + 3) (skipWs s) with
  | .ok v rest => if skipWs rest = [] then .value v else .error
  | .bad => .error
  | .outOfFuel => .outOfFuel

/-- jsonlib.py:916-951 `loads`, for strings and without hooks. -/
def loads (P : Floats) (strict : Bool) (s : Str) : Outcome (Json P.F) :=
  match s with
  | 0xFEFF :: _ => .error
  | _ => decode P strict s

/-! ## Encodings -/

inductive Encoding where
  | utf8
  | utf8sig
  | utf16
  | utf16be
  | utf16le
  | utf32
  | utf32be
  | utf32le
deriving DecidableEq

/-- jsonlib.py:859-875: without a byte order mark. -/
def detectPlain (b : List Nat) : Encoding :=
  if 4 ≤ b.length then
    if b.getD 0 0 = 0 then (if b.getD 1 0 ≠ 0 then .utf16be else .utf32be)
    else if b.getD 1 0 = 0 then (if b.getD 2 0 ≠ 0 ∨ b.getD 3 0 ≠ 0 then .utf16le else .utf32le)
    else .utf8
  else if b.length = 2 then
    if b.getD 0 0 = 0 then .utf16be
    else if b.getD 1 0 = 0 then .utf16le
    else .utf8
  else .utf8

/-- jsonlib.py:850-875 `detect_encoding`. -/
def detect (b : List Nat) : Encoding :=
  if [0, 0, 0xFE, 0xFF].isPrefixOf b ∨ [0xFF, 0xFE, 0, 0].isPrefixOf b then .utf32
  else if [0xFE, 0xFF].isPrefixOf b ∨ [0xFF, 0xFE].isPrefixOf b then .utf16
  else if [0xEF, 0xBB, 0xBF].isPrefixOf b then .utf8sig
  else detectPlain b

end Verif.Json
