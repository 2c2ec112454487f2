import Verif.Json.Model

/-! The JSON language (RFC 8259, with `NaN`, `Infinity` and `-Infinity`, which Python adds to it). -/
namespace Verif.Json

/-- The hexadecimal digits: `0` to `9`, `a` to `f` and `A` to `F`. -/
def hexTable : List (Nat × Nat) :=
  [(48, 0), (49, 1), (50, 2), (51, 3), (52, 4), (53, 5), (54, 6), (55, 7), (56, 8), (57, 9), (97, 10), (98, 11), (99, 12), (100, 13),
    (101, 14), (102, 15), (65, 10), (66, 11), (67, 12), (68, 13), (69, 14), (70, 15)]

/-- The hexadecimal number of a `\u` escape sequence: exactly four digits. -/
def hex4 : Str → Option Int
  | [a, b, c, d] =>
    match hexTable.lookup a, hexTable.lookup b, hexTable.lookup c, hexTable.lookup d with
    | some a, some b, some c, some d => some ((((a * 16 + b) * 16 + c) * 16 + d : Nat) : Int)
    | _, _, _, _ => none
  | _ => none

def isHigh (u : Int) : Prop := 0xD800 ≤ u ∧ u ≤ 0xDBFF
def isLow (u : Int) : Prop := 0xDC00 ≤ u ∧ u ≤ 0xDFFF

/-- The escape sequences of two characters. -/
def shortEscapes : List (Nat × Nat) := [(34, 34), (92, 92), (47, 47), (98, 8), (102, 12), (110, 10), (114, 13), (116, 9)]

/-- The text between the quotes of a string, and the string.  `hex` says which texts are numbers in `\u` escape
sequences. -/
inductive Body (hex : Str → Option Int) (strict : Bool) : Str → Str → Prop
  | nil : Body hex strict [] []
  | plain {c s t} : c ≠ 34 → c ≠ 92 → (strict = true → 32 ≤ c) → Body hex strict s t → Body hex strict (c :: s) (c :: t)
  | short {e c s t} : (e, c) ∈ shortEscapes → Body hex strict s t → Body hex strict (92 :: e :: s) (c :: t)
  /-- a character, but not the first half of a surrogate pair in front of the second -/
  | unicode {a b c d : Nat} {u : Int} {s t} : hex [a, b, c, d] = some u → 0 ≤ u → u ≤ 0x10FFFF →
      (isHigh u → ∀ a' b' c' d' s' u', s = 92 :: 117 :: a' :: b' :: c' :: d' :: s' → hex [a', b', c', d'] = some u' → ¬isLow u') →
      Body hex strict s t → Body hex strict (92 :: 117 :: a :: b :: c :: d :: s) (u.toNat :: t)
  | pair {a b c d a' b' c' d' : Nat} {u u' : Int} {s t} : hex [a, b, c, d] = some u → isHigh u → hex [a', b', c', d'] = some u' → isLow u' →
      Body hex strict s t →
      Body hex strict (92 :: 117 :: a :: b :: c :: d :: 92 :: 117 :: a' :: b' :: c' :: d' :: s)
        ((0x10000 + ((u - 0xD800) * 0x400 + (u' - 0xDC00))).toNat :: t)

def Digits (s : Str) : Prop := ∀ c ∈ s, 48 ≤ c ∧ c ≤ 57

/-- A decimal number without leading zeros, and its value. -/
inductive Decimal : Str → Nat → Prop
  | zero : Decimal [48] 0
  | digits {c s} : 49 ≤ c → c ≤ 57 → Digits s → Decimal (c :: s) (natParse (c :: s))

inductive IntText : Str → Int → Prop
  | pos {s n} : Decimal s n → IntText s n
  | neg {s n} : Decimal s n → IntText (45 :: s) (-n)

inductive FracText : Str → Prop
  | none : FracText []
  | some {s} : s ≠ [] → Digits s → FracText (46 :: s)

inductive ExpText : Str → Prop
  | none : ExpText []
  | some {e sign s} : e = 101 ∨ e = 69 → sign = [] ∨ sign = [43] ∨ sign = [45] → s ≠ [] → Digits s → ExpText (e :: sign ++ s)

/-- A number with fraction or exponent. -/
inductive FloatText : Str → Prop
  | mk {i frac exp k} : IntText i k → FracText frac → ExpText exp → frac ≠ [] ∨ exp ≠ [] → FloatText (i ++ frac ++ exp)

def Ws (s : Str) : Prop := ∀ c ∈ s, c = 32 ∨ c = 9 ∨ c = 10 ∨ c = 13

/-- Of several entries with one key the last counts, in the place of the first. -/
def lastWins {α : Type} (kvs : List (Str × α)) : List (Str × α) :=
  (kvs.map Prod.fst).eraseDups.filterMap fun k => (kvs.reverse.lookup k).map fun v => (k, v)

mutual
/-- The texts of a value. -/
inductive Text (hex : Str → Option Int) (P : Floats) (strict : Bool) : Str → Json P.F → Prop
  | null : Text hex P strict nullText .null
  | true : Text hex P strict trueText (.bool true)
  | false : Text hex P strict falseText (.bool false)
  | nan : Text hex P strict nanText .nan
  | inf : Text hex P strict infText .inf
  | negInf : Text hex P strict negInfText .negInf
  | int {s i} : IntText s i → Text hex P strict s (.int i)
  | float {s} : FloatText s → Text hex P strict s (.float (P.parse s))
  | str {s t} : Body hex strict s t → Text hex P strict (34 :: s ++ [34]) (.str t)
  | arrEmpty {w} : Ws w → Text hex P strict (91 :: w ++ [93]) (.arr [])
  | arr {s xs} : Elements hex P strict s xs → Text hex P strict (91 :: s ++ [93]) (.arr xs)
  | objEmpty {w} : Ws w → Text hex P strict (123 :: w ++ [125]) (.obj [])
  | obj {s kvs} : Entries hex P strict s kvs → Text hex P strict (123 :: s ++ [125]) (.obj (lastWins kvs))
/-- Values with commas between them. -/
inductive Elements (hex : Str → Option Int) (P : Floats) (strict : Bool) : Str → List (Json P.F) → Prop
  | one {w s w' x} : Ws w → Text hex P strict s x → Ws w' → Elements hex P strict (w ++ s ++ w') [x]
  | cons {w s w' x s' xs} : Ws w → Text hex P strict s x → Ws w' → Elements hex P strict s' xs →
      Elements hex P strict (w ++ s ++ w' ++ 44 :: s') (x :: xs)
/-- Entries of an object with commas between them. -/
inductive Entries (hex : Str → Option Int) (P : Floats) (strict : Bool) : Str → List (Str × Json P.F) → Prop
  | one {w key k w' w'' s v w'''} : Ws w → Body hex strict key k → Ws w' → Ws w'' → Text hex P strict s v → Ws w''' →
      Entries hex P strict (w ++ 34 :: key ++ 34 :: w' ++ 58 :: w'' ++ s ++ w''') [(k, v)]
  | cons {w key k w' w'' s v w''' s' kvs} : Ws w → Body hex strict key k → Ws w' → Ws w'' → Text hex P strict s v → Ws w''' →
      Entries hex P strict s' kvs →
      Entries hex P strict (w ++ 34 :: key ++ 34 :: w' ++ 58 :: w'' ++ s ++ w''' ++ 44 :: s') ((k, v) :: kvs)
end

/-- A JSON document: a value with white space around it. -/
def Document (hex : Str → Option Int) (P : Floats) (strict : Bool) (s : Str) (v : Json P.F) : Prop :=
  ∃ w t w', Ws w ∧ Text hex P strict t v ∧ Ws w' ∧ s = w ++ t ++ w'

/-- What is needed of floats: the text of a float is a number with fraction or exponent, and is read as that float. -/
structure Floats.Ok (P : Floats) : Prop where
  text : ∀ f, FloatText (P.repr f)
  parse : ∀ f, P.parse (P.repr f) = f

/-- White space with a character in it. -/
def Around (c : Nat) (s : Str) : Prop := ∃ w w', Ws w ∧ Ws w' ∧ s = w ++ c :: w'

/-- Separators with nothing but white space added, and white space for indentation. -/
structure Opts.Ok (o : Opts) : Prop where
  indent : ∀ s, o.indent = some s → Ws s
  itemSep : Around 44 o.itemSep
  keySep : Around 58 o.keySep

/-- There is no sign, underscore or white space among the four characters behind any `\u`. -/
def PlainHex (s : Str) : Prop :=
  ∀ pre a b c d rest, s = pre ++ 92 :: 117 :: a :: b :: c :: d :: rest →
    ∀ x ∈ [a, b, c, d], x ≠ 43 ∧ x ≠ 45 ∧ x ≠ 95 ∧ ¬(9 ≤ x ∧ x ≤ 13) ∧ ¬(28 ≤ x ∧ x ≤ 32)

/-- A Python string in which no first half of a surrogate pair is in front of a second half. -/
def NoPairs : Str → Prop
  | [] => True
  | c :: s => (0xD800 ≤ c ∧ c ≤ 0xDBFF → ∀ d ∈ s.head?, ¬(0xDC00 ≤ d ∧ d ≤ 0xDFFF)) ∧ NoPairs s

mutual
/-- Strings and dictionaries as there are in Python: code points up to 0x10FFFF, distinct keys; `p` is asked of the strings. -/
def Json.Ok {F : Type} (p : Str → Prop) : Json F → Prop
  | .str s => (∀ c ∈ s, c ≤ 0x10FFFF) ∧ p s
  | .arr xs => OkAll p xs
  | .obj kvs => (kvs.map Prod.fst).Nodup ∧ OkItems p kvs
  | _ => True
def OkAll {F : Type} (p : Str → Prop) : List (Json F) → Prop
  | [] => True
  | x :: xs => x.Ok p ∧ OkAll p xs
def OkItems {F : Type} (p : Str → Prop) : List (Str × Json F) → Prop
  | [] => True
  | (k, v) :: kvs => ((∀ c ∈ k, c ≤ 0x10FFFF) ∧ p k) ∧ v.Ok p ∧ OkItems p kvs
end

/-- Alphabetical order, by code points. -/
inductive Before : Str → Str → Prop
  | nil {c s} : Before [] (c :: s)
  | lt {c d s t} : c < d → Before (c :: s) (d :: t)
  | cons {c s t} : Before s t → Before (c :: s) (c :: t)

mutual
/-- All dictionaries have their keys in alphabetical order. -/
def Json.Sorted {F : Type} : Json F → Prop
  | .arr xs => SortedAll xs
  | .obj kvs => (kvs.map Prod.fst).Pairwise Before ∧ SortedItems kvs
  | _ => True
def SortedAll {F : Type} : List (Json F) → Prop
  | [] => True
  | x :: xs => x.Sorted ∧ SortedAll xs
def SortedItems {F : Type} : List (Str × Json F) → Prop
  | [] => True
  | (_, v) :: kvs => v.Sorted ∧ SortedItems kvs
end

mutual
/-- Dictionaries are the same if they have the same entries, in any order. -/
inductive Same {F : Type} : Json F → Json F → Prop
  | refl {x} : Same x x
  | arr {xs ys} : SameAll xs ys → Same (.arr xs) (.arr ys)
  | obj {xs ys zs} : SameItems xs ys → ys.Perm zs → Same (.obj xs) (.obj zs)
inductive SameAll {F : Type} : List (Json F) → List (Json F) → Prop
  | nil : SameAll [] []
  | cons {x y xs ys} : Same x y → SameAll xs ys → SameAll (x :: xs) (y :: ys)
inductive SameItems {F : Type} : List (Str × Json F) → List (Str × Json F) → Prop
  | nil : SameItems [] []
  | cons {k x y xs ys} : Same x y → SameItems xs ys → SameItems ((k, x) :: xs) ((k, y) :: ys)
end

/-! ## Encodings -/

/-- Unicode transformation formats; `big`: the most significant byte comes first. -/
inductive Form where
  | utf8
  | utf16 (big : Bool)
  | utf32 (big : Bool)

/-- A number of `n` bytes. -/
def byteList (big : Bool) (n : Nat) (u : Nat) : List Nat :=
  let little := (List.range n).map fun i => u / 256 ^ i % 256
  if big then little.reverse else little

def Form.char : Form → Nat → List Nat
  | .utf8, c =>
    if c < 0x80 then [c]
    else if c < 0x800 then [0xC0 + c / 64, 0x80 + c % 64]
    else if c < 0x10000 then [0xE0 + c / 4096, 0x80 + c / 64 % 64, 0x80 + c % 64]
    else [0xF0 + c / 262144, 0x80 + c / 4096 % 64, 0x80 + c / 64 % 64, 0x80 + c % 64]
  | .utf16 big, c =>
    if c < 0x10000 then byteList big 2 c
    else byteList big 2 (0xD800 + (c - 0x10000) / 1024) ++ byteList big 2 (0xDC00 + (c - 0x10000) % 1024)
  | .utf32 big, c => byteList big 4 c

/-- The bytes of a text, with a byte order mark in front of them or not. -/
def Form.bytes (f : Form) (bom : Bool) (s : Str) : List Nat := (if bom then 0xFEFF :: s else s).flatMap f.char

/-- Python's name for it. -/
def Form.name : Form → Bool → Encoding
  | .utf8, false => .utf8
  | .utf8, true => .utf8sig
  | .utf16 true, false => .utf16be
  | .utf16 false, false => .utf16le
  | .utf16 _, true => .utf16
  | .utf32 true, false => .utf32be
  | .utf32 false, false => .utf32le
  | .utf32 _, true => .utf32

end Verif.Json
