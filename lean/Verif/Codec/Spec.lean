import Verif.Codec.Model

/-! Specification: UTF-8 as the Unicode standard defines it, and what Python's codecs do with errors. -/
namespace Verif.Codec

/-- Table 3-7 of the Unicode standard, "Well-Formed UTF-8 Byte Sequences": the ranges of the bytes. -/
def table : List (List (Nat × Nat)) :=
  [[(0x00, 0x7F)],
   [(0xC2, 0xDF), (0x80, 0xBF)],
   [(0xE0, 0xE0), (0xA0, 0xBF), (0x80, 0xBF)],
   [(0xE1, 0xEC), (0x80, 0xBF), (0x80, 0xBF)],
   [(0xED, 0xED), (0x80, 0x9F), (0x80, 0xBF)],
   [(0xEE, 0xEF), (0x80, 0xBF), (0x80, 0xBF)],
   [(0xF0, 0xF0), (0x90, 0xBF), (0x80, 0xBF), (0x80, 0xBF)],
   [(0xF1, 0xF3), (0x80, 0xBF), (0x80, 0xBF), (0x80, 0xBF)],
   [(0xF4, 0xF4), (0x80, 0x8F), (0x80, 0xBF), (0x80, 0xBF)]]

/-- How many bytes at the start are in the ranges of a row. -/
def matched : List (Nat × Nat) → List Nat → Nat
  | (lo, hi) :: row, b :: l => if lo ≤ b ∧ b ≤ hi then matched row l + 1 else 0
  | [], _ => 0
  | _ :: _, [] => 0

/-- The bytes are a well-formed sequence. -/
def WellFormed (seq : List Nat) : Prop := ∃ row ∈ table, row.length = seq.length ∧ matched row seq = row.length

/-- The code point of a well-formed sequence (Table 3-6, "UTF-8 Bit Distribution"). -/
def value : List Nat → Nat
  | [a] => a
  | [a, b] => (a - 0xC0) * 64 + (b - 0x80)
  | [a, b, c] => (a - 0xE0) * 4096 + (b - 0x80) * 64 + (c - 0x80)
  | [a, b, c, d] => (a - 0xF0) * 262144 + (b - 0x80) * 4096 + (c - 0x80) * 64 + (d - 0x80)
  | _ => 0

/-- Unicode scalar values: code points but surrogates. -/
def Scalar (c : Nat) : Prop := c ≤ 0x10FFFF ∧ ¬ (0xD800 ≤ c ∧ c ≤ 0xDFFF)

/-- The length of the well-formed sequence at the start, if there is one. -/
def seqLength (l : List Nat) : Option Nat := (table.find? fun row => matched row l = row.length).map (·.length)

/-- The length of an error at the start: the longest part that might have become a well-formed sequence, or one byte ("maximal subpart", section 3.9). -/
def subpart (l : List Nat) : Nat := (table.map fun row => matched row l).foldl max 1

/-- How Python decodes UTF-8 if errors do not raise: `h` is the replacement of the bytes of an error. `n` is at least the number of bytes. -/
def pyDecodeFrom (h : List Nat → List Nat) : Nat → List Nat → List Nat
  | 0, _ => []
  | _ + 1, [] => []
  | n + 1, b :: l =>
    match seqLength (b :: l) with
    | some k => value ((b :: l).take k) :: pyDecodeFrom h n ((b :: l).drop k)
    | none => h ((b :: l).take (subpart (b :: l))) ++ pyDecodeFrom h n ((b :: l).drop (subpart (b :: l)))

/-- How Python decodes UTF-8 if errors do not raise. -/
def pyDecode (h : List Nat → List Nat) (l : List Nat) : List Nat := pyDecodeFrom h l.length l

/-- There is no encoded surrogate among the bytes. -/
def NoSurrogates (l : List Nat) : Prop := ∀ pre b c post, l = pre ++ 0xED :: b :: c :: post → ¬ (0xA0 ≤ b ∧ b ≤ 0xBF ∧ 0x80 ≤ c ∧ c ≤ 0xBF)

/-- The errors argument leads to a replacement `f` of each byte of an error, on its own. -/
def Bytewise (errors : Errors (List Nat)) (input : List Nat) (f : Nat → List Nat) : Prop :=
  match errors with
  | .strict => False
  | .ignore => f = fun _ => []
  | .replace => f = fun _ => [0xFFFD]
  | .custom h => ∀ i (hi : i < input.length), h i (i + 1) = (f input[i], i + 1)

/-- The errors argument leads to a replacement `f` (that the codec can encode) of each character of an error, on its own. -/
def Charwise (errors : Errors Replacement) (input : List Nat) (limit : Nat) (f : Nat → List Nat) : Prop :=
  match errors with
  | .strict => False
  | .ignore => f = fun _ => []
  | .replace => f = fun _ => [0x3F]
  | .custom h => ∀ i (hi : i < input.length), (h i (i + 1)).2 = i + 1 ∧
      ((h i (i + 1)).1 = .bytes (f input[i]) ∨ (h i (i + 1)).1 = .str (f input[i]) ∧ ∀ c ∈ f input[i], c < limit)

/-- The end of the run of characters from position `i` that cannot be encoded, which is the end of Python's error. -/
def runEnd (limit : Nat) (s : List Nat) (i : Nat) : Nat := i + ((s.drop i).takeWhile fun c => decide (limit ≤ c)).length

end Verif.Codec
