import Verif.Mask.Model

/-! Sets of characters. -/
namespace Verif.Mask

/-- The parts are in order, neither overlapping nor adjacent, and there are no empty ones: the invariant of
`CharMask` (unicode_categories.py:38-42). -/
structure Mask.Ok (m : Mask) : Prop where
  part : ∀ b ∈ bounds m, b.1 < b.2 ∧ b.2 ≤ top
  order : (bounds m).Pairwise fun a b => a.2 < b.1

/-- The parts are in order and do not overlap, and there are no empty ones; they may be adjacent. -/
structure Mask.Loose (m : Mask) : Prop where
  part : ∀ b ∈ bounds m, b.1 < b.2 ∧ b.2 ≤ top
  order : (bounds m).Pairwise fun a b => a.2 ≤ b.1

/-- What is asked of the tables of characters. -/
structure Unicode.Ok (u : Unicode) : Prop where
  digit : u.digit.Loose
  word : u.word.Loose
  caseable : u.caseable.Pairwise (· < ·)
  char : ∀ c ∈ u.caseable, c < top

/-- White space (for `str` patterns, and for `bytes` patterns or with `re.ASCII`). -/
def isSpace (ascii : Bool) (c : Nat) : Prop :=
  (9 ≤ c ∧ c ≤ 13) ∨ c = 32 ∨ (ascii = false ∧ ((28 ≤ c ∧ c ≤ 31) ∨ c = 133 ∨ c = 160 ∨ c = 5760 ∨ (8192 ≤ c ∧ c ≤ 8202) ∨
    c = 8232 ∨ c = 8233 ∨ c = 8239 ∨ c = 8287 ∨ c = 12288))

/-- Which characters are in a category: with `re.ASCII`, the characters of the categories are ASCII characters. -/
def inCategory (u : Unicode) (ascii : Bool) (c : Nat) : Category → Prop
  | .digit => covers u.digit c ∧ (ascii = true → c < 128)
  | .notDigit => ¬(covers u.digit c ∧ (ascii = true → c < 128))
  | .space => isSpace ascii c
  | .notSpace => ¬isSpace ascii c
  | .word => covers u.word c ∧ (ascii = true → c < 128)
  | .notWord => ¬(covers u.word c ∧ (ascii = true → c < 128))

/-- Which characters an expression matches, without `re.IGNORECASE`. -/
def Term.Matches (u : Unicode) (f : Flags) (c : Nat) : Term → Prop
  | .literal d => c = d
  | .notLiteral d => c ≠ d
  | .range lo hi => lo ≤ c ∧ c ≤ hi
  | .category k => inCategory u f.ascii c k
  | .any => c = 10 → f.dotAll = true

/-- Characters of expressions are characters; ranges are not empty (`sre_parse` refuses others). -/
def Term.Ok : Term → Prop
  | .literal d => d < top
  | .notLiteral d => d < top
  | .range lo hi => lo ≤ hi ∧ hi < top
  | _ => True

/-- The lower case of an ASCII character. -/
def asciiLower (c : Nat) : Nat := if 65 ≤ c ∧ c ≤ 90 then c + 32 else c
/-- The upper case of an ASCII character. -/
def asciiUpper (c : Nat) : Nat := if 97 ≤ c ∧ c ≤ 122 then c - 32 else c

/-- The characters that mean something in regular expressions. -/
def special : List Nat := [42, 43, 63, 40, 41, 91, 92, 94, 36, 124, 46]

end Verif.Mask
