import Verif.Floats.Spec
/-
What a value of the solver is in Python.
-/
namespace Verif.Values

/-! ### Floats as the solver writes them -/

/-- A float: its sign is apart, and `fin` has a positive number. -/
inductive Dbl where
  | zero (neg : Bool)
  | fin (neg : Bool) (q : ℚ)
  | inf (neg : Bool)
  | nan
  deriving DecidableEq

/-- The number that a character is as a hexadecimal digit. -/
inductive HexDigit : Char → Nat → Prop
  | digit (c : Char) (h : '0' ≤ c ∧ c ≤ '9') : HexDigit c (c.toNat - 48)
  | letter (c : Char) (h : 'a' ≤ c ∧ c ≤ 'f') : HexDigit c (c.toNat - 87)

/-- The number that a text of binary digits is. -/
inductive Binary : List Char → Nat → Prop
  | nil : Binary [] 0
  | zero (cs : List Char) (n : Nat) (h : Binary cs n) : Binary (cs ++ ['0']) (2 * n)
  | one (cs : List Char) (n : Nat) (h : Binary cs n) : Binary (cs ++ ['1']) (2 * n + 1)

/-- The number that a text of hexadecimal digits is. -/
inductive Hexadecimal : List Char → Nat → Prop
  | nil : Hexadecimal [] 0
  | snoc (cs : List Char) (n : Nat) (c : Char) (d : Nat) (h : Hexadecimal cs n) (hc : HexDigit c d) : Hexadecimal (cs ++ [c]) (16 * n + d)

/-- The number of an exponent field and a fraction field, of double precision: subnormal for the exponent field 0. -/
def magnitude (e f : Nat) : ℚ := if e = 0 then f * 2 ^ (-1074 : Int) else (2 ^ 52 + f) * 2 ^ ((e : Int) - 1075)

/-- The text of a float in SMT-LIB: names for zeros, infinities and not-a-number; other floats by sign bit, 11 bits of the exponent and 13
hexadecimal digits of the fraction. -/
inductive Printed : Dbl → List Char → Prop
  | plusZero : Printed (.zero false) "(_ +zero 11 53)".toList
  | minusZero : Printed (.zero true) "(_ -zero 11 53)".toList
  | plusInf : Printed (.inf false) "(_ +oo 11 53)".toList
  | minusInf : Printed (.inf true) "(_ -oo 11 53)".toList
  | nan : Printed .nan "(_ NaN 11 53)".toList
  | number (neg : Bool) (es fs : List Char) (e f : Nat) (he : Binary es e) (hel : es.length = 11) (h1 : e ≠ 2047)
      (hf : Hexadecimal fs f) (hfl : fs.length = 13) (h0 : e ≠ 0 ∨ f ≠ 0) :
      Printed (.fin neg (magnitude e f))
        ("(fp #b".toList ++ [if neg then '1' else '0'] ++ " #b".toList ++ es ++ " #x".toList ++ fs ++ [')'])

/-! ### Sequences -/

/-- A term of the solver for a sequence. -/
inductive Term (α : Type) where
  | empty
  | unit (a : α)
  | concat (parts : List (Term α))

/-- The items that a term of a sequence stands for. -/
inductive Stands {α : Type} : Term α → List α → Prop
  | empty : Stands .empty []
  | unit (a : α) : Stands (.unit a) [a]
  | none : Stands (.concat []) []
  | more (t : Term α) (ts : List (Term α)) (xs ys : List α) (h : Stands t xs) (hs : Stands (.concat ts) ys) :
      Stands (.concat (t :: ts)) (xs ++ ys)

/-- The terms that are units joined one by one from the right: the form of values in models. -/
inductive Chain {α : Type} : Term α → Prop
  | empty : Chain .empty
  | unit (a : α) : Chain (.unit a)
  | cons (a : α) (t : Term α) (h : Chain t) : Chain (.concat [.unit a, t])

end Verif.Values
