import Verif.Buffers.Text
/-
Python's `bytes` methods and operators between bytes-like types, as CPython implements them
(Objects/bytes_methods.c, Python/pyctype.c, the `richcompare` functions of bytesobject.c,
bytearrayobject.c, memoryobject.c and arraymodule.c), without reference to CrossHair.
-/
namespace Verif.Buffers

/-- An ASCII letter and its partner in the other case, as in `A` and `a`. -/
def letters : List (Int × Int) := (List.range 26).map fun (k : Nat) => (65 + (k : Int), 97 + (k : Int))

/-- Is `y` what remains of `xs` after removing, from the left and/or the right end, the elements
that satisfy `P`? -/
def StrippedLeft (P : Int → Prop) (xs ys : List Int) : Prop :=
  (∃ p, xs = p ++ ys ∧ ∀ c ∈ p, P c) ∧ ∀ c cs, ys = c :: cs → ¬ P c
@[inherit_doc StrippedLeft] def StrippedRight (P : Int → Prop) (xs ys : List Int) : Prop :=
  (∃ p, xs = ys ++ p ∧ ∀ c ∈ p, P c) ∧ ∀ c cs, ys = cs ++ [c] → ¬ P c
@[inherit_doc StrippedLeft] def StrippedBoth (P : Int → Prop) (xs ys : List Int) : Prop :=
  (∃ p q, xs = p ++ ys ++ q ∧ (∀ c ∈ p, P c) ∧ ∀ c ∈ q, P c) ∧
    (∀ c cs, ys = c :: cs → ¬ P c) ∧ ∀ c cs, ys = cs ++ [c] → ¬ P c

/-- The bytes that `strip(chars)` removes: the given ones, or tab, line feed, vertical tab, form
feed, carriage return and space. -/
def Removed (chars : Option (List Int)) (c : Int) : Prop :=
  match chars with
  | none => c = 9 ∨ c = 10 ∨ c = 11 ∨ c = 12 ∨ c = 13 ∨ c = 32
  | some ts => c ∈ ts

/-- The pairs of types for which `<` and its like do not raise `TypeError`. -/
def pyOrdered : List (Ty × Ty) :=
  [(.bytes, .bytes), (.bytes, .bytearray),
   (.bytearray, .bytes), (.bytearray, .bytearray), (.bytearray, .memoryview), (.bytearray, .arrayB),
   (.memoryview, .bytearray)]

/-- The pairs of types that can be equal: all buffers, except that `bytes` does not know arrays. -/
def pyEqual : List (Ty × Ty) :=
  [(.bytes, .bytes), (.bytes, .bytearray), (.bytes, .memoryview),
   (.bytearray, .bytes), (.bytearray, .bytearray), (.bytearray, .memoryview), (.bytearray, .arrayB),
   (.memoryview, .bytes), (.memoryview, .bytearray), (.memoryview, .memoryview),
   (.memoryview, .arrayB)]

/-- The pairs of types that can be added; the sum has the type of the first. -/
def pyAddable : List (Ty × Ty) :=
  [(.bytes, .bytes), (.bytes, .bytearray), (.bytes, .memoryview), (.bytes, .arrayB),
   (.bytearray, .bytes), (.bytearray, .bytearray), (.bytearray, .memoryview), (.bytearray, .arrayB)]

end Verif.Buffers
