import Mathlib.Data.Int.Notation
/-
Python's `array.array` for integer type codes: items have the range of a C type, and operations check that.
-/
namespace Verif.TypedArrays

/-- The integer type codes, by name: `b B h H i I l L q Q`; `u` is for the unsigned ones. -/
inductive Code
  | b | uB | h | uH | i | uI | l | uL | q | uQ
deriving DecidableEq

/-- Items that are given: integers, floats (by the greatest integer that is not above; which float it is does not matter), and objects that are no numbers. -/
inductive Item
  | int (z : ℤ) | float (floor : ℤ) | other
deriving DecidableEq

inductive Err
  | overflow | type | index
deriving DecidableEq

/-- The bits of the C type, on 64-bit Linux and macOS. -/
def bits : Code → Nat
  | .b => 8 | .uB => 8 | .h => 16 | .uH => 16 | .i => 32 | .uI => 32 | .l => 64 | .uL => 64 | .q => 64 | .uQ => 64

/-- Whether the C type is signed. -/
def signed : Code → Bool
  | .b => true | .h => true | .i => true | .l => true | .q => true | _ => false

/-- The range of the C type. -/
def InRange (c : Code) (z : ℤ) : Prop :=
  if signed c then -2 ^ (bits c - 1) ≤ z ∧ z < 2 ^ (bits c - 1) else 0 ≤ z ∧ z < 2 ^ bits c

instance (c : Code) (z : ℤ) : Decidable (InRange c z) := by unfold InRange; infer_instance

/-- An item as a C value. -/
def pyItem (c : Code) : Item → Except Err ℤ
  | .int z => if InRange c z then .ok z else .error .overflow
  | .float _ => .error .type
  | .other => .error .type

/-- All items, or the first exception. -/
def pyAll (c : Code) : List Item → Except Err (List ℤ)
  | [] => .ok []
  | x :: xs => match pyItem c x with
    | .error e => .error e
    | .ok z => match pyAll c xs with
      | .ok zs => .ok (z :: zs)
      | .error e => .error e

/-- Operations: `append`, `extend` with an iterable, `fromlist`, `insert`, `a[k] = x`, `pop` without an index, and `reverse`. -/
inductive Op
  | append (x : Item) | extend (xs : List Item) | fromlist (xs : List Item) | insert (k : Nat) (x : Item) | set (k : Nat) (x : Item) | pop | reverse

/-- `extend`: items are added one by one until there is an exception. -/
def pyExtend (c : Code) : List ℤ → List Item → List ℤ × Option Err
  | a, [] => (a, none)
  | a, x :: xs => match pyItem c x with
    | .ok z => pyExtend c (a ++ [z]) xs
    | .error e => (a, some e)

/-- Python: the items afterwards, and the exception. -/
def pyRun (c : Code) (a : List ℤ) : Op → List ℤ × Option Err
  | .append x => match pyItem c x with
    | .ok z => (a ++ [z], none)
    | .error e => (a, some e)
  | .extend xs => pyExtend c a xs
  | .fromlist xs => match pyAll c xs with
    | .ok zs => (a ++ zs, none)
    | .error e => (a, some e)
  | .insert k x => match pyItem c x with
    | .ok z => (a.take k ++ z :: a.drop k, none)
    | .error e => (a, some e)
  | .set k x => if k < a.length then
      match pyItem c x with
      | .ok z => (a.set k z, none)
      | .error e => (a, some e)
    else (a, some .index)
  | .pop => if a = [] then (a, some .index) else (a.dropLast, none)
  | .reverse => (a.reverse, none)

end Verif.TypedArrays
