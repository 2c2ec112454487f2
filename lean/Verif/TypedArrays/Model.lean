import Verif.TypedArrays.Spec
/-
crosshair/libimpl/arraylib.py: arrays with symbolic items, for integer type codes, with the methods of `ShellMutableSequence`
(crosshair/simplestructs.py 693-822).
-/
namespace Verif.TypedArrays

/-- `INT_TYPE_BOUNDS` (14-27): the least value, and the one after the greatest. -/
def bounds : Code → ℤ × ℤ
  | .uL => (0, 2 ^ 32)
  | .uB => (0, 2 ^ 8)
  | .l => (-2 ^ 31, 2 ^ 31)
  | .b => (-2 ^ 7, 2 ^ 7)
  | .uQ => (0, 2 ^ 64)
  | .q => (-2 ^ 63, 2 ^ 63)
  | .uI => (0, 2 ^ 16)
  | .i => (-2 ^ 15, 2 ^ 15)
  | .uH => (0, 2 ^ 16)
  | .h => (-2 ^ 15, 2 ^ 15)

/-- `check_int` (54-57): a comparison, which floats can take part in. -/
def check (c : Code) : Item → Except Err Item
  | .int z => if (bounds c).1 ≤ z ∧ z < (bounds c).2 then .ok (.int z) else .error .overflow
  | .float z => if (bounds c).1 ≤ z ∧ z < (bounds c).2 then .ok (.float z) else .error .overflow
  | .other => .error .type

/-- `[check_int(x, *bounds) for x in iterable]` (64), and `_iter_checker` (86-91). -/
def checkAll (c : Code) : List Item → Except Err (List Item)
  | [] => .ok []
  | x :: xs => match check c x with
    | .error e => .error e
    | .ok y => match checkAll c xs with
      | .ok ys => .ok (y :: ys)
      | .error e => .error e

/-- `_array` (60-66) for lists. -/
def make (c : Code) (xs : List Item) : Except Err (List Item) := checkAll c xs

/-- The operations: `append` (109-113), `extend` (122-123; all items are checked before they are added), `fromlist` (131-132), and `insert`, item
assignment, `pop` and `reverse` of the superclass (simplestructs.py 714-750, 802-803, 821-822). -/
def run (c : Code) (a : List Item) : Op → List Item × Option Err
  | .append x => match check c x with
    | .ok y => (a ++ [y], none)
    | .error e => (a, some e)
  | .extend xs => match checkAll c xs with
    | .ok ys => (a ++ ys, none)
    | .error e => (a, some e)
  | .fromlist xs => match checkAll c xs with
    | .ok ys => (a ++ ys, none)
    | .error e => (a, some e)
  | .insert k x => (a.take k ++ x :: a.drop k, none)
  | .set k x => if k < a.length then (a.set k x, none) else (a, some .index)
  | .pop => if a = [] then (a, some .index) else (a.dropLast, none)
  | .reverse => (a.reverse, none)

/-- `__ch_realize__` (95-96): `array(self.typecode, self.inner)`, Python's. -/
def realize (c : Code) (a : List Item) : Except Err (List ℤ) := pyAll c a

/-- The items of a symbolic input (43-51): any integers within the bounds. -/
def input (c : Code) (zs : List ℤ) : Bool := zs.all fun z => decide ((bounds c).1 ≤ z ∧ z < (bounds c).2)

/-- What an array has its items in: a list, or after methods like `tobytes` (80-84) a Python array. -/
inductive Store
  | list (zs : List ℤ) | array (zs : List ℤ)

/-- `_realized_inner` (80-84), by `tobytes`, `buffer_info` and others. -/
def tobytes : Store → Store
  | .list zs => .array zs
  | .array zs => .array zs

/-- `self.inner.__eq__(other.inner)` (simplestructs.py 708-712): lists do not know arrays, and arrays do not know lists (`NotImplemented`). -/
def innerEq : Store → Store → Option Bool
  | .list a, .list b => some (decide (a = b))
  | .array a, .array b => some (decide (a = b))
  | _, _ => none

/-- `a == b` for two arrays with symbolic items that are not the same object: the methods of both are asked. -/
def eq (a b : Store) : Bool :=
  match innerEq a b with
  | some r => r
  | none => match innerEq b a with
    | some r => r
    | none => false

end Verif.TypedArrays
