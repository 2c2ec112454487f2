/-
What Python does for `a == b`, `a < b`, `a + b` and so on where one of the operands is a number, text, list, … and the other an object of a class
of the program that is of no such kind ("foreign"): the built-in kinds do not know what to do with it (their methods return `NotImplemented`), so that
the method of the foreign object decides, and if it does not either, objects are unequal, and the other operations are a `TypeError`.
-/
namespace Verif.Reflected

/-- Comparisons. -/
inductive Cmp
  | eq | ne | lt | le | gt | ge
  deriving DecidableEq, Repr

/-- Operations of two operands. -/
inductive Op
  | cmp (c : Cmp) | add
  deriving DecidableEq, Repr

/-- What a method does: it returns a value (numbers stand for them; 0 is `False` and 1 is `True`), or `NotImplemented`, or raises an exception
(0 is `TypeError`). -/
inductive Reply
  | value (v : Nat) | notImplemented | raises (e : Nat)
  deriving DecidableEq, Repr

/-- What an operation does. -/
inductive Res
  | value (v : Nat) | raises (e : Nat)
  deriving DecidableEq, Repr

/-- The methods of a foreign object, when called with the other operand: `__eq__`, `__lt__`, …, `__add__` and `__radd__`. Methods that it does not have
are like those that return `NotImplemented`. -/
structure Foreign where
  cmp : Cmp → Reply
  add : Reply
  radd : Reply

/-- `a < b` is `b > a`. -/
def Cmp.mirror : Cmp → Cmp
  | .eq => .eq | .ne => .ne | .lt => .gt | .gt => .lt | .le => .ge | .ge => .le

/-- The method of a foreign object for an operation that it is the left operand of. -/
def Foreign.own (f : Foreign) : Op → Reply
  | .cmp c => f.cmp c
  | .add => f.add

/-- The method of a foreign object for an operation that it is the right operand of. -/
def Foreign.mirrored (f : Foreign) : Op → Reply
  | .cmp c => f.cmp c.mirror
  | .add => f.radd

/-- What is left if no method knows what to do, for two objects that are not the same. -/
def nobody : Op → Res
  | .cmp .eq => .value 0
  | .cmp .ne => .value 1
  | .cmp _ | .add => .raises 0

/-- Python's result where only the foreign object's method counts. -/
def decided (op : Op) : Reply → Res
  | .value v => .value v
  | .raises e => .raises e
  | .notImplemented => nobody op

/-- `a op f` in Python, for any `a` of a built-in kind. -/
def pyLeft (op : Op) (f : Foreign) : Res := decided op (f.mirrored op)

/-- `f op a` in Python. -/
def pyRight (op : Op) (f : Foreign) : Res := decided op (f.own op)

end Verif.Reflected
