/-
Calls of methods of built-in classes, with the object and the arguments given: `str.find(s, x)`, which is also how `s.find(x)` is seen.
-/
namespace Verif.Unbound

/-- A Python value as an argument: anything, or a tuple. -/
inductive Value
  | atom (v : Nat) | tup (items : List Value)

/-- What a call does: a result, the `TypeError` for objects or arguments of the wrong class, or another exception. -/
inductive Res (R : Type)
  | result (r : R) | typeError | raises (e : Nat)
deriving DecidableEq

/-- An object a method is called on: its class, and what it stands for. -/
structure Self where
  cls : Nat
  val : Nat

/-- Python: the method of class `c` is for objects of this class and its subclasses (`sub`). -/
def python {R : Type} (sub : Nat → Nat → Bool) (c : Nat) (method : Nat → List Value → Res R) (self : Self) (args : List Value) : Res R :=
  if sub self.cls c then method self.val args else .typeError

end Verif.Unbound
