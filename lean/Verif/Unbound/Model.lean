import Verif.Unbound.Spec
/-
The wrappers for methods of built-in classes (crosshair/core.py 357-412).
-/
namespace Verif.Unbound

/-- An argument: a value that is not symbolic, a symbolic value, or a tuple of such. -/
inductive Arg
  | plain (v : Nat) | sym (v : Nat) | tup (items : List Arg)

mutual
/-- The value an argument stands for. -/
def value : Arg → Value
  | .plain v => .atom v
  | .sym v => .atom v
  | .tup l => .tup (values l)
@[inherit_doc value] def values : List Arg → List Value
  | [] => []
  | a :: l => value a :: values l
end

mutual
/-- There is a symbolic value in it: what methods of built-in classes do not take. -/
def holds : Arg → Bool
  | .plain _ => false
  | .sym _ => true
  | .tup l => anyHolds l
@[inherit_doc holds] def anyHolds : List Arg → Bool
  | [] => false
  | a :: l => holds a || anyHolds l
end

/-- `isinstance(a, CrossHairValue)`. -/
def Arg.isSym : Arg → Bool
  | .sym _ => true
  | _ => false

/-- `realize` (283-288): tuples stay as they are. -/
def realize : Arg → Arg
  | .sym v => .plain v
  | a => a

/-- The object, which is symbolic or not. -/
structure Receiver extends Self where
  symbolic : Bool

/-- The method of the built-in class `c`: objects that are symbolic are not of this class for it, and there may be no symbolic values in the
arguments. (Where it would use an argument through a method, like `__index__`, it is not called with a symbolic value in a tuple.) -/
def native {R : Type} (sub : Nat → Nat → Bool) (c : Nat) (method : Nat → List Value → Res R) (r : Receiver) (args : List Arg) : Res R :=
  if r.symbolic then .typeError
  else if sub r.cls c then (if anyHolds args then .typeError else method r.val (values args))
  else .typeError

/-- `with_realized_args` (357-368), for a method: the object is the first argument. -/
def withRealizedArgs {R : Type} (sub : Nat → Nat → Bool) (c : Nat) (method : Nat → List Value → Res R) (r : Receiver) (args : List Arg) : Res R :=
  native sub c method { r with symbolic := false } (args.map realize)

/-- `with_checked_self` (371-390): `bound` is the method of this name that the symbolic object has. -/
def withCheckedSelf {R : Type} (sub : Nat → Nat → Bool) (c : Nat) (method : Nat → List Value → Res R) (bound : Nat → List Arg → Res R)
    (r : Receiver) (args : List Arg) : Res R :=
  if r.symbolic && r.cls == c then bound r.val args else native sub c method r args

/-- `with_symbolic_self` (393-412): symbolic objects of class `c` are of the symbolic class; `_ch_create_from_literal` makes one of an object of class `c`
or a subclass that is not symbolic, and `None` of others; `onNone` is what the symbolic method does then. -/
def withSymbolicSelf {R : Type} (sub : Nat → Nat → Bool) (c : Nat) (method : Nat → List Value → Res R) (bound : Nat → List Arg → Res R)
    (onNone : List Arg → Res R) (r : Receiver) (args : List Arg) : Res R :=
  if r.symbolic && r.cls == c then bound r.val args
  else if args.any Arg.isSym then
    if !r.symbolic && sub r.cls c then bound r.val args else onNone args
  else native sub c method r (args.map realize)

end Verif.Unbound
