/-
Formatting of objects of a program's own classes: `format(obj, spec)`, `"…".format(…)` and `"…" % (…)`, which call methods of the objects, which can
change the objects.
-/
namespace Verif.Formatting

/-- What a `__format__` or `__str__` method returns: a text, another object, or it raises. -/
inductive Out
  | text (t : Nat) | other (v : Nat) | raises (e : Nat)
deriving DecidableEq

/-- What formatting gives: a text, an object that is no text, an exception of the program, or a `TypeError`. -/
inductive Res
  | text (t : Nat) | object (v : Nat) | raises (e : Nat) | typeError
deriving DecidableEq

/-- The states of objects. -/
abbrev Heap := Nat → Nat

/-- The method of the objects: for an object in a state, with a format specification, the state afterwards and what is returned. -/
abbrev Method := Nat → Nat → Nat → Nat × Out

/-- Python: only texts may be returned. -/
def checked : Out → Res
  | .text t => .text t
  | .other _ => .typeError
  | .raises e => .raises e

/-- The heap with another state for one object. -/
def put (h : Heap) (o s : Nat) : Heap := fun p => if p = o then s else h p

/-- Python's `format(o, spec)`: the method is called on the object. -/
def pyFormat (m : Method) (h : Heap) (o spec : Nat) : Heap × Res :=
  (put h o (m o (h o) spec).1, checked (m o (h o) spec).2)

/-- Formatting several objects in turn, which ends with the first exception: the texts, or the exception. -/
def inTurn (f : Heap → Nat → Nat → Heap × Res) : Heap → List (Nat × Nat) → Heap × Except Res (List Nat)
  | h, [] => (h, .ok [])
  | h, (o, spec) :: l =>
    match f h o spec with
    | (h', .text t) =>
      match inTurn f h' l with
      | (h'', .ok ts) => (h'', .ok (t :: ts))
      | (h'', .error e) => (h'', .error e)
    | (h', e) => (h', .error e)

/-- Python's `"…".format(…)` and `"…" % (…)`, for the fields in the order of the template. -/
def pyTemplate (m : Method) : Heap → List (Nat × Nat) → Heap × Except Res (List Nat) := inTurn (pyFormat m)

end Verif.Formatting
