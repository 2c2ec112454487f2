/-
Python's `eval(expression, globals, locals)`.
-/
namespace Verif.Evals

/-- Expressions: numbers, names, `(x := e)` and `e + f`. -/
inductive Expr
  | num (n : Nat) | name (x : Nat) | walrus (x : Nat) (e : Expr) | add (e f : Expr)

/-- The dictionaries of names, by identity. -/
abbrev Heap := Nat → Nat → Option Nat

/-- The heap with a name assigned in one dictionary. -/
def put (h : Heap) (d x v : Nat) : Heap := fun e y => if e = d ∧ y = x then some v else h e y

/-- Evaluation: names are looked up in the locals, the globals and the built-in names, and assigned in the locals; `none` is a `NameError`. -/
def value (builtins : Nat → Option Nat) (locals globals : Nat) : Heap → Expr → Heap × Option Nat
  | h, .num n => (h, some n)
  | h, .name x => (h, (h locals x).or ((h globals x).or (builtins x)))
  | h, .walrus x e => match value builtins locals globals h e with
    | (h', some v) => (put h' locals x v, some v)
    | (h', none) => (h', none)
  | h, .add e f => match value builtins locals globals h e with
    | (h', some v) => match value builtins locals globals h' f with
      | (h'', some w) => (h'', some (v + w))
      | (h'', none) => (h'', none)
    | (h', none) => (h', none)

/-- The dictionaries that Python uses, for a caller with its own ones: if only globals are given, these are the locals too. -/
def pyScopes (callerLocals callerGlobals : Nat) : Option Nat → Option Nat → Nat × Nat
  | none, none => (callerLocals, callerGlobals)
  | some g, none => (g, g)
  | none, some l => (l, callerGlobals)
  | some g, some l => (l, g)

/-- Python's `eval`. -/
def pyEval (builtins : Nat → Option Nat) (cl cg : Nat) (h : Heap) (e : Expr) (g l : Option Nat) : Heap × Option Nat :=
  value builtins (pyScopes cl cg g l).1 (pyScopes cl cg g l).2 h e

end Verif.Evals
