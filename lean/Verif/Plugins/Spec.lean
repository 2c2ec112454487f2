/-
Small Python modules: assignments, functions and calls.
-/
namespace Verif.Plugins

/-- Terms: numbers and names. -/
inductive Term
  | num (n : Nat) | name (x : Nat)

/-- Values: numbers and functions without arguments, which return the sum of some terms. -/
inductive Val
  | int (n : Nat) | fn (body : List Term)

/-- `x = a + b + …`, `def f(): return a + b + …`, and calls `f()`, whose results are seen. -/
inductive Stmt
  | assign (x : Nat) (terms : List Term) | define (f : Nat) (body : List Term) | call (f : Nat)

/-- Names and their values. -/
abbrev Scope := Nat → Option Val

/-- A scope with a name set. -/
def Scope.set (s : Scope) (x : Nat) (v : Val) : Scope := fun y => if y = x then some v else s y

/-- The value of a term where names are looked up by a function; `none` is an exception (`NameError`, or `TypeError` for adding functions). -/
def term (look : Scope) : Term → Option Nat
  | .num n => some n
  | .name x => match look x with
    | some (.int n) => some n
    | _ => none

/-- A sum. -/
def total (look : Scope) : List Term → Option Nat
  | [] => some 0
  | t :: ts => match term look t, total look ts with
    | some a, some b => some (a + b)
    | _, _ => none

/-- Running a file as a Python module, in a scope of its own before that of the built-in names: the results of the calls; an exception is the last one. Functions look names up in the scope of the module. -/
def pyRun (builtins : Scope) : List Stmt → Scope → List (Option Nat)
  | [], _ => []
  | .assign x ts :: p, m => match total (fun y => (m y).or (builtins y)) ts with
    | some n => pyRun builtins p (m.set x (.int n))
    | none => [none]
  | .define f b :: p, m => pyRun builtins p (m.set f (.fn b))
  | .call f :: p, m => match (m f).or (builtins f) with
    | some (.fn b) => match total (fun y => (m y).or (builtins y)) b with
      | some n => some n :: pyRun builtins p m
      | none => [none]
    | _ => [none]

end Verif.Plugins
