/-
Functions that go through a list of results, as Python code would have it. (Nothing here is about CrossHair.)
-/
namespace Verif.Lazy

/-- `values[0]`, `values[1]`, … and then always the last value. -/
def result {V : Type} (values : List V) (i : Nat) : Option V := values[min i (values.length - 1)]?

/-- What the code `(x:=[…], lambda *a: x.pop(0) if len(x) > 1 else x[0])[1]` gives when it is called: the result and the list afterwards. -/
def popCall {V : Type} : List V → Option V × List V
  | [] => (none, [])
  | [v] => (some v, [v])
  | v :: r => (some v, r)

/-- The results of `n` calls of that function. -/
def popResults {V : Type} : List V → Nat → List (Option V)
  | _, 0 => []
  | x, n + 1 => (popCall x).1 :: popResults (popCall x).2 n

/-- Python expressions that show a function: a list that values are taken from, or one expression. -/
inductive Shown
  | popping (items : List String)
  | constant (expr : String)
deriving DecidableEq, Repr

/-- What `n` calls give if the expression is evaluated: `eval` evaluates the expressions of values. -/
def Shown.results {V : Type} (eval : String → Option V) (n : Nat) : Shown → Option (List (Option V))
  | .popping items => (items.mapM eval).map fun x => popResults x n
  | .constant e => (eval e).map fun v => List.replicate n (some v)

end Verif.Lazy
