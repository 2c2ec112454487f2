/-
Python's `math.gcd`, which takes any number of integers (since 3.9).
-/
namespace Verif.Gcds

/-- Arguments: integers, floats whose values are integers, and objects that are no numbers, which are true or, like `None`, not. -/
inductive Arg
  | int (z : Int) | float (z : Int) | other (truth : Bool)
deriving DecidableEq

/-- What a call gives. -/
inductive Res
  | int (z : Int) | float (z : Int) | typeError
deriving DecidableEq

/-- The integers that are the arguments, if all of them are integers. -/
def ints : List Arg → Option (List Int)
  | [] => some []
  | .int z :: l => (ints l).map (z :: ·)
  | _ :: _ => none

/-- `g` is the greatest common divisor of all of them: it divides them, and whatever divides them divides it; it is not negative. -/
def IsGcd (g : Int) (l : List Int) : Prop := 0 ≤ g ∧ (∀ z ∈ l, g ∣ z) ∧ ∀ d : Int, (∀ z ∈ l, d ∣ z) → d ∣ g

/-- Python: a `TypeError` if some argument is no integer, otherwise the greatest common divisor. -/
def Python (l : List Arg) (r : Res) : Prop :=
  match ints l with
  | none => r = .typeError
  | some zs => ∃ g, IsGcd g zs ∧ r = .int g

end Verif.Gcds
