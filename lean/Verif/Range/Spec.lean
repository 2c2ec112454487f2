/-
What Python's documentation says a range contains, without reference to CrossHair's code:
"For a positive step, the contents of a range r are determined by r[i] = start + step*i where
i >= 0 and r[i] < stop.  For a negative step [...] i >= 0 and r[i] > stop."
-/
namespace Verif.Range

/-- Position `i` belongs to the range. -/
def HasPos (start stop step : Int) (i : Nat) : Prop :=
  if 0 < step then start + step * i < stop else start + step * i > stop

/-- `xs` are the contents of the range. -/
def IsRange (start stop step : Int) (xs : List Int) : Prop :=
  ∀ i : Nat, (HasPos start stop step i → xs[i]? = some (start + step * i)) ∧
    (¬ HasPos start stop step i → xs[i]? = none)

/-- Python's indexing of a list: negative positions count from the end. -/
def pyGet {α : Type} (xs : List α) (i : Int) : Option α :=
  if 0 ≤ i then xs[i.toNat]? else if -i ≤ xs.length then xs[(xs.length + i).toNat]? else none

end Verif.Range
