import Batteries.Data.List.Basic
/-
The source code that a verbose message shows.
-/
namespace Verif.SourceContext

/-- A line of source code in a message: its text and whether it is marked with `>`. -/
structure Shown where
  text : String
  marked : Bool
  deriving DecidableEq

/-- Line `i` of a file, counted from 1. -/
def IsLine (file : List String) (i : Nat) (text : String) : Prop := 1 ≤ i ∧ file[i - 1]? = some text

/-- What is shown for a line: the lines with these numbers, in ascending order, are those at most 3 away, and only the line itself is marked. -/
def Correct (file : List String) (line : Nat) (out : List Shown) : Prop :=
  ∃ numbers : List Nat, numbers.Pairwise (· < ·) ∧
    (∀ i, i ∈ numbers ↔ (∃ t, IsLine file i t) ∧ i ≤ line + 3 ∧ line ≤ i + 3) ∧
    List.Forall₂ (fun i s => IsLine file i s.text ∧ (s.marked = true ↔ i = line)) numbers out

end Verif.SourceContext
