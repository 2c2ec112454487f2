/-
Specification: good selections of examples, and least scores.
-/
namespace Verif.Pick

/-- Every offset that some candidate covers is covered by a chosen one. -/
def CoversAll {α : Type} (offsets : α → List Nat) (chosen candidates : List α) : Prop :=
  ∀ c ∈ candidates, ∀ o ∈ offsets c, ∃ d ∈ chosen, o ∈ offsets d

/-- Every chosen example covers something that the ones before it do not. -/
def EachNew {α : Type} (offsets : α → List Nat) (chosen : List α) : Prop :=
  ∀ before x after, chosen = before ++ x :: after → ∃ o ∈ offsets x, ∀ d ∈ before, o ∉ offsets d

/-- `m` is the least of the scores that are not negative. -/
def IsLeast (scores : Int → Prop) (m : Int) : Prop := (scores m ∧ 0 ≤ m) ∧ ∀ s, scores s → 0 ≤ s → m ≤ s

end Verif.Pick
