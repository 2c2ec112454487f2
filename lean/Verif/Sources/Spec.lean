import Mathlib.Data.List.Basic
/-
What Python does when a list takes in the items of other objects.
-/
namespace Verif.Sources

/-- What kind of object items come from: a list (or another mutable sequence), a tuple, a text, a range, an object with a length that cannot
be indexed (a frozen set, the values of a dictionary), or an iterator. -/
inductive Kind where
  | list | tuple | text | range | bag | iterator
  deriving DecidableEq

/-- An object with its items, in the order of iteration. -/
structure Source (α : Type) where
  kind : Kind
  items : List α

/-- What is done with a list, and looked at. -/
inductive Op (α : Type) where
  | append (v : α)
  | extend (s : Source α)
  /-- `xs[:] = s` -/
  | assign (s : Source α)
  | len
  | get (i : Int)
  /-- `xs == ys` for a list. -/
  | eq (ys : List α)
  /-- `list(xs)` -/
  | iter

/-- What is seen. -/
inductive Seen (α : Type) where
  | done
  | number (n : Nat)
  | item (v : α)
  | truth (b : Bool)
  | items (xs : List α)
  | indexError
  | typeError
  deriving DecidableEq

/-- An item of a Python list. -/
def item {α : Type} (xs : List α) (i : Int) : Option α :=
  if 0 ≤ i then xs[i.toNat]? else if 0 ≤ i + xs.length then xs[(i + xs.length).toNat]? else none

/-- A Python list. -/
def python {α : Type} [DecidableEq α] (xs : List α) : Op α → List α × Seen α
  | .append v => (xs ++ [v], .done)
  | .extend s => (xs ++ s.items, .done)
  | .assign s => (s.items, .done)
  | .len => (xs, .number xs.length)
  | .get i => (xs, match item xs i with | some v => .item v | none => .indexError)
  | .eq ys => (xs, .truth (decide (xs = ys)))
  | .iter => (xs, .items xs)

/-- A history of a Python list. -/
def pythonRun {α : Type} [DecidableEq α] (xs : List α) : List (Op α) → List (Seen α)
  | [] => []
  | op :: ops => (python xs op).2 :: pythonRun (python xs op).1 ops

/-- The object that an operation takes items from. -/
def Op.source? {α : Type} : Op α → Option (Source α)
  | .extend s => some s
  | .assign s => some s
  | _ => none

end Verif.Sources
