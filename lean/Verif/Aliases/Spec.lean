import Verif.Sources.Spec
import Mathlib.Logic.Function.Basic
/-
What Python does with variables that may refer to the same list.
-/
namespace Verif.Aliases

open Verif.Sources (Source Kind)

/-- What a program does with variables for lists. -/
inductive Op (α : Type) where
  /-- `x = y` -/
  | alias_ (x y : Nat)
  /-- `x = y + s` -/
  | add (x y : Nat) (s : Source α)
  /-- `x = y * n` -/
  | mul (x y : Nat) (n : Int)
  /-- `x = y.copy()` -/
  | copy (x y : Nat)
  /-- `x += s` -/
  | iadd (x : Nat) (s : Source α)
  /-- `x *= n` -/
  | imul (x : Nat) (n : Int)
  /-- `x.append(v)` -/
  | append (x : Nat) (v : α)
  /-- `list(x)` -/
  | read (x : Nat)
  /-- `x is y` -/
  | same (x y : Nat)

/-- What is seen. -/
inductive Seen (α : Type) where
  | done
  | typeError
  | items (xs : List α)
  | truth (b : Bool)
  deriving DecidableEq

/-- A list some times over. -/
def times {α : Type} (xs : List α) (n : Int) : List α := (List.replicate n.toNat xs).flatten

/-- The lists of a program, by number, and the variables. -/
structure World (α : Type) where
  next : Nat
  var : Nat → Nat
  items : Nat → List α

variable {α : Type}

/-- A variable for a new list. -/
def World.assign (w : World α) (x : Nat) (xs : List α) : World α :=
  ⟨w.next + 1, Function.update w.var x w.next, Function.update w.items w.next xs⟩

/-- A list changed in place. -/
def World.change (w : World α) (x : Nat) (xs : List α) : World α := { w with items := Function.update w.items (w.var x) xs }

/-- Python: `+` makes a new list and takes only lists; `+=` and `*=` change the list itself. -/
def python (w : World α) : Op α → World α × Seen α
  | .alias_ x y => ({ w with var := Function.update w.var x (w.var y) }, .done)
  | .add x y s => if s.kind = .list then (w.assign x (w.items (w.var y) ++ s.items), .done) else (w, .typeError)
  | .mul x y n => (w.assign x (times (w.items (w.var y)) n), .done)
  | .copy x y => (w.assign x (w.items (w.var y)), .done)
  | .iadd x s => (w.change x (w.items (w.var x) ++ s.items), .done)
  | .imul x n => (w.change x (times (w.items (w.var x)) n), .done)
  | .append x v => (w.change x (w.items (w.var x) ++ [v]), .done)
  | .read x => (w, .items (w.items (w.var x)))
  | .same x y => (w, .truth (decide (w.var x = w.var y)))

/-- A history. -/
def pythonRun (w : World α) : List (Op α) → List (Seen α)
  | [] => []
  | op :: ops => (python w op).2 :: pythonRun (python w op).1 ops

/-- A program that uses `+` only with lists (or in errors), `*` not with 1, and `*=` only with variables whose list no other variable refers to. -/
def Plain : World α → List (Op α) → Prop
  | _, [] => True
  | w, op :: ops =>
    (match op with
      | .add _ _ s => s.kind = .list ∨ s.kind = .bag ∨ s.kind = .iterator
      | .mul _ _ n => n ≠ 1
      | .imul x _ => ∀ y, w.var y = w.var x → y = x
      | _ => True) ∧ Plain (python w op).1 ops

end Verif.Aliases
