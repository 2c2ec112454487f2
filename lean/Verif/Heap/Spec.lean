import Verif.Heap.Model
/-
What may happen between two lookups.
-/
namespace Verif.Heap

variable {T V : Type}

/-- What a program does with objects of symbolic containers: look one up, through any snapshot, or change
the contents of one. -/
inductive Op (T V : Type) where
  | find (ref : Nat) (typ : T) (snapshot : Int) (v : V)
  | set (a : Nat) (v : V)

/-- Do it. -/
def Op.run (unify : T → T → Bool) (w : World T V) : Op T V → World T V
  | .find ref typ snapshot v => (w.find unify ref typ snapshot v).2
  | .set a v => ⟨w.heaps, w.mem.set a v⟩

/-- Do all of it. -/
def runAll (unify : T → T → Bool) (w : World T V) (ops : List (Op T V)) : World T V :=
  ops.foldl (Op.run unify) w

/-- A function that was called with symbolic containers: it looks up objects in the newest heap, and changes
those that it has got. -/
inductive CallRun (unify : T → T → Bool) : World T V → List Nat → World T V → Prop
  | nil (w known) : CallRun unify w known w
  | find (w known ref typ v w') : CallRun unify (w.find unify ref typ headSnapshot v).2
      ((w.find unify ref typ headSnapshot v).1 :: known) w' → CallRun unify w known w'
  | set (w known a v w') : a ∈ known → CallRun unify ⟨w.heaps, w.mem.set a v⟩ known w' →
      CallRun unify w known w'

/-- Worlds in which a path can be: those that come from the start by lookups, changes and checkpoints. -/
inductive Reachable (unify : T → T → Bool) : World T V → Prop
  | start (m) : Reachable unify (World.start m)
  | op (w op) : Reachable unify w → Reachable unify (Op.run unify w op)
  | checkpoint (w) : Reachable unify w → Reachable unify w.checkpoint

end Verif.Heap
