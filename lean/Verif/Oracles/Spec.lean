import Mathlib.Data.Rat.Floor
/-
What the heuristics for choosing branches see and remember, independently of the code.
-/
namespace Verif.Oracles

/-- An expression of the solver as an object in memory: where it is, and what it says. -/
structure Obj (E : Type) where
  addr : Nat
  expr : E
deriving DecidableEq, Repr

/-- A node on a path through the tree of decisions. -/
inductive PathNode (L E : Type) where
  /-- A decision made at a place in the code about an expression, which is the negation of `root` unless `isPositive`.  `modelValue`
  for the choice of a value.  `took` tells which child comes next on the path: the positive, the negative, or neither. -/
  | decision (loc : L) (modelValue : Bool) (isPositive : Bool) (root : Obj E) (took : Option Bool)
  /-- From here on the path is not part of the tree. -/
  | detached
  /-- Other nodes. -/
  | other
deriving DecidableEq, Repr

namespace PathNode
variable {L E : Type}

def isDetached : PathNode L E → Bool
  | detached => true
  | _ => false

def isDecision : PathNode L E → Bool
  | decision .. => true
  | _ => false

/-- The places of decisions. -/
def loc? : PathNode L E → Option L
  | decision l .. => some l
  | _ => none

/-- What was decided about the root expression: whether it is true on this path. -/
def truth? : PathNode L E → Option (E × Bool)
  | decision _ _ true root (some b) => some (root.expr, b)
  | decision _ _ false root (some b) => some (root.expr, !b)
  | _ => none

end PathNode

/-- The part of a path that counts: without its last node, and up to where it is detached. -/
def counted {L E : Type} (path : List (PathNode L E)) : List (PathNode L E) :=
  path.dropLast.takeWhile fun n => !n.isDetached

/-- The places visited on a path. -/
def places {L E : Type} (path : List (PathNode L E)) : List L := (counted path).filterMap PathNode.loc?

/-- Whether the path comes to `l`, and the first decision there is not the choice of a value. -/
def reaches {L E : Type} [DecidableEq L] (l : L) (nodes : List (PathNode L E)) : Bool :=
  match nodes.dropWhile fun n => decide (n.loc? ≠ some l) with
  | .decision _ mv .. :: _ => !mv
  | _ => false

/-- What was decided before the first decision at `l`. -/
def before {L E : Type} [DecidableEq L] (l : L) (nodes : List (PathNode L E)) : List (E × Bool) :=
  (nodes.takeWhile fun n => decide (n.loc? ≠ some l)).filterMap PathNode.truth?

/-- What was decided on the way to `l`. -/
def leading {L E : Type} [DecidableEq L] (l : L) (nodes : List (PathNode L E)) : List (E × Bool) :=
  if reaches l nodes then before l nodes else []

/-- All the objects that appear on a path. -/
def objects {L E : Type} : List (PathNode L E) → List (Obj E)
  | [] => []
  | .decision _ _ _ r _ :: rest => r :: objects rest
  | _ :: rest => objects rest

/-- Whether the path, if it is detached, is detached right after a decision. -/
def detachOk {L E : Type} : Bool → List (PathNode L E) → Bool
  | _, [] => true
  | afterDecision, .detached :: _ => afterDecision
  | _, .decision .. :: rest => detachOk true rest
  | _, .other :: rest => detachOk false rest

/-- What happens to the heuristic over time: it is asked to decide about an expression, and told about the paths. -/
inductive Event (L E : Type) where
  | asked (o : Obj E)
  | path (nodes : List (PathNode L E))

/-- The paths among the events. -/
def pathsOf {L E : Type} : List (Event L E) → List (List (PathNode L E))
  | [] => []
  | .path nodes :: rest => nodes :: pathsOf rest
  | .asked _ :: rest => pathsOf rest

/-- The objects in the events. -/
def objectsOf {L E : Type} : List (Event L E) → List (Obj E)
  | [] => []
  | .path nodes :: rest => objects nodes ++ objectsOf rest
  | .asked o :: rest => o :: objectsOf rest

/-- An address stands for one expression throughout. -/
def Faithful {E : Type} (objs : List (Obj E)) : Prop :=
  (∀ o ∈ objs, o.addr ≠ 0) ∧ ∀ o ∈ objs, ∀ o' ∈ objs, o.addr = o'.addr → o.expr = o'.expr

/-- A number with a sign. -/
def signed (b : Bool) (n : Nat) : Int := if b then (n : Int) else -(n : Int)

/-- A heuristic with its own memory. -/
structure Oracle (O P N : Type) where
  pre : O → O
  post : O → P → O
  decide : O → N → Option Rat → O × Rat

/-- A heuristic that is asked one question after another. -/
def askAll {O P N : Type} (ops : Oracle O P N) : O → List (N × Option Rat) → O × List Rat
  | o, [] => (o, [])
  | o, (n, e) :: rest => ((askAll ops (ops.decide o n e).1 rest).1, (ops.decide o n e).2 :: (askAll ops (ops.decide o n e).1 rest).2)

/-- The `j`-th of `n` heuristics that take turns, from the path number `k` on: it is told of every path, and asked on every `n`-th. -/
def alone {O P N : Type} (ops : Oracle O P N) (n j : Nat) : Nat → O → List (List (N × Option Rat) × P) → O
  | _, o, [] => o
  | k, o, (questions, path) :: rest =>
    alone ops n j (k + 1) (ops.post (if k % n = j then (askAll ops (ops.pre o) questions).1 else ops.pre o) path) rest

/-- Probabilities. -/
def IsProbability (p : Rat) : Prop := 0 ≤ p ∧ p ≤ 1

end Verif.Oracles
