import Verif.Seq.Spec
/-
What Python does with dictionaries and sets that are not changed: a dictionary is a list of items with
different keys, in the order of iteration; a set is a list of different elements, in some order.  Programs
ask questions, and may have any number of iterators at the same time.
-/
namespace Verif.Arrays

variable {K V : Type} [DecidableEq K] [DecidableEq V]

/-- What is asked of a dictionary (`iter` starts an iterator; `next i` asks the one that was started as
number `i`; `eq` compares with a dictionary that has these items). -/
inductive Op (K V : Type) where
  | iter
  | next (i : Nat)
  | get (k : K)
  | contains (k : K)
  | len
  | truth
  | eq (other : List (K × V))

/-- The answers.  `ignored` means that the execution was abandoned, `internal` that an internal error was
raised; Python does neither. -/
inductive Obs (K V : Type) where
  | started
  | noIter
  | yield (k : K)
  | stop
  | value (v : V)
  | keyError
  | bool (b : Bool)
  | num (n : Int)
  | ignored
  | internal
deriving DecidableEq, Repr

/-- The keys of a dictionary. -/
def keys (d : List (K × V)) : List K := d.map (·.1)

/-- Two dictionaries have the same items. -/
def sameItems (a b : List (K × V)) : Bool :=
  a.all (fun e => b.contains e) && b.all (fun e => a.contains e)

/-- One question to the dictionary `d`, whose iterators are at the positions `pos`. -/
def pyStep (d : List (K × V)) (pos : List Nat) : Op K V → Obs K V × List Nat
  | .iter => (.started, pos ++ [0])
  | .next i => match pos[i]? with
    | none => (.noIter, pos)
    | some j => match (keys d)[j]? with
      | some k => (.yield k, pos.set i (j + 1))
      | none => (.stop, pos)
  | .get k => (((d.find? fun e => e.1 = k).map fun e => Obs.value e.2).getD .keyError, pos)
  | .contains k => (.bool ((keys d).contains k), pos)
  | .len => (.num d.length, pos)
  | .truth => (.bool (!d.isEmpty), pos)
  | .eq other => (.bool (sameItems d other), pos)

/-- The answers to a sequence of questions. -/
def pyRun (d : List (K × V)) (pos : List Nat) : List (Op K V) → List (Obs K V)
  | [] => []
  | op :: ops => (pyStep d pos op).1 :: pyRun d (pyStep d pos op).2 ops

/-- What is asked of a set. -/
inductive SetOp (K : Type) where
  | iter
  | next (i : Nat)
  | contains (k : K)
  | len
  | truth
  | eq (other : List K)

/-- Two sets have the same elements. -/
def sameElems (a b : List K) : Bool := a.all (fun e => b.contains e) && b.all (fun e => a.contains e)

/-- One question to the set `s`. -/
def pySetStep (s : List K) (pos : List Nat) : SetOp K → Obs K Unit × List Nat
  | .iter => (.started, pos ++ [0])
  | .next i => match pos[i]? with
    | none => (.noIter, pos)
    | some j => match s[j]? with
      | some k => (.yield k, pos.set i (j + 1))
      | none => (.stop, pos)
  | .contains k => (.bool (s.contains k), pos)
  | .len => (.num s.length, pos)
  | .truth => (.bool (!s.isEmpty), pos)
  | .eq other => (.bool (sameElems s other), pos)

/-- The answers to a sequence of questions. -/
def pySetRun (s : List K) (pos : List Nat) : List (SetOp K) → List (Obs K Unit)
  | [] => []
  | op :: ops => (pySetStep s pos op).1 :: pySetRun s (pySetStep s pos op).2 ops

/-- The arguments of comparisons are dictionaries: their keys are different. -/
def GoodOp : Op K V → Prop
  | .eq other => (keys other).Nodup
  | _ => True

/-- The arguments of comparisons are sets: their elements are different. -/
def GoodSetOp : SetOp K → Prop
  | .eq other => other.Nodup
  | _ => True

end Verif.Arrays
