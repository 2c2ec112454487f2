import Verif.Aliases.Spec
/-
Symbolic lists as objects that variables refer to: which operations of `ShellMutableSequence` (crosshair/simplestructs.py) change the list
itself, and which make a new one. What is inside of a list is only its items here; the kinds of what is inside are in `Verif.Sources`.
-/
namespace Verif.Aliases

open Verif.Sources (Source Kind)

variable {α : Type}

/-- `isinstance(…, collections.abc.Sequence)`. -/
def isSequence : Kind → Bool
  | .list | .tuple | .text | .range => true
  | .bag | .iterator => false

/-- The loop of `SeqBase.__mul__` (532-535): `self` is put in front, `n - 1` times. -/
def mulLoop (xs : List α) : Nat → List α → List α
  | 0, ret => ret
  | n + 1, ret => mulLoop xs n (xs ++ ret)

/-- `SeqBase.__mul__` (526-535). -/
def mul (xs : List α) (n : Int) : List α := if n ≤ 0 then [] else mulLoop xs (n.toNat - 1) xs

/-- `_spawn` (702-704; builtinslib.py 2666-2667): a new list for a variable. -/
def spawn (w : World α) (x : Nat) (xs : List α) : World α :=
  ⟨w.next + 1, fun y => if y = x then w.next else w.var y, fun r => if r = w.next then xs else w.items r⟩

/-- `self.inner = …`. -/
def setInner (w : World α) (x : Nat) (xs : List α) : World α := ⟨w.next, w.var, fun r => if r = w.var x then xs else w.items r⟩

/-- `__add__` (762-767), `__mul__`, `copy` (796-797), `__iadd__` (of `MutableSequence`: `extend` (785-788), and the list itself), `__imul__`
(778-779), `append` (781-783). `__mul__` by 1 gives the list itself (`ret = self`, 532). The list that `*= 1` makes keeps the old list inside; that
is left out, and it has the items of then. -/
def step (w : World α) : Op α → World α × Seen α
  | .alias_ x y => (⟨w.next, fun z => if z = x then w.var y else w.var z, w.items⟩, .done)
  | .add x y s => if isSequence s.kind then (spawn w x (w.items (w.var y) ++ s.items), .done) else (w, .typeError)
  | .mul x y n =>
    if n = 1 then (⟨w.next, fun z => if z = x then w.var y else w.var z, w.items⟩, .done)
    else (spawn w x (mul (w.items (w.var y)) n), .done)
  | .copy x y => (spawn w x (w.items (w.var y)), .done)
  | .iadd x s => (setInner w x (w.items (w.var x) ++ s.items), .done)
  | .imul x n => (spawn w x (mul (w.items (w.var x)) n), .done)
  | .append x v => (setInner w x (w.items (w.var x) ++ [v]), .done)
  | .read x => (w, .items (w.items (w.var x)))
  | .same x y => (w, .truth (decide (w.var x = w.var y)))

/-- A history. -/
def run (w : World α) : List (Op α) → List (Seen α)
  | [] => []
  | op :: ops => (step w op).2 :: run (step w op).1 ops

end Verif.Aliases
