import Verif.Sources.Spec
/-
Symbolic lists that take in the items of other objects: `ShellMutableSequence` and `SequenceConcatenation` (crosshair/simplestructs.py), with
the kinds of the objects that are kept inside.
-/
namespace Verif.Sources

/-- What is inside of a symbolic list: an array of the solver, an object of Python that was taken in, or a concatenation. Slices are left out. -/
inductive Inner (α : Type) where
  | arr (xs : List α)
  | obj (kind : Kind) (xs : List α)
  | cat (a b : Inner α)

variable {α : Type}

/-- `is_hashable` (util.py 80-81), by the type. -/
def hashable : Kind → Bool
  | .list => false
  | _ => true

/-- `sequence_evaluation` (simplestructs.py 682-689). -/
def evaluation (s : Source α) : Inner α := if hashable s.kind then .obj s.kind s.items else .obj .list s.items

/-- `concatenate_sequences` (666-679). -/
def concatenate : Inner α → Inner α → Inner α
  | .obj .list xs, .obj .list ys => .obj .list (xs ++ ys)
  | .obj .list xs, .cat (.obj .list ys) r => .cat (.obj .list (xs ++ ys)) r
  | .cat l (.obj .list xs), .obj .list ys => .cat l (.obj .list (xs ++ ys))
  | a, b => .cat a b

/-- `len(…)` (610-613); an iterator has none. -/
def Inner.len : Inner α → Option Nat
  | .arr xs => some xs.length
  | .obj .iterator _ => none
  | .obj _ xs => some xs.length
  | .cat a b =>
    match a.len, b.len with
    | some m, some n => some (m + n)
    | _, _ => none

/-- `check_idx` (simplestructs.py 350-360): the index from the left, if it is one. -/
def checkIdx (i : Int) (len : Nat) : Option Nat :=
  let j := if i < 0 then i + len else i
  if 0 ≤ j ∧ j < len then some j.toNat else none

/-- An item, by a number (550-557). -/
def Inner.get : Inner α → Int → Seen α
  | .arr xs, i => match checkIdx i xs.length with
    | some k => match xs[k]? with | some v => .item v | none => .indexError
    | none => .indexError
  | .obj .iterator _, _ => .typeError
  | .obj .bag _, _ => .typeError
  | .obj _ xs, i => match checkIdx i xs.length with
    | some k => match xs[k]? with | some v => .item v | none => .indexError
    | none => .indexError
  | .cat a b, i =>
    match a.len, b.len with
    | some m, some n =>
      match checkIdx i (m + n) with
      | some k => if k < m then a.get k else b.get (k - m : Nat)
      | none => .indexError
    | _, _ => .typeError

/-- `… == ys` for a list (594-602); Python's own objects of other types are not equal to a list. `none` if a length is missing. -/
def Inner.eq [DecidableEq α] : Inner α → List α → Option Bool
  | .arr xs, ys => some (decide (xs = ys))
  | .obj .list xs, ys => some (decide (xs = ys))
  | .obj _ _, _ => some false
  | .cat a b, ys =>
    match a.len, b.len with
    | some m, some n =>
      if m + n ≠ ys.length then some false
      else
        match a.eq (ys.take m) with
        | some true => b.eq (ys.drop m)
        | r => r
    | _, _ => none

/-- Iterating to the end (607-608): what an iterator gives is gone after that. -/
def Inner.iter : Inner α → List α × Inner α
  | .arr xs => (xs, .arr xs)
  | .obj .iterator xs => (xs, .obj .iterator [])
  | .obj k xs => (xs, .obj k xs)
  | .cat a b => (a.iter.1 ++ b.iter.1, .cat a.iter.2 b.iter.2)

/-- `SymbolicList` (builtinslib.py 2645-2672) and `ShellMutableSequence`: `append`, `extend` (simplestructs.py 781-788), `__setitem__` for the
whole (714-750), `__len__` (799-800), `__getitem__` (805-809), `__eq__` (708-712), `__iter__` (818-819). -/
def step [DecidableEq α] (q : Inner α) : Op α → Inner α × Seen α
  | .append v => (concatenate q (.obj .list [v]), .done)
  | .extend s => (concatenate q (evaluation s), .done)
  | .assign s => match q.len with
    | some _ => (evaluation s, .done)
    | none => (q, .typeError)
  | .len => (q, match q.len with | some n => .number n | none => .typeError)
  | .get i => (q, q.get i)
  | .eq ys => (q, match q.eq ys with | some b => .truth b | none => .typeError)
  | .iter => (q.iter.2, .items q.iter.1)

/-- A history of a symbolic list. -/
def run [DecidableEq α] (q : Inner α) : List (Op α) → List (Seen α)
  | [] => []
  | op :: ops => (step q op).2 :: run (step q op).1 ops

end Verif.Sources
