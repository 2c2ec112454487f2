import Verif.Deque.Model

/-!
What a Python programmer expects of `collections.deque`: every deque is its own sequence of elements, with an
optional bound.  When a bound is exceeded by adding at one end, elements fall off the other end.  Nothing here
mentions list objects or references.
-/
namespace Verif.Deque

/-- A deque as the programmer sees it: its elements and its `maxlen`. -/
abbrev Plain (α : Type) := List α × Option Nat

/-- What remains after adding on the right: the last `maxlen` elements. -/
def fallLeft {α} (m : Option Nat) (xs : List α) : List α :=
  match m with
  | none => xs
  | some k => xs.drop (xs.length - k)

/-- What remains after adding on the left: the first `maxlen` elements. -/
def fallRight {α} (m : Option Nat) (xs : List α) : List α :=
  match m with
  | none => xs
  | some k => xs.take k

/-- The deque has reached its maximal length. -/
def full {α} (m : Option Nat) (xs : List α) : Bool :=
  match m with
  | none => false
  | some k => k ≤ xs.length

/-- One step to the right: the last element moves to the front. -/
def rotR {α} (xs : List α) : List α :=
  match xs.getLast? with
  | none => []
  | some z => z :: xs.dropLast

/-- One step to the left: the first element moves to the end. -/
def rotL {α} : List α → List α
  | [] => []
  | x :: xs => xs ++ [x]

/-- Do something `n` times. -/
def times {β : Type} (f : β → β) : Nat → β → β
  | 0, x => x
  | n + 1, x => times f n (f x)

/-- `rotate(n)`: `n` steps to the right, or `-n` steps to the left. -/
def turn {α} (n : Int) (xs : List α) : List α :=
  if 0 ≤ n then times rotR n.toNat xs else times rotL (-n).toNat xs

/-- The first position in `lo..hi` holding `x`. -/
def firstAt {α} [DecidableEq α] (xs : List α) (x : α) (lo hi : Nat) : Option Nat :=
  (List.range xs.length).find? fun p => decide (lo ≤ p ∧ p < hi) && xs[p]? == some x

/-- Run `f` on a deque that exists. -/
def onPlain {α} (s : List (Plain α)) (i : Nat) (f : Plain α → Out α × List (Plain α)) :
    Out α × List (Plain α) :=
  match s[i]? with
  | none => (.noSuchDeque, s)
  | some p => f p

/-- What every operation gives and does. -/
def plainStep {α} [DecidableEq α] (s : List (Plain α)) : Op α → Out α × List (Plain α)
  | .new xs m => (.made s.length, s ++ [(xs, m)])
  | .append i x => onPlain s i fun (xs, m) => (.unit, s.set i (fallLeft m (xs ++ [x]), m))
  | .appendleft i x => onPlain s i fun (xs, m) => (.unit, s.set i (fallRight m (x :: xs), m))
  | .clear i => onPlain s i fun (_, m) => (.unit, s.set i ([], m))
  | .copy i => onPlain s i fun (xs, m) => (.made s.length, s ++ [(xs, m)])
  | .add i j => onPlain s i fun (xs, m) => onPlain s j fun (ys, _) =>
      (.made s.length, s ++ [(fallLeft m (xs ++ ys), m)])
  | .mul i n => onPlain s i fun (xs, m) =>
      (.made s.length, s ++ [(fallLeft m (List.replicate n.toNat xs).flatten, m)])
  | .eq i j => onPlain s i fun (xs, _) => onPlain s j fun (ys, _) => (.bool (xs = ys), s)
  | .len i => onPlain s i fun (xs, _) => (.num xs.length, s)
  | .get i k => onPlain s i fun (xs, _) =>
      match position xs.length k with
      | none => (.raised .index, s)
      | some p => match xs[p]? with
        | none => (.raised .index, s)
        | some x => (.elem x, s)
  | .set i k x => onPlain s i fun (xs, m) =>
      match position xs.length k with
      | none => (.raised .index, s)
      | some p => (.unit, s.set i (xs.take p ++ x :: xs.drop (p + 1), m))
  | .del i k => onPlain s i fun (xs, m) =>
      match position xs.length k with
      | none => (.raised .index, s)
      | some p => (.unit, s.set i (xs.take p ++ xs.drop (p + 1), m))
  | .count i x => onPlain s i fun (xs, _) => (.num (xs.filter (· = x)).length, s)
  | .extend i ys => onPlain s i fun (xs, m) => (.unit, s.set i (fallLeft m (xs ++ ys), m))
  | .extendFrom i j => onPlain s i fun (xs, m) => onPlain s j fun (ys, _) =>
      (.unit, s.set i (fallLeft m (xs ++ ys), m))
  | .extendleft i ys => onPlain s i fun (xs, m) => (.unit, s.set i (fallRight m (ys.reverse ++ xs), m))
  | .index i x start stop => onPlain s i fun (xs, _) =>
      match firstAt xs x (clip xs.length (start.getD 0)) (clip xs.length (stop.getD xs.length)) with
      | none => (.raised .value, s)
      | some p => (.num p, s)
  | .insert i k x => onPlain s i fun (xs, m) =>
      if full m xs then (.raised .index, s)
      else (.unit, s.set i (xs.take (clip xs.length k) ++ x :: xs.drop (clip xs.length k), m))
  | .pop i => onPlain s i fun (xs, m) =>
      match xs.getLast? with
      | none => (.raised .index, s)
      | some x => (.elem x, s.set i (xs.take (xs.length - 1), m))
  | .popleft i => onPlain s i fun (xs, m) =>
      match xs.head? with
      | none => (.raised .index, s)
      | some x => (.elem x, s.set i (xs.drop 1, m))
  | .remove i x => onPlain s i fun (xs, m) =>
      match firstAt xs x 0 xs.length with
      | none => (.raised .value, s)
      | some p => (.unit, s.set i (xs.take p ++ xs.drop (p + 1), m))
  | .reverse i => onPlain s i fun (xs, m) => (.unit, s.set i (xs.reverse, m))
  | .rotate i n => onPlain s i fun (xs, m) => (.unit, s.set i (turn n xs, m))

/-- A history of operations. -/
def plainRun {α} [DecidableEq α] (s : List (Plain α)) : List (Op α) → List (Out α) × List (Plain α)
  | [] => ([], s)
  | op :: ops =>
    let (o, s') := plainStep s op
    let (os, s'') := plainRun s' ops
    (o :: os, s'')

/-- `n` elements do not exceed the bound. -/
def fits (m : Option Nat) (n : Nat) : Bool :=
  match m with
  | none => true
  | some k => n ≤ k

/-- The operation keeps within the bounds of the deques: only `append` and `appendleft` may be applied to full
deques, provided that their bound is not zero. -/
def Roomy {α} (s : List (Plain α)) : Op α → Prop
  | .new xs m => fits m xs.length
  | .append i _ | .appendleft i _ => ∀ xs m, s[i]? = some (xs, m) → m ≠ some 0
  | .add i j | .extendFrom i j => ∀ xs m ys m', s[i]? = some (xs, m) → s[j]? = some (ys, m') →
      fits m (xs.length + ys.length)
  | .mul i n => ∀ xs m, s[i]? = some (xs, m) → fits m (n.toNat * xs.length)
  | .extend i ys | .extendleft i ys => ∀ xs m, s[i]? = some (xs, m) → fits m (xs.length + ys.length)
  | .insert i _ _ => ∀ xs m, s[i]? = some (xs, m) → full m xs = false
  | _ => True

/-- Every operation of a history keeps within the bounds. -/
def RoomyRun {α} [DecidableEq α] (s : List (Plain α)) : List (Op α) → Prop
  | [] => True
  | op :: ops => Roomy s op ∧ RoomyRun (plainStep s op).2 ops

/-- The history creates unbounded deques only. -/
def Unbounded {α} (ops : List (Op α)) : Prop := ∀ xs m, Op.new xs m ∈ ops → m = none

/-- What the programmer sees of a world. -/
def World.view {α} (w : World α) : List (Plain α) := w.dqs.map fun d => (w.contents d, d.maxlen)

/-- A world before any deque exists. -/
def World.empty {α} : World α := ⟨[], []⟩

end Verif.Deque
