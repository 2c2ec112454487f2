import Verif.Range.Model
/-
Python's lists, as CPython implements indexing, slicing and slice assignment
(`PySlice_AdjustIndices`, `list_subscript`, `list_ass_subscript`), without reference to CrossHair.

The positions a slice visits are those of the range with the same start, stop and step
(`Verif.Range.range_iter` shows that `Rng.iter` is what the documentation of ranges says).
-/
namespace Verif.Seq

/-- Python exceptions. -/
inductive PyErr where
  | indexError
  | valueError
  | typeError
  deriving DecidableEq, Repr

/-- A slice object with integer (or missing) fields. -/
structure Slice where
  start : Option Int
  stop : Option Int
  step : Option Int
  deriving DecidableEq, Repr

/-- `slice.indices(len)`: where a slice starts, stops and how it steps in a list of `len`
elements. -/
def pyIndices (s : Slice) (len : Nat) : Except PyErr (Int × Int × Int) :=
  let step := s.step.getD 1
  if step = 0 then .error .valueError
  else
    let lower : Int := if step < 0 then -1 else 0
    let upper : Int := if step < 0 then len - 1 else len
    let adjust (i : Int) : Int := if i < 0 then max (i + len) lower else min i upper
    let start := match s.start with
      | none => if step < 0 then upper else lower
      | some i => adjust i
    let stop := match s.stop with
      | none => if step < 0 then lower else upper
      | some i => adjust i
    .ok (start, stop, step)

/-- The element at a non-negative position, if there is one. -/
def lookup {α : Type} (xs : List α) (i : Int) : Option α := if 0 ≤ i then xs[i.toNat]? else none

/-- The elements at the positions `a, a + c, ...` before `b`. -/
def elems {α : Type} (xs : List α) (a b c : Int) : List α :=
  (Range.Rng.iter ⟨a, b, c⟩).filterMap (lookup xs)

/-- `xs[s]` for a slice. -/
def pySlice {α : Type} (xs : List α) (s : Slice) : Except PyErr (List α) :=
  match pyIndices s xs.length with
  | .error e => .error e
  | .ok (a, b, c) => .ok (elems xs a b c)

/-- `xs[i]`: negative positions count from the end. -/
def pyGet {α : Type} (xs : List α) (i : Int) : Except PyErr α :=
  match lookup xs (if i < 0 then i + xs.length else i) with
  | some v => .ok v
  | none => .error .indexError

/-- `xs[i] = v`. -/
def pySet {α : Type} (xs : List α) (i : Int) (v : α) : Except PyErr (List α) :=
  let j := if i < 0 then i + xs.length else i
  if 0 ≤ j ∧ j < xs.length then .ok (xs.set j.toNat v) else .error .indexError

/-- `del xs[i]`. -/
def pyDel {α : Type} (xs : List α) (i : Int) : Except PyErr (List α) :=
  let j := if i < 0 then i + xs.length else i
  if 0 ≤ j ∧ j < xs.length then .ok (xs.eraseIdx j.toNat) else .error .indexError

/-- Assign to several positions, one after the other. -/
def setMany {α : Type} (xs : List α) : List Int → List α → List α
  | p :: ps, v :: vs => setMany (xs.set p.toNat v) ps vs
  | _, _ => xs

/-- `xs[s] = vs`: with step one the stretch is replaced, otherwise the numbers of positions and
values must agree. -/
def pySetSlice {α : Type} (xs : List α) (s : Slice) (vs : List α) : Except PyErr (List α) :=
  match pyIndices s xs.length with
  | .error e => .error e
  | .ok (a, b, c) =>
    if c = 1 then .ok (xs.take a.toNat ++ vs ++ xs.drop (max a b).toNat)
    else
      let ps := Range.Rng.iter ⟨a, b, c⟩
      if ps.length = vs.length then .ok (setMany xs ps vs) else .error .valueError

/-- `del xs[s]`. -/
def pyDelSlice {α : Type} (xs : List α) (s : Slice) : Except PyErr (List α) :=
  match pyIndices s xs.length with
  | .error e => .error e
  | .ok (a, b, c) =>
    let ps := Range.Rng.iter ⟨a, b, c⟩
    .ok ((xs.zipIdx.filter fun p => !ps.contains (p.2 : Int)).map (·.1))

/-- `xs.insert(i, v)`. -/
def pyInsert {α : Type} (xs : List α) (i : Int) (v : α) : List α :=
  let j := if i < 0 then max (i + xs.length) 0 else min i xs.length
  xs.take j.toNat ++ [v] ++ xs.drop j.toNat

/-- `xs.index(v)`: the first position. -/
def pyIndex {α : Type} [DecidableEq α] (xs : List α) (v : α) : Except PyErr Nat :=
  if v ∈ xs then .ok (xs.findIdx (· = v)) else .error .valueError

/-- `xs * n`. -/
def pyMul {α : Type} (xs : List α) (n : Int) : List α := (List.replicate n.toNat xs).flatten

/-- The lexicographic order: after a common prefix, either the first sequence ends and the second
does not, or the first has the smaller element. -/
def LexLt {α : Type} (lt : α → α → Bool) (xs ys : List α) : Prop :=
  ∃ p, (xs = p ∧ ∃ b bs, ys = p ++ b :: bs) ∨
    (∃ a as b bs, xs = p ++ a :: as ∧ ys = p ++ b :: bs ∧ lt a b = true)

/-! ### Histories of operations on several lists -/

/-- The right-hand side of an assignment, extension, concatenation or comparison: a list or tuple
given there, or one of the lists. -/
inductive Src (α : Type) where
  | list (xs : List α)
  | tuple (xs : List α)
  | var (j : Nat)

/-- Operations on lists `0, 1, 2, ...`. -/
inductive Op (α : Type) where
  | len (i : Nat)
  | get (i : Nat) (k : Int)
  | elements (i : Nat)
  | contains (i : Nat) (v : α)
  | index (i : Nat) (v : α)
  | eq (i : Nat) (j : Nat)
  | set (i : Nat) (k : Int) (v : α)
  | setSlice (i : Nat) (s : Slice) (src : Src α)
  | del (i : Nat) (k : Int)
  | delSlice (i : Nat) (s : Slice)
  | append (i : Nat) (v : α)
  | extend (i : Nat) (src : Src α)
  | insert (i : Nat) (k : Int) (v : α)
  | reverse (i : Nat)
  | pop (i : Nat) (k : Int)
  | remove (i : Nat) (v : α)
  | clear (i : Nat)
  /-- `j = i[s]`; a full slice is a copy. -/
  | slice (j i : Nat) (s : Slice)
  /-- `j = i + src` -/
  | plus (j i : Nat) (src : Src α)
  /-- `j = i * n` -/
  | times (j i : Nat) (n : Int)

/-- What an operation returns. -/
inductive Obs (α : Type) where
  | none
  | val (v : α)
  | int (n : Int)
  | bool (b : Bool)
  | list (xs : List α)

/-- Change one entry of a store. -/
def upd {β : Type} (st : Nat → β) (i : Nat) (v : β) : Nat → β := fun j => if j = i then v else st j

/-- Store a result, unless it is an error. -/
def assign {α β : Type} (st : Nat → β) (i : Nat) (r : Except PyErr β) :
    Except PyErr (Obs α) × (Nat → β) :=
  match r with
  | .error e => (.error e, st)
  | .ok v => (.ok .none, upd st i v)

/-- The contents of a right-hand side. -/
def Src.contents {α : Type} (st : Nat → List α) : Src α → List α
  | .list xs => xs
  | .tuple xs => xs
  | .var j => st j

/-- One operation on Python lists, each of which is a separate object. -/
def pyStep {α : Type} [DecidableEq α] (st : Nat → List α) :
    Op α → Except PyErr (Obs α) × (Nat → List α)
  | .len i => (.ok (.int (st i).length), st)
  | .get i k => ((pyGet (st i) k).map .val, st)
  | .elements i => (.ok (.list (st i)), st)
  | .contains i v => (.ok (.bool (decide (v ∈ st i))), st)
  | .index i v => ((pyIndex (st i) v).map (fun n => .int n), st)
  | .eq i j => (.ok (.bool (decide (st i = st j))), st)
  | .set i k v => assign st i (pySet (st i) k v)
  | .setSlice i s src => assign st i (pySetSlice (st i) s (src.contents st))
  | .del i k => assign st i (pyDel (st i) k)
  | .delSlice i s => assign st i (pyDelSlice (st i) s)
  | .append i v => assign st i (.ok (st i ++ [v]))
  | .extend i src => assign st i (.ok (st i ++ src.contents st))
  | .insert i k v => assign st i (.ok (pyInsert (st i) k v))
  | .reverse i => assign st i (.ok (st i).reverse)
  | .pop i k => match pyGet (st i) k, pyDel (st i) k with
    | .ok v, .ok ys => (.ok (.val v), upd st i ys)
    | .error e, _ => (.error e, st)
    | .ok _, .error e => (.error e, st)
  | .remove i v =>
    assign st i (if v ∈ st i then .ok ((st i).erase v) else .error .valueError)
  | .clear i => assign st i (.ok [])
  | .slice j i s => assign st j (pySlice (st i) s)
  | .plus j i src => assign st j (.ok (st i ++ src.contents st))
  | .times j i n => assign st j (.ok (pyMul (st i) n))

/-- What a history of operations returns, and the lists at its end. -/
def history {O R S : Type} (step : S → O → R × S) (st : S) : List O → List R × S
  | [] => ([], st)
  | o :: os =>
    let r := step st o
    let rest := history step r.2 os
    (r.1 :: rest.1, rest.2)

end Verif.Seq
