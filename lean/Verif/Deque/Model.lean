/-
Model of the deque used for symbolic values: crosshair/libimpl/collectionslib.py 27-171.

The deque holds a reference to a Python list.  Some operations change that list in place and others bind the
deque to a new list, so lists live in a heap here and several deques may exist next to each other.  Lists
themselves behave like Python's.  The elements are compared with an equality that is decidable and lawful.
Not modelled: `repr`, realization, arguments of the wrong type (slices, things that are not iterable).
-/
namespace Verif.Deque

/-- The exceptions that the operations raise. -/
inductive Err where
  | index
  | value
  deriving DecidableEq, Repr

/-- collectionslib.py 28-30: a deque refers to its list and has an optional maximal length. -/
structure Dq where
  ref : Nat
  maxlen : Option Nat
  deriving DecidableEq, Repr

/-- All lists, and all deques, that exist. -/
structure World (α : Type) where
  heap : List (List α)
  dqs : List Dq
  deriving DecidableEq, Repr

/-- What an operation gives to its caller. -/
inductive Out (α : Type) where
  | unit
  | elem (x : α)
  | num (n : Nat)
  | bool (b : Bool)
  | made (id : Nat)
  | raised (e : Err)
  | noSuchDeque
  deriving DecidableEq, Repr

/-- The operations; `d`, `d'` tell which deques are meant. -/
inductive Op (α : Type) where
  | new (xs : List α) (maxlen : Option Nat)
  | append (d : Nat) (x : α)
  | appendleft (d : Nat) (x : α)
  | clear (d : Nat)
  | copy (d : Nat)
  | add (d d' : Nat)
  | mul (d : Nat) (n : Int)
  | eq (d d' : Nat)
  | len (d : Nat)
  | get (d : Nat) (k : Int)
  | set (d : Nat) (k : Int) (x : α)
  | del (d : Nat) (k : Int)
  | count (d : Nat) (x : α)
  | extend (d : Nat) (xs : List α)
  | extendFrom (d d' : Nat)
  | extendleft (d : Nat) (xs : List α)
  | index (d : Nat) (x : α) (start stop : Option Int)
  | insert (d : Nat) (k : Int) (x : α)
  | pop (d : Nat)
  | popleft (d : Nat)
  | remove (d : Nat) (x : α)
  | reverse (d : Nat)
  | rotate (d : Nat) (n : Int)
  deriving DecidableEq, Repr

/-! ## Python lists -/

/-- The position meant by a subscript of a list of length `n`. -/
def position (n : Nat) (k : Int) : Option Nat :=
  let j := if k < 0 then k + n else k
  if 0 ≤ j ∧ j < n then some j.toNat else none

/-- The position meant by a bound of `list.index` or by the argument of `list.insert`. -/
def clip (n : Nat) (k : Int) : Nat :=
  let j := if k < 0 then k + n else k
  min j.toNat n

/-- `list.index`: the loop over positions, `i` being the next one. -/
def indexLoop {α} [DecidableEq α] (x : α) (stop i : Nat) : List α → Option Nat
  | [] => none
  | y :: ys => if i < stop then (if y = x then some i else indexLoop x stop (i + 1) ys) else none

/-- `list.index(x, start, stop)`. -/
def listIndex {α} [DecidableEq α] (xs : List α) (x : α) (start stop : Option Int) : Option Nat :=
  let lo := clip xs.length (start.getD 0)
  let hi := clip xs.length (stop.getD xs.length)
  indexLoop x hi lo (xs.drop lo)

/-- `list.insert(k, x)`. -/
def listInsert {α} (xs : List α) (k : Int) (x : α) : List α :=
  xs.take (clip xs.length k) ++ x :: xs.drop (clip xs.length k)

/-- `list.remove(x)`; `none` stands for a `ValueError`. -/
def listRemove {α} [DecidableEq α] (x : α) : List α → Option (List α)
  | [] => none
  | y :: ys => if y = x then some ys else (listRemove x ys).map (y :: ·)

/-! ## Heap -/

/-- The list object that a deque refers to. -/
def World.contents {α} (w : World α) (d : Dq) : List α := w.heap.getD d.ref []

/-- Change the list of a deque in place. -/
def World.store {α} (w : World α) (d : Dq) (xs : List α) : World α :=
  { w with heap := w.heap.set d.ref xs }

/-- `self._contents = xs` with a fresh list. -/
def World.rebind {α} (w : World α) (i : Nat) (d : Dq) (xs : List α) : World α :=
  { heap := w.heap ++ [xs], dqs := w.dqs.set i { d with ref := w.heap.length } }

/-- Create a deque with a fresh list. -/
def World.create {α} (w : World α) (xs : List α) (maxlen : Option Nat) : Out α × World α :=
  (.made w.dqs.length, { heap := w.heap ++ [xs], dqs := w.dqs ++ [⟨w.heap.length, maxlen⟩] })

/-! ## The deque -/

/-- collectionslib.py 86-88: `_has_room`. -/
def hasRoom {α} (d : Dq) (xs : List α) : Bool :=
  match d.maxlen with
  | none => true
  | some m => xs.length < m

/-- collectionslib.py 90-95: `appendleft`. -/
def appendleft {α} (w : World α) (i : Nat) (d : Dq) (x : α) : Out α × World α :=
  let xs := w.contents d
  if hasRoom d xs then (.unit, w.rebind i d ([x] ++ xs))
  else
    match xs with
    | [] => (.raised .index, w)
    | _ :: _ =>
      let w := w.store d xs.dropLast
      (.unit, w.rebind i d ([x] ++ w.contents d))

/-- collectionslib.py 97-102: `append`. -/
def append {α} (w : World α) (i : Nat) (d : Dq) (x : α) : Out α × World α :=
  let xs := w.contents d
  if hasRoom d xs then (.unit, w.rebind i d (xs ++ [x]))
  else
    match xs with
    | [] => (.raised .index, w)
    | _ :: _ =>
      let w := w.store d (xs.drop 1)
      (.unit, w.rebind i d (w.contents d ++ [x]))

/-- collectionslib.py 110-115: `count`. -/
def countLoop {α} [DecidableEq α] (x : α) (c : Nat) : List α → Nat
  | [] => c
  | y :: ys => if y = x then countLoop x (c + 1) ys else countLoop x c ys

/-- collectionslib.py 60-66: the loop of `__mul__`, extending `acc`. -/
def mulLoop {α} (xs acc : List α) : Nat → List α
  | 0 => acc
  | n + 1 => mulLoop xs (acc ++ xs) n

/-- collectionslib.py 162-168: the new contents after `rotate`; `none` when the method returns early. -/
def rotated {α} (xs : List α) (n : Int) : Option (List α) :=
  if xs.isEmpty || n.fmod xs.length == 0 then none
  else
    let k := ((-n).fmod xs.length).toNat
    some (xs.drop k ++ xs.take k)

/-- Run `f` on deque `i`, if there is one. -/
def World.on {α} (w : World α) (i : Nat) (f : Dq → Out α × World α) : Out α × World α :=
  match w.dqs[i]? with
  | none => (.noSuchDeque, w)
  | some d => f d

/-- collectionslib.py 39-168: all operations. -/
def step {α} [DecidableEq α] (w : World α) : Op α → Out α × World α
  | .new xs m => w.create xs m
  | .append i x => w.on i fun d => append w i d x
  | .appendleft i x => w.on i fun d => appendleft w i d x
  | .clear i => w.on i fun d => (.unit, w.rebind i d [])
  | .copy i => w.on i fun d => w.create (w.contents d) d.maxlen
  | .add i j => w.on i fun d => w.on j fun d' => w.create (w.contents d ++ w.contents d') d.maxlen
  | .mul i n => w.on i fun d => w.create (mulLoop (w.contents d) [] n.toNat) d.maxlen
  | .eq i j => w.on i fun d => w.on j fun d' => (.bool (w.contents d = w.contents d'), w)
  | .len i => w.on i fun d => (.num (w.contents d).length, w)
  | .get i k => w.on i fun d =>
      match position (w.contents d).length k with
      | none => (.raised .index, w)
      | some p => match (w.contents d)[p]? with
        | none => (.raised .index, w)
        | some x => (.elem x, w)
  | .set i k x => w.on i fun d =>
      match position (w.contents d).length k with
      | none => (.raised .index, w)
      | some p => (.unit, w.store d ((w.contents d).set p x))
  | .del i k => w.on i fun d =>
      match position (w.contents d).length k with
      | none => (.raised .index, w)
      | some p => (.unit, w.store d ((w.contents d).eraseIdx p))
  | .count i x => w.on i fun d => (.num (countLoop x 0 (w.contents d)), w)
  | .extend i xs => w.on i fun d => (.unit, w.store d (w.contents d ++ xs))
  | .extendFrom i j => w.on i fun d => w.on j fun d' => (.unit, w.store d (w.contents d ++ w.contents d'))
  | .extendleft i xs => w.on i fun d => (.unit, w.rebind i d (xs.reverse ++ w.contents d))
  | .index i x start stop => w.on i fun d =>
      match listIndex (w.contents d) x start stop with
      | none => (.raised .value, w)
      | some p => (.num p, w)
  | .insert i k x => w.on i fun d => (.unit, w.store d (listInsert (w.contents d) k x))
  | .pop i => w.on i fun d =>
      match (w.contents d).getLast? with
      | none => (.raised .index, w)
      | some x => (.elem x, w.store d (w.contents d).dropLast)
  | .popleft i => w.on i fun d =>
      match w.contents d with
      | [] => (.raised .index, w)
      | x :: xs => (.elem x, w.store d xs)
  | .remove i x => w.on i fun d =>
      match listRemove x (w.contents d) with
      | none => (.raised .value, w)
      | some xs => (.unit, w.store d xs)
  | .reverse i => w.on i fun d => (.unit, w.store d (w.contents d).reverse)
  | .rotate i n => w.on i fun d =>
      match rotated (w.contents d) n with
      | none => (.unit, w)
      | some xs => (.unit, w.rebind i d xs)

/-- A history of operations; the outputs in order, and the final world. -/
def run {α} [DecidableEq α] (w : World α) : List (Op α) → List (Out α) × World α
  | [] => ([], w)
  | op :: ops =>
    let (o, w') := step w op
    let (os, w'') := run w' ops
    (o :: os, w'')

end Verif.Deque
