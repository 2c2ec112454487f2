import Verif.Seq.Spec
/-
Model of CrossHair's lazy sequences and its mutable list shell,
/repo/crosshair/simplestructs.py:342-822.

A sequence is a tree of concatenations and views over concrete Python sequences.  A concrete
sequence behaves as CPython's does (`pyGet`, `pySlice`, ...).  Elements are compared with `=`
(Python's `==`, supposed to be a decidable equality).
-/
namespace Verif.Seq

/-- `normalize_idx` (simplestructs.py:342-347). -/
def normalizeIdx (idx len : Int) : Int := if idx < 0 then idx + len else idx

/-- `check_idx` (simplestructs.py:350-356). -/
def checkIdx (idx len : Int) : Except PyErr Int :=
  let n := normalizeIdx idx len
  if 0 ≤ n ∧ n < len then .ok n else .error .indexError

/-- `clamp_slice` (simplestructs.py:359-380); the fields of the given slice are all present. -/
def clampSlice (start stop step len : Int) : Slice :=
  if step < 0 then
    if start < 0 ∨ stop ≥ len - 1 then ⟨some 0, some 0, some step⟩
    else
      let clamper (i : Int) : Option Int :=
        if i < 0 then none else if i ≥ len then some (len - 1) else some i
      ⟨clamper start, clamper stop, some step⟩
  else
    let clamper (i : Int) : Option Int :=
      if i < 0 then some 0 else if i > len then some len else some i
    ⟨clamper start, clamper stop, some step⟩

/-- The part of `cut_slice` for positive steps (simplestructs.py:405-423). -/
def cutUp (start stop step cut : Int) : (Int × Int) × (Int × Int) :=
  let delta := -(min (min start stop) cut)
  let start := start + delta
  let stop := stop + delta
  let cut := cut + delta
  let r : (Int × Int) × (Int × Int) :=
    if cut < start then ((cut, cut), (start, stop))
    else if cut > stop then ((start, stop), (cut, cut))
    else
      let mid := min cut stop
      let empties := mid.fmod step
      let mid' := if empties > 0 then mid + (step - empties) else mid
      ((start, mid), (mid', stop))
  ((r.1.1 - delta, r.1.2 - delta), (r.2.1 - delta, r.2.2 - delta))

/-- `cut_slice` (simplestructs.py:401-428): the bounds of the two parts, both with the given
step. -/
def cutSlice (start stop step cut : Int) : (Int × Int) × (Int × Int) :=
  if step < 0 then
    let r := cutUp (-start) (-stop) (-step) (-cut)
    ((-r.1.1, -r.1.2), (-r.2.1, -r.2.2))
  else cutUp start stop step cut

/-- `indices` (simplestructs.py:431-454). -/
def indices (s : Slice) (len : Nat) : Except PyErr (Int × Int × Int) :=
  match s.step with
  | some c =>
    if c ≤ 0 then pyIndices s len
    else .ok ((s.start.map (normalizeIdx · len)).getD 0, (s.stop.map (normalizeIdx · len)).getD len, c)
  | none =>
    .ok ((s.start.map (normalizeIdx · len)).getD 0, (s.stop.map (normalizeIdx · len)).getD len, 1)

/-- A sequence: a Python list, another concrete Python sequence such as a tuple, a
`SequenceConcatenation` (simplestructs.py:541-545), or a `SliceView` (616-620). -/
inductive Sq (α : Type) where
  | lst (xs : List α)
  | tup (xs : List α)
  | cat (first second : Sq α)
  | view (seq : Sq α) (start stop : Int)

variable {α : Type}

/-- `__len__` (simplestructs.py:610-613 and 658-659). -/
def Sq.len : Sq α → Int
  | lst xs => xs.length
  | tup xs => xs.length
  | cat a b => a.len + b.len
  | view _ start stop => stop - start

/-- `__getitem__` with an integer (simplestructs.py:555-557 and 653-656). -/
def Sq.get : Sq α → Int → Except PyErr α
  | lst xs, i => pyGet xs i
  | tup xs, i => pyGet xs i
  | cat a b, i =>
    match checkIdx i (a.len + b.len) with
    | .error e => .error e
    | .ok i => if i < a.len then a.get i else b.get (i - a.len)
  | view s start stop, i =>
    match checkIdx i (stop - start) with
    | .error e => .error e
    | .ok i => s.get (start + i)

/-- Run a partial function over a list, stopping at the first error. -/
def mapE {β : Type} (f : Int → Except PyErr β) : List Int → Except PyErr (List β)
  | [] => .ok []
  | i :: is => match f i with
    | .error e => .error e
    | .ok v => match mapE f is with
      | .error e => .error e
      | .ok vs => .ok (v :: vs)

/-- `__iter__` (simplestructs.py:607-608 and 661-663), as the list of everything yielded. -/
def Sq.iter : Sq α → Except PyErr (List α)
  | lst xs => .ok xs
  | tup xs => .ok xs
  | cat a b => match a.iter with
    | .error e => .error e
    | .ok xs => match b.iter with
      | .error e => .error e
      | .ok ys => .ok (xs ++ ys)
  | view s start stop => mapE s.get (Range.Rng.iter ⟨start, stop, 1⟩)

/-- `concatenate_sequences` (simplestructs.py:666-679). -/
def concat (a b : Sq α) : Sq α :=
  match a, b with
  | .lst xs, .lst ys => .lst (xs ++ ys)
  | .lst xs, .cat (.lst ys) c => .cat (.lst (xs ++ ys)) c
  | .cat c (.lst xs), .lst ys => .cat c (.lst (xs ++ ys))
  | a, b => .cat a b

/-- Both results, or the first error. -/
def both {β γ δ : Type} (x : Except PyErr β) (y : Except PyErr γ) (f : β → γ → δ) : Except PyErr δ :=
  match x with
  | .error e => .error e
  | .ok a => match y with
    | .error e => .error e
    | .ok b => .ok (f a b)

/-- `__getitem__` with a slice (simplestructs.py:558-592 and 640-652). -/
def Sq.getSlice : Sq α → Slice → Except PyErr (Sq α)
  | lst xs, s => (pySlice xs s).map .lst
  | tup xs, s => (pySlice xs s).map .tup
  | cat a b, s =>
    let firstlen := a.len
    let secondlen := b.len
    let general : Except PyErr (Sq α) :=
      match pyIndices s (firstlen + secondlen).toNat with
      | .error e => .error e
      | .ok (start, stop, step) =>
        let cut := if step > 0 then firstlen else firstlen - 1
        let p := cutSlice start stop step cut
        if step > 0 then
          both (a.getSlice (clampSlice p.1.1 p.1.2 step firstlen))
            (b.getSlice (clampSlice (p.2.1 - firstlen) (p.2.2 - firstlen) step secondlen)) concat
        else
          both (b.getSlice (clampSlice (p.1.1 - firstlen) (p.1.2 - firstlen) step secondlen))
            (a.getSlice (clampSlice p.2.1 p.2.2 step firstlen)) concat
    if s.step.all (fun c => decide (c > 0)) then
      if s.stop.any (fun t => decide (0 ≤ t ∧ t ≤ firstlen)) ∧ s.start.all (fun t => decide (t ≥ 0)) then
        a.getSlice s
      else if s.stop.any (fun t => decide (0 ≤ t ∧ t ≤ firstlen)) ∧
          s.start.any (fun t => decide (t < -secondlen)) then
        a.getSlice ⟨s.start.map (· + secondlen), s.stop, s.step⟩
      else if s.start.any (fun t => decide (t ≥ firstlen)) then
        b.getSlice ⟨s.start.map (· - firstlen),
          s.stop.map (fun t => if t < 0 then t else t - firstlen), s.step⟩
      else general
    else general
  | view sq mystart mystop, s =>
    let mylen := mystop - mystart
    match indices s mylen.toNat with
    | .error e => .error e
    | .ok (start, stop, step) =>
      if step = 1 then
        let clamped := clampSlice start stop step mylen
        let sliceStart := mystart + clamped.start.getD 0
        let sliceStop := mystart + clamped.stop.getD 0
        if sliceStop ≤ sliceStart then .ok (.view (.tup []) 0 0)
        else .ok (.view sq sliceStart sliceStop)
      else
        match (view sq mystart mystop).iter with
        | .error e => .error e
        | .ok xs => (pySlice xs s).map .lst

/-- `SliceView.slice` (simplestructs.py:625-638). -/
def sliceView (seq : Sq α) (start stop : Int) : Sq α :=
  let seqlen := seq.len
  if start ≤ 0 ∧ stop ≥ seqlen then seq
  else
    let start := if start ≤ 0 then 0 else start
    let stop := if stop ≥ seqlen then seqlen else stop
    let stop := if stop ≤ start then start else stop
    .view seq start stop

/-- The loop of `SeqBase.__eq__` (simplestructs.py:469-473). -/
def zipEq [DecidableEq α] : List α → List α → Bool
  | x :: xs, y :: ys => if x ≠ y then false else zipEq xs ys
  | _, _ => true

/-- `__eq__` against a concrete sequence of the same kind (simplestructs.py:462-473 for views,
594-602 for concatenations). -/
def Sq.eq [DecidableEq α] : Sq α → List α → Except PyErr Bool
  | lst xs, ys => .ok (decide (xs = ys))
  | tup xs, ys => .ok (decide (xs = ys))
  | cat a b, ys =>
    if a.len + b.len ≠ (ys.length : Int) then .ok false
    else match pySlice ys ⟨none, some a.len, none⟩, pySlice ys ⟨some a.len, none, none⟩ with
      | .ok l, .ok r => match a.eq l with
        | .error e => .error e
        | .ok false => .ok false
        | .ok true => b.eq r
      | .error e, _ => .error e
      | _, .error e => .error e
  | view s start stop, ys =>
    if stop - start ≠ (ys.length : Int) then .ok false
    else match (view s start stop).iter with
      | .error e => .error e
      | .ok xs => .ok (zipEq xs ys)

/-- `__contains__` (simplestructs.py:604-605; views use the loop of
`collections.abc.Sequence`). -/
def Sq.contains [DecidableEq α] : Sq α → α → Except PyErr Bool
  | lst xs, v => .ok (decide (v ∈ xs))
  | tup xs, v => .ok (decide (v ∈ xs))
  | cat a b, v => match a.contains v with
    | .error e => .error e
    | .ok true => .ok true
    | .ok false => b.contains v
  | view s start stop, v => match (view s start stop).iter with
    | .error e => .error e
    | .ok xs => .ok (decide (v ∈ xs))

/-- The loop of `SeqBase.__mul__` (simplestructs.py:532-535): add `self` in front `n` times. -/
def mulLoop (q : Sq α) : Nat → Sq α → Sq α
  | 0, ret => ret
  | n + 1, ret => mulLoop q n (concat q ret)

/-- `SeqBase.__mul__` (simplestructs.py:526-535). -/
def Sq.mul (q : Sq α) (n : Int) : Except PyErr (Sq α) :=
  if n ≤ 0 then q.getSlice ⟨some 0, some 0, none⟩ else .ok (mulLoop q (n.toNat - 1) q)

/-- `SeqBase._lexicographic_compare` (simplestructs.py:480-489). -/
def lexCompare [DecidableEq α] (onDiff : α → α → Bool) (onPrefix : Nat → Nat → Bool)
    (n m : Nat) : List α → List α → Bool
  | v1 :: xs, v2 :: ys => if v1 = v2 then lexCompare onDiff onPrefix n m xs ys else onDiff v1 v2
  | _, _ => onPrefix n m

/-- `__lt__`, `__le__`, `__gt__`, `__ge__` (simplestructs.py:491-513), on the elements. -/
def seqLt [DecidableEq α] (lt : α → α → Bool) (xs ys : List α) : Bool :=
  lexCompare lt (fun n m => decide (n < m)) xs.length ys.length xs ys
@[inherit_doc seqLt] def seqLe [DecidableEq α] (lt : α → α → Bool) (xs ys : List α) : Bool :=
  lexCompare lt (fun n m => decide (n ≤ m)) xs.length ys.length xs ys
@[inherit_doc seqLt] def seqGt [DecidableEq α] (lt : α → α → Bool) (xs ys : List α) : Bool :=
  lexCompare (fun a b => lt b a) (fun n m => decide (n > m)) xs.length ys.length xs ys
@[inherit_doc seqLt] def seqGe [DecidableEq α] (lt : α → α → Bool) (xs ys : List α) : Bool :=
  lexCompare (fun a b => lt b a) (fun n m => decide (n ≥ m)) xs.length ys.length xs ys

/-- The operators passed to `_cmp_op`. -/
inductive CmpOp where | lt | le | gt | ge
  deriving DecidableEq

/-- The loop of `AnySymbolicStr._cmp_op` (builtinslib.py:3354-3363): `lessthan` at the first
difference, `none` if the loop runs out (`assert False`).  Strings are lists of code points. -/
def strLoop : List Nat → List Nat → Option Bool
  | [], [] => none
  | [], _ :: _ => some true
  | _ :: _, [] => some false
  | a :: xs, b :: ys => if a = b then strLoop xs ys else some (decide (a < b))

/-- `AnySymbolicStr._cmp_op` (builtinslib.py:3348-3364). -/
def strCmp (op : CmpOp) (xs ys : List Nat) : Option Bool :=
  if xs = ys then some (op = .le ∨ op = .ge)
  else match strLoop xs ys with
    | none => none
    | some lessthan => some (if op = .lt ∨ op = .le then lessthan else !lessthan)

/-! ### The mutable shell: the state is the wrapped sequence `inner` (simplestructs.py:692-700) -/

/-- The new front part in `__setitem__` (simplestructs.py:743-744). -/
def spliceFront (inner : Sq α) (start : Int) (new : Sq α) : Except PyErr (Sq α) :=
  if start > 0 then
    match inner.getSlice ⟨none, some start, none⟩ with
    | .error e => .error e
    | .ok l => .ok (concat l new)
  else .ok new

/-- The end of `__setitem__`, common to integers and slices (simplestructs.py:740-750). -/
def splice (inner : Sq α) (start stop : Int) (new : Sq α) : Except PyErr (Sq α) :=
  let stop := if stop < start then start else stop
  let front := spliceFront inner start new
  let stop := if start > 0 then stop else if stop ≤ 0 then 0 else stop
  match front with
  | .error e => .error e
  | .ok f =>
    if stop < inner.len then
      match inner.getSlice ⟨some stop, none, none⟩ with
      | .error e => .error e
      | .ok r => .ok (concat f r)
    else .ok f

/-- `__setitem__` with an integer (simplestructs.py:731-734, 740-750). -/
def setIdx (inner : Sq α) (k : Int) (v : α) : Except PyErr (Sq α) :=
  match checkIdx k inner.len with
  | .error e => .error e
  | .ok k => splice inner k (k + 1) (.lst [v])

/-- `__setitem__` with a slice (simplestructs.py:717-730, 740-750); `v` is the evaluated
sequence. -/
def setSlice (inner : Sq α) (k : Slice) (v : Sq α) : Except PyErr (Sq α) :=
  match indices k inner.len.toNat with
  | .error e => .error e
  | .ok (start, stop, step) =>
    if step ≠ 1 then
      match inner.iter with
      | .error e => .error e
      | .ok xs => match v.iter with
        | .error e => .error e
        | .ok vs => (pySetSlice xs k vs).map .lst
    else splice inner start stop v

/-- `__delitem__` with an integer (simplestructs.py:759-762). -/
def delIdx (inner : Sq α) (k : Int) : Except PyErr (Sq α) :=
  match checkIdx k inner.len with
  | .error e => .error e
  | .ok i => setSlice inner ⟨some i, some (i + 1), some 1⟩ (.lst [])

/-- `__delitem__` with a slice (simplestructs.py:753-758). -/
def delSlice (inner : Sq α) (k : Slice) : Except PyErr (Sq α) :=
  if k.step = none ∨ k.step = some 1 then setSlice inner k (.lst [])
  else match inner.iter with
    | .error e => .error e
    | .ok xs => (pyDelSlice xs k).map .lst

/-- `append` (simplestructs.py:783-785). -/
def append (inner : Sq α) (v : α) : Sq α := concat inner (.lst [v])

/-- `extend` (simplestructs.py:787-790). -/
def extend (inner : Sq α) (v : Sq α) : Sq α := concat inner v

/-- `insert` (simplestructs.py:802-803). -/
def insert (inner : Sq α) (i : Int) (v : α) : Except PyErr (Sq α) :=
  setSlice inner ⟨some i, some i, some 1⟩ (.lst [v])

/-- `reverse` (simplestructs.py:821-822): `reversed` of a sequence indexes from the end. -/
def reverse (inner : Sq α) : Except PyErr (Sq α) :=
  (mapE inner.get ((List.range inner.len.toNat).reverse.map (fun (i : Nat) => (i : Int)))).map .lst

/-- `pop` of `collections.abc.MutableSequence`: read, then delete. -/
def pop (inner : Sq α) (k : Int) : Except PyErr (α × Sq α) :=
  match inner.get k with
  | .error e => .error e
  | .ok v => match delIdx inner k with
    | .error e => .error e
    | .ok q => .ok (v, q)

/-- `index` of `collections.abc.Sequence`: try positions from `i` on until an `IndexError`.
`fuel` bounds the number of positions; the length suffices. -/
def indexLoop [DecidableEq α] (inner : Sq α) (v : α) : Nat → Nat → Except PyErr Nat
  | 0, _ => .error .valueError
  | fuel + 1, i => match inner.get (i : Int) with
    | .error _ => .error .valueError
    | .ok w => if w = v then .ok i else indexLoop inner v fuel (i + 1)

/-- `index` (simplestructs.py:792-793). -/
def index [DecidableEq α] (inner : Sq α) (v : α) : Except PyErr Nat :=
  indexLoop inner v inner.len.toNat 0

/-- `remove` of `collections.abc.MutableSequence`. -/
def remove [DecidableEq α] (inner : Sq α) (v : α) : Except PyErr (Sq α) :=
  match index inner v with
  | .error e => .error e
  | .ok i => delIdx inner (i : Int)

/-- `clear` of `collections.abc.MutableSequence`: pop until `IndexError`; `fuel` bounds the number
of pops, one more than the length suffices. -/
def clear : Nat → Sq α → Except PyErr (Sq α)
  | 0, q => .ok q
  | fuel + 1, q => match pop q (-1) with
    | .error .indexError => .ok q
    | .error e => .error e
    | .ok (_, q') => clear fuel q'

/-- `sequence_evaluation` (simplestructs.py:682-689): lists are copied, hashable sequences are used
as they are, another shell's `inner` is shared. -/
def Src.eval (st : Nat → Sq α) : Src α → Sq α
  | .list xs => .lst xs
  | .tuple xs => .tup xs
  | .var j => st j

/-- One operation on shells; the store holds each shell's `inner` (simplestructs.py:692-822).
`__eq__` compares with the elements of the other shell; a shell's `inner` is only ever replaced,
the sequences it was built from are never written to. -/
def shStep [DecidableEq α] (st : Nat → Sq α) : Op α → Except PyErr (Obs α) × (Nat → Sq α)
  | .len i => (.ok (.int (st i).len), st)
  | .get i k => (((st i).get k).map .val, st)
  | .elements i => (((st i).iter).map .list, st)
  | .contains i v => (((st i).contains v).map .bool, st)
  | .index i v => ((index (st i) v).map (fun n => .int n), st)
  | .eq i j => ((match (st j).iter with
      | .error e => .error e
      | .ok ys => ((st i).eq ys).map .bool), st)
  | .set i k v => assign st i (setIdx (st i) k v)
  | .setSlice i s src => assign st i (setSlice (st i) s (src.eval st))
  | .del i k => assign st i (delIdx (st i) k)
  | .delSlice i s => assign st i (delSlice (st i) s)
  | .append i v => assign st i (.ok (append (st i) v))
  | .extend i src => assign st i (.ok (extend (st i) (src.eval st)))
  | .insert i k v => assign st i (insert (st i) k v)
  | .reverse i => assign st i (reverse (st i))
  | .pop i k => match pop (st i) k with
    | .error e => (.error e, st)
    | .ok (v, q) => (.ok (.val v), upd st i q)
  | .remove i v => assign st i (remove (st i) v)
  | .clear i => assign st i (clear ((st i).len.toNat + 1) (st i))
  | .slice j i s => assign st j ((st i).getSlice s)
  | .plus j i src => assign st j (.ok (concat (st i) (src.eval st)))
  | .times j i n => assign st j ((st i).mul n)

end Verif.Seq
