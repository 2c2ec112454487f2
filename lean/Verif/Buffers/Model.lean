import Verif.Buffers.Spec
import Verif.Seq.Model
/-
Model of CrossHair's symbolic `bytes`, `bytearray` and `memoryview`,
/repo/crosshair/libimpl/builtinslib.py:4001-4020, 4362-4396, 4402-4597, 4808-4835 and
/repo/crosshair/simplestructs.py:388-398, 616-663.

The contents of a `SymbolicBytes` or `SymbolicByteArray` is a lazy sequence.  An element is either
a number or an element of a `SliceView` on another object (`Cell.ref`), which is looked up in that
object whenever it is needed.  Lists, concatenations and slices of such sequences behave as
Python's lists (theorems `Verif.Seq.lazy_get`, `lazy_slice`, `lazy_concat`, and
`Verif.Seq.setIdx_means`, `setSlice_means`, `delIdx_means`, `delSlice_means`, `insert_means` for
the methods of `ShellMutableSequence`), so they are written as operations on lists here.
-/
namespace Verif.Buffers

open Verif.Seq (Slice)

/-- An element of a lazy sequence: a number, or the element at a position of another object. -/
inductive Cell where
  | val (n : Int)
  | ref (obj : Nat) (i : Int)
  deriving DecidableEq, Repr

/-- `SymbolicBytes` (4246-4250) or `SymbolicByteArray` (4402-4408) with its `inner`. -/
structure Buf where
  kind : Kind
  inner : List Cell
  deriving DecidableEq, Repr

/-- `SymbolicMemoryView` (4498-4510): `obj` and the bounds of `_sliced`.  (An empty slice of a view
is `SliceView((), 0, 0)`, simplestructs.py:651; its bounds are kept, and it has no elements.) -/
structure View where
  obj : Nat
  start : Int
  stop : Int
  readonly : Bool
  deriving DecidableEq, Repr

/-- The objects and view variables of a program. -/
structure St where
  buf : Nat → Buf
  bufs : Nat
  view : Nat → Option View
  views : Nat

/-- The number in a cell.  Looking up a reference is a call of `__getitem__`; `fuel` is the depth
of the call stack. -/
def St.cell (s : St) : Nat → Cell → Except Err Int
  | _, .val n => .ok n
  | 0, .ref _ _ => .error .recursion
  | fuel + 1, .ref o i =>
    match Seq.pyGet (s.buf o).inner i with
    | .error _ => .error .index
    | .ok c => s.cell fuel c

/-- The numbers in some cells, in order (`tracing_iter`, `list`). -/
def St.cells (s : St) (fuel : Nat) : List Cell → Except Err (List Int)
  | [] => .ok []
  | c :: cs =>
    match s.cell fuel c with
    | .error e => .error e
    | .ok n =>
      match s.cells fuel cs with
      | .error e => .error e
      | .ok ns => .ok (n :: ns)

/-- `_out_of_byte_range` (4362-4365). -/
def outOfByteRange (n : Int) : Bool := decide (n < 0) || decide (n > 255)

/-- `_as_byte_value` (4368-4376). -/
def asByteValue : Item → Except Err Int
  | .other => .error .type
  | .int n => if outOfByteRange n then .error .value else .ok n

/-- The integers among some items (for items that are all integers: those). -/
def ints : List Item → List Int
  | [] => []
  | .int n :: xs => n :: ints xs
  | .other :: xs => ints xs

/-- `_validated_byte_values` (4379-4395) for a list (which is its own `buffer_to_byte_seq`). -/
def validatedByteValues (items : List Item) : Except Err (List Int) :=
  if items.any (fun x => decide (x = .other)) then .error .type
  else if (ints items).any outOfByteRange then .error .value
  else .ok (ints items)

/-- The cells of a `SliceView`: what `buffer_to_byte_seq` (4001-4020) gives for a view. -/
def View.cells (w : View) : List Cell :=
  (List.range (w.stop - w.start).toNat).map fun (k : Nat) => Cell.ref w.obj (w.start + (k : Int))

/-- A new object. -/
def St.new (s : St) (k : Kind) (inner : List Cell) : St :=
  { s with buf := upd s.buf s.bufs ⟨k, inner⟩, bufs := s.bufs + 1 }

/-- Assign a view variable. -/
def St.setView (s : St) (dst : Nat) (w : View) : St :=
  { s with view := upd s.view dst (some w), views := max s.views (dst + 1) }

/-- Give a bytearray new contents (`self.inner = ...` in `ShellMutableSequence`).  The methods do
not exist on `bytes`. -/
def St.store (s : St) (o : Nat) (r : Except Err (List Cell)) : Except Err Out × St :=
  match (s.buf o).kind with
  | .bytes => (.error .type, s)
  | .array =>
    match r with
    | .error e => (.error e, s)
    | .ok inner => (.ok .none, { s with buf := upd s.buf o ⟨.array, inner⟩ })

/-- Numbers as cells. -/
def vals (ns : List Int) : List Cell := ns.map .val

/-- `SymbolicByteArray.__setitem__` at an index (4470-4476, simplestructs.py:731-733). -/
def St.setIdx (s : St) (o : Nat) (i : Int) (x : Item) : Except Err Out × St :=
  s.store o (andThen (asByteValue x) fun n => ofSeq (Seq.pySet (s.buf o).inner i (.val n)))

/-- `compose_slices` (simplestructs.py:388-398), with step `None`.  Comparing a missing bound with
zero is a `TypeError`. -/
def composeSlices (prelen postlen : Int) (a b : Option Int) : Except Err (Int × Int) :=
  match a with
  | none => .error .type
  | some start =>
    let start := if start ≥ 0 then start + prelen else start - prelen
    match b with
    | none => .error .type
    | some stop =>
      let stop := if stop ≥ 0 then stop + prelen else stop - postlen
      .ok (start, stop)

/-- `SliceView.__getitem__` for a slice with step one (simplestructs.py:640-652): the view on the
stretch.  (`indices` and `clamp_slice` are `Seq.indices` and `Seq.clampSlice`.) -/
def View.slice (w : View) (a b : Option Int) : View :=
  let len := (w.stop - w.start).toNat
  match Seq.indices ⟨a, b, none⟩ len with
  | .error _ => w
  | .ok (start, stop, step) =>
    let c := Seq.clampSlice start stop step len
    let sliceStart := w.start + c.start.getD 0
    let sliceStop := w.start + c.stop.getD 0
    if sliceStop ≤ sliceStart then { w with start := 0, stop := 0 }
    else { w with start := sliceStart, stop := sliceStop }

/-- `SymbolicMemoryView.__getitem__` at an index (4565, simplestructs.py:655-656). -/
def St.viewGet (s : St) (fuel : Nat) (w : View) (i : Int) : Except Err Out :=
  match Seq.checkIdx i (w.stop - w.start) with
  | .error _ => .error .index
  | .ok k => andThen (s.cell (fuel + 1) (.ref w.obj (w.start + k))) fun n => .ok (.byte n)

/-- `SymbolicMemoryView.__setitem__` at an index (4538-4551). -/
def St.viewSet (s : St) (w : View) (i : Int) (x : Item) : Except Err Out × St :=
  if w.readonly then (.error .type, s)
  else
    let suffixlen := (s.buf w.obj).inner.length - w.stop
    if i < 0 then s.setIdx w.obj (i - suffixlen) x
    else s.setIdx w.obj (i + w.start) x

/-- `SymbolicMemoryView.__setitem__` for a slice (4538-4547); `new` are the cells of the assigned
value, which `ShellMutableSequence.__setitem__` takes over as they are
(`sequence_evaluation`, simplestructs.py:685-692, considers every hashable value immutable). -/
def St.viewSetSlice (s : St) (w : View) (a b : Option Int) (new : List Cell) :
    Except Err Out × St :=
  if w.readonly then (.error .type, s)
  else
    let inner := (s.buf w.obj).inner
    let suffixlen := inner.length - w.stop
    match composeSlices w.start suffixlen a b with
    | .error e => (.error e, s)
    | .ok (start, stop) =>
      match Seq.pySlice inner ⟨some start, some stop, none⟩ with
      | .error _ => (.error .value, s)
      | .ok old =>
        if new.length ≠ old.length then (.error .value, s)
        else s.store w.obj (ofSeq (Seq.pySetSlice inner ⟨some start, some stop, none⟩ new))

/-- One operation under CrossHair, with a call stack of depth `fuel`.

* `newArray`: `_bytearray` (4808-4819) takes a list as it is.  Simplification: the elements that
  are not integers are dropped here (in the code they stay, and fail when they are used), and a
  later change of the list itself is not modelled.
* `copy`: `_bytearray` and `_bytes` (4822-4835) share the `inner` of the source, which no
  operation changes in place.
* `ofView`: `tobytes` (4578-4580) and `_bytearray` keep the `SliceView`.
* `append`, `extend`, `insert`, `setIdx`, `setSlice`: 4461-4476.
* `viewOf`: 4498-4510; `subView`: 4553-4563; `toReadonly`: 4585-4589.
* `viewRead`: 4582, simplestructs.py:661-663. -/
def step (fuel : Nat) (s : St) : Op → Except Err Out × St
  | .newArray items => (.ok .none, s.new .array (vals (ints items)))
  | .copy k src => (.ok .none, s.new k (s.buf src).inner)
  | .ofView k v =>
    match s.view v with
    | none => (.error .type, s)
    | some w => (.ok .none, s.new k (w.cells))
  | .append o x =>
    s.store o (andThen (asByteValue x) fun n => .ok ((s.buf o).inner ++ [.val n]))
  | .extend o items =>
    s.store o (andThen (validatedByteValues items) fun ns => .ok ((s.buf o).inner ++ vals ns))
  | .extendBuf o src => s.store o (.ok ((s.buf o).inner ++ (s.buf src).inner))
  | .extendView o v =>
    match s.view v with
    | none => (.error .type, s)
    | some w => s.store o (.ok ((s.buf o).inner ++ w.cells))
  | .insert o i x =>
    s.store o (andThen (asByteValue x) fun n => .ok (Seq.pyInsert (s.buf o).inner i (.val n)))
  | .setIdx o i x => s.setIdx o i x
  | .setSlice o sl items =>
    s.store o (andThen (validatedByteValues items) fun ns =>
      ofSeq (Seq.pySetSlice (s.buf o).inner sl (vals ns)))
  | .delIdx o i => s.store o (ofSeq (Seq.pyDel (s.buf o).inner i))
  | .delSlice o sl => s.store o (ofSeq (Seq.pyDelSlice (s.buf o).inner sl))
  | .getIdx o i =>
    (andThen (ofSeq (Seq.pyGet (s.buf o).inner i)) fun c =>
      andThen (s.cell fuel c) fun n => .ok (.byte n), s)
  | .read o => (andThen (s.cells fuel (s.buf o).inner) fun ns => .ok (.bytes ns), s)
  | .viewOf dst o =>
    (.ok .none, s.setView dst
      ⟨o, 0, (s.buf o).inner.length, decide ((s.buf o).kind = .bytes)⟩)
  | .subView dst v a b =>
    match s.view v with
    | none => (.error .type, s)
    | some w => (.ok .none, s.setView dst (w.slice a b))
  | .toReadonly dst v =>
    match s.view v with
    | none => (.error .type, s)
    | some w => (.ok .none, s.setView dst { w with readonly := true })
  | .viewGet v i =>
    match s.view v with
    | none => (.error .type, s)
    | some w => (s.viewGet fuel w i, s)
  | .viewRead v =>
    match s.view v with
    | none => (.error .type, s)
    | some w => (andThen (s.cells (fuel + 1) (w.cells)) fun ns => .ok (.bytes ns), s)
  | .viewSet v i x =>
    match s.view v with
    | none => (.error .type, s)
    | some w => s.viewSet w i x
  | .viewSetSlice v a b xs =>
    match s.view v with
    | none => (.error .type, s)
    | some w => s.viewSetSlice w a b (vals xs)
  | .viewSetView v a b src =>
    match s.view v with
    | none => (.error .type, s)
    | some w =>
      match s.view src with
      | none => (.error .type, s)
      | some w' => s.viewSetSlice w a b (w'.cells)

end Verif.Buffers
