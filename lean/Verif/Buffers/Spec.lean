import Verif.Buffers.Base
/-
Python's `bytes`, `bytearray` and `memoryview`, as CPython implements them
(Objects/bytearrayobject.c, Objects/memoryobject.c), without reference to CrossHair.

* A `bytearray` stores bytes: numbers from 0 to 255.
* A `memoryview` is a window on the memory of an object: it shows what is in the object now, and a
  write goes to the object.
* While a view on a bytearray exists its size cannot change (`BufferError`).
* `bytes(...)`, `bytearray(...)`, `tobytes()` and `extend` copy.

Simplifications: variables are never deleted, so a view exists from when it was made until its
variable is assigned again.  A method that `bytes` does not have is a `TypeError`.
-/
namespace Verif.Buffers

/-- A buffer object: its kind and its bytes. -/
structure PyBuf where
  kind : Kind
  data : List Int
  deriving DecidableEq, Repr

/-- A view: the object, where the window starts, how long it is. -/
structure PyView where
  obj : Nat
  start : Nat
  len : Nat
  readonly : Bool
  deriving DecidableEq, Repr

/-- The objects below `bufs` and the view variables below `views` are in use. -/
structure PySt where
  buf : Nat → PyBuf
  bufs : Nat
  view : Nat → Option PyView
  views : Nat

/-- A number as a byte. -/
def pyByte : Item → Except Err Int
  | .int n => if 0 ≤ n ∧ n ≤ 255 then .ok n else .error .value
  | .other => .error .type

/-- A list of numbers as bytes; the first bad one decides about the exception. -/
def pyBytes : List Item → Except Err (List Int)
  | [] => .ok []
  | x :: xs =>
    match pyByte x with
    | .error e => .error e
    | .ok n =>
      match pyBytes xs with
      | .error e => .error e
      | .ok ns => .ok (n :: ns)

/-- Is there a view on the object? -/
def PySt.exported (s : PySt) (o : Nat) : Bool :=
  (List.range s.views).any fun v => match s.view v with | some w => w.obj == o | none => false

/-- The bytes a view shows. -/
def PySt.window (s : PySt) (w : PyView) : List Int := ((s.buf w.obj).data.drop w.start).take w.len

/-- The position a (possibly negative) index of a sequence of length `n` means. -/
def pyPos (n : Nat) (i : Int) : Option Nat :=
  let j := if i < 0 then i + n else i
  if 0 ≤ j ∧ j < n then some j.toNat else none

/-- The stretch `a:b` of a sequence of length `n`: where it starts and how long it is. -/
def pyStretch (n : Nat) (a b : Option Int) : Nat × Nat :=
  let clip (i : Int) : Nat := if i < 0 then (i + n).toNat else min i.toNat n
  let from' := match a with | some i => clip i | none => 0
  let upto := match b with | some i => clip i | none => n
  (from', upto - from')

/-- Change the bytes of an object. -/
def PySt.setData (s : PySt) (o : Nat) (data : List Int) : PySt :=
  { s with buf := upd s.buf o ⟨(s.buf o).kind, data⟩ }

/-- Make a new object. -/
def PySt.new (s : PySt) (k : Kind) (data : List Int) : PySt :=
  { s with buf := upd s.buf s.bufs ⟨k, data⟩, bufs := s.bufs + 1 }

/-- Give a bytearray new contents; only views prevent it, and only if the size changes. -/
def PySt.store (s : PySt) (o : Nat) (r : Except Err (List Int)) : Except Err Out × PySt :=
  match (s.buf o).kind with
  | .bytes => (.error .type, s)
  | .array =>
    match r with
    | .error e => (.error e, s)
    | .ok data =>
      if data.length ≠ (s.buf o).data.length ∧ s.exported o = true then (.error .buffer, s)
      else (.ok .none, s.setData o data)

/-- An exception of a list operation. -/
def ofSeq {α : Type} : Except Seq.PyErr α → Except Err α
  | .ok v => .ok v
  | .error .indexError => .error .index
  | .error .valueError => .error .value
  | .error .typeError => .error .type

/-- Overwrite the bytes from a position on. -/
def overwrite (data : List Int) (p : Nat) (xs : List Int) : List Int :=
  data.take p ++ xs ++ data.drop (p + xs.length)

/-- Write the bytes `xs` to the stretch `a:b` of a view. -/
def PySt.viewStore (s : PySt) (w : PyView) (a b : Option Int) (xs : List Int) :
    Except Err Out × PySt :=
  if w.readonly = true then (.error .type, s)
  else
    let p := pyStretch w.len a b
    if p.2 = xs.length then
      (.ok .none, s.setData w.obj (overwrite (s.buf w.obj).data (w.start + p.1) xs))
    else (.error .value, s)

/-- Chaining: continue with a value or stop with the exception. -/
def andThen {α β : Type} (r : Except Err α) (f : α → Except Err β) : Except Err β :=
  match r with
  | .ok v => f v
  | .error e => .error e

/-- Store into a view variable. -/
def PySt.setView (s : PySt) (dst : Nat) (w : PyView) : PySt :=
  { s with view := upd s.view dst (some w), views := max s.views (dst + 1) }

/-- One operation of Python.  A view variable that was never assigned gives a `TypeError`. -/
def pyStep (s : PySt) : Op → Except Err Out × PySt
  | .newArray items =>
    match pyBytes items with
    | .error e => (.error e, s)
    | .ok data => (.ok .none, s.new .array data)
  | .copy k src => (.ok .none, s.new k (s.buf src).data)
  | .ofView k v =>
    match s.view v with
    | none => (.error .type, s)
    | some w => (.ok .none, s.new k (s.window w))
  | .append o x => s.store o (andThen (pyByte x) fun n => .ok ((s.buf o).data ++ [n]))
  | .extend o items => s.store o (andThen (pyBytes items) fun ns => .ok ((s.buf o).data ++ ns))
  | .extendBuf o src => s.store o (.ok ((s.buf o).data ++ (s.buf src).data))
  | .extendView o v =>
    match s.view v with
    | none => (.error .type, s)
    | some w => s.store o (.ok ((s.buf o).data ++ s.window w))
  | .insert o i x => s.store o (andThen (pyByte x) fun n => .ok (Seq.pyInsert (s.buf o).data i n))
  | .setIdx o i x =>
    s.store o (andThen (pyByte x) fun n => ofSeq (Seq.pySet (s.buf o).data i n))
  | .setSlice o sl items =>
    s.store o (andThen (pyBytes items) fun ns => ofSeq (Seq.pySetSlice (s.buf o).data sl ns))
  | .delIdx o i => s.store o (ofSeq (Seq.pyDel (s.buf o).data i))
  | .delSlice o sl => s.store o (ofSeq (Seq.pyDelSlice (s.buf o).data sl))
  | .getIdx o i => (andThen (ofSeq (Seq.pyGet (s.buf o).data i)) fun n => .ok (.byte n), s)
  | .read o => (.ok (.bytes (s.buf o).data), s)
  | .viewOf dst o =>
    (.ok .none, s.setView dst ⟨o, 0, (s.buf o).data.length, decide ((s.buf o).kind = .bytes)⟩)
  | .subView dst v a b =>
    match s.view v with
    | none => (.error .type, s)
    | some w =>
      let p := pyStretch w.len a b
      (.ok .none, s.setView dst ⟨w.obj, w.start + p.1, p.2, w.readonly⟩)
  | .toReadonly dst v =>
    match s.view v with
    | none => (.error .type, s)
    | some w => (.ok .none, s.setView dst { w with readonly := true })
  | .viewGet v i =>
    match s.view v with
    | none => (.error .type, s)
    | some w =>
      match pyPos w.len i with
      | none => (.error .index, s)
      | some p =>
        match (s.window w)[p]? with
        | none => (.error .index, s)
        | some n => (.ok (.byte n), s)
  | .viewRead v =>
    match s.view v with
    | none => (.error .type, s)
    | some w => (.ok (.bytes (s.window w)), s)
  | .viewSet v i x =>
    match s.view v with
    | none => (.error .type, s)
    | some w =>
      if w.readonly = true then (.error .type, s)
      else
        match pyPos w.len i with
        | none => (.error .index, s)
        | some p =>
          match pyByte x with
          | .error e => (.error e, s)
          | .ok n =>
            (.ok .none, s.setData w.obj ((s.buf w.obj).data.set (w.start + p) n))
  | .viewSetSlice v a b xs =>
    match s.view v with
    | none => (.error .type, s)
    | some w => s.viewStore w a b xs
  | .viewSetView v a b src =>
    match s.view v with
    | none => (.error .type, s)
    | some w =>
      match s.view src with
      | none => (.error .type, s)
      | some w' => s.viewStore w a b (s.window w')

end Verif.Buffers
