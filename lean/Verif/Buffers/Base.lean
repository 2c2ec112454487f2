import Verif.Seq.Spec
/-
Vocabulary shared by the model of CrossHair's byte buffers and by the description of Python's.

`bytes` and `bytearray` objects are numbered in the order in which a program makes them (the
objects a program starts with come first); `memoryview`s are kept in numbered variables.
-/
namespace Verif.Buffers

/-- The two kinds of buffer objects. -/
inductive Kind where
  | bytes
  | array
  deriving DecidableEq, Repr

/-- A value a program tries to store: an integer, or something that is not an integer. -/
inductive Item where
  | int (n : Int)
  | other
  deriving DecidableEq, Repr

/-- The exceptions that matter here. -/
inductive Err where
  | type
  | value
  | index
  | buffer
  | recursion
  deriving DecidableEq, Repr

/-- What an operation shows to the program. -/
inductive Out where
  | none
  | byte (n : Int)
  | bytes (xs : List Int)
  deriving DecidableEq, Repr

/-- The operations of a program.

`dst` is the variable that receives a new view.  Slices have step one unless the operation
takes a `Seq.Slice`. -/
inductive Op where
  /-- `bytearray(items)` for a list of items -/
  | newArray (items : List Item)
  /-- `bytearray(src)` / `bytes(src)` for a buffer -/
  | copy (kind : Kind) (src : Nat)
  /-- `view.tobytes()` (`kind = bytes`) / `bytearray(view)` -/
  | ofView (kind : Kind) (view : Nat)
  /-- `o.append(x)` -/
  | append (o : Nat) (x : Item)
  /-- `o.extend(items)` -/
  | extend (o : Nat) (items : List Item)
  /-- `o.extend(src)` for a buffer -/
  | extendBuf (o : Nat) (src : Nat)
  /-- `o.extend(view)` -/
  | extendView (o : Nat) (view : Nat)
  /-- `o.insert(i, x)` -/
  | insert (o : Nat) (i : Int) (x : Item)
  /-- `o[i] = x` -/
  | setIdx (o : Nat) (i : Int) (x : Item)
  /-- `o[s] = items` -/
  | setSlice (o : Nat) (s : Seq.Slice) (items : List Item)
  /-- `del o[i]` -/
  | delIdx (o : Nat) (i : Int)
  /-- `del o[s]` -/
  | delSlice (o : Nat) (s : Seq.Slice)
  /-- `o[i]` -/
  | getIdx (o : Nat) (i : Int)
  /-- `list(o)` -/
  | read (o : Nat)
  /-- `dst = memoryview(o)` -/
  | viewOf (dst : Nat) (o : Nat)
  /-- `dst = view[a:b]` -/
  | subView (dst : Nat) (view : Nat) (a b : Option Int)
  /-- `dst = view.toreadonly()` -/
  | toReadonly (dst : Nat) (view : Nat)
  /-- `view[i]` -/
  | viewGet (view : Nat) (i : Int)
  /-- `view.tolist()` -/
  | viewRead (view : Nat)
  /-- `view[i] = x` -/
  | viewSet (view : Nat) (i : Int) (x : Item)
  /-- `view[a:b] = bytes(xs)` -/
  | viewSetSlice (view : Nat) (a b : Option Int) (xs : List Int)
  /-- `view[a:b] = src` for another view -/
  | viewSetView (view : Nat) (a b : Option Int) (src : Nat)
  deriving DecidableEq, Repr

/-- Give a variable or an object a new value. -/
def upd {β : Type} (f : Nat → β) (i : Nat) (v : β) : Nat → β := fun j => if j = i then v else f j

/-- Run a program, keeping what each operation shows. -/
def history {S : Type} (step : S → Op → Except Err Out × S) (s : S) :
    List Op → List (Except Err Out) × S
  | [] => ([], s)
  | o :: os =>
    let r := step s o
    let rest := history step r.2 os
    (r.1 :: rest.1, rest.2)

end Verif.Buffers
