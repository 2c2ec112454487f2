import Verif.Protocols.Spec
/-
Built-in functions that are replaced while a program runs in CrossHair (crosshair/libimpl/builtinslib.py, registered in 5454-5478), on objects of
classes of the program. Messages of exceptions are left out. None of the classes are symbolic here (that is in `Verif.Types`).
-/
namespace Verif.Protocols

/-- `invoke_dunder` (243-262): the search through `__mro__`. -/
def searchMro (w : World) (name : Name) : List Nat → Option Attr
  | [] => none
  | c :: cs => match w.attrs c name with
    | some a => some a
    | none => searchMro w name cs

/-- `invoke_dunder` (243-262); `none` is `_MISSING`. The attribute is called with the object; a `staticmethod` of no parameters raises
`TypeError` then. -/
def invokeDunder (w : World) (o : Nat) (name : Name) : Option Ans :=
  match searchMro w name (w.mro (w.cls o)) with
  | none => none
  | some (.fn f) => some (f o)
  | some (.static _) => some (.error .type)
  | some .nothing => some (.error .type)

/-- `o.name()`; `none` if `hasattr(o, name)` is false. An attribute of the object itself comes first (functions are not data descriptors), then
the classes, then `__getattr__`. Functions of the classes are bound to the object, others are not. -/
def callAttr (w : World) (o : Nat) (name : Name) : Option Ans :=
  match w.own o name with
  | some (.static a) => some a
  | some _ => some (.error .type)
  | none => match searchMro w name (w.mro (w.cls o)) with
    | some (.fn f) => some (f o)
    | some (.static a) => some a
    | some .nothing => some (.error .type)
    | none => match w.hook o name with
      | some (.static a) => some a
      | some _ => some (.error .type)
      | none => none

/-- `_len` (5063-5067). -/
def symLen (w : World) (o : Nat) : Ans :=
  match callAttr w o .len with
  | some a => a
  | none => .error .type

/-- `is_hashable` (util.py 80-81). -/
def isHashable (w : World) (o : Nat) : Bool :=
  match searchMro w .hash (w.mro (w.cls o)) with
  | none | some .nothing => false
  | some _ => true

/-- `_hash` (4924-4933). -/
def symHash (w : World) (o : Nat) : Ans :=
  if isHashable w o then (invokeDunder w o .hash).getD (.error .type) else .error .type

/-- `_repr` (5106-5112) and `_str` with one argument that is not a symbolic string (5279-5287). No object is without these methods. -/
def symText (w : World) (o : Nat) (name : Name) : Ans := (invokeDunder w o name).getD (.error .type)

mutual
/-- `_issubclass` (5028-5054) for classes that are not symbolic; the native `issubclass` asks `__subclasscheck__`. -/
def symIsSubclass (w : World) (sub : Nat) : Target → Except Err Bool
  | .tup ts => symAnySubclass w sub ts
  | .cls c => match w.subCheck c with
    | some check => check sub
    | none => .ok (decide (c ∈ w.mro sub))
  | .junk => .error .type
/-- The loop of `_issubclass` (5032-5036). -/
def symAnySubclass (w : World) (sub : Nat) : List Target → Except Err Bool
  | [] => .ok false
  | t :: ts => match symIsSubclass w sub t with
    | .error e => .error e
    | .ok true => .ok true
    | .ok false => symAnySubclass w sub ts
end

/-- `_isinstance` (5057-5058). -/
def symIsInstance (w : World) (o : Nat) (t : Target) : Except Err Bool := symIsSubclass w (w.cls o) t

/-- `iter(o)` in `is_iterable` (util.py 72-77): whether it raises, and how often `__iter__` is called. -/
def iterProbe (w : World) (o : Nat) : Except Err Bool × Nat :=
  match searchMro w .iter (w.mro (w.cls o)) with
  | some a =>
    match (match a with | .fn f => f o | .static x => x | .nothing => .error .type) with
    | .ok (.obj _) => (.ok true, 1)
    | .ok _ => (.ok false, 1)
    | .error .type => (.ok false, 1)
    | .error e => (.error e, 1)
  | none => match searchMro w .getitem (w.mro (w.cls o)) with
    | some _ => (.ok true, 0)
    | none => (.ok false, 0)

/-- `_sorted` (5131-5136). -/
def symSorted (w : World) (sort : List ℤ → List ℤ) (o : Nat) : Except Err (List ℤ) × Nat :=
  match iterProbe w o with
  | (.error e, n) => (.error e, n)
  | (.ok false, n) => (.error .type, n)
  | (.ok true, n) =>
    match callAttr w o .iter with
    | none => (.error .attribute, n)
    | some (.ok (.obj k)) => (.ok (sort (w.yields k)), n + 1)
    | some (.ok _) => (.error .type, n + 1)
    | some (.error e) => (.error e, n + 1)

/-- `_setattr` (5120-5127), for an object that is not symbolic. `type(name) is AnySymbolicStr` holds for no string, since symbolic strings are of
classes below it; the native `setattr` raises `TypeError` for names that are not strings. -/
def symSetattr (st : Store) (o : Nat) (name : Label) (v : ℤ) : Except Err Store :=
  if name.symbolic then .error .type
  else .ok fun p m => if p = o then (if m = name.text then some v else st p m) else st p m

/-- `_getattr` (4905-4913), which makes symbolic names real. -/
def symGetattr (st : Store) (o : Nat) (name : Label) (default : Option ℤ) : Except Err ℤ :=
  match default with
  | none => match st o name.text with
    | some v => .ok v
    | none => .error .attribute
  | some d => .ok ((st o name.text).getD d)

end Verif.Protocols
