import Mathlib.Data.Int.Notation
/-
What Python's `len`, `hash`, `repr`, `str`, `isinstance`, `sorted`, `setattr` and `getattr` do with objects of classes that a program defines: which
special methods they look for, where they look for them, and what they accept from them. After CPython's documentation ("Special method lookup",
`object.__hash__`, `object.__len__`, `isinstance`).
-/
namespace Verif.Protocols

/-- The kinds of exception; `user` are those that methods of the program raise. -/
inductive Err
  | type | value | overflow | attribute | user (n : Nat)
  deriving DecidableEq, Repr

/-- Values that special methods give: `obj` is any other object. -/
inductive Val
  | int (n : ℤ) | text (s : String) | obj (k : Nat)
  deriving DecidableEq, Repr

/-- What a call does. -/
abbrev Ans := Except Err Val

/-- Names of special methods. -/
inductive Name
  | len | hash | repr | str | iter | getitem
  deriving DecidableEq, Repr

/-- An attribute: a function of the object (a method), a function of no arguments (in a class: a `staticmethod`), or `None`. -/
inductive Attr
  | fn (f : Nat → Ans) | static (a : Ans) | nothing

/-- The objects and the classes of a program. -/
structure World where
  /-- The classes in which attributes of a class are looked up, in order (`__mro__`). -/
  mro : Nat → List Nat
  /-- The attributes of a class itself. -/
  attrs : Nat → Name → Option Attr
  /-- `type(o)`. -/
  cls : Nat → Nat
  /-- The attributes that were set on an object. -/
  own : Nat → Name → Option Attr
  /-- What `__getattr__` of its class gives for an attribute that is not there. -/
  hook : Nat → Name → Option Attr
  /-- `o.__class__`. -/
  claims : Nat → Nat
  /-- `__instancecheck__` of the class of a class, if it is not the one of `type`. -/
  instCheck : Nat → Option (Nat → Except Err Bool)
  /-- `__subclasscheck__` of the class of a class, if it is not the one of `type`. -/
  subCheck : Nat → Option (Nat → Except Err Bool)
  /-- What an iterator yields. -/
  yields : Nat → List ℤ
  /-- What `o[0]`, `o[1]`, … give until there is an `IndexError`. -/
  byIndex : Nat → List ℤ

/-- The attribute that counts for special methods: the first one in the classes, whatever the object itself has. -/
def World.found (w : World) (o : Nat) (name : Name) : Option Attr := (w.mro (w.cls o)).findSome? fun c => w.attrs c name

/-- All classes come from `object`, which has these. -/
def World.Rooted (w : World) : Prop :=
  ∀ o, w.found o .hash ≠ none ∧ w.found o .repr ≠ none ∧ w.found o .str ≠ none

/-- Python's call of a special method. -/
def special (w : World) (o : Nat) (name : Name) : Ans :=
  match w.found o name with
  | some (.fn f) => f o
  | some (.static a) => a
  | some .nothing | none => .error .type

/-- `len(o)`: an integer that is not negative and not over `sys.maxsize`. -/
def pyLen (w : World) (o : Nat) : Ans :=
  match special w o .len with
  | .error e => .error e
  | .ok (.int n) => if n < 0 then .error .value else if 2 ^ 63 ≤ n then .error .overflow else .ok (.int n)
  | .ok _ => .error .type

/-- `hash(n)` of an integer that does not fit in 64 bits. -/
def bigHash (n : ℤ) : ℤ := if n < 0 then -(n.natAbs % (2 ^ 61 - 1) : Nat) else (n.natAbs % (2 ^ 61 - 1) : Nat)

/-- `hash(o)`: an integer of 64 bits that is not -1. -/
def pyHash (w : World) (o : Nat) : Ans :=
  match special w o .hash with
  | .error e => .error e
  | .ok (.int n) =>
    let h := if -2 ^ 63 ≤ n ∧ n < 2 ^ 63 then n else bigHash n
    .ok (.int (if h = -1 then -2 else h))
  | .ok _ => .error .type

/-- `repr(o)` and `str(o)`: a text. -/
def pyText (w : World) (o : Nat) (name : Name) : Ans :=
  match special w o name with
  | .error e => .error e
  | .ok (.text s) => .ok (.text s)
  | .ok _ => .error .type

/-- The second argument of `isinstance`: a class, a tuple, or something else. -/
inductive Target
  | cls (c : Nat) | tup (ts : List Target) | junk

mutual
/-- `isinstance(o, t)`. -/
def pyIsInstance (w : World) (o : Nat) : Target → Except Err Bool
  | .cls c =>
    if w.cls o = c then .ok true
    else match w.instCheck c with
      | some check => check o
      | none => .ok (decide (c ∈ w.mro (w.cls o)) || decide (c ∈ w.mro (w.claims o)))
  | .tup ts => pyAnyInstance w o ts
  | .junk => .error .type
/-- One after the other, up to the first that is true or raises. -/
def pyAnyInstance (w : World) (o : Nat) : List Target → Except Err Bool
  | [] => .ok false
  | t :: ts => match pyIsInstance w o t with
    | .ok false => pyAnyInstance w o ts
    | r => r
end

/-- `c` occurs in `t`. -/
inductive Target.Has (c : Nat) : Target → Prop
  | here : Target.Has c (.cls c)
  | inside (t : Target) (ts : List Target) : t ∈ ts → Target.Has c t → Target.Has c (.tup ts)

/-- `sorted(o)`, and how often `__iter__` is called. `sort` is `list.sort`. -/
def pySorted (w : World) (sort : List ℤ → List ℤ) (o : Nat) : Except Err (List ℤ) × Nat :=
  match w.found o .iter with
  | some _ => match special w o .iter with
    | .ok (.obj k) => (.ok (sort (w.yields k)), 1)
    | .ok _ => (.error .type, 1)
    | .error e => (.error e, 1)
  | none => match w.found o .getitem with
    | some _ => (.ok (sort (w.byIndex o)), 0)
    | none => (.error .type, 0)

/-- The attributes of objects, by their names. -/
abbrev Store := Nat → String → Option ℤ

/-- A name as it comes to `setattr`: its text, and whether it is a symbolic string. -/
structure Label where
  text : String
  symbolic : Bool

/-- `setattr(o, name, v)`. -/
def pySetattr (st : Store) (o : Nat) (name : Label) (v : ℤ) : Except Err Store :=
  .ok fun p m => if p = o ∧ m = name.text then some v else st p m

/-- `getattr(o, name)` and `getattr(o, name, default)`. -/
def pyGetattr (st : Store) (o : Nat) (name : Label) (default : Option ℤ) : Except Err ℤ :=
  match st o name.text, default with
  | some v, _ => .ok v
  | none, some d => .ok d
  | none, none => .error .attribute

end Verif.Protocols
