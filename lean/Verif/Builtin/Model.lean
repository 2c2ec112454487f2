/-!
# Replacements for built-in functions

Models the functions that stand in for Python's `all`, `any`, `dict`, `list.index`, `str.join`, `str.__contains__`
and the `__repr__` of containers while code is analysed (`crosshair/libimpl/builtinslib.py`).

`A` is the type of assignments of values to the symbolic variables.  A path of the analysis is followed by the
assignments that satisfy its path condition; a fork on a symbolic condition takes the branch that the assignment
followed satisfies.  `E` is the type of exceptions.
-/
namespace Verif.Builtin

/-- builtinslib.py:4762-4775: the kinds of item that `_all` and `_any` tell apart.  `other` is any object whose
truth is found by calling `bool` on it, which may raise; `crosshair` says whether it is a `CrossHairValue`. -/
inductive Item (A E : Type) where
  | bool (b : Bool)
  | sym (φ : A → Bool)
  | other (crosshair : Bool) (truth : A → Except E Bool)

/-- What asking an iterator for the next item does: it yields an item or raises. -/
inductive Step (A E : Type) where
  | item (x : Item A E)
  | raises (e : E)

/-- The value returned by `_all` or `_any`, a bool or a `SymbolicBool`, or the exception raised. -/
inductive Res (A E : Type) where
  | concrete (b : Bool)
  | symbolic (φ : A → Bool)
  | raised (e : E)

/-- User code that runs on behalf of `all`: the iterator producing its next item (or its end), or `bool(item)`
for the item at a position. -/
inductive Event where
  | next
  | truth (crosshair : Bool) (i : Nat)
  deriving DecidableEq, Repr

/-- `z3.And(*prefix)` -/
def conj {A : Type} (pre : List (A → Bool)) : A → Bool := fun a => pre.all (fun φ => φ a)

/-- `z3.Or(*prefix)` -/
def disj {A : Type} (pre : List (A → Bool)) : A → Bool := fun a => pre.any (fun φ => φ a)

/-- builtinslib.py:4757-4778 `_all`, the loop from the item at position `i` on, with the accumulated `smt_prefix`. -/
def allLoop {A E : Type} (a : A) : List (Step A E) → Nat → List (A → Bool) → Res A E × List Event
  | [], _, pre => (if pre.isEmpty then .concrete true else .symbolic (conj pre), [.next])
  | .raises e :: _, _, _ => (.raised e, [.next])
  | .item (.bool b) :: rest, i, pre =>
    if !b then (.concrete false, [.next])
    else match allLoop a rest (i + 1) pre with
      | (r, ev) => (r, .next :: ev)
  | .item (.sym φ) :: rest, i, pre =>
    match allLoop a rest (i + 1) (pre ++ [φ]) with
    | (r, ev) => (r, .next :: ev)
  | .item (.other ch truth) :: rest, i, pre =>
    if !ch && !pre.isEmpty && !conj pre a then (.concrete false, [.next])
    else
      match truth a with
      | .error e => (.raised e, [.next, .truth ch i])
      | .ok false => (.concrete false, [.next, .truth ch i])
      | .ok true =>
        match allLoop a rest (i + 1) (if ch then pre else []) with
        | (r, ev) => (r, .next :: .truth ch i :: ev)

/-- builtinslib.py:4757-4778 `_all` -/
def all {A E : Type} (a : A) (steps : List (Step A E)) : Res A E × List Event := allLoop a steps 0 []

/-- builtinslib.py:4781-4802 `_any`, the loop. -/
def anyLoop {A E : Type} (a : A) : List (Step A E) → Nat → List (A → Bool) → Res A E × List Event
  | [], _, pre => (if pre.isEmpty then .concrete false else .symbolic (disj pre), [.next])
  | .raises e :: _, _, _ => (.raised e, [.next])
  | .item (.bool b) :: rest, i, pre =>
    if b then (.concrete true, [.next])
    else match anyLoop a rest (i + 1) pre with
      | (r, ev) => (r, .next :: ev)
  | .item (.sym φ) :: rest, i, pre =>
    match anyLoop a rest (i + 1) (pre ++ [φ]) with
    | (r, ev) => (r, .next :: ev)
  | .item (.other ch truth) :: rest, i, pre =>
    if !ch && !pre.isEmpty && disj pre a then (.concrete true, [.next])
    else
      match truth a with
      | .error e => (.raised e, [.next, .truth ch i])
      | .ok true => (.concrete true, [.next, .truth ch i])
      | .ok false =>
        match anyLoop a rest (i + 1) (if ch then pre else []) with
        | (r, ev) => (r, .next :: .truth ch i :: ev)

/-- builtinslib.py:4781-4802 `_any` -/
def any {A E : Type} (a : A) (steps : List (Step A E)) : Res A E × List Event := anyLoop a steps 0 []

/-! ## dict -/

/-- How keys compare: by identity (`is`), with `==`, and whether they can be hashed. -/
structure Keys (κ : Type) where
  is : κ → κ → Bool
  eq : κ → κ → Bool
  hashable : κ → Bool

/-- The exceptions raised here. -/
inductive Err where
  | valueError
  | typeError
  deriving DecidableEq, Repr

/-- An element of the iterable given to `dict`: a pair, or something of another length. -/
inductive Elem (κ ν : Type) where
  | pair (k : κ) (v : ν)
  | badLength

/-- simplestructs.py:165-175 `SimpleDict.__getitem__` for a hashable key, `none` for `KeyError`. -/
def simpleGet {κ ν : Type} (K : Keys κ) (d : List (κ × ν)) (key : κ) : Option ν :=
  match d with
  | [] => none
  | (k, v) :: rest => if K.is k key || K.eq k key then some v else simpleGet K rest key

/-- simplestructs.py:177-184 `SimpleDict.__setitem__` for a hashable key. -/
def simpleSet {κ ν : Type} (K : Keys κ) (d : List (κ × ν)) (key : κ) (value : ν) : List (κ × ν) :=
  match d with
  | [] => [(key, value)]
  | (k, v) :: rest => if K.eq k key then (k, value) :: rest else (k, v) :: simpleSet K rest key value

/-- builtinslib.py:4859-4870: the scan of the iterable, which collects the pairs and notes whether any two keys are
equal.  The arguments are the pairs and the comparison found so far. -/
def scan {κ ν : Type} (K : Keys κ) : List (Elem κ ν) → List (κ × ν) → Bool → Except Err (List (κ × ν) × Bool)
  | [], all_items, conflict => .ok (all_items, conflict)
  | .badLength :: _, _, _ => .error .valueError
  | .pair k v :: rest, all_items, conflict =>
    if !K.hashable k then .error .valueError
    else scan K rest (all_items ++ [(k, v)]) (conflict || all_items.any (fun p => K.eq k p.1))

/-- builtinslib.py:4874-4876: the pairs from last to first, each kept unless its key is present already. -/
def keepLast {κ ν : Type} (K : Keys κ) : List (κ × ν) → List (κ × ν) → List (κ × ν)
  | [], d => d
  | (k, v) :: rest, d => keepLast K rest (if (simpleGet K d k).isNone then simpleSet K d k v else d)

/-- builtinslib.py:4850-4881 `_dict` for an iterable that is not a mapping, without keyword arguments.  The dict
returned is a `ShellMutableMap` over the `SimpleDict` with these contents (see `Verif.Maps`). -/
def dict {κ ν : Type} (K : Keys κ) (arg : List (Elem κ ν)) : Except Err (List (κ × ν)) :=
  match scan K arg [] false with
  | .error e => .error e
  | .ok (all_items, conflict) => .ok (if conflict then keepLast K all_items.reverse [] else all_items)

/-! ## list.index -/

/-- A bound of a slice with step one, as Python interprets it for a list of length `n`. -/
def bound (n : Nat) (i : Int) : Nat := if i < 0 then (i + n).toNat else min i.toNat n

/-- builtinslib.py:5214-5219: the search of `_list_index`.  `eq x y` is the truth of `x == y`. -/
def search {α : Type} (eq : α → α → Bool) (value : α) : List α → Nat → Except Err Nat
  | [], _ => .error .valueError
  | x :: rest, idx => if eq value x then .ok idx else search eq value rest (idx + 1)

/-- builtinslib.py:5203-5219 `_list_index`; `none` is an argument left at its default.  Only the default objects are
recognised, so `some i` also stands for large integers equal to the default. -/
def listIndex {α : Type} (eq : α → α → Bool) (self : List α) (value : α) (start stop : Option Int) :
    Except Err Nat :=
  let self := if start.isSome || stop.isSome then
      (self.take (match stop with | none => self.length | some j => bound self.length j)).drop
        (match start with | none => 0 | some i => bound self.length i)
    else self
  search eq value self 0

/-- builtinslib.py:2479-2482, 3252-3255: `for idx in range(start, stop): if self[idx] == value: return idx`, the
range given by its start and length. -/
def rangeSearch {α : Type} (eq : α → α → Bool) (self : List α) (value : α) : Nat → Nat → Except Err Nat
  | _, 0 => .error .valueError
  | idx, k + 1 =>
    match self[idx]? with
    | some x => if eq x value then .ok idx else rangeSearch eq self value (idx + 1) k
    | none => .error .typeError  -- IndexError; shown not to happen

/-- builtinslib.py:2459-2482 and 3232-3255, `index` of symbolic tuples, lists and strings' code points. -/
def symIndex {α : Type} (eq : α → α → Bool) (self : List α) (value : α) (start stop : Option Int) :
    Except Err Nat :=
  let mylen : Int := self.length
  let lo : Int := match start with
    | none => 0
    | some i => max (if i < 0 then i + mylen else i) 0
  let hi : Int := match stop with
    | none => mylen
    | some j => min (if j < 0 then j + mylen else j) mylen
  rangeSearch eq self value lo.toNat (hi - lo).toNat

/-! ## join -/

/-- What asking the iterable given to `join` for its next item does. -/
inductive Piece (E : Type) where
  | text (s : List Char)
  | notText
  | raises (e : E)

/-- The exception raised by `join`: a `TypeError`, or one raised by the iterable. -/
inductive JoinErr (E : Type) where
  | typeError
  | raised (e : E)
  deriving DecidableEq

/-- builtinslib.py:5245-5258 `_join`, the loop. -/
def joinLoop {E : Type} (sep : List Char) : List (Piece E) → Nat → List Char → Except (JoinErr E) (List Char)
  | [], _, result => .ok result
  | .raises e :: _, _, _ => .error (.raised e)
  | .notText :: _, _, _ => .error .typeError
  | .text s :: rest, idx, result =>
    joinLoop sep rest (idx + 1) ((if idx > 0 then result ++ sep else result) ++ s)

/-- builtinslib.py:5245-5258 `_join` (5290 `_str_join`, 5305 `_bytes_join`, 5309 `_bytearray_join`). -/
def join {E : Type} (sep : List Char) (itr : List (Piece E)) : Except (JoinErr E) (List Char) :=
  joinLoop sep itr 0 []

/-! ## str.__contains__ -/

/-- builtinslib.py:5341-5362 `_str_contains` with a concrete string and a symbolic string, given by its code points
as expressions; its length has been fixed on the path. -/
def strContains {A : Type} (self : List Int) (other : List (A → Int)) : A → Bool :=
  let len_to_find := other.length
  let num_options := self.length + 1 - len_to_find
  let codepoint_options := (List.range num_options).map (fun i => (self.drop i).take len_to_find)
  disj (codepoint_options.map (fun cps => conj ((other.zip cps).map (fun p a => p.1 a == p.2))))

/-! ## `__repr__` of containers -/

/-- `", ".join(map(repr, self))`, by `_join` on texts. -/
def commas (reprs : List String) : List Char :=
  match join (E := Unit) ", ".toList (reprs.map (fun s => .text s.toList)) with
  | .ok s => s
  | .error _ => []

/-- builtinslib.py:5222-5227 `_list_repr`, given the `repr` of each item. -/
def listRepr (reprs : List String) : List Char := "[".toList ++ commas reprs ++ "]".toList

/-- builtinslib.py:5365-5369 `_tuple_repr` -/
def tupleRepr (reprs : List String) : List Char := "(".toList ++ commas reprs ++ ")".toList

/-- builtinslib.py:5270-5276 `_set_repr` -/
def setRepr (reprs : List String) : List Char :=
  if reprs.isEmpty then "set()".toList else "{".toList ++ commas reprs ++ "}".toList

/-- builtinslib.py:5261-5267 `_frozenset_repr` -/
def frozensetRepr (reprs : List String) : List Char :=
  if reprs.isEmpty then "frozenset()".toList else "frozenset({".toList ++ commas reprs ++ "})".toList

end Verif.Builtin
