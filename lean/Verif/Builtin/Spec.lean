import Verif.Builtin.Model

/-! What Python's `all`, `any`, `dict`, `list.index`, `join`, `in` and `repr` do. -/
namespace Verif.Builtin

/-- The value of a result under an assignment. -/
def Res.value {A E : Type} (r : Res A E) (a : A) : Except E Bool :=
  match r with
  | .concrete b => .ok b
  | .symbolic φ => .ok (φ a)
  | .raised e => .error e

/-- The truth of an item in Python, when the symbolic variables have the values of the assignment. -/
def Item.isTrue {A E : Type} (a : A) : Item A E → Except E Bool
  | .bool b => .ok b
  | .sym φ => .ok (φ a)
  | .other _ truth => truth a

/-- The user code that is run to find the truth of an item at a position. -/
def Item.events {A E : Type} (i : Nat) : Item A E → List Event
  | .other ch _ => [.truth ch i]
  | _ => []

/-- Python's `all` when the symbolic variables have the values of the assignment: items are drawn and tested until
one is false. -/
def pyAll {A E : Type} (a : A) : List (Step A E) → Nat → Except E Bool × List Event
  | [], _ => (.ok true, [.next])
  | .raises e :: _, _ => (.error e, [.next])
  | .item x :: rest, i =>
    match x.isTrue a with
    | .error e => (.error e, .next :: x.events i)
    | .ok false => (.ok false, .next :: x.events i)
    | .ok true => ((pyAll a rest (i + 1)).1, .next :: x.events i ++ (pyAll a rest (i + 1)).2)

/-- Python's `any`: items are drawn and tested until one is true. -/
def pyAny {A E : Type} (a : A) : List (Step A E) → Nat → Except E Bool × List Event
  | [], _ => (.ok false, [.next])
  | .raises e :: _, _ => (.error e, [.next])
  | .item x :: rest, i =>
    match x.isTrue a with
    | .error e => (.error e, .next :: x.events i)
    | .ok true => (.ok true, .next :: x.events i)
    | .ok false => ((pyAny a rest (i + 1)).1, .next :: x.events i ++ (pyAny a rest (i + 1)).2)

/-- The iterator never raises, and no symbolic value raises when its truth is asked for. -/
def Quiet {A E : Type} (steps : List (Step A E)) : Prop :=
  ∀ s ∈ steps, match s with
    | .raises _ => False
    | .item (.other true truth) => ∀ a, ∃ b, truth a = .ok b
    | _ => True

/-- The questions asked to objects that are not symbolic values. -/
def foreign (ev : List Event) : List Event := ev.filter (fun e => match e with | .truth false _ => true | _ => false)

/-- `==` is an equivalence between keys that contains identity. -/
structure Keys.Lawful {κ : Type} (K : Keys κ) : Prop where
  refl : ∀ k, K.eq k k = true
  symm : ∀ k l, K.eq k l = true → K.eq l k = true
  trans : ∀ k l m, K.eq k l = true → K.eq l m = true → K.eq k m = true
  is_eq : ∀ k l, K.is k l = true → K.eq k l = true

/-- Python's assignment `d[key] = value`, for a dict given by its items in order: the value of the first key that is
identical or equal is replaced, and a new item comes last. -/
def pySet {κ ν : Type} (K : Keys κ) (d : List (κ × ν)) (key : κ) (value : ν) : List (κ × ν) :=
  match d with
  | [] => [(key, value)]
  | (k, v) :: rest =>
    if K.is k key || K.eq k key then (k, value) :: rest else (k, v) :: pySet K rest key value

/-- Python's `dict(iterable)`: the pairs are assigned one after the other. -/
def pyDictFrom {κ ν : Type} (K : Keys κ) : List (Elem κ ν) → List (κ × ν) → Except Err (List (κ × ν))
  | [], d => .ok d
  | .badLength :: _, _ => .error .valueError
  | .pair k v :: rest, d => if K.hashable k then pyDictFrom K rest (pySet K d k v) else .error .typeError

/-- Python's `dict(iterable)` -/
def pyDict {κ ν : Type} (K : Keys κ) (arg : List (Elem κ ν)) : Except Err (List (κ × ν)) := pyDictFrom K arg []

/-- All elements are pairs with hashable keys. -/
def Pairs {κ ν : Type} (K : Keys κ) (arg : List (Elem κ ν)) : Prop :=
  ∀ e ∈ arg, match e with | .pair k _ => K.hashable k = true | .badLength => False

/-- The pairs of an iterable. -/
def pairsOf {κ ν : Type} (arg : List (Elem κ ν)) : List (κ × ν) :=
  arg.filterMap (fun e => match e with | .pair k v => some (k, v) | .badLength => none)

/-- No two keys at different positions are equal. -/
def DistinctKeys {κ ν : Type} (K : Keys κ) (ps : List (κ × ν)) : Prop :=
  ps.Pairwise (fun p q => K.eq p.1 q.1 = false)

/-- The positions that `list.index(value, start, stop)` looks at: negative bounds count from the end. -/
def InBounds (n : Nat) (start stop : Option Int) (i : Nat) : Prop :=
  i < n ∧
  (∀ s, start = some s → (if s < 0 then s + n else s) ≤ i) ∧
  (∀ s, stop = some s → (i : Int) < (if s < 0 then s + n else s))

/-- The result of `list.index`: the first position looked at that holds the value, and `ValueError` without one. -/
def IsIndex {α : Type} (eq : α → α → Bool) (xs : List α) (value : α) (start stop : Option Int) :
    Except Err Nat → Prop
  | .ok i => InBounds xs.length start stop i ∧ (∃ x, xs[i]? = some x ∧ eq x value = true) ∧
      ∀ j x, j < i → InBounds xs.length start stop j → xs[j]? = some x → eq x value = false
  | .error e => e = .valueError ∧
      ∀ j x, InBounds xs.length start stop j → xs[j]? = some x → eq x value = false

/-- The exception raised instead of an item. -/
def Piece.exn {E : Type} : Piece E → Option E
  | .raises e => some e
  | _ => none

/-- Whether an item is not a text. -/
def Piece.isBad {E : Type} : Piece E → Bool
  | .notText => true
  | _ => false

/-- The text of an item. -/
def Piece.str {E : Type} : Piece E → List Char
  | .text s => s
  | _ => []

/-- Python's `join`: the iterable is exhausted before the types of its items are looked at. -/
def pyJoin {E : Type} (sep : List Char) (itr : List (Piece E)) : Except (JoinErr E) (List Char) :=
  match itr.findSome? Piece.exn with
  | some e => .error (.raised e)
  | none =>
    if itr.any Piece.isBad then .error .typeError else .ok (sep.intercalate (itr.map Piece.str))

/-- Python's `repr` of a tuple, whose last comma is kept when there is one item only. -/
def pyTupleRepr (reprs : List String) : List Char :=
  match reprs with
  | [x] => "(".toList ++ x.toList ++ ",)".toList
  | _ => "(".toList ++ ", ".toList.intercalate (reprs.map String.toList) ++ ")".toList

/-- Python's `repr` of a list. -/
def pyListRepr (reprs : List String) : List Char :=
  "[".toList ++ ", ".toList.intercalate (reprs.map String.toList) ++ "]".toList

/-- Python's `repr` of a set, in its iteration order. -/
def pySetRepr (reprs : List String) : List Char :=
  match reprs with
  | [] => "set()".toList
  | _ => "{".toList ++ ", ".toList.intercalate (reprs.map String.toList) ++ "}".toList

/-- Python's `repr` of a frozenset. -/
def pyFrozensetRepr (reprs : List String) : List Char :=
  match reprs with
  | [] => "frozenset()".toList
  | _ => "frozenset(".toList ++ pySetRepr reprs ++ ")".toList

end Verif.Builtin
