import Verif.Sets.Spec
/-
Model of the sets of /repo/crosshair/simplestructs.py: `LinearSet`, `SingletonSet`, `EmptySet` (an
immutable set over a list), `LazySetCombination`, and `ShellMutableSet`.  The methods inherited from
`collections.abc.Set` (`__le__`, `__and__`, ...) follow CPython's Lib/_collections_abc.py.

Elements are hashable (the `TypeError` checks are left out), and a program's mutable sets are numbered: a
shell is a cell of the store that holds its `_inner`.  Python's stack is unbounded except for sets that
refer to themselves (a chain of some hundred lazy combinations would also exhaust it).
-/
namespace Verif.Sets

variable {A : Type} [DecidableEq A]

/-- The operators given to `LazySetCombination`: `operator.or_`, `and_`, `xor`, `x and not y` and
`y and not x` (simplestructs.py:1161-1246). -/
inductive LazyOp where
  | or | and | xor | sub | rsub
deriving DecidableEq, Repr

/-- The operators as functions of two booleans. -/
def LazyOp.eval : LazyOp → Bool → Bool → Bool
  | .or, x, y => x || y
  | .and, x, y => x && y
  | .xor, x, y => x != y
  | .sub, x, y => x && !y
  | .rsub, x, y => y && !x

/-- Which operator a shell method uses. -/
def BinOp.lazy : BinOp → LazyOp
  | .or => .or | .and => .and | .xor => .xor | .sub => .sub

/-- A set object: a list of distinct items (`LinearSet`, 975-1007; `SingletonSet` and `EmptySet`, 944-972;
a concrete `frozenset`), a combination of two sets (1010-1053), or a mutable set kept by reference. -/
inductive SetE (A : Type) where
  | linear (items : List A)
  | comb (op : LazyOp) (a b : SetE A)
  | cell (i : Nat)
deriving DecidableEq, Repr

/-- `LinearSet.check_unique_and_create` (982-992): the items without repetitions. -/
def checkUnique (l : List A) : List A :=
  l.foldl (fun accepted item => if item ∈ accepted then accepted else accepted ++ [item]) []

/-- `__contains__` (994-1000, 1031-1034), given what `__contains__` of the mutable sets answers. -/
def containsWith (cell : Nat → A → Option Bool) : SetE A → A → Option Bool
  | .linear items, x => some (items.any fun item => decide (x = item))
  | .comb op a b, x =>
    (containsWith cell a x).bind fun ina => (containsWith cell b x).bind fun inb => some (op.eval ina inb)
  | .cell i, x => cell i x

/-- `filter` with a predicate that may fail. -/
def filterO (p : A → Option Bool) : List A → Option (List A)
  | [] => some []
  | x :: l => (p x).bind fun b => (filterO p l).map fun r => if b then x :: r else r

/-- `__iter__` (1002-1004, 1036-1050), given what the mutable sets answer. -/
def iterWith (cell : Nat → A → Option Bool) (cellIter : Nat → Option (List A)) : SetE A → Option (List A)
  | .linear items => some items
  | .comb op a b =>
    (iterWith cell cellIter a).bind fun la =>
    (filterO (fun x => (containsWith cell b x).map fun inb => op.eval true inb) la).bind fun la' =>
    (iterWith cell cellIter b).bind fun lb =>
    (filterO (fun x => (containsWith cell a x).map fun ina => if ina then false else op.eval ina true) lb).bind
      fun lb' => some (la' ++ lb')
  | .cell i => cellIter i

/-- The store: the `_inner` of each mutable set. -/
abbrev Store (A : Type) := List (SetE A)

/-- `__contains__`, following at most `fuel` references to mutable sets; `none` is the `RecursionError` of
a set that refers to itself. -/
def containsF (σ : Store A) : Nat → SetE A → A → Option Bool
  | 0 => containsWith fun _ _ => none
  | fuel + 1 => containsWith fun i x => (σ[i]?).bind fun e => containsF σ fuel e x

/-- `__iter__`, likewise. -/
def iterF (σ : Store A) : Nat → SetE A → Option (List A)
  | 0 => iterWith (fun _ _ => none) fun _ => none
  | fuel + 1 => iterWith (fun i x => (σ[i]?).bind fun e => containsF σ fuel e x)
      fun i => (σ[i]?).bind fun e => iterF σ fuel e

/-- Python's recursion limit. -/
def limit : Nat := 1000

/-- `x in e`. -/
def contains (σ : Store A) (e : SetE A) (x : A) : Option Bool := containsF σ limit e x

/-- `list(e)`. -/
def iter (σ : Store A) (e : SetE A) : Option (List A) := iterF σ limit e

/-- `len(e)` (1006-1007, 1052-1053). -/
def len (σ : Store A) (e : SetE A) : Option Nat := (iter σ e).map List.length

/-- `all(p(x) for x in l)` with a predicate that may fail. -/
def allO (p : A → Option Bool) : List A → Option Bool
  | [] => some true
  | x :: l => (p x).bind fun b => if b then allO p l else some false

/-- `collections.abc.Set.__le__`. -/
def setLe (σ : Store A) (a b : SetE A) : Option Bool :=
  (len σ a).bind fun la => (len σ b).bind fun lb =>
    if la > lb then some false else (iter σ a).bind fun l => allO (fun x => contains σ b x) l

/-- `collections.abc.Set.__lt__`. -/
def setLt (σ : Store A) (a b : SetE A) : Option Bool :=
  (len σ a).bind fun la => (len σ b).bind fun lb => if la < lb then setLe σ a b else some false

/-- `collections.abc.Set.__ge__`. -/
def setGe (σ : Store A) (a b : SetE A) : Option Bool :=
  (len σ a).bind fun la => (len σ b).bind fun lb =>
    if la < lb then some false else (iter σ b).bind fun l => allO (fun x => contains σ a x) l

/-- `collections.abc.Set.__gt__`. -/
def setGt (σ : Store A) (a b : SetE A) : Option Bool :=
  (len σ a).bind fun la => (len σ b).bind fun lb => if la > lb then setGe σ a b else some false

/-- `collections.abc.Set.__eq__`. -/
def setEq (σ : Store A) (a b : SetE A) : Option Bool :=
  (len σ a).bind fun la => (len σ b).bind fun lb => if la = lb then setLe σ a b else some false

/-- `collections.abc.Set.__sub__` with `_from_iterable` of `FrozenSetBase` (935-938). -/
def absSub (σ : Store A) (a b : SetE A) : Option (SetE A) :=
  (iter σ a).bind fun l => (filterO (fun x => (contains σ b x).map not) l).map fun r => .linear (checkUnique r)

/-- `collections.abc.Set.__and__`: the items of the other set that are in this one. -/
def absAnd (σ : Store A) (a b : SetE A) : Option (SetE A) :=
  (iter σ b).bind fun l => (filterO (fun x => contains σ a x) l).map fun r => .linear (checkUnique r)

/-- `collections.abc.Set.__or__`. -/
def absOr (σ : Store A) (a b : SetE A) : Option (SetE A) :=
  (iter σ a).bind fun l => (iter σ b).map fun l' => .linear (checkUnique (l ++ l'))

/-- `collections.abc.Set.__xor__`. -/
def absXor (σ : Store A) (a b : SetE A) : Option (SetE A) :=
  (absSub σ a b).bind fun d => (absSub σ b a).bind fun d' => absOr σ d d'

/-- `_force_arg_to_set` (829-842) of an iterable that is not a set. -/
def forceList (l : List A) : SetE A := .linear (checkUnique l)

/-- Ends an operation that may have hit the recursion limit. -/
def orRecursion (r : Option (Obs A × Store A)) (σ : Store A) : Obs A × Store A := r.getD (.recursionError, σ)

/-- One operation on shells that exist; `inner i` is `_inner` of shell `i`. -/
def stepOn (σ : Store A) (inner : Nat → SetE A) : Op A → Obs A × Store A
  -- `ShellMutableSet.__init__` (1069-1082)
  | .new l => (.set σ.length, σ ++ [forceList l])
  -- `SetBase.copy` (886-887): `copy.copy` makes a shell with the same `_inner`
  | .copy i => (.set σ.length, σ ++ [inner i])
  | .contains i x => orRecursion ((contains σ (inner i) x).map fun b => (.bool b, σ)) σ
  | .len i => orRecursion ((len σ (inner i)).map fun n => (.num n, σ)) σ
  -- `SetBase.__bool__` (846-852)
  | .truth i => orRecursion ((iter σ (inner i)).map fun l => (.bool !l.isEmpty, σ)) σ
  | .iter i => orRecursion ((iter σ (inner i)).map fun l => (.elems l, σ)) σ
  -- `add` (1126-1129)
  | .add i x => (.done, σ.set i (.comb .or (inner i) (.linear [x])))
  -- `discard` (1137-1140)
  | .discard i x => (.done, σ.set i (.comb .sub (inner i) (.linear [x])))
  -- `remove` (1153-1156)
  | .remove i x => orRecursion ((contains σ (inner i) x).map fun b =>
      if b then (.done, σ.set i (.comb .sub (inner i) (.linear [x]))) else (.keyError, σ)) σ
  -- `pop` (1145-1151)
  | .pop i => orRecursion ((iter σ (inner i)).bind fun l => match l with
      | [] => some (.keyError, σ)
      | x :: _ => (contains σ (inner i) x).map fun b =>
        if b then (.elem x, σ.set i (.comb .sub (inner i) (.linear [x]))) else (.keyError, σ)) σ
  -- `clear` (1131-1132)
  | .clear i => (.done, σ.set i (.linear []))
  -- `update` (1161-1164)
  | .update i ls => (.done, σ.set i (ls.foldl (fun e l => .comb .or e (forceList l)) (inner i)))
  -- `difference_update`, `intersection_update`, `symmetric_difference_update` (1134-1135, 1142-1143, 1158-1159)
  | .differenceUpdate i l => orRecursion ((absSub σ (inner i) (forceList l)).map fun e => (.done, σ.set i e)) σ
  | .intersectionUpdate i l => orRecursion ((absAnd σ (inner i) (forceList l)).map fun e => (.done, σ.set i e)) σ
  | .symmetricUpdate i l => orRecursion ((absXor σ (inner i) (forceList l)).map fun e => (.done, σ.set i e)) σ
  -- `__ior__` and so on (1212-1246): the other set's `_inner` is taken
  | .inplace op i j => (.done, σ.set i (.comb op.lazy (inner i) (inner j)))
  -- `__or__`, `__and__`, `__xor__` (1166-1194) take `_inner`; `__sub__` (1196-1202) keeps the other set
  | .binary op i j =>
    (.set σ.length, σ ++ [.comb op.lazy (inner i) (if op = .sub then .cell j else inner j)])
  | .frozen op i l => (.set σ.length, σ ++ [.comb op.lazy (inner i) (.linear (checkUnique l))])
  -- `__rsub__` (1204-1210)
  | .rsub i l => (.set σ.length, σ ++ [.comb .rsub (inner i) (.linear (checkUnique l))])
  -- `union`, `intersection`, `symmetric_difference`, `difference` (889-914): one shell per argument, and
  -- the set itself without arguments; the shells in between cannot be reached
  | .method op i ls =>
    if ls.isEmpty then (.set i, σ)
    else (.set σ.length, σ ++ [ls.foldl (fun e l => .comb op.lazy e (forceList l)) (inner i)])
  | .le i j => orRecursion ((setLe σ (inner i) (.cell j)).map fun b => (.bool b, σ)) σ
  | .lt i j => orRecursion ((setLt σ (inner i) (.cell j)).map fun b => (.bool b, σ)) σ
  | .ge i j => orRecursion ((setGe σ (inner i) (.cell j)).map fun b => (.bool b, σ)) σ
  | .gt i j => orRecursion ((setGt σ (inner i) (.cell j)).map fun b => (.bool b, σ)) σ
  | .eq i j => orRecursion ((setEq σ (inner i) (.cell j)).map fun b => (.bool b, σ)) σ
  -- `SetBase.isdisjoint` (899-900) of `_inner`
  | .isdisjoint i l => orRecursion ((absAnd σ (inner i) (forceList l)).bind fun e =>
      (iter σ e).map fun r => (.bool r.isEmpty, σ)) σ

/-- One operation. -/
def step (σ : Store A) (op : Op A) : Obs A × Store A :=
  if ∀ i ∈ op.uses, i < σ.length then stepOn σ (fun i => σ.getD i (.linear [])) op else (.noSuchSet, σ)

/-- A whole history. -/
def history : Store A → List (Op A) → List (Obs A)
  | _, [] => []
  | σ, op :: ops => (step σ op).1 :: history (step σ op).2 ops

end Verif.Sets
