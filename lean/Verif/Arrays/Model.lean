import Verif.Arrays.Spec
/-
Model of the dictionaries, sets and tuples of /repo/crosshair/libimpl/builtinslib.py that are backed by
arrays of the SMT solver: `SymbolicDict` (1798-1959), `SymbolicFrozenSet` (1962-2177) and
`SymbolicArrayBasedUniformTuple` (2270-2481).

An execution path is seen under one interpretation of the solver's constants that satisfies all that the
path has told the solver.  So an array is a function, `space.add(e)` means that `e` is true,
`SymbolicBool(e).__bool__()` is the truth of `e`, and so is `space.choose_possible(e)`.  The constants that
are made on the way have some value; that is why these are relations and not functions.

Keys and values are those that have a sort of their own in the solver (integers, ...); those kept on the
heap are left out.
-/
namespace Verif.Arrays

variable {K V : Type} [DecidableEq K] [DecidableEq V]

/-- `z3.Store`. -/
def store {A : Type} (arr : K → A) (k : K) (x : A) : K → A := fun j => if j = k then x else arr j

/-! ### `SymbolicDict` -/

/-- The two solver variables of a `SymbolicDict` (1830-1839): an array of possibly missing values, and the
length. -/
structure Dict (K V : Type) where
  arr : K → Option V
  len : Int

/-- What the constructors add (1777, 1820): the length is not negative, and zero exactly for the empty
array. -/
def Dict.Init (d : Dict K V) : Prop := 0 ≤ d.len ∧ ((d.arr = fun _ => none) ↔ d.len = 0)

/-- The local variables of a generator made by `__iter__` (1922-1929). -/
structure Gen (A : Type) where
  idx : Nat
  arr : A

/-- One step of the generator `SymbolicDict.__iter__` (1930-1955), from one `yield` to the next; the list is
`_iter_cache`. -/
inductive DictNext (d : Dict K V) : List K → Gen (K → Option V) → Obs K V → List K → Gen (K → Option V) → Prop
  /-- 1931-1932 -/
  | empty (c g) : (g.idx : Int) < d.len → (g.arr = fun _ => none) → DictNext d c g .ignored c g
  /-- 1933-1944, 1947-1951: a new key -/
  | fresh (c g k v rem) : (g.idx : Int) < d.len → (g.arr ≠ fun _ => none) → g.arr = store rem k (some v) →
      rem k = none → g.idx = c.length → DictNext d c g (.yield k) (c ++ [k]) ⟨g.idx + 1, rem⟩
  /-- 1945-1946: the key is the one that was yielded before -/
  | cached (c g k v rem) : (g.idx : Int) < d.len → (g.arr ≠ fun _ => none) → g.arr = store rem k (some v) →
      rem k = none → g.idx < c.length → c[g.idx]? = some k → DictNext d c g (.yield k) c ⟨g.idx + 1, rem⟩
  /-- 1941-1942 -/
  | internal (c g) : (g.idx : Int) < d.len → (g.arr ≠ fun _ => none) → c.length < g.idx →
      DictNext d c g .internal c g
  /-- 1954-1955 -/
  | leftover (c g) : ¬ (g.idx : Int) < d.len → (g.arr ≠ fun _ => none) → DictNext d c g .ignored c g
  /-- the end of the generator -/
  | stop (c g) : ¬ (g.idx : Int) < d.len → (g.arr = fun _ => none) → DictNext d c g .stop c g

/-- `__getitem__` (1892-1917). -/
def Dict.get (d : Dict K V) (k : K) : Obs K V :=
  match d.arr k with
  | none => .keyError
  | some v => if d.len = 0 then .ignored else .value v

/-- `Mapping.__contains__` tries `__getitem__`. -/
def Dict.contains (d : Dict K V) (k : K) : Obs K V :=
  match d.get k with
  | .keyError => .bool false
  | .value _ => .bool true
  | o => o

/-- The loop of `__eq__` (1877-1880). -/
def Dict.eqLoop (d : Dict K V) : List (K × V) → Obs K V
  | [] => .bool true
  | (k, v) :: rest => match d.get k with
    | .keyError => .bool false
    | .value w => if w ≠ v then .bool false else d.eqLoop rest
    | o => o

/-- `__eq__` with a mapping that is not symbolic (1873-1881). -/
def Dict.eq (d : Dict K V) (other : List (K × V)) : Obs K V :=
  if d.len ≠ other.length then .bool false else d.eqLoop other

/-- `__eq__` of two symbolic dictionaries (1866-1871). -/
def Dict.eqSym (d e : Dict K V) : Prop := d.len = e.len ∧ d.arr = e.arr

/-- `_smt_for_unification` (1841-1859, with items that have a sort). -/
def Dict.unify (d : Dict K V) (other : List (K × V)) : Prop :=
  d.len = other.length ∧ (other.foldl (fun a e => store a e.1 (some e.2)) fun _ => none) = d.arr

/-- What changes: `_iter_cache`, and the generators that were made. -/
structure State (K A : Type) where
  cache : List K
  gens : List (Gen A)

/-- One question to a `SymbolicDict`.  (`__len__` and `__bool__`: 1788-1794.) -/
inductive DictStep (d : Dict K V) : State K (K → Option V) → Op K V → Obs K V → State K (K → Option V) → Prop
  | iter (σ) : DictStep d σ .iter .started ⟨σ.cache, σ.gens ++ [⟨0, d.arr⟩]⟩
  | next (σ : State K (K → Option V)) (i g o c g') : σ.gens[i]? = some g → DictNext d σ.cache g o c g' →
      DictStep d σ (.next i) o ⟨c, σ.gens.set i g'⟩
  | noIter (σ : State K (K → Option V)) (i) : σ.gens[i]? = none → DictStep d σ (.next i) .noIter σ
  | get (σ k) : DictStep d σ (.get k) (d.get k) σ
  | contains (σ k) : DictStep d σ (.contains k) (d.contains k) σ
  | len (σ) : DictStep d σ .len (.num d.len) σ
  | truth (σ) : DictStep d σ .truth (.bool (decide (d.len ≠ 0))) σ
  | eq (σ other) : DictStep d σ (.eq other) (d.eq other) σ

/-- A sequence of questions. -/
inductive DictRun (d : Dict K V) : State K (K → Option V) → List (Op K V) → List (Obs K V) →
    State K (K → Option V) → Prop
  | nil (σ) : DictRun d σ [] [] σ
  | cons (σ op o τ ops os υ) : DictStep d σ op o τ → DictRun d τ ops os υ → DictRun d σ (op :: ops) (o :: os) υ

/-- `list(self.__iter__())`, from some point on: the generator comes to its end. -/
inductive DictDrain (d : Dict K V) : List K → Gen (K → Option V) → List K → Prop
  | done (c g c' g') : DictNext d c g .stop c' g' → DictDrain d c g c'
  | more (c g k c' g' c'') : DictNext d c g (.yield k) c' g' → DictDrain d c' g' c'' → DictDrain d c g c''

/-- The deferred assumption `dict_can_be_iterated` (1822-1829), checked at the end of the path. -/
def Dict.Iterated (d : Dict K V) (σ : State K (K → Option V)) : Prop := ∃ c, DictDrain d σ.cache ⟨0, d.arr⟩ c

/-! ### `SymbolicFrozenSet` -/

/-- The two solver variables of a `SymbolicFrozenSet` (2056-2065). -/
structure FSet (K : Type) where
  arr : K → Bool
  len : Int

/-- What the constructors add (1777, 1970). -/
def FSet.Init (s : FSet K) : Prop := 0 ≤ s.len ∧ ((s.arr = fun _ => false) ↔ s.len = 0)

/-- `_is_consistent` (1973-1996), a deferred assumption (1971): as many different items as the length says
make the array. -/
def FSet.Consistent (s : FSet K) : Prop :=
  ∃ items : List K, (items.length : Int) = s.len ∧ (2 ≤ items.length → items.Nodup) ∧
    (items.foldl (fun a k => store a k true) fun _ => false) = s.arr

/-- One step of the generator `SymbolicFrozenSet.__iter__` (2093-2136). -/
inductive SetNext (s : FSet K) : List K → Gen (K → Bool) → Obs K Unit → List K → Gen (K → Bool) → Prop
  /-- 2094-2095, 2104-2107, 2113-2116 -/
  | cached (c g k rem) : c[g.idx]? = some k → g.arr = store rem k true → rem k = false →
      SetNext s c g (.yield k) c ⟨g.idx + 1, rem⟩
  /-- 2096-2100 -/
  | empty (c g) : c[g.idx]? = none → (g.idx : Int) < s.len → (g.arr = fun _ => false) →
      SetNext s c g .ignored c g
  /-- 2101, 2104-2112: a new element -/
  | fresh (c g k rem) : c[g.idx]? = none → (g.idx : Int) < s.len → (g.arr ≠ fun _ => false) →
      g.arr = store rem k true → rem k = false → g.idx = c.length →
      SetNext s c g (.yield k) (c ++ [k]) ⟨g.idx + 1, rem⟩
  /-- 2109-2110 -/
  | internal (c g) : c[g.idx]? = none → (g.idx : Int) < s.len → (g.arr ≠ fun _ => false) →
      c.length < g.idx → SetNext s c g .internal c g
  /-- 2102-2103, 2135-2136 -/
  | leftover (c g) : c[g.idx]? = none → ¬ (g.idx : Int) < s.len → (g.arr ≠ fun _ => false) →
      SetNext s c g .ignored c g
  /-- the end of the generator -/
  | stop (c g) : c[g.idx]? = none → ¬ (g.idx : Int) < s.len → (g.arr = fun _ => false) →
      SetNext s c g .stop c g

/-- The loop over `self` of `__eq__` (2044-2054) with a set that is not symbolic. -/
inductive SetEqLoop (s : FSet K) (other : List K) : List K → Gen (K → Bool) → Obs K Unit → List K → Prop
  | finished (c g c' g') : SetNext s c g .stop c' g' → SetEqLoop s other c g (.bool true) c'
  | found (c g k c' g' o c'') : SetNext s c g (.yield k) c' g' → k ∈ other → SetEqLoop s other c' g' o c'' →
      SetEqLoop s other c g o c''
  | missing (c g k c' g') : SetNext s c g (.yield k) c' g' → k ∉ other → SetEqLoop s other c g (.bool false) c'
  | ignored (c g c' g') : SetNext s c g .ignored c' g' → SetEqLoop s other c g .ignored c'
  | internal (c g c' g') : SetNext s c g .internal c' g' → SetEqLoop s other c g .internal c'

/-- `__eq__` with a set that is not symbolic (2036-2054). -/
inductive SetEq (s : FSet K) (other : List K) : List K → Obs K Unit → List K → Prop
  | lens (c) : s.len ≠ other.length → SetEq s other c (.bool false) c
  | loop (c o c') : s.len = other.length → SetEqLoop s other c ⟨0, s.arr⟩ o c' → SetEq s other c o c'

/-- `__eq__` of two symbolic sets (2028-2035). -/
def FSet.eqSym (s t : FSet K) : Prop := s.len = t.len ∧ s.arr = t.arr

/-- `_smt_for_unification` (2004-2016). -/
def FSet.unify (s : FSet K) (other : List K) : Prop :=
  s.len = other.length ∧ (other.foldl (fun a k => store a k true) fun _ => false) = s.arr

/-- One question to a `SymbolicFrozenSet`.  (`__contains__`: 2067-2077.) -/
inductive SetStep (s : FSet K) : State K (K → Bool) → SetOp K → Obs K Unit → State K (K → Bool) → Prop
  | iter (σ) : SetStep s σ .iter .started ⟨σ.cache, σ.gens ++ [⟨0, s.arr⟩]⟩
  | next (σ : State K (K → Bool)) (i g o c g') : σ.gens[i]? = some g → SetNext s σ.cache g o c g' →
      SetStep s σ (.next i) o ⟨c, σ.gens.set i g'⟩
  | noIter (σ : State K (K → Bool)) (i) : σ.gens[i]? = none → SetStep s σ (.next i) .noIter σ
  | contains (σ k) : SetStep s σ (.contains k) (.bool (s.arr k)) σ
  | len (σ) : SetStep s σ .len (.num s.len) σ
  | truth (σ) : SetStep s σ .truth (.bool (decide (s.len ≠ 0))) σ
  | eq (σ : State K (K → Bool)) (other o c) : SetEq s other σ.cache o c → SetStep s σ (.eq other) o ⟨c, σ.gens⟩

/-- A sequence of questions. -/
inductive SetRun (s : FSet K) : State K (K → Bool) → List (SetOp K) → List (Obs K Unit) →
    State K (K → Bool) → Prop
  | nil (σ) : SetRun s σ [] [] σ
  | cons (σ op o τ ops os υ) : SetStep s σ op o τ → SetRun s τ ops os υ → SetRun s σ (op :: ops) (o :: os) υ

/-! ### `SymbolicArrayBasedUniformTuple` -/

open Verif.Seq (PyErr Slice)

/-- The two solver variables of a symbolic tuple (2291-2298). -/
structure Tup (A : Type) where
  arr : Int → A
  len : Int

/-- What `SymbolicBoundedInt(..., minimum=0)` adds (2289). -/
def Tup.Init {A : Type} (t : Tup A) : Prop := 0 ≤ t.len

/-- `__iter__` (2389-2401): `fuel` bounds the loop. -/
def Tup.iterLoop {A : Type} (t : Tup A) : Nat → Nat → List A
  | 0, _ => []
  | fuel + 1, idx => if (idx : Int) < t.len then t.arr idx :: t.iterLoop fuel (idx + 1) else []

/-- All that `__iter__` yields. -/
def Tup.iter {A : Type} (t : Tup A) : List A := t.iterLoop t.len.toNat 0

/-- `normalize_symbolic_index` (2184-2185). -/
def normalize (len idx : Int) : Int := if idx ≥ 0 then idx else len + idx

/-- `flip_slice_vs_bounded_len` with an integer (2187-2190). -/
def flipIndex (len i : Int) : Except PyErr Int :=
  if i ≥ len || i < -len then .error .indexError else .ok (normalize len i)

/-- `flip_slice_vs_bounded_len` with a slice (2191-2206); the fields are integers or missing. -/
def flipSlice (len : Int) (s : Slice) : Int × Int :=
  ((match s.start with | none => 0 | some a => normalize len a),
   (match s.stop with | none => len | some b => normalize len b))

/-- `clip_range_to_bounded_len` (2211-2224). -/
def clip (start stop len : Int) : Int × Int :=
  (if start < 0 then 0 else if len < start then len else start,
   if stop < 0 then 0 else if len < stop then len else stop)

/-- `__getitem__` with an integer (2446-2447, 2453-2457). -/
def Tup.get {A : Type} (t : Tup A) (i : Int) : Except PyErr A := (flipIndex t.len i).map t.arr

/-- `SliceView.slice` (simplestructs.py:626-638): `none` is the sequence itself. -/
def viewBounds (start stop len : Int) : Option (Int × Int) :=
  let leftAtEnd : Bool := start ≤ 0
  let rightAtEnd : Bool := stop ≥ len
  if leftAtEnd && rightAtEnd then none
  else
    let start := if leftAtEnd then 0 else start
    let stop := if rightAtEnd then len else stop
    some (start, if stop ≤ start then start else stop)

/-- The elements that `SliceView.__iter__` gives (simplestructs.py:661-663), for a sequence with the given
elements: `fuel` is the number of positions. -/
def viewLoop {A : Type} (t : Tup A) : Nat → Int → Except PyErr (List A)
  | 0, _ => .ok []
  | fuel + 1, i => match t.get i with
    | .ok v => (viewLoop t fuel (i + 1)).map (v :: ·)
    | .error e => .error e

/-- `__getitem__` with a slice (2437-2452), as the list of elements of the result. -/
def Tup.slice {A : Type} (t : Tup A) (s : Slice) : Except PyErr (List A) :=
  if s.start.isNone && s.stop.isNone && s.step.isNone then .ok t.iter
  else
    let p := flipSlice t.len s
    let q := clip p.1 p.2 t.len
    match viewBounds q.1 q.2 t.len with
    | none => .ok t.iter
    | some (a, b) => viewLoop t (b - a).toNat a

/-- `__eq__` of two symbolic tuples (2335-2344). -/
def Tup.eqSym {A : Type} (t u : Tup A) : Prop := t.len = u.len ∧ t.arr = u.arr

/-- The loop of `__eq__` (2349-2354). -/
def Tup.eqLoop {A : Type} [DecidableEq A] (t : Tup A) : Nat → List A → Except PyErr Bool
  | _, [] => .ok true
  | idx, v :: rest => match t.get idx with
    | .error e => .error e
    | .ok w => if w ≠ v then .ok false else t.eqLoop (idx + 1) rest

/-- `__eq__` with a tuple that is not symbolic (2347-2354). -/
def Tup.eq {A : Type} [DecidableEq A] (t : Tup A) (other : List A) : Except PyErr Bool :=
  if t.len ≠ other.length then .ok false else t.eqLoop 0 other

/-- `_lexicographic_compare` (2356-2364). -/
def lexLoop {A : Type} [DecidableEq A] (onDiff : A → A → Bool) (onPrefix : Bool) : List A → List A → Bool
  | a :: as, b :: bs => if a = b then lexLoop onDiff onPrefix as bs else onDiff a b
  | _, _ => onPrefix

/-- `__lt__` (2366-2369). -/
def Tup.lt {A : Type} [DecidableEq A] (lt : A → A → Bool) (t : Tup A) (other : List A) : Bool :=
  lexLoop lt (decide (t.len < other.length)) t.iter other

/-- `__le__` (2371-2374). -/
def Tup.le {A : Type} [DecidableEq A] (lt : A → A → Bool) (t : Tup A) (other : List A) : Bool :=
  lexLoop lt (decide (t.len ≤ other.length)) t.iter other

/-- `__gt__` (2376-2379). -/
def Tup.gt {A : Type} [DecidableEq A] (lt : A → A → Bool) (t : Tup A) (other : List A) : Bool :=
  lexLoop (fun a b => lt b a) (decide (t.len > other.length)) t.iter other

/-- `__ge__` (2381-2384). -/
def Tup.ge {A : Type} [DecidableEq A] (lt : A → A → Bool) (t : Tup A) (other : List A) : Bool :=
  lexLoop (fun a b => lt b a) (decide (t.len ≥ other.length)) t.iter other

/-- `__contains__` (2413-2429): what the solver is asked. -/
def Tup.Contains {A : Type} (t : Tup A) (v : A) : Prop := ∃ i : Int, 0 ≤ i ∧ i < t.len ∧ t.arr i = v

/-- The loop of `index` (2478-2481). -/
def Tup.indexLoop {A : Type} [DecidableEq A] (t : Tup A) (v : A) : Nat → Int → Except PyErr Int
  | 0, _ => .error .valueError
  | n + 1, i => match t.get i with
    | .error e => .error e
    | .ok w => if w = v then .ok i else t.indexLoop v n (i + 1)

/-- `index` (2458-2481); the defaults of `start` and `stop` are 0 and the largest index. -/
def Tup.index {A : Type} [DecidableEq A] (t : Tup A) (v : A) (start stop : Int) : Except PyErr Int :=
  let start := if start < 0 then start + t.len else start
  let stop := if stop < 0 then stop + t.len else stop
  let start := max start 0
  let stop := min stop t.len
  t.indexLoop v (stop - start).toNat start

/-- `__mul__` (2256-2263), with concatenation as that of lists (C20). -/
def Tup.mul {A : Type} (t : Tup A) (n : Int) : Except PyErr (List A) :=
  if n ≤ 0 then t.slice ⟨some 0, some 0, none⟩
  else .ok ((List.range (n - 1).toNat).foldl (fun ret _ => t.iter ++ ret) t.iter)

/-- `_smt_for_unification` (2306-2323), with items that have a sort. -/
def Tup.unify {A : Type} (t : Tup A) (other : List A) : Prop :=
  if other.length = 0 then t.len = other.length
  else t.len = other.length ∧ ∀ (i : Nat) (v : A), other[i]? = some v → t.arr i = v

end Verif.Arrays
