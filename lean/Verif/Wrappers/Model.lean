import Verif.Wrappers.Spec
/-
Model of the replacements of functions of `itertools` and `functools` (/repo/crosshair/libimpl/itertoolslib.py, functoolslib.py) and
of in-place operators on objects of unknown type (/repo/crosshair/objectproxy.py).  The functions of `itertools` themselves are
modelled by what remains after all items have been taken: a list, or the first exception.
-/
namespace Verif.Wrappers

/-! ### `itertools` itself -/

section
variable {E A B K : Type}

/-- Calling an argument: `None` cannot be called. -/
def callArg (p : Arg (A → Except (Err E) B)) (a : A) : Except (Err E) B :=
  match p with
  | .fn f => f a
  | _ => .error .notCallable

/-- `list(itertools.filterfalse(predicate, xs))`: with `None`, the truth of the items counts. -/
def cFilterfalse (truth : A → Except (Err E) Bool) (p : Arg (A → Except (Err E) Bool)) : List A → Except (Err E) (List A)
  | [] => .ok []
  | x :: xs => do
    let t ← match p with
      | .pyNone => truth x
      | _ => callArg p x
    let rest ← cFilterfalse truth p xs
    .ok (if t then rest else x :: rest)

/-- `list(itertools.takewhile(predicate, xs))`. -/
def cTakewhile (p : Arg (A → Except (Err E) Bool)) : List A → Except (Err E) (List A)
  | [] => .ok []
  | x :: xs => do
    let t ← callArg p x
    if t then do
      let rest ← cTakewhile p xs
      .ok (x :: rest)
    else .ok []

/-- `list(itertools.dropwhile(predicate, xs))`. -/
def cDropwhile (p : Arg (A → Except (Err E) Bool)) : List A → Except (Err E) (List A)
  | [] => .ok []
  | x :: xs => do
    let t ← callArg p x
    if t then cDropwhile p xs else .ok (x :: xs)

/-- `list(itertools.starmap(function, xs))`, with the arguments as one value. -/
def cStarmap (p : Arg (A → Except (Err E) B)) : List A → Except (Err E) (List B)
  | [] => .ok []
  | x :: xs => do
    let y ← callArg p x
    let rest ← cStarmap p xs
    .ok (y :: rest)

/-- `[(k, list(g)) for k, g in itertools.groupby(xs, key)]`, from the group being made. -/
def cGroups [DecidableEq K] (key : A → Except (Err E) K) (k : K) (group : List A) : List A → Except (Err E) (List (K × List A))
  | [] => .ok [(k, group)]
  | x :: xs => do
    let k' ← key x
    if k' = k then cGroups key k (group ++ [x]) xs
    else do
      let rest ← cGroups key k' [x] xs
      .ok ((k, group) :: rest)

/-- `itertools.groupby(xs, key=None)`; without key, the items themselves are the keys (`same` is the identity). -/
def cGroupby [DecidableEq K] (same : A → K) (key : Arg (A → Except (Err E) K)) : List A → Except (Err E) (List (K × List A))
  | [] => .ok []
  | x :: xs => do
    let f := match key with
      | .fn f => f
      | _ => fun a => .ok (same a)
    let k ← f x
    cGroups f k [x] xs

/-- Running totals from `acc`. -/
def cTotals (f : A → A → Except (Err E) A) (acc : A) : List A → Except (Err E) (List A)
  | [] => .ok [acc]
  | x :: xs => do
    let acc' ← f acc x
    let rest ← cTotals f acc' xs
    .ok (acc :: rest)

/-- `list(itertools.accumulate(xs, func=None, initial=None))`; without function, items are added. -/
def cAccumulate (add : A → A → Except (Err E) A) (func : Arg (A → A → Except (Err E) A)) (initial : Option A) (xs : List A) : Except (Err E) (List A) :=
  let f := match func with
    | .fn f => f
    | _ => add
  match initial, xs with
  | some i, xs => cTotals f i xs
  | none, [] => .ok []
  | none, x :: xs => cTotals f x xs

/-! ### The replacements -/

/-- `_filterfalse` (itertoolslib.py 19-20): the function passed on is `lambda x: predicate(x)`. -/
def filterfalse (truth : A → Except (Err E) Bool) (p : Arg (A → Except (Err E) Bool)) (xs : List A) : Except (Err E) (List A) :=
  cFilterfalse truth (.fn fun x => callArg p x) xs

/-- `_takewhile` (itertoolslib.py 34-35). -/
def takewhile (p : Arg (A → Except (Err E) Bool)) (xs : List A) : Except (Err E) (List A) := cTakewhile (.fn fun x => callArg p x) xs

/-- `_dropwhile` (itertoolslib.py 15-16). -/
def dropwhile (p : Arg (A → Except (Err E) Bool)) (xs : List A) : Except (Err E) (List A) := cDropwhile (.fn fun x => callArg p x) xs

/-- `_starmap` (itertoolslib.py 30-31). -/
def starmap (p : Arg (A → Except (Err E) B)) (xs : List A) : Except (Err E) (List B) := cStarmap (.fn fun x => callArg p x) xs

/-- `_groupby` (itertoolslib.py 23-27): a key that is left out is passed on as such, any other is wrapped. -/
def groupby [DecidableEq K] (same : A → K) (key : Arg (A → Except (Err E) K)) (xs : List A) : Except (Err E) (List (K × List A)) :=
  match key with
  | .absent => cGroupby same .absent xs
  | key => cGroupby same (.fn fun x => callArg key x) xs

/-- `_accumulate` (itertoolslib.py 11-12): addition if the function is left out, and `lambda a, b: func(a, b)` is passed on. -/
def accumulate (add : A → A → Except (Err E) A) (func : Arg (A → A → Except (Err E) A)) (initial : Option A) (xs : List A) : Except (Err E) (List A) :=
  cAccumulate add (.fn fun a b => match func with
    | .absent => add a b
    | .fn f => f a b
    | .pyNone => .error .notCallable) initial xs

end

/-! ### `functools.lru_cache` -/

section
variable {E A B K S : Type}

/-- A call of a function decorated with `lru_cache(maxsize)`: results by the key of the arguments, most recently used first;
exceptions are not kept.  (The standard library's, for comparison.) -/
def cachedCall [DecidableEq K] (maxsize : Option Nat) (key : A → K) (f : A → S → Except E B × S) (a : A) (st : List (K × B) × S) :
    Except E B × List (K × B) × S :=
  match st.1.lookup (key a) with
  | some b => (.ok b, (key a, b) :: st.1.filter (fun e => decide (e.1 ≠ key a)), st.2)
  | none =>
    match f a st.2 with
    | (.ok b, s) =>
      let c := (key a, b) :: st.1
      (.ok b, match maxsize with
        | some n => c.take n
        | none => c, s)
    | (.error e, s) => (.error e, st.1, s)

/-- The replacement, `call_with_skipped_cache` (functoolslib.py 27-30): the function is called each time. -/
def skippedCall (f : A → S → Except E B × S) (a : A) (s : S) : Except E B × S := f a s

/-- The results of a series of calls with the cache. -/
def cachedRun [DecidableEq K] (maxsize : Option Nat) (key : A → K) (f : A → S → Except E B × S) : List A → List (K × B) × S → List (Except E B)
  | [], _ => []
  | a :: as, st => (cachedCall maxsize key f a st).1 :: cachedRun maxsize key f as (cachedCall maxsize key f a st).2

/-- The results of a series of calls under analysis. -/
def skippedRun (f : A → S → Except E B × S) : List A → S → List (Except E B)
  | [], _ => []
  | a :: as, s => (skippedCall f a s).1 :: skippedRun f as (skippedCall f a s).2

end

/-! ### `functools.partial` -/

section
variable {V R : Type}

/-- A call: positional arguments, and keyword arguments. -/
structure Call (V : Type) where
  args : List V
  kwargs : List (String × V)

/-- `dict(a, **b)`: keywords of the second replace those of the first in place, new ones come at the end. -/
def mergeKw (a b : List (String × V)) : List (String × V) :=
  (a.map fun e => (e.1, (b.lookup e.1).getD e.2)) ++ b.filter fun e => (a.lookup e.1).isNone

/-- `functools.partial(func, *a1, **kw1)` called with more arguments (the standard library's).  `none` for a `TypeError` when made. -/
def cPartial (func : Option (Call V → R)) (first : Call V) : Option (Call V → R) :=
  func.map fun f second => f ⟨first.args ++ second.args, mergeKw first.kwargs second.kwargs⟩

/-- `_partial(func, *a1, **kw1)` (functoolslib.py 6-17): `func` is an ordinary parameter, so a keyword of that name is a second value for
it; `wrapper(*a2, **kw2)` passes everything on. -/
def partialFn (func : Option (Call V → R)) (first : Call V) : Option (Call V → R) :=
  if (first.kwargs.lookup "func").isSome then none
  else
    match func with
    | some f => cPartial (some fun c => f ⟨c.args, c.kwargs⟩) first
    | none => none

end

/-! ### In-place operators on objects of unknown type -/

section
variable {Var Heap : Type}

/-- What a variable refers to: a `SymbolicObject`, or an ordinary object. -/
inductive Ref where
  | proxy (p : Nat)
  | place (n : Nat)
deriving DecidableEq

/-- Variables, the objects behind the proxies (`_inner`, all decided already), and the heap. -/
structure PxState (Var Heap : Type) where
  env : Var → Ref
  inner : Nat → Nat
  heap : Heap

/-- `_wrapped` (objectproxy.py 37-47), for a proxy that is decided. -/
def PxState.deref (st : PxState Var Heap) : Ref → Nat
  | .proxy p => st.inner p
  | .place n => n

variable [DecidableEq Var]

/-- Statements with proxies; `x op= …` on a proxy is `proxy_inplace_op` (objectproxy.py 17-25): if the result is the same object,
the proxy itself is the result, otherwise the object behind the proxy is replaced and the new object is the result. -/
def pxStep (st : PxState Var Heap) : Stmt Var Heap → PxState Var Heap
  | .copy x y => { st with env := fun v => if v = x then st.env y else st.env v }
  | .inplace x op =>
    match st.env x with
    | .proxy p =>
      let r := op (st.inner p) st.heap
      if r.1 = st.inner p then { st with env := fun v => if v = x then .proxy p else st.env v, heap := r.2 }
      else { env := fun v => if v = x then .place r.1 else st.env v, inner := fun q => if q = p then r.1 else st.inner q, heap := r.2 }
    | .place n =>
      let r := op n st.heap
      { st with env := fun v => if v = x then .place r.1 else st.env v, heap := r.2 }

/-- A statement keeps apart what it should: an operation that gives a new object is not applied to a proxy that another variable
refers to as well. -/
def Apart (st : PxState Var Heap) : Stmt Var Heap → Prop
  | .copy _ _ => True
  | .inplace x op => ∀ p, st.env x = .proxy p → (op (st.inner p) st.heap).1 = st.inner p ∨ ∀ v, v ≠ x → st.env v ≠ .proxy p

/-- All statements of a program do. -/
def AllApart (st : PxState Var Heap) : List (Stmt Var Heap) → Prop
  | [] => True
  | s :: rest => Apart st s ∧ AllApart (pxStep st s) rest

end

end Verif.Wrappers
