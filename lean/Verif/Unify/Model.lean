/-!
# Unification of types

Models dynamic_typing.py.  Types are trees.  TypedDicts, subclasses of tuple, generic callable classes and bounds of type variables are left
out; members of a union are compared in order when types are compared with `==`.
-/
namespace Verif.Unify

inductive Ty where
  | any
  | var (x : Nat)
  /-- a class, perhaps with type arguments -/
  | cls (c : Nat) (args : List Ty)
  /-- `Tuple[A, B]` -/
  | tuple (ts : List Ty)
  /-- `Tuple[A, ...]` -/
  | tupleVar (t : Ty)
  /-- `tuple` -/
  | tupleRaw
  /-- `Callable[[A, B], R]`, or `Callable[..., R]`; `Callable` is the same as `Callable[..., Any]`
  (dynamic_typing.py:184-186) -/
  | callable (args : Option (List Ty)) (ret : Ty)
  | union (ts : List Ty)
  deriving Repr

/-- The classes: `sub c d` is `issubclass(c, d)`. -/
structure Hier where
  sub : Nat → Nat → Bool
  /-- number of type parameters -/
  params : Nat → Nat
  objectC : Nat
  tupleC : Nat
  sequenceC : Nat
  callableC : Nat
  /-- the class of plain functions -/
  functionC : Nat

mutual
/-- Equality of types. -/
def Ty.same : Ty → Ty → Bool
  | .any, .any => true
  | .var x, .var y => x == y
  | .cls c xs, .cls d ys => c == d && sameAll xs ys
  | .tuple xs, .tuple ys => sameAll xs ys
  | .tupleVar x, .tupleVar y => x.same y
  | .tupleRaw, .tupleRaw => true
  | .callable (some xs) r, .callable (some ys) r' => sameAll xs ys && r.same r'
  | .callable none r, .callable none r' => r.same r'
  | .union xs, .union ys => sameAll xs ys
  | _, _ => false
def sameAll : List Ty → List Ty → Bool
  | [], [] => true
  | x :: xs, y :: ys => x.same y && sameAll xs ys
  | _, _ => false
end

/-- A `ChainMap` is one association list: the writes of a child are put in front of those of its parent, or dropped. -/
abbrev Bindings := List (Nat × Ty)

inductive Res where
  | ok (ans : Bool) (b : Bindings)
  /-- an exception -/
  | crash
  /-- the model has run out of steps -/
  | outOfFuel
  deriving Repr

/-- dynamic_typing.py:97-98 `bindings.get(typ, typ)`. -/
def get (b : Bindings) (t : Ty) : Ty :=
  match t with
  | .var x =>
    match b.lookup x with
    | some t' => t'
    | none => t
  | _ => t

def Ty.isAny : Ty → Bool
  | .any => true
  | _ => false

/-- dynamic_typing.py:126-127: a type variable as value type is taken for `object`. -/
def Ty.orObject (H : Hier) : Ty → Ty
  | .var _ => .cls H.objectC []
  | t => t

/-- dynamic_typing.py:15-18 `origin_of`. -/
def origin (H : Hier) : Ty → Nat
  | .cls c _ => c
  | .tuple _ => H.tupleC
  | .tupleVar _ => H.tupleC
  | .tupleRaw => H.tupleC
  | .callable _ _ => H.callableC
  | _ => H.objectC

/-- dynamic_typing.py:176-187 `arg_getter`, for types that are callable: arguments and return type. -/
def callArgs : Ty → Option (Option (List Ty) × Ty)
  | .callable a r => some (a, r)
  | .cls _ [] => some (none, .any)
  | _ => none

/-- dynamic_typing.py:154-155: the type of the items, if the items of the tuple all have the same type. -/
def uniform (H : Hier) : List Ty → Option Ty
  | [] => some (.cls H.objectC [])
  | t :: ts => if ts.all (fun x => t.same x) then some t else none

/-- The type arguments to compare. -/
inductive Pairing where
  | args (vargs rargs : List Ty)
  | answer (ans : Bool)
  /-- `tuple` against `Tuple[t, ...]`, which has the arguments `t` and `...` -/
  | long (t : Ty)
  | crash

/-- dynamic_typing.py:188-206: the arguments of types that are not callable; a callable has two arguments, the first
of which is a list. -/
def pairing : Ty → Ty → Pairing
  | .callable _ _, .cls _ rargs => if rargs.length = 2 then .crash else .answer false
  | .cls _ vargs, .cls _ rargs => .args vargs rargs
  | .tuple vargs, .cls _ rargs => .args vargs rargs
  | .tuple vargs, .tuple rargs => .args vargs rargs
  | .tupleRaw, .cls _ rargs => .args [] rargs
  | .tupleRaw, .tuple rargs => .args [] rargs
  | .tupleRaw, .tupleRaw => .answer true
  | .tupleRaw, .tupleVar t => .long t
  | _, _ => .crash

mutual
/-- dynamic_typing.py:90-214 `unify`: bindings are looked up, `Any` unifies with every type; see the other functions for the rest. -/
def unify (H : Hier) : Nat → Ty → Ty → Bindings → Res
  | 0, _, _, _ => .outOfFuel
  | n + 1, v, r, b =>
    if (get b v).isAny || (get b r).isAny then .ok true b
    else
      match get b v with
      | .union vs => unionValue H n vs (get b r) b
      | v' => receive H n v' (get b r) b
/-- dynamic_typing.py:112-128: unions and type variables as receiver type. -/
def receive (H : Hier) : Nat → Ty → Ty → Bindings → Res
  | 0, _, _, _ => .outOfFuel
  | n + 1, v, r, b =>
    match r with
    | .union rs => unionRecv H n v rs b
    | .var x => if (b.lookup x).isSome then .crash else .ok true ((x, v) :: b)
    | r => tuples H n (v.orObject H) r b
/-- dynamic_typing.py:103-111: a union as value type; bindings are discarded. -/
def unionValue (H : Hier) : Nat → List Ty → Ty → Bindings → Res
  | 0, _, _, _ => .outOfFuel
  | _ + 1, [], _, b => .ok true b
  | n + 1, v :: vs, r, b =>
    match unify H n v r b with
    | .ok true _ => unionValue H n vs r b
    | .ok false _ => .ok false b
    | e => e
/-- dynamic_typing.py:112-119: a union as receiver type. -/
def unionRecv (H : Hier) : Nat → Ty → List Ty → Bindings → Res
  | 0, _, _, _ => .outOfFuel
  | _ + 1, _, [], b => .ok false b
  | n + 1, v, r :: rs, b =>
    match unify H n v r b with
    | .ok true b' => .ok true b'
    | .ok false _ => unionRecv H n v rs b
    | e => e
/-- dynamic_typing.py:152-163: a tuple as value type is a sequence if its items have the same type. -/
def tuples (H : Hier) : Nat → Ty → Ty → Bindings → Res
  | 0, _, _, _ => .outOfFuel
  | n + 1, v, r, b =>
    match v with
    | .tuple ts =>
      match uniform H ts with
      | none => tupleRecv H n v r b
      | some t =>
        match unify H n (.cls H.sequenceC [t]) r b with
        | .ok true b' => .ok true b'
        | .ok false _ => if ts.isEmpty then .crash else tupleRecv H n v r b  -- `args[-1]`
        | e => e
    | .tupleVar t =>
      match unify H n (.cls H.sequenceC [t]) r b with
      | .ok true b' => .ok true b'
      | .ok false _ => tupleRecv H n .tupleRaw r b
      | e => e
    | .tupleRaw =>
      match unify H n (.cls H.sequenceC [.cls H.objectC []]) r b with
      | .ok true b' => .ok true b'
      | .ok false _ => tupleRecv H n .tupleRaw r b
      | e => e
    | _ => tupleRecv H n v r b
/-- dynamic_typing.py:164-173: a tuple as receiver type. -/
def tupleRecv (H : Hier) : Nat → Ty → Ty → Bindings → Res
  | 0, _, _, _ => .outOfFuel
  | n + 1, v, r, b =>
    match r with
    | .tupleVar t =>
      match unify H n v (.cls H.sequenceC [t]) b with
      | .ok true b' => .ok true b'
      | .ok false _ => classes H n (origin H v) .tupleRaw r b
      | e => e
    | .tupleRaw =>
      match unify H n v (.cls H.sequenceC [.cls H.objectC []]) b with
      | .ok true b' => .ok true b'
      | .ok false _ => classes H n (origin H v) .tupleRaw r b
      | e => e
    | _ => classes H n (origin H v) v r b
/-- dynamic_typing.py:175-212: the class of the value type is a subclass of the class of the receiver type, and the
arguments unify. -/
def classes (H : Hier) : Nat → Nat → Ty → Ty → Bindings → Res
  | 0, _, _, _, _ => .outOfFuel
  | n + 1, vorigin, v, r, b =>
    if H.sub vorigin (origin H r) then
      if H.sub (origin H r) H.callableC then
        match callArgs v, callArgs r with
        | some (va, vr), some (ra, rr) =>
          match unify H n vr rr b with
          | .ok true b' =>
            match va, ra with  -- dynamic_typing.py:53-66 `unify_callable_args`
            | some vs, some rs => if vs.length ≠ rs.length then .ok false b' else unifyAll H n rs vs b'
            | _, _ => .ok true b'
          | e => e
        | _, _ => .crash
      else
        match pairing v r with
        | .args vargs rargs => arguments H n vargs rargs b
        | .answer ans => .ok ans b
        | .long t =>
          match unify H n (.cls H.objectC []) t b with
          | .ok true _ => .crash  -- `issubclass(object, ...)`
          | e => e
        | .crash => .crash
    else .ok false b
/-- dynamic_typing.py:201-210: missing arguments of the value type are `object`. -/
def arguments (H : Hier) : Nat → List Ty → List Ty → Bindings → Res
  | 0, _, _, _ => .outOfFuel
  | n + 1, vargs, rargs, b =>
    if vargs.length ≠ rargs.length then
      if vargs.length = 0 then unifyAll H n (rargs.map (fun _ => .cls H.objectC [])) rargs b else .ok false b
    else unifyAll H n vargs rargs b
/-- `all(unify(v, r, bindings) for v, r in zip(vs, rs))`. -/
def unifyAll (H : Hier) : Nat → List Ty → List Ty → Bindings → Res
  | 0, _, _, _ => .outOfFuel
  | n + 1, v :: vs, r :: rs, b =>
    match unify H n v r b with
    | .ok true b' => unifyAll H n vs rs b'
    | e => e
  | _ + 1, _, _, b => .ok true b
end

mutual
/-- dynamic_typing.py:229-243 `realize`. -/
def realize (b : Bindings) : Ty → Ty
  | .var x => match b.lookup x with | some t => t | none => .var x
  | .cls c args => .cls c (realizeAll b args)
  | .tuple ts => .tuple (realizeAll b ts)
  | .tupleVar t => .tupleVar (realize b t)
  | .callable (some args) r => .callable (some (realizeAll b args)) (realize b r)
  | .callable none r => .callable none (realize b r)
  | .union ts => .union (realizeAll b ts)
  | t => t
def realizeAll (b : Bindings) : List Ty → List Ty
  | [] => []
  | t :: ts => realize b t :: realizeAll b ts
end

end Verif.Unify
