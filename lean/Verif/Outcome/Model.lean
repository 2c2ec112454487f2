/-!
# Comparison of outcomes

Models the comparison of two runs in behavior_compare.py and diff_behavior.py.

Values are finite trees of plain data.  A number is its value, so `1`, `1.0` and `True` are one value, as they are for
Python's `==`.  Identity matters only for NaN objects and for objects that are compared by identity, which carry
an identifier; for the rest `a is b` only shortens a comparison that succeeds anyway (see `flexEq_self`).  Each
iterator occurs once, so that reading it does not matter.
-/
namespace Verif.Outcome

/-- Hashable values that serve as keys of dicts and items of sets. -/
inductive Key where
  | none
  | num (x : Rat)
  | inf (negative : Bool)
  | nan (id : Nat)
  | str (s : List Char)
  | bytes (s : List Nat)
  | tuple (ks : List Key)

mutual
/-- Whether keys are the same. -/
def Key.same : Key → Key → Bool
  | .none, .none => true
  | .num x, .num y => x == y
  | .inf n, .inf m => n == m
  | .nan i, .nan j => i == j
  | .str s, .str t => s == t
  | .bytes s, .bytes t => s == t
  | .tuple ks, .tuple ls => Key.sameAll ks ls
  | _, _ => false
def Key.sameAll : List Key → List Key → Bool
  | [], [] => true
  | k :: ks, l :: ls => Key.same k l && Key.sameAll ks ls
  | _, _ => false
end

mutual
theorem Key.same_iff : (a b : Key) → (Key.same a b = true ↔ a = b)
  | .tuple ks, b => by
    cases b <;> simp only [Key.same, Bool.false_eq_true, reduceCtorEq, Key.tuple.injEq]
    exact Key.sameAll_iff ks _
  | .none, b => by cases b <;> simp [Key.same]
  | .num x, b => by cases b <;> simp [Key.same]
  | .inf x, b => by cases b <;> simp [Key.same]
  | .nan x, b => by cases b <;> simp [Key.same]
  | .str x, b => by cases b <;> simp [Key.same]
  | .bytes x, b => by cases b <;> simp [Key.same]
theorem Key.sameAll_iff : (a b : List Key) → (Key.sameAll a b = true ↔ a = b)
  | [], b => by cases b <;> simp [Key.sameAll]
  | k :: ks, b => by
    cases b with
    | nil => simp [Key.sameAll]
    | cons l ls =>
      simp only [Key.sameAll, Bool.and_eq_true, List.cons.injEq]
      rw [Key.same_iff k l, Key.sameAll_iff ks ls]
end

instance : DecidableEq Key := fun a b => decidable_of_iff (Key.same a b = true) (Key.same_iff a b)

inductive Val where
  | none
  | num (x : Rat)
  | inf (negative : Bool)
  /-- a float or `Decimal` NaN -/
  | nan (id : Nat)
  | str (s : List Char)
  | bytes (s : List Nat)
  | list (xs : List Val)
  | tuple (xs : List Val)
  | dict (items : List (Key × Val))
  /-- a set or frozenset -/
  | set (items : List Key)
  /-- an iterable that is not a collection, of a type that compares by identity, and what it yields -/
  | iter (type id : Nat) (xs : List Val)
  /-- any other object whose type compares by identity -/
  | other (type id : Nat)
  /-- `UNREALIZABLE` -/
  | unrealizable

/-- behavior_compare.py:63 `_MISSING`, whose type compares by identity; its type and identifier are not used
otherwise. -/
def missing : Val := .other 0 0

/-- `b.get(k, _MISSING)`.  Items are found by `==`, or by identity for a NaN. -/
def get (b : List (Key × Val)) (k : Key) : Val :=
  match b with
  | [] => missing
  | (k', v) :: rest => if k' = k then v else get rest k

/-- Python's `==` of sets: as many items, and each item of the one is in the other. -/
def setEq (a b : List Key) : Bool := a.length == b.length && a.all (fun k => b.contains k)

mutual
/-- behavior_compare.py:117-150 `flexible_equal`.  For each kind of the first value: the case of `UNREALIZABLE`
(120), identity comparison for values of the same type (122-124), NaN (125), iterables that are not collections
(127-133), containers of the same type (134-148), and `==` (150). -/
def flexEq : Val → Val → Bool
  | .unrealizable, _ => true
  | .none, b => match b with
    | .unrealizable => true
    | .none => true
    | _ => false
  | .num x, b => match b with
    | .unrealizable => true
    | .num y => x == y
    | _ => false
  | .inf n, b => match b with
    | .unrealizable => true
    | .inf m => n == m
    | _ => false
  | .nan _, b => match b with
    | .unrealizable => true
    | .nan _ => true
    | _ => false
  | .str s, b => match b with
    | .unrealizable => true
    | .str t => s == t
    | _ => false
  | .bytes s, b => match b with
    | .unrealizable => true
    | .bytes t => s == t
    | _ => false
  | .list xs, b => match b with
    | .unrealizable => true
    | .list ys => if xs.length != ys.length then false else flexZip xs ys
    | _ => false
  | .tuple xs, b => match b with
    | .unrealizable => true
    | .tuple ys => if xs.length != ys.length then false else flexZip xs ys
    | _ => false
  | .dict xs, b => match b with
    | .unrealizable => true
    | .dict ys => if xs.length != ys.length then false else flexItems xs ys
    | _ => false
  | .set xs, b => match b with
    | .unrealizable => true
    | .set ys => setEq xs ys
    | _ => false
  | .iter t _ xs, b => match b with
    | .unrealizable => true
    | .iter t' _ ys => if t = t' then true else if xs.length != ys.length then false else flexZip xs ys
    | _ => false
  | .other t i, b => match b with
    | .unrealizable => true
    | .other t' i' => if t = t' then true else i == i'
    | _ => false
/-- behavior_compare.py:148 -/
def flexZip : List Val → List Val → Bool
  | x :: xs, y :: ys => flexEq x y && flexZip xs ys
  | [], _ => true
  | _ :: _, [] => true
/-- behavior_compare.py:143-146 -/
def flexItems : List (Key × Val) → List (Key × Val) → Bool
  | (k, v) :: rest, b => flexEq v (get b k) && flexItems rest b
  | [], _ => true
end

/-! ## Runs -/

/-- An exception: its type, and its `repr`, which starts with the name of the type and shows the arguments. -/
structure Raised where
  type : Nat
  repr : List Char
  deriving DecidableEq, Repr

/-- diff_behavior.py:33-36 `ExceptionEquivalenceType` -/
inductive Mode where
  | all
  | sameType
  | typeAndMessage
  deriving DecidableEq, Repr

/-- diff_behavior.py:241-256 `check_exception_equivalence` -/
def sameExc (mode : Mode) (exc1 exc2 : Option Raised) : Bool :=
  match exc1, exc2 with
  | some e1, some e2 =>
    match mode with
    | .all => true
    | .sameType => e1.type == e2.type
    | .typeAndMessage => e1.repr == e2.repr
  | none, none => true
  | _, _ => false

/-- How a call of a function ends. -/
inductive Ended where
  | returned (v : Val)
  /-- an exception that the filter takes for one of the user's -/
  | raised (e : Raised)
  /-- `IgnoreAttempt` or `PostconditionFailed` -/
  | ignored
  /-- an exception that the filter lets through -/
  | escaped

/-- `IgnoreAttempt()`; its type has a number of its own. -/
def ignoreAttempt : Raised := { type := 1, repr := "IgnoreAttempt()".toList }

/-- diff_behavior.py:76-88 `describe_behavior`, with `ExceptionFilter` (core.py:237-277) without expected exceptions;
`none` when an exception goes through. -/
def describeBehavior : Ended → Option (Val × Option Raised)
  | .returned v => some (v, none)
  | .raised e => some (.none, some e)
  | .ignored => some (.none, some ignoreAttempt)
  | .escaped => none

/-- What an iteration of diff_behavior gives. -/
inductive Verdict where
  | confirmed
  | refuted
  | noVerdict
  deriving DecidableEq, Repr

/-- diff_behavior.py:259-317 `run_iteration`: the verdict, from how the calls of the two functions end and from the
arguments after them.  An exception that goes through the filters ends the iteration without verdict. -/
def iteration (mode : Mode) (end1 end2 : Ended) (args1 args2 : List (Key × Val)) : Verdict :=
  match describeBehavior end1 with
  | none => .noVerdict
  | some (return1, exc1) =>
    match describeBehavior end2 with
    | none => .noVerdict
    | some (return2, exc2) =>
      if flexEq return1 return2 && flexEq (.dict args1) (.dict args2) && sameExc mode exc1 exc2 then .confirmed
      else .refuted

/-- diff_behavior.py:47-54 `Result.get_differing_arg_mutations`: the arguments after the calls are given by their
names and `repr`s.  The result is a set. -/
def differingArgs (args1 args2 : List (List Char × List Char)) : List (List Char) :=
  ((args1.map (·.1) ++ args2.map (·.1)).eraseDups).filter (fun arg =>
    match args1.lookup arg, args2.lookup arg with
    | some r1, some r2 => r1 != r2
    | _, _ => false)

/-- behavior_compare.py:153-160 `ExecutionResult`; the traceback is not compared. -/
structure Result where
  ret : Val
  exc : Option Raised
  postArgs : List Val
  postKwargs : List (Key × Val)

/-- behavior_compare.py:162-170 `ExecutionResult.__eq__`: the sequence of arguments is a tuple.  `type(None)` is the
type of an absent exception. -/
def Result.eq (a b : Result) : Bool :=
  flexEq a.ret b.ret && (a.exc.map (·.type) == b.exc.map (·.type)) &&
    flexEq (.tuple a.postArgs) (.tuple b.postArgs) && flexEq (.dict a.postKwargs) (.dict b.postKwargs)

end Verif.Outcome
