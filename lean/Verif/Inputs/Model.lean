import Verif.Inputs.Spec
/-
Model of the making of arguments: `gen_args`, the special cases of `proxy_for_type` and `proxy_for_class` for enumerations and typed
dictionaries, and `is_deeply_immutable` (/repo/crosshair/core.py).
-/
namespace Verif.Inputs

/-! ### Names of variables -/

/-- A hexadecimal digit. -/
def hexDigit (d : Nat) : Char := "0123456789abcdef".toList.getD d '0'

/-- Python's `"{:x}".format(n)`. -/
def hex (n : Nat) : List Char :=
  if n < 16 then [hexDigit n] else hex (n / 16) ++ [hexDigit (n % 16)]
termination_by n
decreasing_by omega

/-- `StateSpace.uniq` (statespace.py 1176-1178): the new counter and the text. -/
def uniq (counter : Nat) : Nat × Name := (counter + 1, '_' :: hex (counter + 1))

/-! ### Arguments -/

/-- What `proxy_for_type` is called with for a parameter. -/
structure Request (T : Type) where
  shape : Shape T
  name : Name
  subtypes : Bool

/-- An argument: the parameter, the request and the value. -/
structure Arg (T V : Type) where
  param : Name
  request : Request T
  value : V

/-- The request of `gen_args` (core.py 764-806) for one parameter; `List[Any]` and `Dict[str, Any]` are shapes without type. -/
def request {T : Type} (p : Param T) (name : Name) : Request T :=
  match p.kind with
  | .varPositional => ⟨.list p.ann, name, true⟩
  | .varKeyword => ⟨.dict p.ann, name, true⟩
  | _ => ⟨.one p.ann, name, !(p.name == "self".toList)⟩

/-- `gen_args` (core.py 758-814). `make` is `proxy_for_type`, which may take further numbers from the counter; `keys` makes the keys of
a dictionary concrete (core.py 793-795), done for annotated `**kwargs`. The renaming of functions for traces is left out. -/
def genArgs {T V : Type} (make : Request T → Nat → V × Nat) (keys : V → V) : List (Param T) → Nat → List (Arg T V) × Nat
  | [], counter => ([], counter)
  | p :: ps, counter =>
    let (counter, suffix) := uniq counter
    let r := request p (p.name ++ suffix)
    let (value, counter) := make r counter
    let value := if p.kind = .varKeyword ∧ p.ann.isSome then keys value else value
    let (rest, counter) := genArgs make keys ps counter
    (⟨p.name, r, value⟩ :: rest, counter)

/-! ### Enumerations and typed dictionaries -/

/-- core.py 728-735: the choice among the members of an enumeration, with the answers of `smt_fork`; `none` for `IgnoreAttempt`. -/
def chooseEnum {α : Type} (fork : Nat → Bool) : Nat → List α → Option α
  | _, [] => none
  | _, [x] => some x
  | i, x :: y :: rest => if fork i then some x else chooseEnum fork (i + 1) (y :: rest)

/-- core.py 510-518: the entries of a typed dictionary. `smt_fork` is only asked for optional keys. -/
def typedDict {α : Type} (fork : Nat → Bool) (isOptional : Name → Bool) : Nat → List (Name × α) → List (Name × α)
  | _, [] => []
  | i, (k, t) :: rest =>
    if !isOptional k then (k, t) :: typedDict fork isOptional i rest
    else if fork i then (k, t) :: typedDict fork isOptional (i + 1) rest
    else typedDict fork isOptional (i + 1) rest

/-! ### Immutable values -/

mutual
/-- The built-in `hash` when it is called by C code: whether it succeeds. Only calls of `hash` in Python code are replaced, so the
parts of a tuple are hashed by C code again; a `__hash__` written in Python calls `hash` of a tuple of the parts. -/
def nativeHash : Obj → Bool
  | .atom => true
  | .symbolic _ => true
  | .container => false
  | .instance => true
  | .tuple parts => nativeHashAll parts
  | .hashed parts => nativeHashAll parts

/-- The same for all parts. -/
def nativeHashAll : List Obj → Bool
  | [] => true
  | p :: ps => nativeHash p && nativeHashAll ps
end

/-- `_mutability_testing_hash` (core.py 1679-1693): whether it succeeds. -/
def testingHash : Obj → Bool
  | .atom => true
  | .symbolic immutable => immutable
  | .container => false
  | .instance => false
  | .tuple parts => nativeHashAll parts
  | .hashed parts => nativeHashAll parts

/-- What can happen while hashing. -/
inductive Outcome where
  | ok | typeError | otherError
deriving DecidableEq, Repr

/-- `CTracer.pop_module` (_tracers.c 300-317), on the stack with the top at the end: `none` is an error. -/
def popModule (stack : List Nat) (m : Nat) : Option (List Nat) :=
  if stack.getLast? = some m then some stack.dropLast else none

/-- A loop of `pop_config`. -/
def popAll : List Nat → List Nat → Option (List Nat)
  | stack, [] => some stack
  | stack, m :: ms =>
    match popModule stack m with
    | none => none
    | some s => popAll s ms

/-- `is_deeply_immutable` (core.py 1696-1713): the answer (`none` for an exception that is passed on), the modules while hashing, and
the modules afterwards; `none` if a module cannot be popped. `hash` gives the outcome of `hash(o)`. -/
def isDeeplyImmutable (stack : List Nat) (intercept : Nat) (hash : Outcome) : Option (Option Bool × List Nat × List Nat) :=
  match popAll stack stack.reverse with
  | none => none
  | some s =>
    let during := s ++ [intercept]
    match popModule during intercept with
    | none => none
    | some s =>
      let after := s ++ stack
      some (match hash with
        | .ok => some true
        | .typeError => some false
        | .otherError => none, during, after)

end Verif.Inputs
