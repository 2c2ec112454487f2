import Verif.Differential.Spec
/-
Model of the comparison of symbolic with concrete runs of single operations (/repo/crosshair/behavior_compare.py).
-/
namespace Verif.Differential

mutual
/-- `_is_opaque` (behavior_compare.py 199-226), at a depth. -/
def isOpaque (d : Nat) : Val → Bool
  | .none => false
  | .cls builtin _ => !builtin
  | .function _ => true
  | .atom .. => false
  | .dict items => if d < 3 then anyValue (d + 1) items else false
  | .list l | .tuple l | .set l | .frozenset l => if d < 3 then anyOpaque (d + 1) l else false
  | .handle _ => true
/-- `any(_is_opaque(x, depth) for x in v)`. -/
def anyOpaque (d : Nat) : List Val → Bool
  | [] => false
  | v :: rest => isOpaque d v || anyOpaque d rest
/-- `any(_is_opaque(x, depth) for x in v.values())`. -/
def anyValue (d : Nat) : List (Val × Val) → Bool
  | [] => false
  | (_, v) :: rest => isOpaque d v || anyValue d rest
end

mutual
/-- Equality of types: as Python compares them (unions as sets; these never contain unions directly here, and are kept in order). -/
def Ty.same : Ty → Ty → Bool
  | .atom a, .atom b => a == b
  | .noneType, .noneType => true
  | .int, .int => true
  | .list a, .list b => Ty.same a b
  | .set a, .set b => Ty.same a b
  | .frozenset a, .frozenset b => Ty.same a b
  | .tuple a, .tuple b => Ty.sameAll a b
  | .dict a b, .dict c d => Ty.same a c && Ty.same b d
  | .union a, .union b => Ty.sameAll a b
  | .metaclass, .metaclass => true
  | .functionType, .functionType => true
  | .handleType, .handleType => true
  | _, _ => false
def Ty.sameAll : List Ty → List Ty → Bool
  | [], [] => true
  | a :: as, b :: bs => Ty.same a b && Ty.sameAll as bs
  | _, _ => false
end

/-- `tuple(dict.fromkeys(types))` (behavior_compare.py 387): the first of equal ones. -/
def dedup (seen : List Ty) : List Ty → List Ty
  | [] => []
  | t :: rest => if seen.any (Ty.same t) then dedup seen rest else t :: dedup (seen ++ [t]) rest

/-- `_union_of` (behavior_compare.py 385-388). -/
def unionOf (ts : List Ty) : Ty :=
  match dedup [] ts with
  | [t] => t
  | us => .union us

mutual
/-- `_proxy_type` (behavior_compare.py 391-411).  The class 0 of plain values is `int`. -/
def proxyType : Val → Ty
  | .list l => if l.isEmpty then .list .int else .list (unionOf (proxyTypes l))
  | .set l => if l.isEmpty then .set .int else .set (unionOf (proxyTypes l))
  | .frozenset l => if l.isEmpty then .frozenset .int else .frozenset (unionOf (proxyTypes l))
  | .tuple l => if l.isEmpty then .tuple [] else .tuple (proxyTypes l)
  | .dict d => if d.isEmpty then .dict .int .int else .dict (unionOf (keyTypes d)) (unionOf (valueTypes d))
  | .none => .noneType
  | .atom t _ => .atom t
  | .cls .. => .metaclass
  | .function _ => .functionType
  | .handle _ => .handleType
def proxyTypes : List Val → List Ty
  | [] => []
  | v :: rest => proxyType v :: proxyTypes rest
def keyTypes : List (Val × Val) → List Ty
  | [] => []
  | (k, _) :: rest => proxyType k :: keyTypes rest
def valueTypes : List (Val × Val) → List Ty
  | [] => []
  | (_, v) :: rest => proxyType v :: valueTypes rest
end

/-! ### Running an operation -/

/-- The parts of a run that can fail: an exception has a class. -/
abbrev Exc := Nat

/-- What the parts of a run do: the call, the realization of what it returns, whether that is an iterator and what going through it
does, the realization of an exception. -/
structure Run (V : Type) where
  call : Except Exc V
  realize : V → Except Exc V
  isIterator : V → Bool
  values : V → Except Exc V
  realizeExc : Exc → Except Exc Exc

/-- The recorded outcome, and how the path is detached: not at all, after the call, or for an exception. -/
inductive Detached where
  | normally
  | forException (e : Exc)
deriving DecidableEq, Repr

/-- The handler in `summarize_execution` (behavior_compare.py 256-266). -/
def handle {V : Type} (r : Run V) (detach : Bool) (already : List Detached) (e : Exc) : Except Exc (Except Exc V) × List Detached :=
  let log := if detach then already ++ [.forException e] else already
  match r.realizeExc e with
  | .error e' => (.error e', log)
  | .ok e' => (.ok (.error e'), log)

/-- `summarize_execution` without the arguments (behavior_compare.py 228-266): the outcome, or an exception that comes out of it, and
the calls of `detach_path`. -/
def summarize {V : Type} (r : Run V) (detach : Bool) : Except Exc (Except Exc V) × List Detached :=
  match r.call with
  | .error e => handle r detach [] e
  | .ok v =>
    let log := if detach then [.normally] else []
    match r.realize v with
    | .error e => handle r false log e
    | .ok w =>
      if r.isIterator w then
        match r.values w with
        | .error e => handle r false log e
        | .ok x => (.ok (.ok x), log)
      else (.ok (.ok w), log)

/-- The realization of the arguments afterwards (behavior_compare.py 267-277): what cannot be realized is `UNREALIZABLE` (`none`). -/
def realizeArgs {V : Type} (realize : V → Except Exc V) (args : List V) : List (Option V) :=
  args.map fun a => match realize a with
    | .ok v => some v
    | .error _ => none

/-- How an attempt at a symbolic run ends (behavior_compare.py 446-483). -/
inductive Attempt (R : Type) where
  /-- A result; `intolerant` if its exception looks like a rejection of a symbolic value. -/
  | done (r : R) (intolerant : Bool)
  | ignored (exhausted : Bool)
  | unsupported
  | failed
deriving DecidableEq

/-- `run_symbolic_pinned` (behavior_compare.py 436-485), on the attempts that would be made. -/
def runPinned {R : Type} : Nat → List (Attempt R) → Symbolic R
  | 0, _ => .unpinned
  | _, [] => .unpinned
  | n + 1, a :: rest =>
    match a with
    | .done r intolerant => if intolerant then .unsupported else .result r
    | .unsupported => .unsupported
    | .failed => .unpinned
    | .ignored exhausted => if exhausted then .unpinned else runPinned n rest

/-- A `DiffResult` (behavior_compare.py 370-377). -/
structure DiffResult (R : Type) where
  checked : Nat
  divergence : Option (R × R)
  unsupported : Nat
deriving DecidableEq

/-- The loop of `run_differential` (behavior_compare.py 520-553). -/
def runDifferential {R : Type} (same : R → R → Bool) : Nat → Nat → List (Trial R) → DiffResult R
  | checked, unsupported, [] => ⟨checked, none, unsupported⟩
  | checked, unsupported, t :: rest =>
    match t.symbolic with
    | .unpinned => runDifferential same checked unsupported rest
    | .unsupported => runDifferential same checked (unsupported + 1) rest
    | .result r =>
      if same t.first t.second = false then runDifferential same checked unsupported rest
      else if t.opaqueResult then runDifferential same checked unsupported rest
      else if same t.first r = false then ⟨checked + 1, some (t.first, r), unsupported⟩
      else runDifferential same (checked + 1) unsupported rest

end Verif.Differential
