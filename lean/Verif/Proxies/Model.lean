import Verif.Proxies.Spec
import Verif.Inputs.Model
/-
Model of how values are made for annotations: `proxy_for_type`, `proxy_for_class`, `normalize_pytype`, `choose_type`
(/repo/crosshair/core.py) and the makers registered in /repo/crosshair/libimpl/builtinslib.py, collectionslib.py, datetimelib.py,
fractionlib.py and decimallib.py, together with the names that they give to variables of the solver.
-/
namespace Verif.Proxies

/-! ### Answers -/

/-- What decides a path: the answers of `smt_fork` and the values that the solver chooses for variables. -/
inductive Ans where
  | fork (b : Bool)
  | bool (b : Bool)
  | int (i : Int)
  | size (n : Nat)
  | float (f : Fl)
  | str (s : List Char)
  | bytes (bs : List Nat)

abbrev Tape := List Ans

/-- How making a value ends: a value and the remaining answers, `IgnoreAttempt` (or assumptions that cannot hold),
`CrosshairUnsupported`, not finished within the given depth, or answers that do not fit. -/
inductive Res (α : Type) where
  | ok (a : α) (rest : Tape)
  | ignore
  | unsupported
  | more
  | stuck

def Res.bind {α β : Type} : Res α → (α → Tape → Res β) → Res β
  | .ok a rest, f => f a rest
  | .ignore, _ => .ignore
  | .unsupported, _ => .unsupported
  | .more, _ => .more
  | .stuck, _ => .stuck

/-- The choice among several options, each but the last with a call to `smt_fork`: the members of an enumeration (core.py 728-735, with
`IgnoreAttempt` if there is none), the types of a union (builtinslib.py 4621-4628) and the classes of `choose_type` (core.py 440-455,
748-750: the last class has probability 1 and is taken without a fork, as proved in the area `Types`). -/
def pick {α : Type} : List α → Tape → Res α
  | [], _ => .ignore
  | [x], tape => .ok x tape
  | x :: _ :: _, .fork true :: tape => .ok x tape
  | _ :: y :: xs, .fork false :: tape => pick (y :: xs) tape
  | _, _ => .stuck

/-- One value after the other. -/
def makeAll (make : Ann → Tape → Res Val) : List Ann → Tape → Res (List Val)
  | [], tape => .ok [] tape
  | t :: ts, tape => (make t tape).bind fun v tape => (makeAll make ts tape).bind fun vs tape => .ok (v :: vs) tape

/-- The length of a symbolic sequence or dictionary (builtinslib.py 2288-2297, 1766-1777), chosen by the solver. -/
def readSize (tape : Tape) (k : Nat → Tape → Res Val) : Res Val :=
  match tape with
  | .size n :: tape => k n tape
  | _ => .stuck

/-- A float from the solver (builtinslib.py 1534, `find_model_value`): finite if floats are represented by real numbers. -/
def solverFloat (ieee : Bool) : Tape → Res Fl
  | .float (.fin q) :: tape => .ok (.fin q) tape
  | .float f :: tape => if ieee then .ok f tape else .stuck
  | _ => .stuck

/-- `make_float` (builtinslib.py 4680-4700), without the environment variable. -/
def makeFloat (ieee : Bool) (tape : Tape) : Res Fl :=
  if ieee then solverFloat true tape
  else match tape with
    | .fork true :: tape => solverFloat false tape
    | .fork false :: .fork true :: tape => .ok .nan tape
    | .fork false :: .fork false :: .fork true :: tape => .ok (.inf true) tape
    | .fork false :: .fork false :: .fork false :: tape => .ok (.inf false) tape
    | _ => .stuck

/-- `Optional[int]` in a slice (builtinslib.py 5411-5418): a union of `int` and `None`. -/
def optionalInt : Tape → Res (Option Int)
  | .fork true :: .int i :: tape => .ok (some i) tape
  | .fork false :: tape => .ok none tape
  | _ => .stuck

/-- The keys of a typed dictionary that are present (core.py 510-518): `smt_fork` is only asked for optional keys. -/
def fields : List (Name × Bool) → List Ann → Tape → Res (List Name × List Ann)
  | (k, required) :: keys, t :: ts, tape =>
    if required then (fields keys ts tape).bind fun (ks, us) tape => .ok (k :: ks, t :: us) tape
    else match tape with
      | .fork true :: tape => (fields keys ts tape).bind fun (ks, us) tape => .ok (k :: ks, t :: us) tape
      | .fork false :: tape => fields keys ts tape
      | _ => .stuck
  | [], [], tape => .ok ([], []) tape
  | _, _, _ => .stuck

/-- The items of a symbolic sequence (builtinslib.py 2270-2289, 459-474): floats are taken from the solver directly, other values are
made like arguments (in the heap, builtinslib.py 466-469, or as variables of the solver, which is the same for the value). -/
def makeItem (ieee : Bool) (make : Ann → Tape → Res Val) (t : Ann) (tape : Tape) : Res Val :=
  match t with
  | .float => (solverFloat ieee tape).bind fun f tape => .ok (.float f) tape
  | t => make t tape

/-- `List[t]` and `Tuple[t, ...]`: a length and the items. -/
def makeMany (ieee : Bool) (make : Ann → Tape → Res Val) (t : Ann) (wrap : List Val → Tape → Res Val) (tape : Tape) : Res Val :=
  readSize tape fun n tape => (makeAll (makeItem ieee make) (List.replicate n t) tape).bind wrap

/-- Whether no two keys are equal (builtinslib.py 4672-4673). -/
def World.allDifferent (W : World) : List Val → Bool
  | [] => true
  | k :: ks => ks.all (fun k' => ! W.same k k') && W.allDifferent ks

/-- `proxy_for_class` (core.py 493-558) for a class that is no typed dictionary. The arguments are made by `gen_args`; that generic
classes replace type variables in the signature first is left out. -/
def makeClass (W : World) (make : Ann → Tape → Res Val) (c : Nat) (tape : Tape) : Res Val :=
  (makeAll make (W.params c) tape).bind fun args tape =>
    match W.build c args with
    | .instance => .ok (.obj c args) tape
    | .refused => .ignore
    | .raised => .unsupported

/-- `proxy_for_type` (core.py 714-752) with `normalize_pytype` (core.py 296-314) and the makers of builtinslib.py 4621-4722, 5377-5446
and collectionslib.py 253-255. `ieee` is the representation of floats, which `ModelingDirector` (builtinslib.py 424-458) chooses once for
a path. The first number bounds the depth of the recursion: classes may ask for instances of themselves without end. An `object` is
made of one of the known types (builtinslib.py 2886-2898). Premature realization (builtinslib.py 4631-4657) does not change the value.
A dictionary is made keys first and values after, while
the code makes pairs. Sets, byte arrays and the many classes of the standard library with makers of their own are left out. -/
def make (W : World) (ieee : Bool) : Nat → Ann → Bool → Tape → Res Val
  | 0, _, _, _ => .more
  | fuel + 1, t, subtypes, tape =>
    match t with
    | .none => .ok .none tape
    | .bool => match tape with
      | .bool b :: tape => .ok (.bool b) tape
      | _ => .stuck
    | .int => match tape with
      | .int i :: tape => .ok (.int i) tape
      | _ => .stuck
    | .float => (makeFloat ieee tape).bind fun f tape => .ok (.float f) tape
    | .complex => (makeFloat ieee tape).bind fun a tape => (makeFloat ieee tape).bind fun b tape => .ok (.complex a b) tape
    | .str => match tape with
      | .str s :: tape => .ok (.str s) tape
      | _ => .stuck
    | .bytes => match tape with
      | .bytes bs :: tape => if bs.all (fun b => decide (b ≤ 255)) then .ok (.bytes bs) tape else .ignore
      | _ => .stuck
    | .slice => (optionalInt tape).bind fun a tape => (optionalInt tape).bind fun b tape => (optionalInt tape).bind fun c tape =>
        .ok (.slice a b c) tape
    | .range => match tape with
      | .int c :: .int a :: .int b :: tape => if c ≠ 0 then .ok (.range a b c) tape else .ignore
      | _ => .stuck
    | .enum e => (pick (List.range (W.members e)) tape).bind fun i tape => .ok (.member e i) tape
    | .union ts => (pick ts tape).bind fun t tape => make W ieee fuel t true tape
    | .final t => make W ieee fuel t true tape
    | .newType t => make W ieee fuel t subtypes tape
    | .typeAlias t => make W ieee fuel t subtypes tape
    | .varBound t => make W ieee fuel t subtypes tape
    | .varFree => make W ieee fuel .any subtypes tape
    | .varConstrained => .unsupported
    | .any => (pick W.known tape).bind fun t tape => make W ieee fuel t true tape
    | .noReturn => .ignore
    | .tuple ts =>
      if W.py311 && ts.isEmpty then makeMany ieee (make W ieee fuel · true) .any (fun vs tape => .ok (.tuple vs) tape) tape
      else (makeAll (make W ieee fuel · true) ts tape).bind fun vs tape => .ok (.tuple vs) tape
    | .bareTuple => makeMany ieee (make W ieee fuel · true) .any (fun vs tape => .ok (.tuple vs) tape) tape
    | .tupleOf t => makeMany ieee (make W ieee fuel · true) t (fun vs tape => .ok (.tuple vs) tape) tape
    | .list t => makeMany ieee (make W ieee fuel · true) t (fun vs tape => .ok (.list vs) tape) tape
    | .sequence t => makeMany ieee (make W ieee fuel · true) t (fun vs tape => .ok (.tuple vs) tape) tape
    | .dict k v => readSize tape fun n tape =>
        (makeAll (makeItem ieee (make W ieee fuel · true)) (List.replicate n k) tape).bind fun ks tape =>
        (makeAll (makeItem ieee (make W ieee fuel · true)) (List.replicate n v) tape).bind fun vs tape =>
          if W.allDifferent ks then .ok (.dict ks vs) tape else .ignore
    | .record keys ts => (fields keys ts tape).bind fun (ks, us) tape =>
        (makeAll (make W ieee fuel · false) us tape).bind fun vs tape => .ok (.record ks vs) tape
    | .callable t => makeMany ieee (make W ieee fuel · true) t (fun vs tape => if vs.isEmpty then .ignore else .ok (.fn vs) tape) tape
    | .cls c =>
      if subtypes then (pick (W.below c) tape).bind fun d tape => makeClass W (make W ieee fuel · true) d tape
      else makeClass W (make W ieee fuel · true) c tape
    | .io arg => .ok (.stream (arg == .text)) tape
/-! ### Names of variables -/

mutual
/-- The variables that stand for one value: a variable, or parts. -/
inductive Shape where
  | leaf (s : Sort')
  | node (ps : Parts)
/-- Parts: a suffix of the name, whether a fresh number follows it (`SymbolicFactory.get_suffixed_varname`, core.py 604-605), and the
part itself; or a call to `smt_fork`, which takes a number (statespace.py 1240-1243) and whose own variable is left out. -/
inductive Parts where
  | nil
  | cons (suffix : Name) (fresh : Bool) (s : Shape) (rest : Parts)
  | fork (rest : Parts)
end

mutual
/-- The names of the variables after the name of the value, and the counter of `StateSpace.uniq` (statespace.py 1176-1178). -/
def tails : Shape → Nat → List Var × Nat
  | .leaf s, n => ([([], s)], n)
  | .node ps, n => partTails ps n
def partTails : Parts → Nat → List Var × Nat
  | .nil, n => ([], n)
  | .fork rest, n => partTails rest (n + 1)
  | .cons suffix fresh s rest, n =>
    let stem := if fresh then suffix ++ (Inputs.uniq n).2 else suffix
    let sub := tails s (if fresh then (Inputs.uniq n).1 else n)
    let others := partTails rest sub.2
    (sub.1.map (fun v => (stem ++ v.1, v.2)) ++ others.1, others.2)
end

/-- Python's `str(n)`. -/
def dec (n : Nat) : List Char :=
  if n < 10 then [Inputs.hexDigit n] else dec (n / 10) ++ [Inputs.hexDigit (n % 10)]
termination_by n
decreasing_by omega

/-- Plain and fresh parts, one after the other. -/
def parts : List (Name × Bool × Shape) → Parts
  | [] => .nil
  | (suffix, fresh, s) :: ps => .cons suffix fresh s (parts ps)

/-- `SymbolicBoundedIntTuple` (builtinslib.py 3048-3056, 3101-3112): the length and the numbers asked for so far. -/
def intTuple (n : Nat) : Shape :=
  .node (parts (("len".toList, false, .leaf .int) :: (List.range n).map fun i => ('@' :: dec i, false, .leaf .int)))

/-- A map (or array) and a length (builtinslib.py 1836-1839, 2059-2065, 2295-2298). -/
def mapAndLen : Shape := .node (parts [("_map".toList, true, .leaf .array), ("_len".toList, true, .leaf .int)])

/-- `make_union_choice` (builtinslib.py 4621-4628): forks, then the chosen type under a fresh name. -/
def unionShape : Nat → Shape → Shape
  | 0, s => .node (parts [([], true, s)])
  | n + 1, s => .node (.fork (match unionShape n s with | .node ps => ps | .leaf _ => .nil))

/-- `Optional[int]`: `None` after a fork, or a number. -/
def optionalShape (present : Bool) (s : Shape) : Shape := unionShape 1 (if present then s else .node .nil)

mutual
/-- The variables made by `make_concrete_or_symbolic` for atomic values (builtinslib.py 335-340) and by the makers: builtinslib.py
4398-4399, 4621-4628, 4660-4677, 4703-4728, 5404-5418; core.py 510-518; datetimelib.py 2649-2666, 2689-2719, with `None` for the time
zone (a union of two branches); fractionlib.py 8-12; iolib.py 204-210; decimallib.py 5201-5208. Items in the heap get names of their
own and are left out. -/
def shape : Thing → Shape
  | .none => .node .nil
  | .bool => .leaf .bool
  | .int => .leaf .int
  | .float => .leaf .real
  | .complex => .node (parts [("_real".toList, true, .leaf .real), ("_imag".toList, true, .leaf .real)])
  | .fraction => .node (parts [("_numerator".toList, true, .leaf .int), ("_denominator".toList, true, .leaf .int)])
  | .range => .node (parts [("_step".toList, false, .leaf .int), ("_start".toList, true, .leaf .int), ("_stop".toList, true, .leaf .int)])
  | .slice a b c => .node (parts [("_start".toList, true, optionalShape a (.leaf .int)), ("_stop".toList, true, optionalShape b (.leaf .int)),
      ("_step".toList, true, optionalShape c (.leaf .int))])
  | .str n => intTuple n
  | .bytes n => intTuple n
  | .stringIO n nl => .node (parts [([], true, intTuple n), ([], true, optionalShape nl.isSome (intTuple (nl.getD 0)))])
  | .decimal n => .node (parts [("sign".toList, true, .leaf .bool), ("digits".toList, true, intTuple n), ("exp".toList, true, .leaf .int)])
  | .timedelta => .node (parts [("_usec".toList, false, .leaf .int), ("_sec".toList, false, .leaf .int), ("_days".toList, false, .leaf .int)])
  | .date => .node (parts [("_ord".toList, false, .leaf .int)])
  | .time => .node (parts [("_hour".toList, false, .leaf .int), ("_min".toList, false, .leaf .int), ("_sec".toList, false, .leaf .int),
      ("_usec".toList, false, .leaf .int), ("_fold".toList, false, .leaf .int), ("_tzinfo".toList, true, optionalShape false (.leaf .int))])
  | .datetime => .node (parts [("_ord".toList, false, .leaf .int), ("_hour".toList, false, .leaf .int), ("_min".toList, false, .leaf .int),
      ("_sec".toList, false, .leaf .int), ("_usec".toList, false, .leaf .int), ("_fold".toList, false, .leaf .int),
      ("_tzinfo".toList, true, optionalShape false (.leaf .int))])
  | .list => mapAndLen
  | .dict => mapAndLen
  | .set => .node (parts [([], true, mapAndLen)])
  | .heapDict => .node (parts [("items".toList, false, mapAndLen)])
  | .union forks t => unionShape forks (shape t)
  | .tuple ts => .node (tupleParts 0 ts)
  | .record keys ts => .node (recordParts keys ts)
/-- `make_tuple` (builtinslib.py 4713-4716). -/
def tupleParts : Nat → List Thing → Parts
  | _, [] => .nil
  | i, t :: ts => .cons ("_at_".toList ++ dec i) false (shape t) (tupleParts (i + 1) ts)
/-- The entries of a typed dictionary (core.py 518). -/
def recordParts : List Name → List Thing → Parts
  | k :: ks, t :: ts => .cons ('.' :: k) false (shape t) (recordParts ks ts)
  | _, _ => .nil
end

/-- The variables for arguments, made one after the other by `gen_args` (core.py 763-764). -/
def inputVars : List (Name × Thing) → Nat → List Var × Nat
  | [], n => ([], n)
  | (p, t) :: ps, n =>
    let sub := tails (shape t) (Inputs.uniq n).1
    let others := inputVars ps sub.2
    (sub.1.map (fun v => (p ++ (Inputs.uniq n).2 ++ v.1, v.2)) ++ others.1, others.2)

end Verif.Proxies
