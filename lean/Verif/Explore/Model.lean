import Verif.Search.Model
import Verif.Pick.Model
/-
Model of the exploration loops that are not contract checking: `explore_paths` (/repo/crosshair/core.py), used by the commands
`cover` and `search`, and `diff_behavior_with_signature` (/repo/crosshair/diff_behavior.py), used by `diffbehavior`; and of what
these commands conclude from them (/repo/crosshair/main.py).

One iteration is that of the path search (`Search.iter`, `Search.bubble`).  What a path hands to the caller (the summary of a path, the
example, or the difference found) is carried as the message of its analysis; the source keeps it in a variable beside.
-/
namespace Verif.Explore
open Verif.Search

variable {W : World}

/-- What the environment contributes to one round of a loop. -/
structure Tick (W : World) where
  /-- `itr_start > condition_start + per_condition_timeout` (core.py 1428, diff_behavior.py 193) -/
  late : Bool := false
  /-- the random draws and solver answers of the round -/
  script : List (Env W)
  /-- what `on_path_complete` answers for a path that ended (core.py 1463) -/
  breaks : Analysis → Bool := fun _ => false
  /-- `iters_since_discovery` after the round (core.py 1482, diff_behavior.py 226) -/
  stale : Nat := 0

/-- Why a loop ends. -/
inductive Stop where
  | timeLimit
  | iterations
  | breakout
  | exhausted
  | uninteresting
  deriving DecidableEq, Repr

/-- What is left of a loop: its rounds, the tree, and why it ended. -/
structure Explored (W : World) where
  outs : List (Out W.E W.V)
  tree : Tree W.E W.V
  stop : Stop

/-- Exceptions that end a loop: those of the search, and `NotDeterministic` (core.py 1458-1459; it is not caught in
diff_behavior.py either). -/
inductive Fail where
  | search (e : Err)
  | notDeterministic
  deriving DecidableEq, Repr

/-- `iters_since_discovery > max_uninteresting_iterations`; `none` is the default `sys.maxsize` (core.py 1481-1491,
diff_behavior.py 225-237). -/
def tooStale (maxStale : Option Nat) (stale : Nat) : Bool :=
  match maxStale with
  | none => false
  | some m => decide (stale > m)

/-- The rounds of a loop (core.py 1425-1491).  `left` is the number of rounds that `range` still allows, `i` the number of the next
one.  A callback is only asked about a path that ended normally (core.py 1462-1466). -/
def rounds (P : Prog W) (s0 : P.S) (maxStale : Option Nat) (ticks : Nat → Tick W) :
    (left i : Nat) → Tree W.E W.V → Except Fail (Explored W)
  | 0, _, t => .ok ⟨[], t, .iterations⟩
  | left + 1, i, t =>
    if (ticks i).late then .ok ⟨[], t, .timeLimit⟩
    else
      match iter P (ticks i).script t s0 [] [] false with
      | .error e => .error (.search e)
      | .ok o =>
        if o.leaf = .notDet then .error .notDeterministic
        else if o.returned && (ticks i).breaks o.leaf then .ok ⟨[o], (bubble t o).1, .breakout⟩
        else if (bubble t o).2.2 then .ok ⟨[o], (bubble t o).1, .exhausted⟩
        else if tooStale maxStale (ticks i).stale then .ok ⟨[o], (bubble t o).1, .uninteresting⟩
        else (rounds P s0 maxStale ticks left (i + 1) (bubble t o).1).map fun r => { r with outs := o :: r.outs }

/-- `explore_paths` (core.py 1412-1491): `range(1, max_iterations + 1)`. -/
def explorePaths (P : Prog W) (s0 : P.S) (maxStale : Option Nat) (maxIterations : Nat) (ticks : Nat → Tick W) :
    Except Fail (Explored W) :=
  rounds P s0 maxStale ticks maxIterations 1 .stem

/-- `diff_behavior_with_signature` (diff_behavior.py 180-238): `range(1, max_iterations)`, and no callback. -/
def diffHalf (P : Prog W) (s0 : P.S) (maxStale : Option Nat) (maxIterations : Nat) (ticks : Nat → Tick W) :
    Except Fail (Explored W) :=
  rounds P s0 maxStale (fun i => { ticks i with breaks := fun _ => false }) (maxIterations - 1) 1 .stem

/-- What the rounds handed over, in order: the paths of `cover` (path_cover.py 100-126), the differences yielded
(diff_behavior.py 219-220), the examples (path_search.py 97-99). -/
def Explored.yields (r : Explored W) : List String := r.outs.flatMap fun o => o.leaf.messages

/-! ### Comparing two functions -/

/-- The next thing a part of an iteration does.
* `ret r`: it returns;
* `fail`: it raises something that `ExceptionFilter` (core.py 239-277) keeps from the loop;
* `giveUp`: it raises `UnexploredPath`. -/
inductive PAct (E X V S R : Type) where
  | ret (r : R)
  | fail
  | giveUp
  | ask (e : E) (k : Bool → S)
  | realize (x : X) (k : V → S)
  | fork (k : Bool → S)
  | assume (e : E) (k : S)
  | cap (k : S)

/-- A part of an iteration: a deterministic process with an argument and a result. -/
structure Fun (W : World) (A R : Type) where
  S : Type
  start : A → S
  act : S → PAct W.E W.X W.V S R

/-- The parts of `run_iteration` (diff_behavior.py 259-317).  `R` are symbolic outcomes: a value or an exception, and the arguments
after the call; `none` stands for the `IgnoreAttempt()` of line 86-87. -/
structure Pair (W : World) where
  A : Type
  R : Type
  /-- `gen_args` (266-267) -/
  gen : Fun W Unit A
  /-- `describe_behavior(fn1, args1)` (274) -/
  fn1 : Fun W A R
  /-- `describe_behavior(fn2, args2)` (275) -/
  fn2 : Fun W A R
  /-- the comparison (276-280) -/
  same : Fun W (Option R × Option R) Bool
  /-- the description of a difference (288-312) -/
  tell : Fun W (A × Option R × Option R) String

/-- Where an iteration is. -/
inductive Phase (M : Pair W) where
  | gen (s : M.gen.S)
  | one (a : M.A) (s : M.fn1.S)
  | two (a : M.A) (r1 : Option M.R) (s : M.fn2.S)
  | cmp (a : M.A) (r1 r2 : Option M.R) (s : M.same.S)
  | same
  | tell (s : M.tell.S)

/-- A step of a part, as a step of the iteration. -/
def lift {E X V S T R : Type} (inj : S → T) (onRet : R → Action E X V T) (onFail : Action E X V T) :
    PAct E X V S R → Action E X V T
  | .ret r => onRet r
  | .fail => onFail
  | .giveUp => .done false .unknown
  | .ask e k => .ask e fun b => inj (k b)
  | .realize x k => .realize x fun v => inj (k v)
  | .fork k => .fork fun b => inj (k b)
  | .assume e s => .assume e (inj s)
  | .cap s => .cap (inj s)

/-- What is told about a difference (diff_behavior.py 288-317): an exception of the user's, for instance in `__repr__`, ends the
iteration with `(None, None)`. -/
def actTell (M : Pair W) (s : M.tell.S) : Action W.E W.X W.V (Phase M) :=
  lift Phase.tell (fun text => .done true { status := some .refuted, messages := [text] }) (.done true {}) (M.tell.act s)

/-- The comparison (diff_behavior.py 276-287); an exception ends the iteration with `(None, None)` (313-317). -/
def actCmp (M : Pair W) (a : M.A) (r1 r2 : Option M.R) (s : M.same.S) : Action W.E W.X W.V (Phase M) :=
  lift (Phase.cmp a r1 r2)
    (fun b => if b then .detach .same else .detach (.tell (M.tell.start (a, r1, r2)))) (.done true {}) (M.same.act s)

/-- The call of the second function (diff_behavior.py 275). -/
def actTwo (M : Pair W) (a : M.A) (r1 : Option M.R) (s : M.fn2.S) : Action W.E W.X W.V (Phase M) :=
  lift (Phase.two a r1) (fun r => actCmp M a r1 (some r) (M.same.start (r1, some r))) (actCmp M a r1 none (M.same.start (r1, none)))
    (M.fn2.act s)

/-- The call of the first function (diff_behavior.py 274). -/
def actOne (M : Pair W) (a : M.A) (s : M.fn1.S) : Action W.E W.X W.V (Phase M) :=
  lift (Phase.one a) (fun r => actTwo M a (some r) (M.fn2.start a)) (actTwo M a none (M.fn2.start a)) (M.fn1.act s)

/-- The creation of the arguments (diff_behavior.py 266-269), outside of any filter: an `IgnoreAttempt` reaches the loop (212-213).
Other exceptions there are not modelled. -/
def actGen (M : Pair W) (s : M.gen.S) : Action W.E W.X W.V (Phase M) :=
  lift Phase.gen (fun a => actOne M a (M.fn1.start a)) (.done false {}) (M.gen.act s)

/-- `run_iteration` (diff_behavior.py 259-317). -/
def runIteration (M : Pair W) : Prog W where
  S := Phase M
  act
    | .gen s => actGen M s
    | .one a s => actOne M a s
    | .two a r1 s => actTwo M a r1 s
    | .cmp a r1 r2 s => actCmp M a r1 r2 s
    | .same => .done true { status := some .confirmed }
    | .tell s => actTell M s

/-- The beginning of an iteration. -/
def begin (M : Pair W) : (runIteration M).S := Phase.gen (M.gen.start ())

/-! ### What the commands print -/

/-- What `crosshair diffbehavior` prints (main.py 675-714). -/
inductive DiffReport where
  | notLoaded
  /-- "No differences found. (attempted … iterations)", then either "All paths exhausted, functions are likely the same!" or the
  advice to increase a limit -/
  | noDifference (attempted : Nat) (allExhausted : Bool)
  | differences (diffs : List Pick.Diff)

/-- The exit code (main.py 682, 696, 714). -/
def DiffReport.code : DiffReport → Nat
  | .notLoaded => 2
  | .noDifference _ _ => 0
  | .differences _ => 1

/-- `diffbehavior` after both functions were loaded (main.py 684-714, diff_behavior.py 130-177): `diff` reads the difference that a
message stands for.  The counters of both halves are one (options.py 203-214 copies the reference, 217-219): `num_paths` counts the rounds, and
`exhaustion` the halves that were exhausted. -/
def diffbehavior (ops1 ops2 : List Nat) (diff : String → Pick.Diff) (half1 half2 : Explored W) : DiffReport :=
  let diffs := Pick.diffReport ops1 ops2 (half1.yields.map diff) (half2.yields.map diff)
  if diffs.isEmpty then
    .noDifference (half1.outs.length + half2.outs.length)
      (decide ((if half1.stop = .exhausted then 1 else 0) + (if half2.stop = .exhausted then 1 else 0) > 0))
  else .differences diffs

/-- What `crosshair search` prints (main.py 809-828): the examples on the standard output, or "No input found.". -/
inductive SearchReport where
  | notFound
  | found (printed : List String)
  deriving DecidableEq, Repr

/-- The exit code of `search` (main.py 822, 826). -/
def SearchReport.code : SearchReport → Nat
  | .notFound => 1
  | .found _ => 0

/-- `search` after `path_search` (main.py 809-828): `on_example` keeps the last example. -/
def search (outputAll : Bool) (r : Explored W) : SearchReport :=
  match r.yields.getLast? with
  | none => .notFound
  | some final => .found (if outputAll then r.yields else [final])

/-- How the block of `ExceptionFilter` around the call is left (core.py 238-277, 1453-1461): by a result, with an exception that is
recorded, or because `IgnoreAttempt` or `PostconditionFailed` was raised in it. -/
inductive Left where
  | returned
  | raised
  | ignored
  deriving DecidableEq, Repr

/-- The parts of an iteration of `crosshair search` (core.py 1448-1466, path_search.py 83-99). -/
structure Trial (W : World) where
  A : Type
  /-- `gen_args` (core.py 1449) -/
  gen : Fun W Unit A
  /-- the call (core.py 1454-1455) -/
  call : Fun W A Left
  /-- the example that is printed for the arguments (path_search.py 97) -/
  format : Fun W A String

/-- Where an iteration of `search` is. -/
inductive TPhase (T : Trial W) where
  | gen (s : T.gen.S)
  | call (a : T.A) (s : T.call.S)
  | format (s : T.format.S)

/-- Giving the example (path_search.py 96-100); what happens when the text cannot be made is not modelled: the source ends the command
with an internal error (path_search.py 56-62). -/
def actFormat (T : Trial W) (s : T.format.S) : Action W.E W.X W.V (TPhase T) :=
  lift TPhase.format (fun text => .done true { status := some .confirmed, messages := [text] }) (.done true {}) (T.format.act s)

/-- The call and what follows (core.py 1453-1466, path_search.py 84-100): `on_path_complete` is told of the exception that was
recorded; there is none when the path was ignored. -/
def actCall (T : Trial W) (a : T.A) (s : T.call.S) : Action W.E W.X W.V (TPhase T) :=
  lift (TPhase.call a)
    (fun l => if l = .raised then .done true { status := some .confirmed } else actFormat T (T.format.start a)) (.done false {})
    (T.call.act s)

/-- The arguments (core.py 1448-1451, 1467-1468). -/
def actArgs (T : Trial W) (s : T.gen.S) : Action W.E W.X W.V (TPhase T) :=
  lift TPhase.gen (fun a => actCall T a (T.call.start a)) (.done false {}) (T.gen.act s)

/-- An iteration of `search`, without optimisation. -/
def trial (T : Trial W) : Prog W where
  S := TPhase T
  act
    | .gen s => actArgs T s
    | .call a s => actCall T a s
    | .format s => actFormat T s

/-- `path_search` without optimisation (path_search.py 83-100): the first path without an exception gives the example and ends the
search. -/
def searchFirst (T : Trial W) (maxStale : Option Nat) (maxIterations : Nat) (ticks : Nat → Tick W) :
    Except Fail (Explored W) :=
  explorePaths (trial T) (TPhase.gen (T.gen.start ())) maxStale maxIterations
    fun i => { ticks i with breaks := fun a => !a.messages.isEmpty }

end Verif.Explore
