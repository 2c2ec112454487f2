/-! Skipping calls: `ShortCircuitingContext`, `consider_shortcircuit`, `shortcircuit`, `find_best_sig`, `FunctionInterps` and `patch_to_return` of
crosshair/core.py, and the deferred assumptions of crosshair/statespace.py. -/
namespace Verif.Skip

/-! ## When a call is skipped -/

/-- What a wrapped call finds. `mutableArgs` is the number of arguments that are declared as mutable, if that is declared. -/
structure Situation where
  engaged : Bool
  inSpace : Bool
  specsComplete : Bool
  skipBody : Bool
  overloaded : Bool
  sigFound : Bool
  mutableArgs : Option Nat
  genericReturn : Bool
  allSymbolic : Bool
  unifies : Bool
  forkSkips : Bool
deriving DecidableEq

/-- What is done: the function is called, it is skipped and what is assumed is checked later, it is skipped without a check (and the value is shown with
a counterexample), or the path ends as unsupported. -/
inductive Action where
  | call
  | skipChecked
  | skipTrusted
  | unsupported
deriving DecidableEq

/-- core.py:1738-1801 `consider_shortcircuit`: `none` is `CrosshairUnsupported`, otherwise whether there is a return type. For type variables the arguments
are looked at one by one; here it matters whether all of them are symbolic, and whether all of them can be unified. -/
def consider (s : Situation) (allowInterpretation : Bool) : Option Bool :=
  if allowInterpretation && (s.mutableArgs.isNone || s.mutableArgs != some 0) then some false
  else if s.genericReturn && allowInterpretation && !s.allSymbolic then some false
  else if s.genericReturn && !s.unifies then if allowInterpretation then some false else none
  else if !allowInterpretation then some true
  else some s.forkSkips

/-- core.py:1136-1195 `_crosshair_wrapper`. -/
def intercept (s : Situation) : Action :=
  if !s.engaged || !s.inSpace then .call
  else
    let shortCircuit := (s.specsComplete || s.skipBody) && (!s.overloaded || s.sigFound)
    match consider s (!shortCircuit) with
    | none => .unsupported
    | some hasType => if shortCircuit then .skipTrusted else if hasType then .skipChecked else .call

/-! ## Overloaded functions -/

/-- The result of `find_best_sig`: a signature's place in the list, `None`, or the `TypeError` of `bind`. -/
inductive Found where
  | sig (i : Nat)
  | none
  | typeError
deriving DecidableEq

/-- core.py:1718-1736 `find_best_sig`, for positional parameters without defaults: a signature is the list of its annotations, an argument is its type,
and `fits` says whether a type can be unified with an annotation. -/
def findBestFrom (fits : Nat → Nat → Bool) (args : List Nat) : Nat → List (List Nat) → Found
  | _, [] => .none
  | i, sig :: sigs =>
    if sig.length ≠ args.length then .typeError
    else if (args.zip sig).all fun (a, p) => fits a p then .sig i
    else findBestFrom fits args (i + 1) sigs

/-- core.py:1161 `find_best_sig(sigs, *a, *kw)`: the names of keyword arguments (of type `str`) are given as positional arguments. `kwTypes` are the types of
the keyword arguments, here in the order of the parameters. -/
def findBest (fits : Nat → Nat → Bool) (str : Nat) (posTypes kwTypes : List Nat) (sigs : List (List Nat)) : Found :=
  findBestFrom fits (posTypes ++ kwTypes.map fun _ => str) 0 sigs

/-! ## Executions -/

/-- What a call results in: a value, or an exception. -/
inductive Ret (α : Type) where
  | val (v : α)
  | exc (e : Nat)
deriving DecidableEq

/-- Code that calls functions and changes its variables: `σ` is the state of the variables, `α` are the values of calls, `ο` are outcomes. -/
inductive Prog (σ α ο : Type) where
  | done (out : σ → ο)
  | write (g : σ → σ) (k : Prog σ α ο)
  | call (f : Nat) (k : Ret α → Prog σ α ο)

/-- How a call goes. -/
inductive Decision (α : Type) where
  | into
  | skip (v : α)

/-- core.py:1804-1832 what `shortcircuit` remembers: the function, a copy of the arguments (here of all variables) and the value. -/
structure Assumption (σ α : Type) where
  fn : Nat
  args : σ
  ret : α

/-- An execution in which some calls are skipped: the outcome, and the assumptions in their order. `sem` is what functions do, which do not change
variables (core.py:1763-1768 makes sure that none are declared as mutable). When there are no more decisions, calls are made. -/
def run {σ α ο : Type} (sem : Nat → σ → Ret α) : Prog σ α ο → σ → List (Decision α) → ο × List (Assumption σ α)
  | .done out, s, _ => (out s, [])
  | .write g k, s, ds => run sem k (g s) ds
  | .call f k, s, ds =>
    match ds with
    | [] => run sem (k (sem f s)) s []
    | .into :: ds => run sem (k (sem f s)) s ds
    | .skip v :: ds =>
      let (o, as) := run sem (k (.val v)) s ds
      (o, { fn := f, args := s, ret := v } :: as)

/-- What becomes of a path. -/
inductive Verdict (ο : Type) where
  | confirmed
  | refuted (o : ο)
  | ignored
  | crash (e : Nat)
deriving DecidableEq

/-- statespace.py:1284-1291: all assumptions are checked, core.py:1827-1828 with `==`. An exception of the function is not caught. -/
def reconcile {σ α ο : Type} (sem : Nat → σ → Ret α) (eq : α → α → Bool) (o : ο) : List (Assumption σ α) → Verdict ο
  | [] => .refuted o
  | a :: as =>
    match sem a.fn a.args with
    | .exc e => .crash e
    | .val w => if eq a.ret w then reconcile sem eq o as else .ignored

/-- core.py:1550-1677 in short: a path that meets the postcondition is confirmed at once; otherwise what was assumed is checked first. -/
def attempt {σ α ο : Type} (sem : Nat → σ → Ret α) (eq : α → α → Bool) (post : ο → Bool) (p : Prog σ α ο) (s : σ) (ds : List (Decision α)) :
    Verdict ο :=
  let (o, as) := run sem p s ds
  if post o then .confirmed else reconcile sem eq o as

/-! ## Functions that are always skipped -/

/-- core.py:1086-1092 `FunctionInterps.append_return`. -/
def appendReturn {α : Type} (interps : List (Nat × List α)) (f : Nat) (v : α) : List (Nat × List α) :=
  match interps with
  | [] => [(f, [v])]
  | (g, vs) :: rest => if g = f then (g, vs ++ [v]) :: rest else (g, vs) :: appendReturn rest f v

/-- An execution in which the functions in `trusted` are skipped (core.py:1178-1183): `vals` are the values that are made up, one after the other. -/
def runTrusted {σ α ο : Type} (sem : Nat → σ → Ret α) (trusted : Nat → Bool) (dflt : α) :
    Prog σ α ο → σ → List α → List (Nat × List α) → ο × List (Nat × List α)
  | .done out, s, _, interps => (out s, interps)
  | .write g k, s, vals, interps => runTrusted sem trusted dflt k (g s) vals interps
  | .call f k, s, vals, interps =>
    if trusted f then runTrusted sem trusted dflt (k (.val (vals.headD dflt))) s vals.tail (appendReturn interps f (vals.headD dflt))
    else runTrusted sem trusted dflt (k (sem f s)) s vals interps

/-- core.py:1057-1066 `fn_returning`: the next value. -/
def takeReturn {α : Type} : List (Nat × List α) → Nat → Option (Option α × List (Nat × List α))
  | [], _ => none
  | (g, vs) :: rest, f =>
    if g = f then some (vs.head?, (g, vs.tail) :: rest)
    else (takeReturn rest f).map fun (o, rest) => (o, (g, vs) :: rest)

/-- core.py:1069-1083 `patch_to_return`: an execution in which the functions that have values return them; `none` is `NotDeterministic`, when there are no
more. -/
def replay {σ α ο : Type} (sem : Nat → σ → Ret α) : Prog σ α ο → σ → List (Nat × List α) → Option ο
  | .done out, s, _ => some (out s)
  | .write g k, s, patches => replay sem k (g s) patches
  | .call f k, s, patches =>
    match takeReturn patches f with
    | none => replay sem (k (sem f s)) s patches
    | some (none, _) => none
    | some (some v, patches) => replay sem (k (.val v)) s patches

end Verif.Skip
