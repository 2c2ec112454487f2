import Verif.Oracles.Spec
/-
Model of the heuristics for choosing branches (/repo/crosshair/pathing_oracle.py).  (The bias of `CoveragePathingOracle` toward a
location, and what its `decide` makes of it, are in Verif.Pick.)
-/
namespace Verif.Oracles

/-! ### Counting -/

/-- A `collections.Counter`: keys in the order of insertion. -/
abbrev Counter (K : Type) := List (K × Nat)

/-- Reading a counter. -/
def Counter.get {K : Type} [DecidableEq K] (c : Counter K) (k : K) : Nat := (c.lookup k).getD 0

/-- Counting one more. -/
def Counter.bump {K : Type} [DecidableEq K] : Counter K → K → Counter K
  | [], k => [(k, 1)]
  | (k', n) :: rest, k => if k' = k then (k', n + 1) :: rest else (k', n) :: Counter.bump rest k

/-- `counter += Counter(keys)`. -/
def Counter.addAll {K : Type} [DecidableEq K] (c : Counter K) (ks : List K) : Counter K := ks.foldl Counter.bump c

/-! ### Coverage -/

/-- `internalized_expressions` (pathing_oracle.py 52-55). -/
structure Interned (E : Type) where
  exprId : List (E × Nat) := []
  idId : List (Nat × Nat) := []
deriving Repr

/-- `CoveragePathingOracle.internalize` (pathing_oracle.py 99-111): the number of an expression.  Numbers are addresses and so not zero. -/
def internalize {E : Type} [DecidableEq E] (s : Interned E) (o : Obj E) : Nat × Interned E :=
  match s.idId.lookup o.addr with
  | some u => (u, s)
  | none =>
    match s.exprId.lookup o.expr with
    | some u => (u, { s with idId := (o.addr, u) :: s.idId })
    | none => (o.addr, ⟨(o.expr, o.addr) :: s.exprId, (o.addr, o.addr) :: s.idId⟩)

/-- The state of the coverage heuristic (pathing_oracle.py 47-55). -/
structure Coverage (L E : Type) where
  visits : Counter L := []
  itersSinceDiscovery : Nat := 0
  summarized : List (L × Counter Int) := []
  interned : Interned E := {}

/-- `self.summarized_positions[key] += Counter(conditions)` (pathing_oracle.py 122), on a `defaultdict(Counter)`. -/
def summarize {L : Type} [DecidableEq L] : List (L × Counter Int) → L → List Int → List (L × Counter Int)
  | [], l, ks => [(l, Counter.addAll [] ks)]
  | (l', c) :: rest, l, ks => if l' = l then (l', c.addAll ks) :: rest else (l', c) :: summarize rest l ks

/-- The loop of `CoveragePathingOracle.post_path_hook` (pathing_oracle.py 113-141): the places seen and the new state.  `none` for
`CrossHairInternal`. -/
def walk {L E : Type} [DecidableEq L] [DecidableEq E] :
    List (PathNode L E) → List L → List Int → Coverage L E → Option (List L × Coverage L E)
  | [], locs, _, s => some (locs, s)
  | [_], locs, _, s => some (locs, s)
  | .decision loc modelValue isPositive root took :: next :: rest, locs, conds, s =>
    let s := if ¬ loc ∈ locs ∧ modelValue = false then { s with summarized := summarize s.summarized loc conds } else s
    let locs := locs ++ [loc]
    if next.isDetached then some (locs, s)
    else
      let (u, interned) := internalize s.interned root
      let s := { s with interned := interned }
      let signature : Int := if isPositive then u else -u
      match took with
      | some true => walk (next :: rest) locs (conds ++ [signature]) s
      | some false => walk (next :: rest) locs (conds ++ [-signature]) s
      | none => none
  | _ :: next :: rest, locs, conds, s => walk (next :: rest) locs conds s

/-- `CoveragePathingOracle.post_path_hook` (pathing_oracle.py 113-148). -/
def postPath {L E : Type} [DecidableEq L] [DecidableEq E] (s : Coverage L E) (path : List (PathNode L E)) : Option (Coverage L E) :=
  match walk path [] [] s with
  | none => none
  | some (locs, s) =>
    let visits := s.visits.addAll locs
    some { s with
      visits := visits
      itersSinceDiscovery := if s.visits.length < visits.length then 0 else s.itersSinceDiscovery + 1 }

/-- One event.  `decide` numbers the expression (pathing_oracle.py 160). -/
def step {L E : Type} [DecidableEq L] [DecidableEq E] (s : Coverage L E) : Event L E → Option (Coverage L E)
  | .asked o => some { s with interned := (internalize s.interned o).2 }
  | .path nodes => postPath s nodes

/-- All events, from the initial state (pathing_oracle.py 47-55). -/
def run {L E : Type} [DecidableEq L] [DecidableEq E] : Coverage L E → List (Event L E) → Option (Coverage L E)
  | s, [] => some s
  | s, e :: rest => (step s e).bind fun s => run s rest

/-! ### The other heuristics -/

/-- `BreadthFirstPathingOracle.decide` (pathing_oracle.py 176-197); `pos` and `neg` are the counts of the location.  Probabilities are
rational numbers instead of floats. -/
def breadthFirst (pos neg : Nat) (engine : Option Rat) : Rat :=
  if ¬ (pos ≠ 0 ↔ neg ≠ 0) ∧ engine ≠ some 0 ∧ engine ≠ some 1 then (if neg ≠ 0 then 1 else 0)
  else
    let p := engine.getD (1 / 4)
    if p ≠ 0 ∧ p ≠ 1 then
      if neg * 2 + 1 < pos then p / 2
      else if pos * 2 + 1 < neg then (1 + p) / 2
      else p
    else p

/-- `PreferNegativeOracle.decide` (pathing_oracle.py 200-216). -/
def preferNegative (engine : Option Rat) : Rat := engine.getD (1 / 4)

/-- `ConstrainedOracle.decide` (pathing_oracle.py 240-251): `possible` tells whether the expressions are possible together on the
path (`space.is_possible`), `inner` is the decision of the inner heuristic. -/
def constrained {M : Type} (possible : List (M → Bool) → Bool) (prefer : List (M → Bool)) (expr : M → Bool) (inner : Rat) : Rat :=
  if prefer.isEmpty then inner
  else if possible (expr :: prefer) = false then 0
  else if possible ((fun m => !expr m) :: prefer) = false then 1
  else inner

/-- `WorstResultNode.__init__` and `choose` (/repo/crosshair/statespace.py 526-542, 619-661) with the decision `p`: certain branches
are taken, otherwise branches already exhausted are avoided, otherwise `rand` decides. -/
def choose {M : Type} (possible : List (M → Bool) → Bool) (expr : M → Bool) (positiveOk negativeOk : Bool) (p rand : Rat) : Bool :=
  if possible [fun m => !expr m] then
    if possible [expr] = false then false
    else if positiveOk && negativeOk then decide (rand < p)
    else positiveOk
  else true

/-- A decision on a path: the expression, the inner heuristic's answer, and the random number. -/
structure Choice (M : Type) where
  expr : M → Bool
  inner : Rat
  rand : Rat

/-- A path under `ConstrainedOracle` at nodes whose branches are both open: what is known after the decisions.  `sat` is the solver. -/
def constrainedPath {M : Type} (sat : List (M → Bool) → Bool) (prefer : List (M → Bool)) :
    List (M → Bool) → List (Choice M) → List (M → Bool)
  | known, [] => known
  | known, c :: rest =>
    let possible := fun es => sat (es ++ known)
    let p := constrained possible prefer c.expr c.inner
    let fact : M → Bool := if choose possible c.expr true true p c.rand then c.expr else fun m => !c.expr m
    constrainedPath sat prefer (fact :: known) rest

/-- `RotatingOracle` (pathing_oracle.py 254-257). -/
structure Rotating (O : Type) where
  oracles : List O
  index : Int := -1

/-- `RotatingOracle.pre_path_hook` (pathing_oracle.py 259-263); `none` for a `ZeroDivisionError`. -/
def Rotating.pre {O P N : Type} (ops : Oracle O P N) (r : Rotating O) : Option (Rotating O) :=
  if r.oracles.length = 0 then none
  else some { index := Int.fmod (r.index + 1) r.oracles.length, oracles := r.oracles.map ops.pre }

/-- `RotatingOracle.post_path_hook` (pathing_oracle.py 265-267). -/
def Rotating.post {O P N : Type} (ops : Oracle O P N) (r : Rotating O) (path : P) : Rotating O :=
  { r with oracles := r.oracles.map fun o => ops.post o path }

/-- Python's position of an index into a list of `n` elements. -/
def position (n : Nat) (i : Int) : Nat := if 0 ≤ i then i.toNat else (i + n).toNat

/-- `RotatingOracle.decide` (pathing_oracle.py 269-272); `none` for an `IndexError`. -/
def Rotating.decide {O P N : Type} (ops : Oracle O P N) (r : Rotating O) (node : N) (engine : Option Rat) : Option (Rotating O × Rat) :=
  match r.oracles[position r.oracles.length r.index]? with
  | none => none
  | some o =>
    let (o, p) := ops.decide o node engine
    some ({ r with oracles := r.oracles.set (position r.oracles.length r.index) o }, p)

/-- The questions of a path in turn. -/
def Rotating.decideAll {O P N : Type} (ops : Oracle O P N) : Rotating O → List (N × Option Rat) → Option (Rotating O × List Rat)
  | r, [] => some (r, [])
  | r, (n, e) :: rest =>
    match r.decide ops n e with
    | none => none
    | some (r, p) =>
      match Rotating.decideAll ops r rest with
      | none => none
      | some (r, ps) => some (r, p :: ps)

/-- Whole paths: the hook before, the questions, the hook after.  The answers of each path. -/
def Rotating.paths {O P N : Type} (ops : Oracle O P N) : Rotating O → List (List (N × Option Rat) × P) →
    Option (Rotating O × List (List Rat))
  | r, [] => some (r, [])
  | r, (questions, path) :: rest =>
    match r.pre ops with
    | none => none
    | some r =>
      match r.decideAll ops questions with
      | none => none
      | some (r, ps) =>
        match Rotating.paths ops (r.post ops path) rest with
        | none => none
        | some (r, pss) => some (r, ps :: pss)

end Verif.Oracles
