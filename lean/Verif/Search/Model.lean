/-
Model of CrossHair's path search: the search tree, one exploration of one path,
and the loop that repeats explorations.

Sources: /repo/crosshair/statespace.py and /repo/crosshair/core.py.
Every definition cites the lines it models.
-/
namespace Verif.Search

/-- `VerificationStatus` (statespace.py:126-141). -/
inductive Status where
  | refuted
  | unknown
  | confirmed
  deriving DecidableEq, Repr

/-- The enum values; `__lt__` compares them (statespace.py:128-141). -/
def Status.val : Status → Nat
  | .refuted => 0
  | .unknown => 1
  | .confirmed => 2

/-- Python's `min(a, b)` on statuses: keeps `a` unless `b < a` (statespace.py:607, 1346). -/
def Status.min (a b : Status) : Status := if b.val < a.val then b else a

/-- A `ConditionExpr` that failed: only its source line matters to the search
(statespace.py:600-604; core.py:1292-1309).  The reason string is kept. -/
structure FailPre where
  line : Nat
  reason : String
  deriving DecidableEq, Repr

/-- `CallAnalysis` (statespace.py:144-149).  A message is kept as an opaque string;
`failing_precondition` and its reason are one optional record. -/
structure Analysis where
  status : Option Status := none
  messages : List String := []
  failPre : Option FailPre := none
  deriving DecidableEq, Repr

/-- `CallAnalysis(VerificationStatus.UNKNOWN)` (statespace.py:375; core.py:1331). -/
def Analysis.unknown : Analysis := { status := some .unknown }

/-- The analysis built on `NotDeterministic` (core.py:1318-1329). -/
def Analysis.notDet : Analysis :=
  { status := some .refuted,
    messages := ["NotDeterministic: Found a different execution paths after making the same decisions"] }

/-- What the search needs from the SMT world.  `E` are boolean SMT expressions (compared
structurally, as `z3.eq` and the `_exprs_known` dict do), `X` the expressions that get
realized, `V` model values, `Inp` the concrete inputs (interpretations of all SMT variables).
`eqE x v` is the expression `x == v` of `ModelValueNode.__init__` (statespace.py:701). -/
structure World where
  E : Type
  X : Type
  V : Type
  Inp : Type
  [decE : DecidableEq E]
  holds : E → Inp → Bool
  value : X → Inp → V
  eqE : X → V → E
  eqE_spec : ∀ x v i, holds (eqE x v) i = true ↔ value x i = v

attribute [instance] World.decE

/-- Search tree nodes.  `stem` is `NodeStem` (statespace.py:366-381), `leaf` is `SearchLeaf`
(412-422), `worst` is `WorstResultNode` (619-691) and, when `mv` is present, its subclass
`ModelValueNode` (694-709) with that `condition_value`; `par` is `ParallelNode` (545-582),
`detached` is `DetachedPathNode` (472-495).  `res`/`ex` are the stored `result`/`exhausted`
fields of `SearchTreeNode` (335-363).  Statistics and probabilities are not modelled. -/
inductive Tree (E V : Type) where
  | stem
  | leaf (res : Analysis) (ex : Bool)
  | worst (mv : Option V) (e : E) (forced : Option Bool) (pos neg : Tree E V)
      (res : Analysis) (ex : Bool)
  | par (pos neg : Tree E V) (res : Analysis) (ex : Bool)
  | detached (child : Tree E V) (res : Analysis) (ex : Bool)

namespace Tree
variable {E V : Type}

/-- `get_result` (statespace.py:351-352, 374-375). -/
def result : Tree E V → Analysis
  | stem => .unknown
  | leaf r _ => r
  | worst _ _ _ _ _ r _ => r
  | par _ _ r _ => r
  | detached _ r _ => r

/-- `is_exhausted` (statespace.py:348-349, 371-372). -/
def exhausted : Tree E V → Bool
  | stem => false
  | leaf _ x => x
  | worst _ _ _ _ _ _ x => x
  | par _ _ _ x => x
  | detached _ _ x => x

/-- `node_status` (statespace.py:404-409). -/
def status (t : Tree E V) : Option Status := t.result.status

end Tree

/-- `merge_node_results` (statespace.py:585-613). -/
def mergeNodeResults {E V : Type} (left : Analysis) (exhausted : Bool) (node : Tree E V) :
    Analysis × Bool :=
  let right := node.result
  let exhausted := if !node.exhausted then false else exhausted
  match left.status, right.status with
  | none, _ => (right, exhausted)
  | _, none => (left, exhausted)
  | some ls, some rs =>
    let fp := match left.failPre, right.failPre with
      | some lc, some rc => if lc.line > rc.line then left.failPre else right.failPre
      | some _, none => left.failPre
      | none, _ => right.failPre
    ({ status := some (ls.min rs), messages := left.messages ++ right.messages, failPre := fp },
     exhausted)

/-- `WorstResultNode._is_exhausted` (statespace.py:643-648). -/
def worstIsExhausted {E V : Type} (forced : Option Bool) (pos neg : Tree E V) : Bool :=
  (pos.exhausted && neg.exhausted) || (decide (forced = some true) && pos.exhausted)
    || (decide (forced = some false) && neg.exhausted)

/-- `WorstResultNode.compute_result` (statespace.py:675-691); `ModelValueNode.compute_result`
(703-709) differs only in statistics. -/
def worstCompute {E V : Type} (forced : Option Bool) (pos neg : Tree E V) : Analysis × Bool :=
  let exhausted := worstIsExhausted forced pos neg
  if pos.status = some .refuted ∨ forced = some true then (pos.result, exhausted)
  else if neg.status = some .refuted ∨ forced = some false then (neg.result, exhausted)
  else mergeNodeResults pos.result pos.exhausted neg

/-- `ParallelNode.compute_result` (statespace.py:556-572). -/
def parCompute {E V : Type} (pos neg : Tree E V) : Analysis × Bool :=
  if pos.exhausted ∧ ¬ pos.status = some .unknown then (pos.result, true)
  else if neg.exhausted ∧ ¬ neg.status = some .unknown then (neg.result, true)
  else mergeNodeResults pos.result (pos.exhausted && neg.exhausted) neg

/-- `SearchTreeNode.update_result` on a node with stored fields `res`, `ex`
(statespace.py:354-360). -/
def updateResult (res : Analysis) (ex : Bool) (computed : Analysis × Bool) : Analysis × Bool :=
  if !ex then computed else (res, ex)

/-- Rebuild a `WorstResultNode` after one of its children changed, running `update_result`. -/
def Tree.updWorst {E V : Type} (mv : Option V) (e : E) (forced : Option Bool)
    (pos neg : Tree E V) (res : Analysis) (ex : Bool) : Tree E V :=
  let r := updateResult res ex (worstCompute forced pos neg)
  .worst mv e forced pos neg r.1 r.2

/-- Rebuild a `ParallelNode` after one of its children changed, running `update_result`. -/
def Tree.updPar {E V : Type} (pos neg : Tree E V) (res : Analysis) (ex : Bool) : Tree E V :=
  let r := updateResult res ex (parCompute pos neg)
  .par pos neg r.1 r.2

/-- `DetachedPathNode` after the path below it ended with `leaf`
(statespace.py:481-482 through 354-360). -/
def Tree.updDetached {E V : Type} (child : Tree E V) (res : Analysis) (ex : Bool)
    (leaf : Analysis) : Tree E V :=
  let r := updateResult res ex (leaf, true)
  .detached child r.1 r.2

/-- `RandomizedBinaryPathNode.choose` (statespace.py:526-542).  `coin` stands for the random
draw against the oracle's probability.  `none` is the failure of the assertion at line 531. -/
def binChoose {E V : Type} (pos neg : Tree E V) (coin : Bool) : Option Bool :=
  let posOk := !pos.exhausted
  let negOk := !neg.exhausted
  if !(posOk || negOk) then none
  else if posOk && negOk then some coin
  else some posOk

/-- `WorstResultNode.choose` (statespace.py:656-665). -/
def worstChoose {E V : Type} (forced : Option Bool) (pos neg : Tree E V) (coin : Bool) :
    Option Bool :=
  match forced with
  | none => binChoose pos neg coin
  | some b => some b

/-- Result of `solver.check` (statespace.py:384-395). -/
inductive Sat where
  | sat
  | unsat
  | unknown
  deriving DecidableEq, Repr

/-- `WorstResultNode.__init__` (statespace.py:624-641): the outer `none` is the
`UnknownSatisfiability` raised by `solver_is_sat`; the inner value is `forced_path`.
`q (e, b)` asks the solver for the current constraints plus `e` (`b = true`) or its negation.
The debug-only checks (634-640) are omitted. -/
def initForced {E : Type} (q : E × Bool → Sat) (e : E) : Option (Option Bool) :=
  match q (e, false) with
  | .unknown => none
  | .sat =>
    match q (e, true) with
    | .unknown => none
    | .sat => some none
    | .unsat => some (some false)
  | .unsat => some (some true)

/-- The next thing a path does that the search can see.
* `done returned a`: `attempt_call` returned `a`, or (`returned = false`) raised `UnexploredPath`
  or `IgnoreAttempt`, which the loop turns into `a` (core.py:1286-1333).
* `ask e k`: `choose_possible` (statespace.py:920-985), also reached by `smt_fork`,
  `prefer_true`, `force_true`, `bool(symbolic)`.
* `realize x k`: `find_model_value` (1075-1118).
* `fork k`: `fork_parallel` (864-880).
* `assume e k`: `StateSpace.add` (805-826).
* `cap k`: `cap_result_at_unknown` (1315-1318).
* `detach k`: `detach_path` (1259-1313) once its deferred assumptions have been asked.
* `abort`: `detach_path` while handling `UnknownSatisfiability` or `PathTimeout` (1275-1283),
  after which the path ends UNKNOWN. -/
inductive Action (E X V S : Type) where
  | done (returned : Bool) (a : Analysis)
  | ask (e : E) (k : Bool → S)
  | realize (x : X) (k : V → S)
  | fork (k : Bool → S)
  | assume (e : E) (k : S)
  | cap (k : S)
  | detach (k : S)
  | abort

/-- A deterministic program under analysis: its states and what it does next in each. -/
structure Prog (W : World) where
  S : Type
  act : S → Action W.E W.X W.V S

/-- What the environment contributes at one step of a path: the random draw, the solver's
answer for given constraints, and the model the solver would then produce. -/
structure Env (W : World) where
  coin : Bool
  solve : List (W.E × Bool) → Sat
  model : List (W.E × Bool) → W.X → W.V

/-- `bubble_status` at the place where the path ended (statespace.py:1324-1329). -/
def finish {E V : Type} (t : Tree E V) (a : Analysis) : Tree E V :=
  match t with
  | .stem => .leaf a true
  | .leaf _ _ => .leaf a true
  | .worst mv e f p n _ _ => .worst mv e f p n a true
  | .par p n _ _ => .par p n a true
  | .detached c _ _ => .detached c a true

/-- How one iteration ends: the updated tree, the analysis of the path, the decisions taken at
the nodes it went through, whether the path asked for a cap, whether `attempt_call` returned
rather than raised, and whether the path ended on a `DetachedPathNode` that is not attached to
the node above it when there is none (statespace.py:1275-1283, 1297-1305). -/
structure Out (E V : Type) where
  tree : Tree E V
  leaf : Analysis
  trace : List Bool := []
  capped : Bool := false
  returned : Bool := false
  orphan : Bool := false

/-- Apply a change to the tree of an outcome and record a decision. -/
def Out.via {E V : Type} (o : Out E V) (b : Bool) (f : Tree E V → Tree E V) : Out E V :=
  { o with tree := f o.tree, trace := b :: o.trace }

/-- The node a `choose_possible` call works on (statespace.py:929-955). -/
inductive NodeAt (E V : Type) where
  | node (mv : Option V) (forced : Option Bool) (pos neg : Tree E V) (res : Analysis) (ex : Bool)
  | unknownSat
  | notDeterministic

/-- Find or grow the `WorstResultNode` for `e` (statespace.py:929-955). -/
def nodeForAsk {W : World} (env : Env W) (pc : List (W.E × Bool)) (e : W.E) :
    Tree W.E W.V → NodeAt W.E W.V
  | .stem =>
    match initForced (fun c => env.solve (c :: pc)) e with
    | none => .unknownSat
    | some f => .node none f .stem .stem {} false
  | .worst mv e' f p n r x => if e' = e then .node mv f p n r x else .notDeterministic
  | _ => .notDeterministic

/-- The node a `find_model_value` call works on (statespace.py:1078-1094), with its value. -/
inductive ModelNodeAt (E V : Type) where
  | node (v : V) (e : E) (forced : Option Bool) (pos neg : Tree E V) (res : Analysis) (ex : Bool)
  | unknownSat
  | notDeterministic
  | internalError

/-- Find or grow the `ModelValueNode` (statespace.py:1078-1094).  An existing node is not
compared with `x`, exactly as in the source. -/
def nodeForRealize {W : World} (env : Env W) (pc : List (W.E × Bool)) (x : W.X) :
    Tree W.E W.V → ModelNodeAt W.E W.V
  | .stem =>
    match env.solve pc with
    | .unknown => .unknownSat
    | .unsat => .internalError
    | .sat =>
      let v := env.model pc x
      match initForced (fun c => env.solve (c :: pc)) (W.eqE x v) with
      | none => .unknownSat
      | some f => .node v (W.eqE x v) f .stem .stem {} false
  | .leaf _ _ => .internalError
  | .worst (some v) e f p n r x => .node v e f p n r x
  | _ => .notDeterministic

/-- The node a `fork_parallel` call works on (statespace.py:865-876); `none` is
`NotDeterministic`. -/
def nodeForFork {E V : Type} :
    Tree E V → Option (Tree E V × Tree E V × Analysis × Bool)
  | .stem => some (.stem, .stem, {}, false)
  | .par p n r x => some (p, n, r, x)
  | _ => none

/-- `_exprs_known.get` (statespace.py:819, 923). -/
def known? {E : Type} [DecidableEq E] : List (E × Bool) → E → Option Bool
  | [], _ => none
  | (e', b) :: rest, e => if e' = e then some b else known? rest e

/-- Ways a path can abort the whole analysis: `CrossHairInternal` (statespace.py:824, 1040,
1086) or the assertion in `choose` (531). -/
inductive Err where
  | internal
  | assertion
  deriving DecidableEq, Repr

/-- One iteration from tree position `t` and program state `s` (statespace.py:805-1347), driven by
a list of environment contributions, one per step.  Running out of list is `PathTimeout`
(statespace.py:910-917): the source lets it happen only at stems, the model at any step.
`kn` is `_exprs_known`, `pc` the solver's assertions, `det` is `is_detached`.
An error aborts the whole analysis without a verdict. -/
def iter {W : World} (P : Prog W) :
    List (Env W) → Tree W.E W.V → P.S → (kn pc : List (W.E × Bool)) → (det : Bool) →
    Except Err (Out W.E W.V)
  | [], t, _, _, _, _ => (.ok { tree := finish t .unknown, leaf := .unknown })
  | env :: rest, t, s, kn, pc, det =>
    match P.act s with
    | .done ret a => (.ok { tree := finish t a, leaf := a, returned := ret })
    | .abort => (.ok { tree := t, leaf := .unknown, orphan := true })
    | .cap s' => (iter P rest t s' kn pc det).map fun o => { o with capped := true }
    | .assume e s' =>
      match known? kn e with
      | some true => iter P rest t s' kn pc det
      | some false => .error .internal
      | none => iter P rest t s' ((e, true) :: kn) ((e, true) :: pc) det
    | .ask e k =>
      match known? kn e with
      | some b => iter P rest t (k b) kn pc det
      | none =>
        match nodeForAsk env pc e t with
        | .unknownSat => (.ok { tree := finish t .unknown, leaf := .unknown })
        | .notDeterministic => (.ok { tree := finish t .notDet, leaf := .notDet })
        | .node mv f p n r x =>
          match worstChoose f p n env.coin with
          | none => .error .assertion
          | some true =>
            (iter P rest p (k true) ((e, true) :: kn) ((e, true) :: pc) det).map
              (·.via true fun c => .updWorst mv e f c n r x)
          | some false =>
            (iter P rest n (k false) ((e, false) :: kn) ((e, false) :: pc) det).map
              (·.via false fun c => .updWorst mv e f p c r x)
    | .realize x k =>
      match nodeForRealize env pc x t with
      | .unknownSat => (.ok { tree := finish t .unknown, leaf := .unknown })
      | .notDeterministic => (.ok { tree := finish t .notDet, leaf := .notDet })
      | .internalError => .error .internal
      | .node v e f p n r ex =>
        match worstChoose f p n env.coin with
        | none => .error .assertion
        | some true =>
          (iter P rest p (k v) kn ((W.eqE x v, true) :: pc) det).map
            (·.via true fun c => .updWorst (some v) e f c n r ex)
        | some false =>
          (iter P rest n s kn ((W.eqE x v, false) :: pc) det).map
            (·.via false fun c => .updWorst (some v) e f p c r ex)
    | .fork k =>
      match nodeForFork t with
      | none => (.ok { tree := finish t .notDet, leaf := .notDet })
      | some (p, n, r, x) =>
        match binChoose p n env.coin with
        | none => .error .assertion
        | some true =>
          (iter P rest p (k true) kn pc det).map (·.via true fun c => .updPar c n r x)
        | some false =>
          (iter P rest n (k false) kn pc det).map (·.via false fun c => .updPar p c r x)
    | .detach s' =>
      if det then iter P rest t s' kn pc det
      else match t with
        | .stem =>
          (iter P rest .stem s' kn pc true).map fun o =>
            o.via true fun c => .updDetached c {} false o.leaf
        | .detached _ _ _ => iter P rest t s' kn pc true
        | _ =>
          (.ok { tree := .updDetached (.leaf .notDet true) {} false .notDet
                 leaf := .notDet, orphan := true })

/-- `analysis.verification_status = min(verification_status, self.status_cap)` on the first
choice's stored result (statespace.py:1342-1346). -/
def capTop {E V : Type} (t : Tree E V) : Tree E V :=
  let low (r : Analysis) : Analysis :=
    match r.status with
    | none => r
    | some s => { r with status := some (s.min .unknown) }
  match t with
  | .stem => .stem
  | .leaf r x => .leaf (low r) x
  | .worst mv e f p n r x => .worst mv e f p n (low r) x
  | .par p n r x => .par p n (low r) x
  | .detached c r x => .detached c (low r) x

/-- State of the `analyze_calltree` loop (core.py:1255-1271). -/
structure Loop (E V : Type) where
  root : Tree E V                    -- `search_root.child`
  failPre : Option FailPre           -- `failing_precondition` and its reason
  confirmedPaths : Nat

/-- Precondition bookkeeping after a path that returned normally (core.py:1292-1309). -/
def stepFailPre (cur : Option FailPre) (a : Analysis) : Option FailPre :=
  match cur with
  | none => none
  | some fp =>
    match a.failPre with
    | none => if a.status.isSome then none else some fp
    | some c =>
      if c.line = fp.line ∧ c.reason ≠ "" then some { fp with reason := c.reason }
      else if c.line > fp.line then some c
      else some fp

/-- The tree and the pair returned by `bubble_status` (statespace.py:1330-1347) once the path has
ended.  With no choice made the analysis of the path itself is returned as exhausted (1331-1332,
and 1342-1347 when the only "choice" is an unattached `DetachedPathNode`); otherwise the first
choice's result, capped if the path asked for it. -/
def bubble {E V : Type} (before : Tree E V) (o : Out E V) : Tree E V × Option Status × Bool :=
  if o.trace = [] then
    (if o.orphan then before else o.tree, o.leaf.status, true)
  else
    let root := if o.capped then capTop o.tree else o.tree
    (root, root.status, root.exhausted)

/-- One pass of the loop body (core.py:1278-1351).  The Boolean says whether the loop stops
(`space_exhausted` or REFUTED, 1350); stopping for deadlines, iteration limits or lack of
discovery is represented by the length of the script list in `explore`. -/
def loopStep {W : World} (P : Prog W) (s0 : P.S) (script : List (Env W))
    (l : Loop W.E W.V) : Except Err (Loop W.E W.V × Bool) :=
  (iter P script l.root s0 [] [] false).map fun o =>
    let (root, st, exhausted) := bubble l.root o
    ({ root := root
       failPre := if o.returned then stepFailPre l.failPre o.leaf else l.failPre
       confirmedPaths :=
         if o.leaf.status = some .confirmed then l.confirmedPaths + 1 else l.confirmedPaths },
     exhausted || decide (st = some .refuted))

/-- The loop (core.py:1273-1351).  Each element of `scripts` drives one iteration. -/
def explore {W : World} (P : Prog W) (s0 : P.S) :
    List (List (Env W)) → Loop W.E W.V → Except Err (Loop W.E W.V)
  | [], l => .ok l
  | script :: rest, l =>
    match loopStep P s0 script l with
    | .error e => .error e
    | .ok (l', true) => .ok l'
    | .ok (l', false) => explore P s0 rest l'

/-- `CallTreeAnalysis` (core.py:1392-1396), without the message texts. -/
structure Verdict where
  status : Status
  messages : List String
  preUnsat : Option FailPre
  confirmedPaths : Nat

/-- The verdict after the loop (core.py:1352-1396). -/
def conclude {E V : Type} (l : Loop E V) : Verdict :=
  let top := l.root.result
  let st := top.status.getD .unknown
  { status := if l.failPre.isSome then .refuted else st
    messages := top.messages
    preUnsat := l.failPre
    confirmedPaths := l.confirmedPaths }

/-- `analyze_calltree` (core.py:1249-1396) for a positive iteration limit. `pre0` is
`conditions.pre[0] if conditions.pre else None`. -/
def analyzeCalltree {W : World} (P : Prog W) (s0 : P.S) (pre0 : Option FailPre)
    (scripts : List (List (Env W))) : Except Err Verdict :=
  (explore P s0 scripts { root := .stem, failPre := pre0, confirmedPaths := 0 }).map conclude

end Verif.Search
