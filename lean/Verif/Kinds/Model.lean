/-
Model of the kinds of contracts in /repo/crosshair/condition_parser.py: `implies` in conditions (141-165), icontract (740-873),
deal (888-1013), asserts (1016-1118) and registered contracts (1121-1215, with /repo/crosshair/register_contract.py:40-130).
-/
namespace Verif.Kinds

/-! ### `implies` -/

/-- Python expressions, as far as it matters: a part that contains no call of a plain name, a call of a plain name, any other
expression all of whose parts are evaluated from left to right, a conditional expression, and `True`. -/
inductive Expr where
  | atom (n : Nat)
  | call (fn : Nat) (args kwargs : List Expr)
  | strict (op : Nat) (parts : List Expr)
  | ifExp (test body orelse : Expr)
  | tru

/-- The name `implies`. -/
def impliesName : Nat := 0

/-- The end of `visit_Call` (152-158), after `generic_visit`; `none` is the `SyntaxError`. -/
def rewriteCall (fn : Nat) (args kwargs : List Expr) : Option Expr :=
  if fn = impliesName then
    match args with
    | [condition, implication] => some (.ifExp condition implication .tru)
    | _ => none
  else some (.call fn args kwargs)

mutual
/-- `ImpliesTransformer.visit` (141-158): parts are rewritten before the call that they are in. -/
def transform : Expr → Option Expr
  | .atom n => some (.atom n)
  | .call fn args kwargs => (transformAll args).bind fun args => (transformAll kwargs).bind fun kwargs => rewriteCall fn args kwargs
  | .strict op parts => (transformAll parts).map (.strict op)
  | .ifExp a b c => (transform a).bind fun a => (transform b).bind fun b => (transform c).map fun c => .ifExp a b c
  | .tru => some .tru
/-- `generic_visit` of a list. -/
def transformAll : List Expr → Option (List Expr)
  | [] => some []
  | e :: es => (transform e).bind fun e => (transformAll es).map (e :: ·)
end

/-! ### asserts -/

/-- A statement of a function's body: an `assert`, a string literal, or another; with the lines that it takes. -/
structure Stmt where
  assert : Bool
  literal : Bool
  first : Nat
  last : Nat
deriving DecidableEq, Repr

/-- The loop of `get_first_body_line` (1055-1063): whether an assertion was found, and `statement` after the loop. -/
def bodyLoop : List Stmt → Bool → Option Stmt → Bool × Option Stmt
  | [], found, cur => (found, cur)
  | s :: ss, found, _ =>
    if s.assert then bodyLoop ss true (some s)
    else if s.literal then bodyLoop ss found (some s)
    else (found, some s)

/-- `get_first_body_line` (1031-1067); line numbers are those of the file. -/
def firstBodyLine (body : List Stmt) : Option Nat :=
  match bodyLoop body false none with
  | (true, some s) => some s.first
  | _ => none

/-- A frame of a traceback. -/
structure Frame where
  name : Nat
  file : Nat
  line : Nat
deriving DecidableEq, Repr

/-- `frame_summary_for_fn` (util.py:228-241): the line in the innermost frame of a function with that name in that file;
`defLine` is the line of the function itself.  Frames are given from the outermost to the innermost. -/
def frameLine (name file defLine : Nat) (frames : List Frame) : Nat :=
  match frames.reverse.find? fun f => f.name == name && f.file == file with
  | some f => f.line
  | none => defLine

/-- How a call ends. -/
inductive Outcome where
  | returned
  | assertion (frames : List Frame)
  | other
deriving DecidableEq, Repr

/-- `wrappedfn` (1085-1097). -/
def wrapped (name file defLine bodyLine : Nat) : Outcome → Outcome
  | .returned => .returned
  | .other => .other
  | .assertion frames => if bodyLine ≤ frameLine name file defLine frames then .assertion frames else .returned

/-! ### icontract -/

/-- What the evaluation of a condition gives. -/
inductive Eval where
  | value (b : Bool)
  | raised (e : Nat)
deriving DecidableEq, Repr

/-- The inner loop of `eval_disjunction` (797-801): `ok`. -/
def evalConj (eval : Nat → Eval) : List Nat → Eval
  | [] => .value true
  | c :: cs => match eval c with
    | .raised e => .raised e
    | .value false => .value false
    | .value true => evalConj eval cs

/-- `eval_disjunction` (795-804). -/
def evalDisj (eval : Nat → Eval) : List (List Nat) → Eval
  | [] => .value false
  | c :: cs => match evalConj eval c with
    | .raised e => .raised e
    | .value true => .value true
    | .value false => evalDisj eval cs

/-- The preconditions made of `__preconditions__` (777-822): one for each contract, or one for all of the groups. -/
def preconditions (disjunction : List (List Nat)) : List (List (List Nat)) :=
  match disjunction with
  | [] => []
  | [conj] => conj.map fun c => [[c]]
  | _ => [disjunction]

/-- The evaluation of one of them: a contract alone is a group of one. -/
def evalPre (eval : Nat → Eval) (pre : List (List Nat)) : Eval := evalDisj eval pre

/-! ### deal -/

/-- Python values. -/
inductive Val where
  | atom (n : Nat)
  | tuple (vs : List Val)
  | dict (vs : List (Nat × Val))

/-- Kinds of parameters. -/
inductive Kind where
  | posOnly
  | posKw
  | varPos
  | kwOnly
  | varKw
deriving DecidableEq, Repr

/-- A parameter. -/
structure Param where
  name : Nat
  kind : Kind
deriving DecidableEq, Repr

/-- `_extract_a_and_kw` (903-913), with the bindings in the order of the parameters. -/
def extract : List (Param × Val) → List Val × List (Nat × Val)
  | [] => ([], [])
  | (p, v) :: bs =>
    let (args, kwargs) := extract bs
    (v :: args, if p.kind = .kwOnly then (p.name, v) :: kwargs else kwargs)

/-! ### Registered contracts -/

/-- A function, as far as it matters: its parameters, with those without default marked. -/
abbrev Sig := List (Nat × Bool)

/-- `required_param_names` (register_contract.py:40-41). -/
def required (s : Sig) : List Nat := (s.filter (·.2)).map (·.1)

/-- All names. -/
def names (s : Sig) : List Nat := s.map (·.1)

/-- The names `__return__` and `__old__`. -/
def returnName : Nat := 1000000
def oldName : Nat := 1000001

/-- `ContractOverride`. -/
structure Contract where
  pre : Option Sig
  post : Option Sig
  sigs : List Sig
  skipBody : Bool
deriving DecidableEq, Repr

/-- One turn of the loop of `_verify_signatures` (57-89). -/
def verifyOne (c : Contract) (ref : Option Sig) (sig : Sig) : Bool :=
  (match ref with
    | some r => (required sig).all fun n => (names r).contains n
    | none => true) &&
  (match c.pre with
    | some p => (required p).all fun n => (names sig).contains n
    | none => true) &&
  (match c.post with
    | some p => (required p).all fun n => (names sig ++ [returnName, oldName]).contains n
    | none => true)

/-- `_verify_signatures` (44-89). -/
def verify (c : Contract) (ref : Option Sig) : Bool :=
  (c.sigs ++ ref.toList).all (verifyOne c ref)

/-- The registered contracts. -/
abbrev Registry := List (Nat × Contract)

/-- `_add_contract` (92-119). -/
def addContract (reg : Registry) (fn : Nat) (c : Contract) (ref : Option Sig) : Registry × Bool :=
  if verify c ref then
    match reg.lookup fn with
    | some old =>
      if old.pre = c.pre ∧ old.post = c.post ∧ old.skipBody = c.skipBody then
        (reg.map fun e => if e.1 = fn then (e.1, { e.2 with sigs := e.2.sigs ++ c.sigs }) else e, true)
      else (reg, false)
    | none => ((fn, c) :: reg, true)
  else (reg, false)

/-- The signature used by `RegisteredContractsParser.get_fn_conditions` (1129-1149, 1203): the first that is registered, or that of
the function. -/
def usedSig (c : Contract) (ref : Option Sig) : Option Sig :=
  match c.sigs with
  | s :: _ => some s
  | [] => ref

/-- `evaluatefn` and `post_eval` (1160-1164, 1178-1182): every parameter of the condition is looked up; `none` is the `KeyError`. -/
def lookupArgs (cond : Sig) (bound : List (Nat × Val)) : Option (List (Nat × Val)) :=
  (names cond).mapM fun n => (bound.lookup n).map fun v => (n, v)

end Verif.Kinds
