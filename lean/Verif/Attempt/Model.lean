/-
Model of one attempt at a call and of how exceptions are classified: crosshair/core.py 183-277,
1278-1333 and 1517-1676.

What Python code does (generating arguments, evaluating conditions, running the function, comparing
arguments) is given by its outcome: a value or an exception.  Message texts are left out, except for the
line of a failing precondition.
-/
namespace Verif.Attempt

/-- The classes that the code tells apart; `other n` are all other classes. -/
inductive Cls where
  | exception
  | typeError
  | postconditionFailed
  | preconditionFailed
  | ignoreAttempt
  | unexploredPath
  | notDeterministic
  | z3Exception
  | other (n : Nat)
  deriving DecidableEq, Repr

/-- An exception: the classes it is an instance of, and its text. -/
structure Exc where
  classes : List Cls
  text : List Char
  deriving DecidableEq, Repr

/-- `isinstance(exc, classes)`. -/
def Exc.isA (e : Exc) (cs : List Cls) : Bool := e.classes.any (fun c => cs.contains c)

/-- Substring test of Python's `in`. -/
def contains (sub : List Char) : List Char → Bool
  | [] => sub.isEmpty
  | c :: cs => sub.isPrefixOf (c :: cs) || contains sub cs

/-- `"..." in exc_str`. -/
def Exc.says (e : Exc) (s : String) : Bool := contains s.toList e.text

/-- core.py 183-216: `suspected_proxy_intolerance_exception`. -/
def suspected (e : Exc) : Bool :=
  if !e.isA [.typeError] then false
  else
    let atomic := e.says "SymbolicInt" || e.says "SymbolicFloat"
    if atomic || e.says "SymbolicStr" || e.says "SymbolicBytes" || e.says "__hash__ method should return an integer"
        || e.says "expected string or bytes-like object" then
      if e.says "can only concatenate" || e.says "NoneType" || e.says "object is not callable" then false
      else if atomic && e.says "object is not iterable" then false
      else true
    else false

/-- statespace.py 126-149: `VerificationStatus`. -/
inductive Status where
  | refuted
  | unknown
  | confirmed
  deriving DecidableEq, Repr

/-- The message types of an attempt (statespace.py 54-80). -/
inductive Msg where
  | execErr
  | postErr
  | postFail
  deriving DecidableEq, Repr

/-- statespace.py 136-149: `CallAnalysis`.  Of a failing precondition its line and the exception it
raised, if any. -/
structure Analysis where
  status : Option Status := none
  messages : List Msg := []
  failPre : Option (Nat × Option Exc) := none
  deriving DecidableEq, Repr

/-- What `ExceptionFilter` makes of an exception. -/
inductive Filtered where
  | ignore (a : Analysis)
  | user (e : Exc)
  | reraise (e : Exc)
  deriving DecidableEq, Repr

/-- util.py 706: `CrosshairUnsupported`, a subclass of `UnexploredPath`. -/
def unsupported : Exc := ⟨[.unexploredPath], "Detected proxy intolerance".toList⟩

/-- core.py 235-277: `ExceptionFilter.__exit__` for an exception. -/
def filter (raises : List Cls) (e : Exc) : Filtered :=
  if e.isA [.postconditionFailed, .ignoreAttempt] then .ignore {}
  else if e.isA raises then .ignore { status := some .confirmed }
  else if suspected e then .reraise unsupported
  else if e.isA [.exception, .preconditionFailed] then
    if e.isA [.z3Exception, .notDeterministic] then .reraise e else .user e
  else .reraise e

/-- The outcome of Python code. -/
inductive Eval (α : Type) where
  | val (a : α)
  | exc (e : Exc)
  deriving DecidableEq, Repr

/-- What happens when one path is run.  `setup`: generating and copying the arguments (1526-1529).
`pres`: line of each precondition, and its outcome unless it cannot be evaluated.  `body`: the function.
`args`: for each argument whether it may change (`mutable_args`), and the outcome of comparing it with
its original (1606-1625).  `post`: the postcondition.  The `...Report` fields are exceptions while a
failure is being reported (`detach_path` and the counterexample message, 1582-1584, 1615-1619, 1644-1649,
1663-1668). -/
structure Path where
  raises : List Cls
  setup : Option Exc
  pres : List (Nat × Option (Eval Bool))
  body : Eval Unit
  bodyReport : Option Exc
  args : List (Bool × Eval Bool)
  argReport : Option Exc
  post : Eval Bool
  postErrReport : Option Exc
  postFailReport : Option Exc

/-- A result of `attempt_call`: it returns an analysis or raises. -/
inductive Result where
  | done (a : Analysis)
  | raised (e : Exc)
  deriving DecidableEq, Repr

/-- Report a failure, unless the report raises. -/
def report (r : Option Exc) (m : Msg) : Result :=
  match r with
  | some e => .raised e
  | none => .done { status := some .refuted, messages := [m] }

/-- core.py 1537-1565: the loop over preconditions; `none` when all are met. -/
def preLoop (raises : List Cls) : List (Nat × Option (Eval Bool)) → Option Result
  | [] => none
  | (_, none) :: ps => preLoop raises ps
  | (line, some (.val ok)) :: ps => if ok then preLoop raises ps else some (.done { failPre := some (line, none) })
  | (line, some (.exc e)) :: _ =>
    match filter raises e with
    | .ignore a => some (.done a)
    | .user e => some (.done { failPre := some (line, some e) })
    | .reraise e => some (.raised e)

/-- core.py 1606-1625: the loop over arguments; `none` when no argument changed that must not. -/
def argLoop (rep : Option Exc) : List (Bool × Eval Bool) → Option Result
  | [] => none
  | (mayChange, cmp) :: as =>
    if mayChange then argLoop rep as
    else
      match cmp with
      | .exc e => some (.raised e)
      | .val true => some (report rep .postErr)
      | .val false => argLoop rep as

/-- core.py 1627-1676: the postcondition. -/
def postPart (p : Path) : Result :=
  match p.post with
  | .exc e =>
    match filter p.raises e with
    | .ignore a => .done a
    | .user _ => report p.postErrReport .postErr
    | .reraise e => .raised e
  | .val true => .done { status := some .confirmed }
  | .val false => report p.postFailReport .postFail

/-- core.py 1567-1625: the function, and then the rest. -/
def bodyPart (p : Path) : Result :=
  match p.body with
  | .exc e =>
    match filter p.raises e with
    | .ignore a => .done a
    | .user _ => report p.bodyReport .execErr
    | .reraise e => .raised e
  | .val _ =>
    match argLoop p.argReport p.args with
    | some r => r
    | none => postPart p

/-- core.py 1517-1676: `attempt_call`. -/
def attempt (p : Path) : Result :=
  match p.setup with
  | some e => .raised e
  | none =>
    match preLoop p.raises p.pres with
    | some r => r
    | none => bodyPart p

/-- core.py 1286-1333: what `analyze_calltree` makes of it; `none` when the exception goes through and
ends the analysis. -/
def settle : Result → Option Analysis
  | .done a => some a
  | .raised e =>
    if e.isA [.notDeterministic] then some { status := some .refuted, messages := [.execErr] }
    else if e.isA [.unexploredPath] then some { status := some .unknown }
    else if e.isA [.ignoreAttempt] then some {}
    else none

/-- The analysis of one path. -/
def analyze (p : Path) : Option Analysis := settle (attempt p)

end Verif.Attempt
