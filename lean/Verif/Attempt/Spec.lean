import Verif.Attempt.Model
/-
The classification of exceptions, said without the order of the code's tests.
-/
namespace Verif.Attempt

/-- The classes as Python has them: `TypeError`, `NotDeterministic` and `Z3Exception` are `Exception`s
(util.py 698), the control-flow classes are not (util.py 670-712, enforce.py 24-29), and no exception is
of two kinds. -/
structure Exc.Python (e : Exc) : Prop where
  typeError : .typeError ∈ e.classes → .exception ∈ e.classes
  notDeterministic : .notDeterministic ∈ e.classes → .exception ∈ e.classes
  control : ∀ c ∈ [Cls.postconditionFailed, .preconditionFailed, .ignoreAttempt, .unexploredPath],
    c ∈ e.classes → .exception ∉ e.classes ∧
      ∀ d ∈ [Cls.postconditionFailed, .preconditionFailed, .ignoreAttempt, .unexploredPath], d ∈ e.classes → d = c

/-- What an exception means. -/
inductive Meaning where
  /-- the path does not count -/
  | ignored
  /-- the contract allows it -/
  | expected
  /-- not decided -/
  | unknown
  /-- a failure -/
  | failure
  /-- an error of CrossHair or the system, that ends the analysis -/
  | crash
  deriving DecidableEq, Repr

/-- The meaning of an exception from the function under analysis. -/
def meaning (raises : List Cls) (e : Exc) : Meaning :=
  if .postconditionFailed ∈ e.classes ∨ .ignoreAttempt ∈ e.classes then .ignored
  else if ∃ c ∈ e.classes, c ∈ raises then .expected
  else if .unexploredPath ∈ e.classes ∨ suspected e = true then .unknown
  else if .z3Exception ∈ e.classes ∧ .notDeterministic ∉ e.classes then .crash
  else if .exception ∈ e.classes ∨ .preconditionFailed ∈ e.classes then .failure
  else .crash

/-- All preconditions that can be evaluated are met. -/
def Met (ps : List (Nat × Option (Eval Bool))) : Prop := ∀ q ∈ ps, q.2 = none ∨ q.2 = some (.val true)

/-- The first precondition that is not met is on `line`, with outcome `o`. -/
def FirstUnmet (ps : List (Nat × Option (Eval Bool))) (line : Nat) (o : Eval Bool) : Prop :=
  ∃ before after, ps = before ++ (line, some o) :: after ∧ Met before ∧ o ≠ .val true

/-- No argument changed that must not. -/
def Unchanged (as : List (Bool × Eval Bool)) : Prop := ∀ a ∈ as, a.1 = true ∨ a.2 = .val false

/-- An argument changed that must not, and those before it compared equal. -/
def Changed (as : List (Bool × Eval Bool)) : Prop :=
  ∃ before after, as = before ++ (false, .val true) :: after ∧ Unchanged before

/-- The function returned, after its preconditions were met. -/
def Returned (p : Path) : Prop := p.setup = none ∧ Met p.pres ∧ p.body = .val ()

/-- The contract allows the exception. -/
def Allowed (p : Path) (e : Exc) : Prop := meaning p.raises e = .expected

/-- The exception is an error of the user's code. -/
def UserError (p : Path) (e : Exc) : Prop :=
  meaning p.raises e = .failure ∧ .notDeterministic ∉ e.classes

end Verif.Attempt
