/-
How a command can end.
-/
namespace Verif.Interrupts

/-- The end of a command: an exit status, or an exception that the user sees. -/
inductive End
  | status (n : Nat) | unboundLocalError | keyboardInterrupt
  deriving DecidableEq

/-- The end of a command and the number of worker processes that still run. -/
structure Outcome where
  ending : End
  workers : Nat
  deriving DecidableEq

/-- What the user expects of pressing Ctrl-C: the command ends normally and leaves no workers. -/
def Clean (o : Outcome) : Prop := o.ending = .status 0 ∧ o.workers = 0

end Verif.Interrupts
