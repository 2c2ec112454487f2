import Verif.Evals.Spec
/-
`_eval` (crosshair/libimpl/builtinslib.py 4884-4889).
-/
namespace Verif.Evals

/-- Lines 4887-4888: each of the two is the caller's if it is not given. (Dictionaries are not symbolic here, so that `realize` leaves them.) -/
def scopes (callerLocals callerGlobals : Nat) (g l : Option Nat) : Nat × Nat :=
  ((match l with
    | none => callerLocals
    | some l => l),
   match g with
   | none => callerGlobals
   | some g => g)

/-- `_eval` (4884-4889): the rest is Python's, with both given. -/
def eval (builtins : Nat → Option Nat) (cl cg : Nat) (h : Heap) (e : Expr) (g l : Option Nat) : Heap × Option Nat :=
  let s := scopes cl cg g l
  pyEval builtins cl cg h e (some s.2) (some s.1)

end Verif.Evals
