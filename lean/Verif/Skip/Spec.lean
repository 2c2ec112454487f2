import Verif.Skip.Model

/-! Specification: what Python does, and what functions promise. -/
namespace Verif.Skip

/-- An execution in which all functions are called. -/
def exec {σ α ο : Type} (sem : Nat → σ → Ret α) : Prog σ α ο → σ → ο
  | .done out, s => out s
  | .write g k, s => exec sem k (g s)
  | .call f k, s => exec sem (k (sem f s)) s

/-- The decisions skip with values that the functions might return, as `spec` says (their declared type and postconditions). -/
def Allowed {σ α ο : Type} (sem : Nat → σ → Ret α) (spec : Nat → σ → α → Prop) : Prog σ α ο → σ → List (Decision α) → Prop
  | .done _, _, _ => True
  | .write g k, s, ds => Allowed sem spec k (g s) ds
  | .call f k, s, ds =>
    match ds with
    | [] => Allowed sem spec (k (sem f s)) s []
    | .into :: ds => Allowed sem spec (k (sem f s)) s ds
    | .skip v :: ds => spec f s v ∧ Allowed sem spec (k (.val v)) s ds

/-- Which calls are skipped. -/
def skips {α : Type} (ds : List (Decision α)) : List Bool := ds.map fun | .into => false | .skip _ => true

/-- The first signature (from number `i`) whose annotations all fit the arguments, if any. -/
def firstFit (fits : Nat → Nat → Bool) (args : List Nat) : Nat → List (List Nat) → Option Nat
  | _, [] => none
  | i, sig :: sigs => if sig.length = args.length ∧ ∀ ap ∈ args.zip sig, fits ap.1 ap.2 = true then some i else firstFit fits args (i + 1) sigs

end Verif.Skip
