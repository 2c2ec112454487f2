import Mathlib.Data.Rat.Defs
import Mathlib.Data.Finset.Card
import Mathlib.Logic.Function.Basic
/-
What small stores are measured by: dictionaries by identity, values in scopes of threads, saved results, and coverage.
-/
namespace Verif.Cells

/-! ### Dictionaries by identity -/

/-- What happens in a process: objects come and go, at addresses that are used again; a dictionary is used with objects that the program
still has. An object is a number that is never used again. -/
inductive Op (V : Type) where
  /-- A new object at a free address. -/
  | alloc (addr : Nat)
  /-- The program gives up its references to an object. -/
  | drop (o : Nat)
  /-- The garbage collector frees an object. -/
  | collect (o : Nat)
  | set (o : Nat) (v : V)
  | get (o : Nat)
  | del (o : Nat)

/-- What is seen of an operation. -/
inductive Seen (V : Type) where
  | done
  | value (v : V)
  | keyError
  deriving DecidableEq

/-- A dictionary by identity: a function of objects. -/
def identity {V : Type} (m : Nat → Option V) : Op V → (Nat → Option V) × Seen V
  | .set o v => (Function.update m o (some v), .done)
  | .get o => (m, match m o with | some v => .value v | none => .keyError)
  | .del o => match m o with | some _ => (Function.update m o none, .done) | none => (m, .keyError)
  | _ => (m, .done)

/-- What is seen of operations in turn, and the dictionary after them. -/
def identityRun {V : Type} (m : Nat → Option V) : List (Op V) → (Nat → Option V) × List (Seen V)
  | [] => (m, [])
  | op :: ops => let r := identityRun (identity m op).1 ops; (r.1, (identity m op).2 :: r.2)

/-! ### Scopes -/

/-- What a thread does with a variable of dynamic scope. -/
inductive Act (V : Type) where
  | enter (v : V) (reentrant : Bool)
  | leave
  | get (default : Option V)

/-- What is seen of it. -/
inductive Out (V : Type) where
  | fine
  | value (v : V)
  | assertion
  deriving DecidableEq

/-- One thread alone, with the values of its open scopes, the innermost first. -/
def nested {V : Type} (open_ : List V) : Act V → List V × Out V
  | .enter v reentrant => if reentrant = false ∧ open_ ≠ [] then (open_, .assertion) else (v :: open_, .fine)
  | .leave => (open_.tail, .fine)
  | .get d =>
    (open_, match open_, d with
      | v :: _, _ => .value v
      | [], some v => .value v
      | [], none => .assertion)

/-- What is seen of acts of threads, each with its own scopes. -/
def nestedRun {V : Type} (s : Nat → List V) : List (Nat × Act V) → List (Out V)
  | [] => []
  | (t, a) :: rest => (nested (s t) a).2 :: nestedRun (Function.update s t (nested (s t) a).1) rest

end Verif.Cells
