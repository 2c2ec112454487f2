import Verif.Interrupts.Spec
/-
`watch` (crosshair/main.py 529-568) with interrupts.
-/
namespace Verif.Interrupts

/-- The steps in the `try` block (main.py 537-558): looking at the paths, making the watcher, and passing over files. -/
inductive Step
  | look | construct | pass (started : Nat)

/-- Whether the variable `watcher` is set, and the number of running workers. -/
structure St where
  bound : Bool
  workers : Nat

/-- One step. Passes start workers (watcher.py 255). -/
def step (s : St) : Step → St
  | .look => s
  | .construct => { s with bound := true }
  | .pass n => { s with workers := s.workers + n }

/-- The steps before a `KeyboardInterrupt` in the `try` block, after `k` steps; `except KeyboardInterrupt: pass` (main.py 559-560). Without an interrupt, `k` is at least the number of steps. -/
def body : Nat → List Step → St → St
  | 0, _, s => s
  | _, [], s => s
  | k + 1, a :: rest, s => body k rest (step s a)

/-- The steps of `watch` for paths that exist; `passes` are the numbers of workers that the passes start. -/
def steps (passes : List Nat) : List Step := .look :: .construct :: passes.map .pass

/-- `watch` (main.py 529-568), interrupted after `k` steps of the `try` block, and, if `again`, once more before the workers are terminated. (All workers have started their processes; what happens to others is in `Verif.Watch`.) -/
def watch (passes : List Nat) (k : Nat) (again : Bool) : Outcome :=
  let s := body k (steps passes) ⟨false, 0⟩
  if again then ⟨.keyboardInterrupt, s.workers⟩
  else if s.bound then ⟨.status 0, 0⟩ else ⟨.unboundLocalError, s.workers⟩

end Verif.Interrupts
