import Verif.Callbacks.Model
/-
Executions of frames, and what they should show.
-/
namespace Verif.Callbacks

mutual
/-- The execution of a frame: its instructions, each with its position, the callback that its handlers push, whether it completes (or raises
an exception), the frames that run during it, and the further course in the frame. After an exception that course begins at a handler, or is
empty: the exception leaves the frame. -/
inductive Run where
  | done
  | step (pc : Nat) (push : Option Nat) (completes : Bool) (inner : Calls) (rest : Run)
/-- Frames that run one after the other. -/
inductive Calls where
  | nil
  | cons (frame : Nat) (run : Run) (rest : Calls)
end

/-- The position of the first instruction. -/
def Run.next : Run → Option Nat
  | .done => none
  | .step pc _ _ _ _ => some pc

mutual
/-- The calls of the tracer. -/
def Run.events (frame : Nat) : Run → List Event
  | .done => []
  | .step pc push _ inner rest => ⟨frame, pc, push⟩ :: (inner.events ++ rest.events frame)
def Calls.events : Calls → List Event
  | .nil => []
  | .cons frame run rest => run.events frame ++ rest.events
end

/-- The callback runs. -/
def ranOf : Option Nat → List Seen
  | none => []
  | some cb => [.ran cb]

mutual
/-- What should be seen: the callback of an instruction that completes runs right before the next instruction of the same frame, and no
callback runs otherwise. `pending` is the callback of the instruction before. -/
def Run.shows (frame : Nat) (pending : Option Nat) : Run → List Seen
  | .done => []
  | .step pc push completes inner rest =>
    ranOf pending ++ .op frame pc :: (inner.shows ++ rest.shows frame (if completes then push else none))
def Calls.shows : Calls → List Seen
  | .nil => []
  | .cons frame run rest => run.shows frame none ++ rest.shows
end

mutual
/-- Executions as they occur: frames that run are not active already, and an instruction with a callback that completes is followed by the
next one in the same frame (such instructions do not jump, nor leave the frame). -/
def Run.Ok (active : List Nat) (frame : Nat) : Run → Prop
  | .done => True
  | .step pc push completes inner rest =>
    inner.Ok (frame :: active) ∧ rest.Ok active frame ∧ (push ≠ none → completes = true → rest.next = some (pc + 2))
def Calls.Ok (active : List Nat) : Calls → Prop
  | .nil => True
  | .cons frame run rest => frame ∉ active ∧ run.Ok active frame ∧ rest.Ok active
end

mutual
/-- No instruction with a callback raises an exception. -/
def Run.Clean : Run → Prop
  | .done => True
  | .step _ push completes inner rest => (push ≠ none → completes = true) ∧ inner.Clean ∧ rest.Clean
def Calls.Clean : Calls → Prop
  | .nil => True
  | .cons _ run rest => run.Clean ∧ rest.Clean
end

end Verif.Callbacks
