/-
Model of callbacks after instructions: /repo/crosshair/_tracers.c (`CTracer_push_postop_callback` 667-686, `CTracer_handle_opcode` 407-510) and
/repo/crosshair/tracers.py (`set_postop_callback`, 279-280). The interceptors of /repo/crosshair/opcode_intercept.py put a stand-in on the
frame's stack before an instruction and a callback that puts the real result in place after it.

Frames, positions and callbacks are numbers. Which callback (if any) the handlers of an instruction push is part of the event; there is at
most one for each instruction. Callbacks do not raise.
-/
namespace Verif.Callbacks

/-- `FrameNextIandCallback`. -/
structure Entry where
  frame : Nat
  expected : Nat
  callback : Nat
  deriving DecidableEq, Repr

/-- What is seen from outside: a callback runs, an instruction of a frame starts. -/
inductive Seen where
  | ran (callback : Nat)
  | op (frame pc : Nat)
  deriving DecidableEq, Repr

/-- The tracer is called before an instruction; handlers push a callback for it. -/
structure Event where
  frame : Nat
  pc : Nat
  push : Option Nat
  deriving DecidableEq, Repr

/-- Running the callback on top of the stack (454-484): only if it is for this frame and this position; else nothing is dropped. -/
def runTop (stack : List Entry) (frame pc : Nat) : List Entry × List Seen :=
  match stack with
  | [] => ([], [])
  | e :: rest =>
    if e.frame = frame then
      if e.expected ≠ pc then (e :: rest, []) else (rest, [.ran e.callback])
    else (e :: rest, [])

/-- `CTracer_push_postop_callback` (667-686): the callback is expected at the next position, two bytes further. -/
def pushCallback (stack : List Entry) (frame pc : Nat) : Option Nat → List Entry
  | none => stack
  | some cb => ⟨frame, pc + 2, cb⟩ :: stack

/-- `CTracer_handle_opcode` (407-510), then the instruction. -/
def handle (stack : List Entry) (ev : Event) : List Entry × List Seen :=
  let (stack, seen) := runTop stack ev.frame ev.pc
  (pushCallback stack ev.frame ev.pc ev.push, seen ++ [.op ev.frame ev.pc])

/-- A whole execution. -/
def handleAll : List Entry → List Event → List Entry × List Seen
  | stack, [] => (stack, [])
  | stack, ev :: evs =>
    let (stack, seen) := handle stack ev
    let (stack, seen') := handleAll stack evs
    (stack, seen ++ seen')

end Verif.Callbacks
