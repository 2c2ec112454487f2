import Verif.Callbacks.Lemmas
/-
Property theorems for callbacks after instructions (C124).
-/
namespace Verif.Callbacks

/-- **C124.** In every execution - with frames nested to any depth, and exceptions in instructions that have no callback - in which no
instruction with a callback raises, each callback runs exactly once, right before the next instruction of the frame of its own instruction;
no callback runs at another time or for another frame, and none is left over. -/
theorem callbacks_exact_partial (c : Calls) (hok : c.Ok []) (hc : c.Clean) : handleAll [] c.events = ([], c.shows) :=
  calls_exact c [] [] hok hc (by simp)

/-- A frame with a callback, during which another frame (with its own callback, and an exception in an instruction without one) runs. -/
def sample : Calls := .cons 1 (.step 10 (some 100) true (.cons 2 (.step 0 none false .nil (.step 30 (some 101) true .nil (.step 32 none true .nil .done))) .nil)
  (.step 12 none true .nil .done)) .nil

example : sample.Ok [] ∧ sample.Clean := by
  simp [sample, Calls.Ok, Run.Ok, Calls.Clean, Run.Clean, Run.next]

example : handleAll [] sample.events = ([], [.op 1 10, .op 2 0, .op 2 30, .ran 101, .op 2 32, .ran 100, .op 1 12]) := by decide +kernel

/-- An instruction at position 10 whose callback is pushed, and which raises; the handler at 40 goes back, and the instruction completes with
an operand that needs no callback. -/
def again : Calls := .cons 1 (.step 10 (some 100) false .nil (.step 40 none true .nil (.step 10 none true .nil (.step 12 none true .nil .done)))) .nil

/-- Disagreement: the callback of an instruction that raised is not dropped; when the instruction is executed again in the same frame, with
an operand that needs no callback, the old callback runs after it and overwrites the result. -/
theorem stale_runs : again.Ok [] ∧ again.shows = [.op 1 10, .op 1 40, .op 1 10, .op 1 12] ∧
    handleAll [] again.events = ([], [.op 1 10, .op 1 40, .op 1 10, .ran 100, .op 1 12]) := by
  refine ⟨?_, by decide +kernel, by decide +kernel⟩
  simp [again, Calls.Ok, Run.Ok, Run.next]

/-- An instruction with a callback runs frame 2, which calls frame 3 and handles the exception of an instruction with a callback there. -/
def nested : Calls := .cons 1 (.step 10 (some 100) true
    (.cons 2 (.step 0 none false (.cons 3 (.step 4 (some 101) false .nil .done) .nil) (.step 20 none true .nil .done)) .nil)
  (.step 12 none true .nil .done)) .nil

/-- Disagreement: the callback of a frame that was left by an exception stays on top of the stack, and hides the callback of the instruction
that was running further out: that one never runs, so the stand-in stays as the result of its instruction. -/
theorem stale_hides : nested.Ok [] ∧ nested.shows = [.op 1 10, .op 2 0, .op 3 4, .op 2 20, .ran 100, .op 1 12] ∧
    (handleAll [] nested.events).2 = [.op 1 10, .op 2 0, .op 3 4, .op 2 20, .op 1 12] := by
  refine ⟨?_, by decide +kernel, by decide +kernel⟩
  simp [nested, Calls.Ok, Run.Ok, Run.next]

/-- **C124.** Whatever happens, a callback only runs in its own frame, at the position after its own instruction. -/
theorem ran_at_own_position (stack : List Entry) (ev : Event) (cb : Nat) (h : Seen.ran cb ∈ (handle stack ev).2) :
    ∃ e ∈ stack, e.callback = cb ∧ e.frame = ev.frame ∧ e.expected = ev.pc := by
  cases stack with
  | nil => simp [handle, runTop] at h
  | cons e rest =>
    by_cases h1 : e.frame = ev.frame
    · by_cases h2 : e.expected = ev.pc
      · simp [handle, runTop, h1, h2] at h
        exact ⟨e, by simp, h.symm, h1, h2⟩
      · simp [handle, runTop, h1, h2] at h
    · simp [handle, runTop, h1] at h

example : Seen.ran 7 ∈ (handle [⟨1, 12, 7⟩] ⟨1, 12, none⟩).2 := by decide

end Verif.Callbacks
