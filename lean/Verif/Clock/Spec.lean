import Verif.Clock.Model

/-! What programs rely on when they read clocks. -/
namespace Verif.Clock

/-- The reading of a clock, in seconds. -/
def Call.reading (k : Kind) : Call → Option Rat
  | .secs k' v => if k' = k then some v else none
  | .nanos k' n => if k' = k then some ((n : Rat) / 1000000000) else none
  | _ => none

/-- Time spent sleeping, as far as it counts for the clock: processor time does not. -/
def slept (k : Kind) : List Call → Rat
  | [] => 0
  | .sleep d :: cs => (if k = .monotonic then d else 0) + slept k cs
  | _ :: cs => slept k cs

/-- `time.sleep` accepts no negative amounts. -/
def SleepsForward (cs : List Call) : Prop := ∀ d, Call.sleep d ∈ cs → 0 ≤ d

/-- A real execution: before call `i` the clocks show `clock k i`.  They never run backwards, and a call to `sleep`
takes at least as long as asked. -/
structure Real (cs : List Call) (clock : Kind → Nat → Rat) : Prop where
  start : ∀ k, 0 ≤ clock k 0
  forward : ∀ k i, clock k i ≤ clock k (i + 1)
  small : ∀ k i, clock k i < huge
  sleeping : ∀ (i : Nat) (d : Rat), cs[i]? = some (Call.sleep d) → clock .monotonic i + d ≤ clock .monotonic (i + 1)
  reading : ∀ (k : Kind) (i : Nat) (c : Call) (v : Rat), cs[i]? = some c → c.reading k = some v → v = clock k i
  wall : ∀ (i : Nat) (v : Rat), cs[i]? = some (Call.time v) → 0 < v
  wallNs : ∀ (i : Nat) (n : Int), cs[i]? = some (Call.timeNs n) → 0 < n

end Verif.Clock
