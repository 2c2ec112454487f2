import Verif.Clock.Lemmas
import Mathlib.Tactic.NormNum

/-! Theorems about the simulated clocks (C44). -/
namespace Verif.Clock

/-- C44.  On every explored path in which no program sleeps for a negative time, a later reading of a clock is at
least the earlier one plus the time slept in between, whether seconds or nanoseconds are read and whatever else
is called in between. -/
theorem never_backwards (e e' : Earliest) (before between after : List Call) (a b : Call) (k : Kind) (v w : Rat)
    (h : run e (before ++ a :: between ++ b :: after) = some e') (hs : SleepsForward between)
    (ha : a.reading k = some v) (hb : b.reading k = some w) : v + slept k between ≤ w := by
  rw [List.append_assoc, run_append] at h
  cases h1 : run e before with
  | none => rw [h1] at h; cases h
  | some e1 =>
    rw [h1] at h
    simp only [Option.bind_some, List.cons_append, run] at h
    cases h2 : step e1 a with
    | none => rw [h2] at h; cases h
    | some e2 =>
      rw [h2] at h
      simp only at h
      rw [run_append] at h
      cases h3 : run e2 between with
      | none => rw [h3] at h; cases h
      | some e3 =>
        rw [h3] at h
        simp only [Option.bind_some, run] at h
        cases h4 : step e3 b with
        | none => rw [h4] at h; cases h
        | some e4 =>
          have g1 := step_get h2 k
          have g2 := run_get between h3 hs k
          have g3 := step_get h4 k
          rw [ha] at g1
          rw [hb] at g3
          simp only at g1 g3
          linarith

/-- The first reading is at least the time slept before it. -/
theorem first_reading (before after : List Call) (b : Call) (k : Kind) (w : Rat) (e' : Earliest)
    (h : run {} (before ++ b :: after) = some e') (hs : SleepsForward before)
    (hb : b.reading k = some w) : slept k before ≤ w := by
  rw [run_append] at h
  cases h1 : run {} before with
  | none => rw [h1] at h; cases h
  | some e1 =>
    rw [h1] at h
    simp only [Option.bind_some, run] at h
    cases h2 : step e1 b with
    | none => rw [h2] at h; cases h
    | some e2 =>
      have g1 := run_get before h1 hs k
      have g2 := step_get h2 k
      rw [hb] at g2
      simp only at g2
      have : (({} : Earliest).get k) = 0 := by cases k <;> rfl
      linarith

/-- A path with readings in seconds and nanoseconds and a sleep. -/
def sample : List Call :=
  [.secs .monotonic 5, .sleep (3 / 2), .secs .processTime 1, .time 7, .nanos .monotonic 6500000000,
   .nanos .processTime 1000000000]

example : run {} sample = some ⟨13 / 2, 1⟩ ∧ SleepsForward sample ∧ slept .monotonic sample = 3 / 2 ∧
    slept .processTime sample = 0 := by
  refine ⟨by decide +kernel, ?_, by decide +kernel, by decide +kernel⟩
  intro d hd
  simp [sample] at hd
  rw [hd]; decide +kernel

/-- A reading that comes too early is not explored. -/
example : run {} [.secs .monotonic 5, .sleep 2, .secs .monotonic 6] = none := by decide +kernel

/-- The other direction: every real execution, with any clocks that never run backwards and stay below a hundred
thousand years, is explored. -/
theorem real_explored (cs : List Call) (clock : Kind → Nat → Rat) (h : Real cs clock) :
    ∃ e, run {} cs = some e :=
  real_run h cs 0 {} rfl (fun k => by
    have : (({} : Earliest).get k) = 0 := by cases k <;> rfl
    rw [this]; exact h.start k)

example : Real [.secs .monotonic 0, .sleep 1, .secs .monotonic 2] (fun _ i => if i < 2 then 0 else 2) where
  start := by intro k; simp
  forward := by
    intro k i
    by_cases h1 : i + 1 < 2
    · have : i < 2 := by omega
      simp [h1, this]
    · simp only [h1, if_false]
      split <;> norm_num
  small := by intro k i; simp only [huge]; split <;> norm_num
  sleeping := by
    intro i d h
    match i, h with
    | 0, h => simp at h
    | 1, h => simp at h; subst h; norm_num
    | 2, h => simp at h
    | n + 3, h => simp at h
  reading := by
    intro k i c v h hv
    match i, h with
    | 0, h => simp at h; subst h; simp [Call.reading] at hv; simp [hv]
    | 1, h => simp at h; subst h; simp [Call.reading] at hv
    | 2, h => simp at h; subst h; simp [Call.reading] at hv; simp [hv]
    | n + 3, h => simp at h
  wall := by
    intro i v h
    match i, h with
    | 0, h => simp at h
    | 1, h => simp at h
    | 2, h => simp at h
    | n + 3, h => simp at h
  wallNs := by
    intro i v h
    match i, h with
    | 0, h => simp at h
    | 1, h => simp at h
    | 2, h => simp at h
    | n + 3, h => simp at h

/-- Disagreement: `sleep` accepts negative amounts (Python raises `ValueError`), and then the monotonic clock
may run backwards. -/
theorem negative_sleep_turns_back :
    run {} [.secs .monotonic 5, .sleep (-3), .secs .monotonic 2] = some ⟨2, 0⟩ := by decide +kernel

end Verif.Clock
