import Verif.Interrupts.Model
/-
Pressing Ctrl-C during `crosshair watch`.
-/
namespace Verif.Interrupts

theorem body_bound : ∀ (k : Nat) (l : List Step) (s : St), s.bound = true → (body k l s).bound = true
  | 0, _, _, h => by simpa [body] using h
  | _ + 1, [], _, h => by simpa [body] using h
  | k + 1, a :: rest, s, h => by
    simp only [body]
    refine body_bound k rest _ ?_
    cases a <;> simp [step, h]

/-- `crosshair watch` ends normally and leaves no workers if it is interrupted once, at any time after the watcher has been made, for any passes. -/
theorem interrupt_partial (passes : List Nat) (k : Nat) (hk : 2 ≤ k) : Clean (watch passes k false) := by
  obtain ⟨j, rfl⟩ : ∃ j, k = j + 1 + 1 := ⟨k - 2, by omega⟩
  have h : (body (j + 1 + 1) (steps passes) ⟨false, 0⟩).bound = true := by
    simp only [steps, body]
    exact body_bound j _ _ rfl
  simp [watch, h, Clean]

example : (body 4 (steps [3, 2, 5]) ⟨false, 0⟩).workers = 5 ∧ watch [3, 2, 5] 4 false = ⟨.status 0, 0⟩ := by decide +kernel

/-- Disagreement: an interrupt before that (while files are looked at, or the watcher is made) ends with an `UnboundLocalError`. -/
theorem early_interrupt (passes : List Nat) (k : Nat) (hk : k < 2) : (watch passes k false).ending = .unboundLocalError := by
  match k, hk with
  | 0, _ => rfl
  | 1, _ => rfl

example : watch [3, 2] 1 false = ⟨.unboundLocalError, 0⟩ := by decide +kernel

theorem body_workers : ∀ (k : Nat) (ns : List Nat) (s : St), ns.length ≤ k → (body k (ns.map .pass) s).workers = s.workers + ns.sum
  | 0, [], s, _ => by simp [body]
  | 0, _ :: _, _, h => by simp at h
  | _ + 1, [], s, _ => by simp [body]
  | k + 1, n :: ns, s, h => by
    simp only [List.map_cons, body]
    rw [body_workers k ns _ (by simpa using h)]
    simp [step]
    omega

/-- Disagreement: a second interrupt while the workers are being terminated leaves them running, and ends with a `KeyboardInterrupt`. -/
theorem second_interrupt (passes : List Nat) : watch passes (passes.length + 2) true = ⟨.keyboardInterrupt, passes.sum⟩ := by
  have h : (body (passes.length + 2) (steps passes) ⟨false, 0⟩).workers = passes.sum := by
    simp only [steps, body]
    rw [body_workers _ _ _ (Nat.le_refl _)]
    simp [step]
  simp [watch, h]

example : watch [3, 2] 4 true = ⟨.keyboardInterrupt, 5⟩ := by decide +kernel

end Verif.Interrupts
