import Verif.Numeric.Model
/-
Two conversions of large integers to floats.
-/
namespace Verif.Numeric

theorem floatOfInt_two53 : floatOfInt (2 ^ 53 + 1) = .ok (2 ^ 53 : ℚ) := by
  have h : (match floatOfInt (2 ^ 53 + 1) with
      | .ok q => decide (q = 2 ^ 53)
      | .error _ => false) = true := by decide +kernel
  generalize floatOfInt (2 ^ 53 + 1) = r at h
  cases r with
  | ok q => rw [of_decide_eq_true h]
  | error e => cases h

theorem floatOfInt_huge : floatOfInt (10 ^ 400) = .error .overflow := by
  have h : (match floatOfInt (10 ^ 400) with
      | .ok _ => false
      | .error e => decide (e = .overflow)) = true := by decide +kernel
  generalize floatOfInt (10 ^ 400) = r at h
  cases r with
  | ok q => cases h
  | error e => rw [of_decide_eq_true h]

end Verif.Numeric
