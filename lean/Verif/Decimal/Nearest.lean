/- Truncating and rounding to the nearest integer. -/
import Verif.Decimal.Quantize
import Verif.Decimal.Special

namespace Verif.Decimal

set_option linter.unusedSectionVars false

section
variable {K : Type} [Field K] [LinearOrder K] [IsStrictOrderedRing K] [FloorRing K]

theorem sg_cases (s : Bool) (M : K) : ((if s then -1 else 1) * M : K) = if s then -M else M := by cases s <;> simp

theorem truncate_sg (s : Bool) {M : K} (h : 0 ≤ M) : truncate ((if s then -1 else 1) * M) = minusOne s * ⌊M⌋ := by
  rw [sg_cases]
  cases s
  · simp [truncate, h, minusOne]
  · simp only [truncate, if_true, minusOne]
    by_cases h0 : 0 ≤ -M
    · have : M = 0 := by linarith
      subst this; simp
    · rw [if_neg h0, Int.ceil_neg]; ring

theorem nearest_sg (s : Bool) {M : K} {n : ℤ} (h : IsNearestEven ((if s then -1 else 1) * M) n) : IsNearestEven M (minusOne s * n) := by
  rw [sg_cases] at h
  cases s
  · simpa [minusOne, IsNearestEven] using h
  · obtain ⟨h1, h2⟩ := h
    have e1 : |M - ((minusOne true * n : ℤ) : K)| = |-M - (n : K)| := by
      rw [← abs_neg]; congr 1; simp only [minusOne, if_true]; push_cast; ring
    refine ⟨by rw [e1]; exact h1, fun h3 => ?_⟩
    rw [e1] at h3
    have := h2 h3
    simp only [minusOne, if_true]; omega

theorem roundAbs_nearest {M : K} {n : ℤ} (h : IsNearestEven M n) : roundAbs .halfEven false M = n := by
  obtain ⟨h1, h2⟩ := h
  rw [abs_le] at h1
  have f1 := Int.floor_le M
  have f2 := Int.lt_floor_add_one M
  unfold roundAbs
  dsimp only
  by_cases hn : (n : K) ≤ M
  · have hfl : ⌊M⌋ = n := by
      rw [Int.floor_eq_iff]; exact ⟨hn, by linarith [h1.2]⟩
    rw [hfl]
    by_cases ht : M - n = 1 / 2
    · rw [if_pos ⟨ht, h2 (by rw [ht, abs_of_pos]; norm_num)⟩]
    · rw [if_neg (fun h3 => ht h3.1), Int.floor_eq_iff]
      refine ⟨by linarith, ?_⟩
      have : M - n < 1 / 2 := lt_of_le_of_ne h1.2 ht
      linarith
  · have hn' : M < n := not_le.1 hn
    have hfl : ⌊M⌋ = n - 1 := by
      rw [Int.floor_eq_iff]; push_cast; exact ⟨by linarith [h1.1], by linarith⟩
    rw [hfl]
    have hup : ⌊M + 1 / 2⌋ = n := by
      rw [Int.floor_eq_iff]; exact ⟨by linarith [h1.1], by linarith⟩
    by_cases ht : M - ((n - 1 : ℤ) : K) = 1 / 2 ∧ (n - 1) % 2 = 0
    · exfalso
      obtain ⟨ht1, ht2⟩ := ht
      push_cast at ht1
      have := h2 (by rw [show M - n = -(1 / 2) by linarith, abs_neg, abs_of_pos]; norm_num)
      omega
    · rw [if_neg ht, hup]

theorem roundAbs_nonneg (m : Mode) (s : Bool) {M : K} (h : 0 ≤ M) : 0 ≤ roundAbs m s M :=
  le_trans (Int.floor_nonneg.2 h) (roundAbs_ge m s M)

end

end Verif.Decimal
