/- The error of the reduction of the argument in `_ilog`. -/
import Verif.DecimalFunctions.Nearest
import Mathlib.Analysis.SpecialFunctions.Log.Deriv
import Mathlib.Tactic.IntervalCases
import Mathlib.Tactic.NormNum

namespace Verif.DecimalFunctions
open Verif.Decimal

theorem log_diff {u v β : ℝ} (hβ : 0 < β) (hu : β ≤ u) (hv : β ≤ v) : |Real.log u - Real.log v| ≤ |u - v| / β := by
  have key : ∀ u v : ℝ, β ≤ u → β ≤ v → Real.log u - Real.log v ≤ |u - v| / β := by
    intro u v hu hv
    have hu0 : 0 < u := by linarith
    have hv0 : 0 < v := by linarith
    rw [← Real.log_div hu0.ne' hv0.ne']
    have h1 := Real.log_le_sub_one_of_pos (div_pos hu0 hv0)
    have h2 : u / v - 1 = (u - v) / v := by field_simp
    rw [h2] at h1
    have h3 : (u - v) / v ≤ |u - v| / v := div_le_div_of_nonneg_right (le_abs_self _) hv0.le
    have h4 : |u - v| / v ≤ |u - v| / β := div_le_div_of_nonneg_left (abs_nonneg _) hβ hv
    linarith
  rw [abs_le]
  have h1 := key u v hu hv
  have h2 := key v u hv hu
  rw [abs_sub_comm v u] at h2
  constructor <;> linarith

/-- The square root of the rounded number. -/
theorem root_near {M n s κ : ℝ} (hM : 100 ≤ M) (hs : 0 < s) (h : |n - M * M * (s * s)| ≤ M / 2) {α : ℝ} (hα : α ≤ s)
    (hκ0 : 0 ≤ κ) (hκ : 1 / 2 ≤ κ * (2 * α - κ / 100)) (hκ3 : κ ≤ 100 * α) : |Real.sqrt n - M * s| ≤ κ := by
  have h1 := (abs_le.1 h).1
  have h2 := (abs_le.1 h).2
  have hMs : κ ≤ M * s := by nlinarith
  have key : M / 2 ≤ 2 * M * s * κ - κ * κ := by
    have e1 : M * (1 / 2) ≤ M * (κ * (2 * α - κ / 100)) := mul_le_mul_of_nonneg_left hκ (by linarith)
    have e2 : κ * κ ≤ M / 100 * (κ * κ) := by nlinarith [mul_nonneg hκ0 hκ0]
    have e3 : M * κ * α ≤ M * κ * s := mul_le_mul_of_nonneg_left hα (mul_nonneg (by linarith) hκ0)
    nlinarith
  rw [abs_le]
  constructor
  · have : M * s - κ ≤ Real.sqrt n := by
      apply Real.le_sqrt_of_sq_le
      nlinarith
    linarith
  · have : Real.sqrt n ≤ M * s + κ := by
      rw [Real.sqrt_le_left (by nlinarith)]
      nlinarith [mul_nonneg hκ0 hκ0]
    linarith

/-- The quotient with the rounded root. -/
theorem quot_near {M P y s d δ α : ℝ} (hM : 100 ≤ M) (hαs : α ≤ s) (hs : P * M * (s * s - 1) = y) (hd : |d - M * s| ≤ δ)
    (hδα : δ < 100 * (1 + α)) {Y : ℝ} (hY : |2 * P * (s - 1)| ≤ Y) :
    |M * y * 2 / (M + d) - 2 * P * M * (s - 1)| ≤ Y * δ / (1 + α - δ / 100) := by
  have hδ0 : 0 ≤ δ := le_trans (abs_nonneg _) hd
  have h1 := (abs_le.1 hd).1
  have h2 := (abs_le.1 hd).2
  have hden : 0 < 1 + α - δ / 100 := by linarith
  have hMd : M * (1 + α - δ / 100) ≤ M + d := by nlinarith
  have hMd0 : 0 < M + d := lt_of_lt_of_le (mul_pos (by linarith) hden) hMd
  have e1 : M * y * 2 / (M + d) - 2 * P * M * (s - 1) = M * (2 * P * (s - 1)) * (M * s - d) / (M + d) := by
    rw [eq_div_iff hMd0.ne', sub_mul, div_mul_cancel₀ _ hMd0.ne', ← hs]; ring
  rw [e1, abs_div, abs_mul, abs_mul, abs_of_pos hMd0, abs_of_pos (by linarith : (0 : ℝ) < M), abs_sub_comm (M * s) d]
  have hY0 : 0 ≤ Y := le_trans (abs_nonneg _) hY
  calc M * |2 * P * (s - 1)| * |d - M * s| / (M + d) ≤ M * Y * δ / (M + d) := by
        apply div_le_div_of_nonneg_right _ hMd0.le
        exact mul_le_mul (mul_le_mul_of_nonneg_left hY (by linarith)) hd (abs_nonneg _) (mul_nonneg (by linarith) hY0)
    _ ≤ M * Y * δ / (M * (1 + α - δ / 100)) := by
        apply div_le_div_of_nonneg_left _ (mul_pos (by linarith) hden) hMd
        exact mul_nonneg (mul_nonneg (by linarith) hY0) hδ0
    _ = Y * δ / (1 + α - δ / 100) := by
        have : M ≠ 0 := by linarith
        field_simp

/-- What a round of the reduction does with a number between `α ^ 2` and `γ ^ 2`. -/
theorem row {M y : ℤ} {R : ℕ} {α γ κ Y e : ℝ} (hM : 100 ≤ M) (hα : 0 < α) (hγ : 0 < γ) (hκ0 : 0 ≤ κ)
    (h1 : α ^ 2 ≤ 1 + y / (2 ^ R * M)) (h2 : 1 + y / (2 ^ R * M) ≤ γ ^ 2) (hn : 1 / 2 < 100 * α ^ 2)
    (hκ : R = 0 ∨ 1 / 2 ≤ κ * (2 * α - κ / 100)) (hκ3 : κ ≤ 100 * α) (hδα : κ + 1 / 2 < 100 * (1 + α))
    (hY1 : 2 ^ (R + 1) * (1 - α) ≤ Y) (hY2 : 2 ^ (R + 1) * (γ - 1) ≤ Y)
    (he : 1 / 2 + Y * (κ + 1 / 2) / (1 + α - (κ + 1 / 2) / 100) ≤ e) (hpos : 0 < α - e / (2 ^ (R + 1) * 100)) :
    ∃ d, sqrtNearest (M * (M + rshiftNearest y R)) M = some d ∧
      α - e / (2 ^ (R + 1) * 100) ≤ 1 + (divNearest (M * y * 2) (M + d) : ℝ) / (2 ^ (R + 1) * M) ∧
      1 + (divNearest (M * y * 2) (M + d) : ℝ) / (2 ^ (R + 1) * M) ≤ γ + e / (2 ^ (R + 1) * 100) ∧
      |2 ^ (R + 1) * M * Real.log (1 + (divNearest (M * y * 2) (M + d) : ℝ) / (2 ^ (R + 1) * M)) - 2 ^ R * M * Real.log (1 + y / (2 ^ R * M))| ≤
        e / (α - e / (2 ^ (R + 1) * 100)) := by
  have hMr : (100 : ℝ) ≤ M := by exact_mod_cast hM
  have hM0 : (0 : ℝ) < M := by linarith
  have hP : (0 : ℝ) < 2 ^ R := by positivity
  obtain ⟨s, hs⟩ : ∃ s, s = Real.sqrt (1 + y / (2 ^ R * M)) := ⟨_, rfl⟩
  have hα2 : 0 < α ^ 2 := by positivity
  have hss : s * s = 1 + y / (2 ^ R * M) := by rw [hs]; exact Real.mul_self_sqrt (by linarith)
  have hαs : α ≤ s := by rw [hs]; exact Real.le_sqrt_of_sq_le h1
  have hsγ : s ≤ γ := by rw [hs]; rw [Real.sqrt_le_left hγ.le]; exact h2
  have hs0 : 0 < s := by linarith
  have hy : 2 ^ R * M * (s * s - 1) = (y : ℝ) := by rw [hss]; field_simp; ring
  have hy2 : (y : ℝ) / 2 ^ R = M * (s * s - 1) := by rw [← hy]; field_simp
  have hr := abs_le.1 (rshiftNearest_err (K := ℝ) y R)
  rw [hy2] at hr
  -- the number under the root
  have hpos1 : (0 : ℝ) < M + rshiftNearest y R := by nlinarith
  have hpos2 : 0 < M + rshiftNearest y R := by exact_mod_cast hpos1
  obtain ⟨d, hd, hroot⟩ := sqrtNearest_spec (n := M * (M + rshiftNearest y R)) (a := M) (mul_pos (by omega) hpos2) (by omega)
  have hroot := hroot.err.le
  push_cast at hroot
  have hnear : |Real.sqrt (M * (M + rshiftNearest y R)) - M * s| ≤ κ := by
    rcases hκ with rfl | hκ
    · have : rshiftNearest y 0 = y := by
        unfold rshiftNearest; simp; omega
      rw [this]
      have e1 : (M : ℝ) * (M + y) = (M * s) * (M * s) := by
        have : (M : ℝ) * M * (s * s) = M * (M + M * (s * s - 1)) := by ring
        rw [show (M * s : ℝ) * (M * s) = M * M * (s * s) by ring, this, ← hy2]; simp
      rw [e1, Real.sqrt_mul_self (by positivity)]; simpa using hκ0
    · refine root_near hMr hs0 ?_ hαs hκ0 hκ hκ3
      have : (M : ℝ) * (M + rshiftNearest y R) - M * M * (s * s) = M * (rshiftNearest y R - M * (s * s - 1)) := by ring
      rw [this, abs_mul, abs_of_pos hM0]
      have : |(rshiftNearest y R : ℝ) - M * (s * s - 1)| ≤ 1 / 2 := abs_le.2 hr
      nlinarith
  have hdM : |(d : ℝ) - M * s| ≤ κ + 1 / 2 := by
    have := abs_add_le ((d : ℝ) - Real.sqrt (M * (M + rshiftNearest y R))) (Real.sqrt (M * (M + rshiftNearest y R)) - M * s)
    rw [sub_add_sub_cancel] at this
    linarith
  have hYabs : |2 * 2 ^ R * (s - 1)| ≤ Y := by
    have e1 : (2 : ℝ) ^ (R + 1) = 2 * 2 ^ R := by ring
    rw [e1] at hY1 hY2
    have hP2 : (0 : ℝ) < 2 * 2 ^ R := by positivity
    rw [abs_le]
    constructor
    · nlinarith
    · nlinarith
  have hquot := quot_near hMr hαs hy hdM hδα hYabs
  have hMd : 0 < M + d := by
    have h3 := (abs_le.1 hdM).1
    have : (0 : ℝ) < M + d := by nlinarith
    exact_mod_cast this
  have hdiv := divNearest_err (K := ℝ) (M * y * 2) hMd
  push_cast at hdiv
  refine ⟨d, hd, ?_⟩
  obtain ⟨y', hy'⟩ : ∃ y', y' = divNearest (M * y * 2) (M + d) := ⟨_, rfl⟩
  rw [← hy'] at hdiv ⊢
  have herr : |(y' : ℝ) - 2 ^ (R + 1) * M * (s - 1)| ≤ e := by
    have := abs_add_le ((y' : ℝ) - M * y * 2 / (M + d)) (M * y * 2 / (M + d) - 2 * 2 ^ R * M * (s - 1))
    rw [sub_add_sub_cancel] at this
    have e1 : (2 : ℝ) ^ (R + 1) = 2 * 2 ^ R := by ring
    rw [e1]
    linarith
  have hQ : (0 : ℝ) < 2 ^ (R + 1) * M := by positivity
  have hw : |(1 + (y' : ℝ) / (2 ^ (R + 1) * M)) - s| ≤ e / (2 ^ (R + 1) * M) := by
    have : 1 + (y' : ℝ) / (2 ^ (R + 1) * M) - s = (y' - 2 ^ (R + 1) * M * (s - 1)) / (2 ^ (R + 1) * M) := by field_simp; ring
    rw [this, abs_div, abs_of_pos hQ]
    exact div_le_div_of_nonneg_right herr hQ.le
  have he0 : 0 ≤ e := le_trans (abs_nonneg _) herr
  have hw2 : e / (2 ^ (R + 1) * M) ≤ e / (2 ^ (R + 1) * 100) :=
    div_le_div_of_nonneg_left he0 (by positivity) (mul_le_mul_of_nonneg_left hMr (by positivity))
  have hw3 := abs_le.1 (le_trans hw hw2)
  have he2 : 0 ≤ e / (2 ^ (R + 1) * 100) := by positivity
  refine ⟨by linarith, by linarith, ?_⟩
  have hlog : 2 ^ R * M * Real.log (1 + y / (2 ^ R * M)) = 2 ^ (R + 1) * M * Real.log s := by
    rw [← hss, Real.log_mul hs0.ne' hs0.ne']; ring
  rw [hlog, ← mul_sub, abs_mul, abs_of_pos hQ]
  have := log_diff (u := 1 + (y' : ℝ) / (2 ^ (R + 1) * M)) (v := s) hpos (by linarith) (by linarith)
  calc 2 ^ (R + 1) * M * |Real.log (1 + (y' : ℝ) / (2 ^ (R + 1) * M)) - Real.log s|
      ≤ 2 ^ (R + 1) * M * (e / (2 ^ (R + 1) * M) / (α - e / (2 ^ (R + 1) * 100))) := by
        apply mul_le_mul_of_nonneg_left _ hQ.le
        exact le_trans this (div_le_div_of_nonneg_right hw hpos.le)
    _ = e / (α - e / (2 ^ (R + 1) * 100)) := by field_simp

/-- Lower bounds for the number after some rounds. -/
def lo : ℕ → ℝ
  | 0 => 0.1 | 1 => 0.30547 | 2 => 0.546567 | 3 => 0.73703 | 4 => 0.857509 | 5 => 0.925545 | 6 => 0.961823 | 7 => 0.980606 | 8 => 0.990193
  | 9 => 0.995051 | _ => 0.997505
/-- Upper bounds. -/
def hi : ℕ → ℝ
  | 0 => 10 | 1 => 3.17303 | 2 => 1.787433 | 3 => 1.33922 | 4 => 1.158241 | 5 => 1.076685 | 6 => 1.037867 | 7 => 1.018874 | 8 => 1.009457
  | 9 => 1.004749 | _ => 1.002395
/-- Bounds for the error of the logarithm. -/
def er : ℕ → ℝ
  | 0 => 0 | 1 => 7.04 | 2 => 11.53 | 3 => 14 | 4 => 15.85 | 5 => 17.46 | 6 => 18.97 | 7 => 20.46 | 8 => 21.93 | 9 => 23.4 | _ => 24.87

/-- What is known after `R` rounds; `l` is the logarithm to be found. -/
structure Good (M : ℤ) (l : ℝ) (R : ℕ) (y : ℤ) : Prop where
  low : lo R ≤ 1 + y / (2 ^ R * M)
  high : 1 + y / (2 ^ R * M) ≤ hi R
  err : |2 ^ R * M * Real.log (1 + y / (2 ^ R * M)) - l| ≤ er R

theorem good_of_row {M y : ℤ} {l : ℝ} {R : ℕ} (hM : 100 ≤ M) (hg : Good M l R y) (α γ κ Y e : ℝ) (hα : 0 < α) (hγ : 0 < γ) (hκ0 : 0 ≤ κ)
    (h1 : α ^ 2 ≤ lo R) (h2 : hi R ≤ γ ^ 2) (hn : 1 / 2 < 100 * α ^ 2)
    (hκ : R = 0 ∨ 1 / 2 ≤ κ * (2 * α - κ / 100)) (hκ3 : κ ≤ 100 * α) (hδα : κ + 1 / 2 < 100 * (1 + α))
    (hY1 : 2 ^ (R + 1) * (1 - α) ≤ Y) (hY2 : 2 ^ (R + 1) * (γ - 1) ≤ Y)
    (he : 1 / 2 + Y * (κ + 1 / 2) / (1 + α - (κ + 1 / 2) / 100) ≤ e) (hpos : 0 < α - e / (2 ^ (R + 1) * 100))
    (hlo : lo (R + 1) ≤ α - e / (2 ^ (R + 1) * 100)) (hhi : γ + e / (2 ^ (R + 1) * 100) ≤ hi (R + 1))
    (her : er R + e / (α - e / (2 ^ (R + 1) * 100)) ≤ er (R + 1)) :
    ∃ d, sqrtNearest (M * (M + rshiftNearest y R)) M = some d ∧ Good M l (R + 1) (divNearest (M * y * 2) (M + d)) := by
  obtain ⟨d, hd, r1, r2, r3⟩ := row hM hα hγ hκ0 (le_trans h1 hg.low) (le_trans hg.high h2) hn hκ hκ3 hδα hY1 hY2 he hpos
  refine ⟨d, hd, le_trans hlo r1, le_trans r2 hhi, ?_⟩
  have := abs_add_le (2 ^ (R + 1) * M * Real.log (1 + (divNearest (M * y * 2) (M + d) : ℝ) / (2 ^ (R + 1) * M)) -
    2 ^ R * M * Real.log (1 + y / (2 ^ R * M))) (2 ^ R * M * Real.log (1 + y / (2 ^ R * M)) - l)
  rw [sub_add_sub_cancel] at this
  have := hg.err
  linarith

theorem good_succ {M y : ℤ} {l : ℝ} {R : ℕ} (hM : 100 ≤ M) (hR : R < 10) (hg : Good M l R y) :
    ∃ d, sqrtNearest (M * (M + rshiftNearest y R)) M = some d ∧ Good M l (R + 1) (divNearest (M * y * 2) (M + d)) := by
  interval_cases R
  · refine good_of_row hM hg 0.31622 3.16228 0 4.3246 2.15 ?_ ?_ ?_ ?_ ?_ ?_ ?_ ?_ ?_ ?_ ?_ ?_ ?_ ?_ ?_ ?_ <;> norm_num [lo, hi, er]
  · refine good_of_row hM hg 0.55269 1.78131 0.462 3.1253 2.449 ?_ ?_ ?_ ?_ ?_ ?_ ?_ ?_ ?_ ?_ ?_ ?_ ?_ ?_ ?_ ?_ <;> norm_num [lo, hi, er]
  · refine good_of_row hM hg 0.7393 1.33695 0.345 2.6956 1.816 ?_ ?_ ?_ ?_ ?_ ?_ ?_ ?_ ?_ ?_ ?_ ?_ ?_ ?_ ?_ ?_ <;> norm_num [lo, hi, er]
  · refine good_of_row hM hg 0.8585 1.15725 0.298 2.516 1.585 ?_ ?_ ?_ ?_ ?_ ?_ ?_ ?_ ?_ ?_ ?_ ?_ ?_ ?_ ?_ ?_ <;> norm_num [lo, hi, er]
  · refine good_of_row hM hg 0.92601 1.07622 0.276 2.4391 1.487 ?_ ?_ ?_ ?_ ?_ ?_ ?_ ?_ ?_ ?_ ?_ ?_ ?_ ?_ ?_ ?_ <;> norm_num [lo, hi, er]
  · refine good_of_row hM hg 0.96205 1.03764 0.266 2.4288 1.452 ?_ ?_ ?_ ?_ ?_ ?_ ?_ ?_ ?_ ?_ ?_ ?_ ?_ ?_ ?_ ?_ <;> norm_num [lo, hi, er]
  · refine good_of_row hM hg 0.98072 1.01876 0.261 2.4679 1.452 ?_ ?_ ?_ ?_ ?_ ?_ ?_ ?_ ?_ ?_ ?_ ?_ ?_ ?_ ?_ ?_ <;> norm_num [lo, hi, er]
  · refine good_of_row hM hg 0.99025 1.0094 0.258 2.496 1.455 ?_ ?_ ?_ ?_ ?_ ?_ ?_ ?_ ?_ ?_ ?_ ?_ ?_ ?_ ?_ ?_ <;> norm_num [lo, hi, er]
  · refine good_of_row hM hg 0.99508 1.00472 0.257 2.5191 1.46 ?_ ?_ ?_ ?_ ?_ ?_ ?_ ?_ ?_ ?_ ?_ ?_ ?_ ?_ ?_ ?_ <;> norm_num [lo, hi, er]
  · refine good_of_row hM hg 0.99752 1.00238 0.256 2.5396 1.465 ?_ ?_ ?_ ?_ ?_ ?_ ?_ ?_ ?_ ?_ ?_ ?_ ?_ ?_ ?_ ?_ <;> norm_num [lo, hi, er]

theorem er_le (R : ℕ) : er R ≤ 24.87 := by
  match R with
  | 0 | 1 | 2 | 3 | 4 | 5 | 6 | 7 | 8 | 9 => norm_num [er]
  | n + 10 => exact le_refl (24.87 : ℝ)

/-- The condition of the loop, as one inequality. -/
theorem loop_cond (M y : ℤ) (R : ℕ) (hM : 0 < M) :
    ((R ≤ 8 ∧ (y.natAbs : ℤ) * 2 ^ (8 - R) ≥ M) ∨ (R > 8 ∧ (y.natAbs : ℤ) / 2 ^ (R - 8) ≥ M)) ↔ 1 / 256 ≤ |(y : ℝ) / (2 ^ R * M)| := by
  have hMr : (0 : ℝ) < M := by exact_mod_cast hM
  have hab : ((y.natAbs : ℤ) : ℝ) = |(y : ℝ)| := by rw [Int.natCast_natAbs]; push_cast; rfl
  have hQ : (0 : ℝ) < 2 ^ R * M := by positivity
  have hkey : 1 / 256 ≤ |(y : ℝ) / (2 ^ R * M)| ↔ (2 : ℝ) ^ R * M ≤ 256 * |(y : ℝ)| := by
    rw [abs_div, abs_of_pos hQ, div_le_div_iff₀ (by norm_num) hQ]; constructor <;> intro h <;> linarith
  rw [hkey]
  by_cases hR : R ≤ 8
  · have e1 : (256 : ℝ) = 2 ^ R * 2 ^ (8 - R) := by
      rw [← pow_add, show R + (8 - R) = 8 by omega]; norm_num
    rw [e1, mul_assoc, mul_le_mul_iff_right₀ (by positivity), ← hab]
    constructor
    · rintro (⟨_, h⟩ | ⟨h, _⟩)
      · have : (M : ℝ) ≤ ((y.natAbs : ℤ) : ℝ) * 2 ^ (8 - R) := by exact_mod_cast h
        linarith
      · omega
    · intro h
      refine .inl ⟨hR, ?_⟩
      have h2 : (M : ℝ) ≤ ((y.natAbs : ℤ) : ℝ) * 2 ^ (8 - R) := by linarith
      exact_mod_cast h2
  · have e1 : (2 : ℝ) ^ R = 256 * 2 ^ (R - 8) := by
      rw [show (256 : ℝ) = 2 ^ 8 by norm_num, ← pow_add, show 8 + (R - 8) = R by omega]
    rw [e1, mul_assoc, mul_le_mul_iff_right₀ (by norm_num), ← hab]
    have hp : (0 : ℤ) < 2 ^ (R - 8) := by positivity
    have hd : (y.natAbs : ℤ) / 2 ^ (R - 8) ≥ M ↔ M * 2 ^ (R - 8) ≤ (y.natAbs : ℤ) := Int.le_ediv_iff_mul_le hp
    constructor
    · rintro (⟨h, _⟩ | ⟨_, h⟩)
      · omega
      · have := hd.1 h
        have : (M : ℝ) * 2 ^ (R - 8) ≤ ((y.natAbs : ℤ) : ℝ) := by exact_mod_cast this
        linarith
    · intro h
      refine .inr ⟨by omega, hd.2 ?_⟩
      have h2 : (M : ℝ) * 2 ^ (R - 8) ≤ ((y.natAbs : ℤ) : ℝ) := by linarith
      exact_mod_cast h2

/-- The reduction ends, within ten rounds. -/
theorem reduce_spec {M y : ℤ} {l : ℝ} (hM : 100 ≤ M) (n : ℕ) {R fuel : ℕ} (hn : R + n = 10) (hf : n < fuel) (hg : Good M l R y) :
    ∃ y' R', ilogReduce M 8 fuel y R = some (y', R') ∧ R' ≤ 10 ∧ |(y' : ℝ) / (2 ^ R' * M)| < 1 / 256 ∧
      |2 ^ R' * M * Real.log (1 + y' / (2 ^ R' * M)) - l| ≤ 24.87 := by
  induction n generalizing R fuel y with
  | zero =>
    obtain rfl : R = 10 := by omega
    obtain ⟨f, rfl⟩ : ∃ f, fuel = f + 1 := ⟨fuel - 1, by omega⟩
    have hw : |(y : ℝ) / (2 ^ 10 * M)| < 1 / 256 := by
      have h1 := hg.low
      have h2 := hg.high
      simp only [lo, hi] at h1 h2
      rw [abs_lt]; constructor <;> linarith
    refine ⟨y, 10, ?_, le_refl _, hw, le_trans hg.err (er_le _)⟩
    rw [ilogReduce, if_neg]
    rw [loop_cond M y 10 (by omega)]
    exact not_le.2 hw
  | succ n ih =>
    obtain ⟨f, rfl⟩ : ∃ f, fuel = f + 1 := ⟨fuel - 1, by omega⟩
    rw [ilogReduce]
    by_cases hc : 1 / 256 ≤ |(y : ℝ) / (2 ^ R * M)|
    · rw [if_pos ((loop_cond M y R (by omega)).2 hc)]
      obtain ⟨d, hd, hg'⟩ := good_succ hM (by omega) hg
      rw [hd]
      exact ih (by omega) (by omega) hg'
    · rw [if_neg (mt (loop_cond M y R (by omega)).1 hc)]
      exact ⟨y, R, rfl, by omega, not_le.1 hc, le_trans hg.err (er_le _)⟩

/-- The reduction for an argument between `0.1` and `10`. -/
theorem reduce_ilog {M x : ℤ} (hM : 100 ≤ M) (h1 : M ≤ 10 * x) (h2 : x ≤ 10 * M) :
    ∃ y R, ilogReduce M 8 64 (x - M) 0 = some (y, R) ∧ R ≤ 10 ∧ |(y : ℝ) / (2 ^ R * M)| < 1 / 256 ∧
      |2 ^ R * M * Real.log (1 + y / (2 ^ R * M)) - M * Real.log (x / M)| ≤ 24.87 := by
  have hM0 : (0 : ℝ) < M := by exact_mod_cast (by omega : 0 < M)
  have h1r : (M : ℝ) ≤ 10 * x := by exact_mod_cast h1
  have h2r : (x : ℝ) ≤ 10 * M := by exact_mod_cast h2
  have e : 1 + ((x - M : ℤ) : ℝ) / (2 ^ 0 * M) = x / M := by push_cast; field_simp; ring
  refine reduce_spec hM 10 rfl (by omega) ⟨?_, ?_, ?_⟩
  · rw [e, lo, le_div_iff₀ hM0]; linarith
  · rw [e, hi, div_le_iff₀ hM0]; linarith
  · rw [e]; simp [er]

end Verif.DecimalFunctions
