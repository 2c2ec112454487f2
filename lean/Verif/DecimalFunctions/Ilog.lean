/- The error of `_ilog`. -/
import Verif.DecimalFunctions.Reduce
import Mathlib.Analysis.Complex.ExponentialBounds

namespace Verif.DecimalFunctions
open Verif.Decimal

theorem len_nonneg {n : ℤ} (h : 0 ≤ n) : len n = (str n.natAbs).length := by rw [len, if_neg (by omega)]; rfl

theorem len_ten (p : ℕ) : len (10 ^ p) = p + 1 := by
  have h : (0 : ℤ) ≤ 10 ^ p := by positivity
  rw [len_nonneg h]
  have e : ((10 : ℤ) ^ p).natAbs = 10 ^ p := by rw [Int.natAbs_pow]; rfl
  rw [e]
  have hne : 10 ^ p ≠ 0 := by positivity
  have h1 : (str (10 ^ p)).length ≤ p + 1 := (length_str_le hne).2 (Nat.pow_lt_pow_right (by omega) (by omega))
  have h2 : ¬ (str (10 ^ p)).length ≤ p := fun h => absurd ((length_str_le hne).1 h) (by omega)
  omega

/-- There are enough terms. -/
theorem terms_spec (p : ℕ) : ∃ T : ℕ, terms (10 ^ p) 8 = T ∧ 1 ≤ T ∧ (10 : ℝ) * 10 ^ p ≤ 256 ^ T := by
  have h1 := Int.fmod_add_mul_fdiv (-10 * ((p + 1 : ℕ) : ℤ)) 24
  have h2 := Int.fmod_nonneg_of_pos (-10 * ((p + 1 : ℕ) : ℤ)) (b := 24) (by omega)
  have h3 := Int.fmod_lt_of_pos (-10 * ((p + 1 : ℕ) : ℤ)) (b := 24) (by omega)
  have ht : terms (10 ^ p) 8 = -((-10 * ((p + 1 : ℕ) : ℤ)).fdiv 24) := by rw [terms, len_ten]; rfl
  generalize (-10 * ((p + 1 : ℕ) : ℤ)).fdiv 24 = q at *
  generalize (-10 * ((p + 1 : ℕ) : ℤ)).fmod 24 = r at *
  refine ⟨(-q).toNat, by rw [ht]; omega, by omega, ?_⟩
  have h4 : 10 * (p + 1) ≤ 24 * (-q).toNat := by push_cast at *; omega
  generalize (-q).toNat = T at *
  have h5 : ((10 : ℕ) ^ (p + 1)) ^ 3 ≤ (256 ^ T) ^ 3 := by
    calc ((10 : ℕ) ^ (p + 1)) ^ 3 = 1000 ^ (p + 1) := by rw [← Nat.pow_mul, Nat.mul_comm, Nat.pow_mul]
      _ ≤ 1024 ^ (p + 1) := Nat.pow_le_pow_left (by omega) _
      _ = 2 ^ (10 * (p + 1)) := by rw [Nat.pow_mul]
      _ ≤ 2 ^ (24 * T) := Nat.pow_le_pow_right (by omega) h4
      _ = (256 ^ T) ^ 3 := by rw [← Nat.pow_mul, show (256 : ℕ) = 2 ^ 8 by norm_num, ← Nat.pow_mul]; congr 1; ring
  have h6 : (10 : ℕ) ^ (p + 1) ≤ 256 ^ T := by
    by_contra h7
    exact absurd h5 (not_le.2 (Nat.pow_lt_pow_left (not_le.1 h7) (by omega)))
  have h8 : ((10 : ℕ) ^ (p + 1) : ℝ) ≤ (256 : ℕ) ^ T := by exact_mod_cast h6
  rw [pow_succ] at h8
  push_cast at h8
  linarith

/-- The series, in real numbers. -/
noncomputable def logSeries (t : ℝ) : ℕ → ℝ → ℝ
  | 0, v => v
  | k + 1, v => logSeries t k (1 / (k + 1 : ℕ) - t * v)

theorem logSeries_eq (t : ℝ) (k : ℕ) (v : ℝ) :
    logSeries t k v = ∑ i ∈ Finset.range k, (-t) ^ i / (i + 1 : ℕ) + (-t) ^ k * v := by
  induction k generalizing v with
  | zero => simp [logSeries]
  | succ k ih => rw [logSeries, ih, Finset.sum_range_succ]; ring

theorem logSeries_near {t : ℝ} (ht : |t| < 1 / 256) {T : ℕ} (hT : 1 ≤ T) :
    |t * logSeries t (T - 1) (1 / T) - Real.log (1 + t)| ≤ |t| ^ (T + 1) / (1 - |t|) := by
  have h := Real.abs_log_sub_add_sum_range_le (x := -t) (by rw [abs_neg]; linarith) T
  rw [abs_neg] at h
  obtain ⟨k, rfl⟩ : ∃ k, T = k + 1 := ⟨T - 1, by omega⟩
  have e : t * logSeries t (k + 1 - 1) (1 / (k + 1 : ℕ)) = -∑ i ∈ Finset.range (k + 1), (-t) ^ (i + 1) / (i + 1) := by
    rw [logSeries_eq, Nat.add_sub_cancel, Finset.sum_range_succ, mul_add, Finset.mul_sum, neg_add, ← Finset.sum_neg_distrib]
    congr 1
    · apply Finset.sum_congr rfl
      intro i _
      push_cast; ring
    · push_cast; ring
  rw [e, ← abs_neg]
  rw [show -(-∑ i ∈ Finset.range (k + 1), (-t) ^ (i + 1) / (i + 1 : ℝ) - Real.log (1 + t)) =
    ∑ i ∈ Finset.range (k + 1), (-t) ^ (i + 1) / (i + 1 : ℝ) + Real.log (1 - -t) by rw [sub_neg_eq_add]; ring]
  exact h

/-- The rounded series. -/
theorem ilogSeries_near {M ys : ℤ} (hM : 100 ≤ M) {t : ℝ} (ht : |t| < 1 / 256) (hy : |(ys : ℝ) / M - t| ≤ 1 / 2 / M) (k : ℕ) (w : ℤ) (v : ℝ)
    (hv : 1 ≤ k → |v| ≤ 0.51) (hw : |(w : ℝ) - M * v| ≤ 1.28) : |(ilogSeries M ys k w : ℝ) - M * logSeries t k v| ≤ 1.28 := by
  have hMr : (100 : ℝ) ≤ M := by exact_mod_cast hM
  have hM0 : (0 : ℝ) < M := by linarith
  induction k generalizing w v with
  | zero => exact hw
  | succ k ih =>
    rw [ilogSeries, logSeries]
    have hv := hv (by omega)
    apply ih
    · intro hk
      have h1 : (1 : ℝ) / (k + 1 : ℕ) ≤ 1 / 2 := by
        apply div_le_div_of_nonneg_left (by norm_num) (by norm_num)
        exact_mod_cast (by omega : 2 ≤ k + 1)
      have h2 : (0 : ℝ) ≤ 1 / (k + 1 : ℕ) := by positivity
      have h3 : |t * v| ≤ 1 / 256 * 0.51 := by
        rw [abs_mul]; exact mul_le_mul ht.le hv (abs_nonneg _) (by norm_num)
      have := abs_le.1 h3
      rw [abs_le]
      constructor <;> linarith
    · have d1 := divNearest_err (K := ℝ) M (b := (k + 1 : ℕ)) (by omega)
      have d2 := divNearest_err (K := ℝ) (ys * w) (b := M) (by omega)
      push_cast at d2
      have hys : |(ys : ℝ) / M| ≤ 0.009 := by
        have h1 : (1 : ℝ) / 2 / M ≤ 1 / 2 / 100 := div_le_div_of_nonneg_left (by norm_num) (by norm_num) hMr
        have := abs_add_le ((ys : ℝ) / M - t) t
        rw [sub_add_cancel] at this
        norm_num at *
        linarith
      have d3 : |(ys : ℝ) * w / M - M * (t * v)| ≤ 0.009 * 1.28 + 1 / 2 * 0.51 := by
        have e1 : (ys : ℝ) * w / M - M * (t * v) = ys / M * (w - M * v) + M * (ys / M - t) * v := by field_simp; ring
        rw [e1]
        have a1 : |(ys : ℝ) / M * (w - M * v)| ≤ 0.009 * 1.28 := by
          rw [abs_mul]; exact mul_le_mul hys hw (abs_nonneg _) (by norm_num)
        have a2 : |(M : ℝ) * (ys / M - t) * v| ≤ 1 / 2 * 0.51 := by
          rw [abs_mul]
          apply mul_le_mul _ hv (abs_nonneg _) (by norm_num)
          rw [abs_mul, abs_of_pos hM0]
          calc (M : ℝ) * |(ys : ℝ) / M - t| ≤ M * (1 / 2 / M) := mul_le_mul_of_nonneg_left hy hM0.le
            _ = 1 / 2 := by field_simp
        exact le_trans (abs_add_le _ _) (add_le_add a1 a2)
      have b1 := abs_le.1 d1
      have b2 := abs_le.1 d2
      have b3 := abs_le.1 d3
      have e2 : (M : ℝ) * (1 / (k + 1 : ℕ) - t * v) = M / (k + 1 : ℕ) - M * (t * v) := by ring
      rw [e2]
      push_cast at *
      rw [abs_le]
      constructor <;> linarith

theorem ilog_large {p : ℕ} (hp : 2 ≤ p) {x : ℤ} (h1 : 10 ^ p ≤ 10 * x) (h2 : x ≤ 10 * 10 ^ p) :
    ∃ r, ilog x (10 ^ p) = some r ∧ |(r : ℝ) - 10 ^ p * Real.log (x / 10 ^ p)| ≤ 31 := by
  obtain ⟨M, hMd⟩ : ∃ M : ℤ, M = 10 ^ p := ⟨_, rfl⟩
  have hMe : (10 : ℝ) ^ p = M := by rw [hMd]; push_cast; rfl
  rw [← hMd] at h1 h2
  rw [hMe, ← hMd]
  have hM : 100 ≤ M := by
    rw [hMd]; calc (100 : ℤ) = 10 ^ 2 := by norm_num
      _ ≤ 10 ^ p := pow_le_pow_right₀ (by norm_num) hp
  have hMr : (100 : ℝ) ≤ M := by exact_mod_cast hM
  have hM0 : (0 : ℝ) < M := by linarith
  obtain ⟨y, R, hred, hR, ht, hlog⟩ := reduce_ilog hM h1 h2
  obtain ⟨T, hTd, hT1, hT⟩ := terms_spec p
  rw [← hMd] at hTd
  rw [hMe] at hT
  obtain ⟨t, htd⟩ : ∃ t : ℝ, t = y / (2 ^ R * M) := ⟨_, rfl⟩
  rw [← htd] at ht hlog
  have hP : (0 : ℝ) < 2 ^ R := by positivity
  have hyt : (y : ℝ) = 2 ^ R * M * t := by rw [htd]; field_simp
  have hy4 : |(y : ℝ)| ≤ 4 * M := by
    have h3 : (2 : ℝ) ^ R ≤ 2 ^ 10 := pow_le_pow_right₀ (by norm_num) hR
    rw [hyt, abs_mul, abs_of_pos (by positivity)]
    calc (2 : ℝ) ^ R * M * |t| ≤ 2 ^ 10 * M * (1 / 256) := by
          apply mul_le_mul _ ht.le (abs_nonneg _) (by positivity)
          exact mul_le_mul_of_nonneg_right h3 hM0.le
      _ = 4 * M := by ring
  obtain ⟨w, hw⟩ : ∃ w, w = ilogSeries M (rshiftNearest y R) (T - 1) (divNearest M T) := ⟨_, rfl⟩
  have hwn : |(w : ℝ) - M * logSeries t (T - 1) (1 / T)| ≤ 1.28 := by
    rw [hw]
    apply ilogSeries_near hM ht
    · have h3 := rshiftNearest_err (K := ℝ) y R
      have e1 : (rshiftNearest y R : ℝ) / M - t = ((rshiftNearest y R : ℝ) - y / 2 ^ R) / M := by rw [htd]; field_simp
      rw [e1, abs_div, abs_of_pos hM0]
      exact div_le_div_of_nonneg_right h3 hM0.le
    · intro hk
      have h3 : (1 : ℝ) / T ≤ 1 / 2 := by
        apply div_le_div_of_nonneg_left (by norm_num) (by norm_num)
        exact_mod_cast (by omega : 2 ≤ T)
      rw [abs_of_nonneg (by positivity)]; linarith
    · have h3 := divNearest_err (K := ℝ) M (b := T) (by omega)
      rw [mul_one_div]
      push_cast at h3
      linarith
  refine ⟨divNearest (w * y) M, ?_, ?_⟩
  · rw [ilog, hred, Option.map_some]
    dsimp only
    rw [hTd, hw]
    congr 4
    omega
  · have f1 := divNearest_err (K := ℝ) (w * y) (b := M) (by omega)
    push_cast at f1
    have f2 : |(w : ℝ) * y / M - y * logSeries t (T - 1) (1 / T)| ≤ 5.12 := by
      have e1 : (w : ℝ) * y / M - y * logSeries t (T - 1) (1 / T) = (w - M * logSeries t (T - 1) (1 / T)) * (y / M) := by field_simp
      rw [e1, abs_mul]
      have h3 : |(y : ℝ) / M| ≤ 4 := by
        rw [abs_div, abs_of_pos hM0, div_le_iff₀ hM0]; exact hy4
      calc _ ≤ 1.28 * 4 := mul_le_mul hwn h3 (abs_nonneg _) (by norm_num)
        _ = 5.12 := by norm_num
    have f3 : |(y : ℝ) * logSeries t (T - 1) (1 / T) - 2 ^ R * M * Real.log (1 + t)| ≤ 0.41 := by
      have e1 : (y : ℝ) * logSeries t (T - 1) (1 / T) - 2 ^ R * M * Real.log (1 + t) =
          2 ^ R * M * (t * logSeries t (T - 1) (1 / T) - Real.log (1 + t)) := by rw [hyt]; ring
      rw [e1, abs_mul, abs_of_pos (by positivity : (0 : ℝ) < 2 ^ R * M)]
      have h3 := logSeries_near ht hT1
      have hden : (0 : ℝ) < 1 - |t| := by linarith
      have h4 : |t| ^ T ≤ 1 / 256 ^ T := by
        rw [← one_div_pow]; exact pow_le_pow_left₀ (abs_nonneg _) ht.le T
      have h5 : |(y : ℝ)| * |t| ^ T ≤ 0.4 := by
        calc |(y : ℝ)| * |t| ^ T ≤ (4 * M) * (1 / 256 ^ T) := mul_le_mul hy4 h4 (by positivity) (by positivity)
          _ = 4 * M / 256 ^ T := by ring
          _ ≤ 4 * M / (10 * M) := div_le_div_of_nonneg_left (by positivity) (by positivity) hT
          _ = 0.4 := by field_simp; norm_num
      calc (2 : ℝ) ^ R * M * |t * logSeries t (T - 1) (1 / T) - Real.log (1 + t)| ≤ 2 ^ R * M * (|t| ^ (T + 1) / (1 - |t|)) :=
            mul_le_mul_of_nonneg_left h3 (by positivity)
        _ = (|(y : ℝ)| * |t| ^ T) / (1 - |t|) := by
            rw [hyt, abs_mul, abs_of_pos (by positivity : (0 : ℝ) < 2 ^ R * M), pow_succ]; ring
        _ ≤ 0.4 / (1 - |t|) := div_le_div_of_nonneg_right h5 hden.le
        _ ≤ 0.41 := by rw [div_le_iff₀ hden]; linarith
    have b1 := abs_le.1 f1
    have b2 := abs_le.1 f2
    have b3 := abs_le.1 f3
    have b4 := abs_le.1 hlog
    rw [abs_le]
    constructor <;> linarith

/-! ### Bounds for the logarithm of ten -/

theorem log_ten_gt : 2.3022 < Real.log 10 := by
  have h1 : (93 : ℝ) * Real.log 2 < 28 * Real.log 10 := by
    have : Real.log ((2 : ℝ) ^ 93) < Real.log (10 ^ 28) := Real.log_lt_log (by positivity) (by norm_num)
    rw [Real.log_pow, Real.log_pow] at this
    exact_mod_cast this
  have := Real.log_two_gt_d9
  linarith

theorem log_ten_lt : Real.log 10 < 2.3027 := by
  have h1 : (59 : ℝ) * Real.log 10 < 196 * Real.log 2 := by
    have : Real.log ((10 : ℝ) ^ 59) < Real.log (2 ^ 196) := Real.log_lt_log (by positivity) (by norm_num)
    rw [Real.log_pow, Real.log_pow] at this
    exact_mod_cast this
  have := Real.log_two_lt_d9
  linarith

/-- With one digit, the approximation is rough, but its sign is right. -/
theorem ilog_small (x : ℕ) (h1 : 1 ≤ x) (h2 : x ≤ 100) :
    ∃ r, ilog x 10 = some r ∧ (x ≤ 10 → -26 ≤ r ∧ r ≤ 0) ∧ (10 ≤ x → 0 ≤ r ∧ r ≤ 26) := by
  have h : (List.range 101).all (fun n => n == 0 || match ilog (n : ℤ) 10 with
      | some r => (if n ≤ 10 then decide (-26 ≤ r ∧ r ≤ 0) else true) && (if 10 ≤ n then decide (0 ≤ r ∧ r ≤ 26) else true)
      | none => false) = true := by decide +kernel
  rw [List.all_eq_true] at h
  have h3 := h x (List.mem_range.2 (by omega))
  rw [Bool.or_eq_true] at h3
  rcases h3 with h3 | h3
  · simp at h3; omega
  · cases hi : ilog (x : ℤ) 10 with
    | none => rw [hi] at h3; exact absurd h3 Bool.false_ne_true
    | some r =>
      rw [hi] at h3
      dsimp only at h3
      rw [Bool.and_eq_true] at h3
      refine ⟨r, rfl, fun h4 => ?_, fun h4 => ?_⟩
      · have := h3.1; rw [if_pos h4] at this; exact of_decide_eq_true this
      · have := h3.2; rw [if_pos h4] at this; exact of_decide_eq_true this

/-- The error of `_ilog` is at most 31 for arguments from `0.1` to `10` (its docstring says 22). -/
theorem ilog_spec {p : ℕ} (hp : 1 ≤ p) {x : ℤ} (h1 : 10 ^ p ≤ 10 * x) (h2 : x ≤ 10 * 10 ^ p) :
    ∃ r, ilog x (10 ^ p) = some r ∧ |(r : ℝ) - 10 ^ p * Real.log (x / 10 ^ p)| ≤ 31 := by
  rcases Nat.lt_or_ge p 2 with h | h
  · obtain rfl : p = 1 := by omega
    rw [pow_one] at h1 h2
    obtain ⟨n, rfl⟩ := Int.eq_ofNat_of_zero_le (by omega : 0 ≤ x)
    obtain ⟨r, hr, a, b⟩ := ilog_small n (by omega) (by omega)
    rw [pow_one, pow_one]
    refine ⟨r, hr, ?_⟩
    have hn1 : (1 : ℝ) ≤ n := by exact_mod_cast (by omega : 1 ≤ n)
    have hn2 : (n : ℝ) ≤ 100 := by exact_mod_cast (by omega : n ≤ 100)
    have hten := log_ten_lt
    push_cast
    rcases le_total n 10 with hn | hn
    · obtain ⟨a1, a2⟩ := a hn
      have a1r : (-26 : ℝ) ≤ r := by exact_mod_cast a1
      have a2r : (r : ℝ) ≤ 0 := by exact_mod_cast a2
      have hn3 : (n : ℝ) ≤ 10 := by exact_mod_cast hn
      have l1 : Real.log ((n : ℝ) / 10) ≤ 0 := Real.log_nonpos (by positivity) (by linarith)
      have l2 : -Real.log 10 ≤ Real.log ((n : ℝ) / 10) := by
        rw [Real.log_div (by positivity) (by norm_num)]
        have := Real.log_nonneg hn1
        linarith
      rw [abs_le]; constructor <;> linarith
    · obtain ⟨a1, a2⟩ := b hn
      have a1r : (0 : ℝ) ≤ r := by exact_mod_cast a1
      have a2r : (r : ℝ) ≤ 26 := by exact_mod_cast a2
      have hn3 : (10 : ℝ) ≤ n := by exact_mod_cast hn
      have l1 : 0 ≤ Real.log ((n : ℝ) / 10) := Real.log_nonneg (by linarith)
      have l2 : Real.log ((n : ℝ) / 10) ≤ Real.log 10 := Real.log_le_log (by positivity) (by linarith)
      rw [abs_le]; constructor <;> linarith
  · exact ilog_large h h1 h2

end Verif.DecimalFunctions
