/- The errors of `_dlog` and `_dlog10`. -/
import Verif.DecimalFunctions.LogTen

namespace Verif.DecimalFunctions
open Verif.Decimal

theorem IsLogTen.low {ten : ℕ → ℤ} (h : IsLogTen ten) (p : ℕ) : (ten p : ℝ) ≤ 10 ^ p * Real.log 10 := by rw [h p]; exact Int.floor_le _
theorem IsLogTen.high {ten : ℕ → ℤ} (h : IsLogTen ten) (p : ℕ) : 10 ^ p * Real.log 10 < (ten p : ℝ) + 1 := by
  rw [h p]; exact Int.lt_floor_add_one _

theorem len_bounds {n : ℤ} (h : 0 < n) : 1 ≤ len n ∧ (10 : ℤ) ^ (len n - 1) ≤ n ∧ n < 10 ^ len n := by
  obtain ⟨m, rfl⟩ := Int.eq_ofNat_of_zero_le h.le
  have hm : m ≠ 0 := by omega
  rw [len_nonneg h.le, Int.natAbs_natCast]
  have a := (isCoeff_str m).ge (str_ne_zero hm)
  have b := (isCoeff_str m).lt
  have c := (isCoeff_str m).length_pos
  rw [number_str] at a b
  exact ⟨c, by exact_mod_cast a, by exact_mod_cast b⟩

/-- The number is `d * 10 ^ f` with `d` between `0.1` and `10`. -/
theorem outerExp_spec {c : ℤ} (hc : 0 < c) (e : ℤ) : ∃ d : ℝ, (c : ℝ) * 10 ^ e = d * 10 ^ outerExp c e ∧
    (c : ℝ) * 10 ^ (e - outerExp c e) = d ∧ 0.1 ≤ d ∧ d ≤ 10 := by
  obtain ⟨h1, h2, h3⟩ := len_bounds hc
  have h2r : (10 : ℝ) ^ ((len c : ℤ) - 1) ≤ c := by
    rw [show ((len c : ℤ) - 1) = ((len c - 1 : ℕ) : ℤ) by omega, zpow_natCast]; exact_mod_cast h2
  have h3r : (c : ℝ) < 10 ^ (len c : ℤ) := by rw [zpow_natCast]; exact_mod_cast h3
  refine ⟨c * 10 ^ (e - outerExp c e), ?_, rfl, ?_, ?_⟩
  · rw [mul_assoc, ← ten_add]; congr 2; omega
  · unfold outerExp
    by_cases h4 : e + len c ≥ 1
    · rw [if_pos h4, show e - (e + len c - 1) = -((len c : ℤ) - 1) by omega, zpow_neg, ← div_eq_mul_inv, le_div_iff₀ (ten_pos _)]
      linarith [ten_pos (K := ℝ) ((len c : ℤ) - 1)]
    · rw [if_neg h4, show e - (e + len c - 0) = -((len c : ℤ) - 1) - 1 by omega, ten_sub, zpow_one, zpow_neg, ← mul_div_assoc, ← div_eq_mul_inv,
        le_div_iff₀ (by norm_num), le_div_iff₀ (ten_pos _)]
      linarith
  · unfold outerExp
    by_cases h4 : e + len c ≥ 1
    · rw [if_pos h4, show e - (e + len c - 1) = -(len c : ℤ) + 1 by omega, ten_add, zpow_one, zpow_neg, ← mul_assoc, ← div_eq_mul_inv]
      have : (c : ℝ) / 10 ^ (len c : ℤ) ≤ 1 := by rw [div_le_one (ten_pos _)]; exact h3r.le
      linarith
    · rw [if_neg h4, show e - (e + len c - 0) = -(len c : ℤ) by omega, zpow_neg, ← div_eq_mul_inv]
      have : (c : ℝ) / 10 ^ (len c : ℤ) ≤ 1 := by rw [div_le_one (ten_pos _)]; exact h3r.le
      linarith

theorem nearest_mono {x : ℝ} {n m : ℤ} (h : |(n : ℝ) - x| ≤ 1 / 2) : ((m : ℝ) ≤ x → m ≤ n) ∧ (x ≤ m → n ≤ m) := by
  have := abs_le.1 h
  constructor
  · intro h1
    by_contra h2
    have : (n : ℝ) + 1 ≤ m := by exact_mod_cast (by omega : n + 1 ≤ m)
    linarith
  · intro h1
    by_contra h2
    have : (m : ℝ) + 1 ≤ n := by exact_mod_cast (by omega : m + 1 ≤ n)
    linarith

theorem shifted_err (c k : ℤ) : |(shifted c k : ℝ) - c * 10 ^ k| ≤ 1 / 2 := by
  unfold shifted
  by_cases h : k ≥ 0
  · rw [if_pos h, ten_toNat h]; push_cast; simp
  · rw [if_neg h]
    have := divNearest_err (K := ℝ) c (b := 10 ^ (-k).toNat) (by positivity)
    have e : (c : ℝ) * 10 ^ k = c / ((10 ^ (-k).toNat : ℤ) : ℝ) := by
      have := ten_toNat (K := ℝ) (a := -k) (by omega)
      rw [zpow_neg] at this
      push_cast at this ⊢
      rw [← this]; simp
    rw [e]; exact this

/-- The logarithm of `d`. -/
theorem ilog_shifted {c : ℤ} (hc : 0 < c) (e : ℤ) {P : ℕ} (hP : 1 ≤ P) : ∃ l, ilog (shifted c (e + P - outerExp c e)) (10 ^ P) = some l ∧
    |(l : ℝ) - 10 ^ P * Real.log (c * 10 ^ (e - outerExp c e))| ≤ 36 := by
  obtain ⟨d, _, hd, hd1, hd2⟩ := outerExp_spec hc e
  rw [hd]
  have herr := shifted_err c (e + P - outerExp c e)
  have e1 : (c : ℝ) * 10 ^ (e + P - outerExp c e) = d * 10 ^ P := by
    rw [← hd, mul_assoc, ← zpow_natCast, ← ten_add]; congr 2; omega
  rw [e1] at herr
  generalize shifted c (e + P - outerExp c e) = x at *
  have hM : (0 : ℝ) < 10 ^ P := by positivity
  have hM1 : (10 : ℝ) ^ P = 10 * 10 ^ (P - 1) := by
    conv_lhs => rw [show P = P - 1 + 1 by omega, pow_succ]
    ring
  have b1 : (10 : ℤ) ^ (P - 1) ≤ x := (nearest_mono herr).1 (by push_cast; nlinarith)
  have b2 : x ≤ 10 * 10 ^ P := (nearest_mono herr).2 (by push_cast; nlinarith)
  have hMi : (10 : ℤ) ^ P = 10 * 10 ^ (P - 1) := by
    conv_lhs => rw [show P = P - 1 + 1 by omega, pow_succ]
    ring
  obtain ⟨l, hl, hle⟩ := ilog_spec hP (x := x) (by rw [hMi]; omega) b2
  refine ⟨l, hl, ?_⟩
  have b1r : (10 : ℝ) ^ (P - 1) ≤ x := by exact_mod_cast b1
  have h1 : (0.1 : ℝ) ≤ x / 10 ^ P := by rw [le_div_iff₀ hM]; linarith
  have h2 := log_diff (β := 0.1) (by norm_num) h1 hd1
  have h3 : |(x : ℝ) / 10 ^ P - d| ≤ 1 / 2 / 10 ^ P := by
    have : (x : ℝ) / 10 ^ P - d = (x - d * 10 ^ P) / 10 ^ P := by field_simp
    rw [this, abs_div, abs_of_pos hM]
    exact div_le_div_of_nonneg_right herr hM.le
  have h4 : |10 ^ P * Real.log (x / 10 ^ P) - 10 ^ P * Real.log d| ≤ 5 := by
    rw [← mul_sub, abs_mul, abs_of_pos hM]
    calc (10 : ℝ) ^ P * |Real.log (x / 10 ^ P) - Real.log d| ≤ 10 ^ P * (1 / 2 / 10 ^ P / 0.1) := by
          apply mul_le_mul_of_nonneg_left _ hM.le
          exact le_trans h2 (div_le_div_of_nonneg_right h3 (by norm_num))
      _ = 5 := by field_simp; norm_num
  have a1 := abs_le.1 hle
  have a2 := abs_le.1 h4
  rw [abs_le]
  constructor <;> linarith

theorem log_bound {d : ℝ} (h1 : 0.1 ≤ d) (h2 : d ≤ 10) : |Real.log d| ≤ Real.log 10 := by
  rw [abs_le]
  constructor
  · rw [← Real.log_inv]
    exact Real.log_le_log (by norm_num) (by rw [inv_le_comm₀ (by norm_num) (by linarith), inv_le_comm₀ (by linarith) (by norm_num)]; norm_num; norm_num at h1; linarith)
  · exact Real.log_le_log (by linarith) h2

/-- The multiple of the logarithm of ten. -/
theorem fLogTen_err {ten : ℕ → ℤ} (ht : IsLogTen ten) (f p : ℤ) : |(fLogTen ten f p : ℝ) - 10 ^ p * (f * Real.log 10)| ≤ 10.5 := by
  have l1 := log_ten_gt
  have l2 := log_ten_lt
  unfold fLogTen
  by_cases hf : f ≠ 0
  · rw [if_pos hf]
    have hfp : (0 : ℤ) < (f.natAbs : ℤ) := by omega
    obtain ⟨b0, b1, b2⟩ := len_bounds hfp
    generalize len (f.natAbs : ℤ) = n at *
    have hx : ((n : ℤ) - 1).toNat = n - 1 := by omega
    dsimp only
    rw [hx]
    have hfa : |(f : ℝ)| = ((f.natAbs : ℤ) : ℝ) := by rw [Int.natCast_natAbs]; push_cast; rfl
    have hfl : |(f : ℝ)| < 10 * 10 ^ (n - 1) := by
      rw [hfa]
      have : ((f.natAbs : ℤ) : ℝ) < 10 ^ n := by exact_mod_cast b2
      rw [show n = n - 1 + 1 by omega, pow_succ] at this
      linarith
    have hpx : (0 : ℝ) < 10 ^ (n - 1) := by positivity
    by_cases hp : p + ((n : ℤ) - 1) ≥ 0
    · rw [if_pos hp]
      have h1 := divNearest_err (K := ℝ) (f * ten (p + ((n : ℤ) - 1)).toNat) (b := 10 ^ (n - 1)) (by positivity)
      push_cast at h1
      have t1 := ht.low (p + ((n : ℤ) - 1)).toNat
      have t2 := ht.high (p + ((n : ℤ) - 1)).toNat
      have hpow : (10 : ℝ) ^ (p + ((n : ℤ) - 1)).toNat = 10 ^ p * 10 ^ (n - 1) := by
        have := ten_toNat (K := ℝ) hp
        push_cast at this
        rw [← this, ten_add, show ((n : ℤ) - 1) = ((n - 1 : ℕ) : ℤ) by omega, zpow_natCast]
      rw [hpow] at t1 t2
      generalize (ten (p + ((n : ℤ) - 1)).toNat : ℝ) = t at *
      have h2 : |(f : ℝ) * t / 10 ^ (n - 1) - 10 ^ p * (f * Real.log 10)| ≤ 10 := by
        have : (f : ℝ) * t / 10 ^ (n - 1) - 10 ^ p * (f * Real.log 10) = f / 10 ^ (n - 1) * (t - 10 ^ p * 10 ^ (n - 1) * Real.log 10) := by
          field_simp
        rw [this, abs_mul, abs_div, abs_of_pos hpx]
        have a1 : |(f : ℝ)| / 10 ^ (n - 1) ≤ 10 := by rw [div_le_iff₀ hpx]; exact hfl.le
        have a2 : |t - 10 ^ p * 10 ^ (n - 1) * Real.log 10| ≤ 1 := by rw [abs_le]; constructor <;> linarith
        calc |(f : ℝ)| / 10 ^ (n - 1) * |t - 10 ^ p * 10 ^ (n - 1) * Real.log 10| ≤ 10 * 1 := mul_le_mul a1 a2 (abs_nonneg _) (by norm_num)
          _ = 10 := by norm_num
      have a1 := abs_le.1 h1
      have a2 := abs_le.1 h2
      rw [abs_le]
      constructor <;> linarith
    · rw [if_neg hp]
      have h1 : (10 : ℝ) ^ p * 10 ^ (n - 1) ≤ 0.1 := by
        rw [← zpow_natCast, ← ten_add]
        calc (10 : ℝ) ^ (p + ((n - 1 : ℕ) : ℤ)) ≤ 10 ^ (-1 : ℤ) := ten_le.2 (by omega)
          _ = 0.1 := by norm_num
      have h2 : |(10 : ℝ) ^ p * (f * Real.log 10)| ≤ 2.31 := by
        rw [abs_mul, abs_mul, abs_of_pos (ten_pos p), abs_of_pos (by linarith : 0 < Real.log 10)]
        have : (10 : ℝ) ^ p * |(f : ℝ)| ≤ 1 := by
          calc (10 : ℝ) ^ p * |(f : ℝ)| ≤ 10 ^ p * (10 * 10 ^ (n - 1)) := mul_le_mul_of_nonneg_left hfl.le (ten_pos p).le
            _ = 10 * (10 ^ p * 10 ^ (n - 1)) := by ring
            _ ≤ 1 := by linarith
        nlinarith [mul_nonneg (ten_pos (K := ℝ) p).le (abs_nonneg (f : ℝ))]
      push_cast
      rw [zero_sub, abs_neg]
      linarith
  · rw [if_neg hf]
    have : f = 0 := by omega
    subst this
    simp; norm_num

theorem pow_shift (p : ℤ) : (10 : ℝ) ^ (p + 2) = 100 * 10 ^ p := by rw [ten_add]; norm_num; ring

theorem final_div {s : ℤ} {p : ℤ} {v : ℝ} (h : |(s : ℝ) - 10 ^ (p + 2) * v| < 50) : |(divNearest s 100 : ℝ) - 10 ^ p * v| < 1 := by
  have h1 := divNearest_err (K := ℝ) s (b := 100) (by omega)
  push_cast at h1
  rw [pow_shift] at h
  have a1 := abs_le.1 h1
  have a2 := abs_lt.1 h
  rw [abs_lt]
  constructor <;> linarith

/-- `_dlog` has an error below one. -/
theorem dlog_spec {ten : ℕ → ℤ} (ht : IsLogTen ten) {c : ℤ} (hc : 0 < c) (e p : ℤ) :
    ∃ r, dlog ten c e p = some r ∧ |(r : ℝ) - 10 ^ p * Real.log (c * 10 ^ e)| < 1 := by
  have l2 := log_ten_lt
  obtain ⟨d, hv, hd, hd1, hd2⟩ := outerExp_spec hc e
  have hlog : Real.log (c * 10 ^ e) = Real.log d + outerExp c e * Real.log 10 := by
    rw [hv, Real.log_mul (by linarith) (ten_pos _).ne', Real.log_zpow]
  have hf := fLogTen_err ht (outerExp c e) (p + 2)
  unfold dlog
  dsimp only
  by_cases hp : p + 2 > 0
  · rw [if_pos hp]
    obtain ⟨l, hl, hle⟩ := ilog_shifted hc e (P := (p + 2).toNat) (by omega)
    rw [Int.toNat_of_nonneg (by omega)] at hl
    rw [hd] at hle
    rw [hl, Option.map_some]
    refine ⟨_, rfl, final_div ?_⟩
    have hpow : (10 : ℝ) ^ (p + 2).toNat = 10 ^ (p + 2) := by rw [ten_toNat (by omega : 0 ≤ p + 2)]; push_cast; rfl
    rw [hpow] at hle
    rw [hlog]
    push_cast
    have a1 := abs_le.1 hf
    have a2 := abs_le.1 hle
    rw [mul_add, abs_lt]
    constructor <;> linarith
  · rw [if_neg hp]
    refine ⟨_, rfl, final_div ?_⟩
    rw [hlog]
    push_cast
    have a1 := abs_le.1 hf
    have h1 : (10 : ℝ) ^ (p + 2) ≤ 1 := by
      calc (10 : ℝ) ^ (p + 2) ≤ 10 ^ (0 : ℤ) := ten_le.2 (by omega)
        _ = 1 := zpow_zero _
    have h0 := ten_pos (K := ℝ) (p + 2)
    have h2 : |(10 : ℝ) ^ (p + 2) * Real.log d| ≤ 2.31 := by
      rw [abs_mul, abs_of_pos h0]
      have := log_bound hd1 hd2
      nlinarith [abs_nonneg (Real.log d)]
    have a2 := abs_le.1 h2
    rw [mul_add, abs_lt]
    constructor <;> linarith

/-- `_dlog10` has an error below one. -/
theorem dlog10_spec {ten : ℕ → ℤ} (ht : IsLogTen ten) {c : ℤ} (hc : 0 < c) (e p : ℤ) :
    ∃ r, dlog10 ten c e p = some r ∧ |(r : ℝ) - 10 ^ p * (Real.log (c * 10 ^ e) / Real.log 10)| < 1 := by
  have l1 := log_ten_gt
  have l2 := log_ten_lt
  obtain ⟨d, hv, hd, hd1, hd2⟩ := outerExp_spec hc e
  have hL : 0 < Real.log 10 := by linarith
  have hlog : Real.log (c * 10 ^ e) / Real.log 10 = Real.log d / Real.log 10 + outerExp c e := by
    rw [hv, Real.log_mul (by linarith) (ten_pos _).ne', Real.log_zpow]; field_simp
  have hld := log_bound hd1 hd2
  have hq : |Real.log d / Real.log 10| ≤ 1 := by rw [abs_div, abs_of_pos hL, div_le_one hL]; exact hld
  unfold dlog10
  dsimp only
  by_cases hp : p + 2 > 0
  · rw [if_pos hp]
    obtain ⟨l, hl, hle⟩ := ilog_shifted hc e (P := (p + 2).toNat) (by omega)
    rw [Int.toNat_of_nonneg (by omega)] at hl
    rw [hd] at hle
    rw [hl, Option.map_some]
    refine ⟨_, rfl, final_div ?_⟩
    have hpow : (10 : ℝ) ^ (p + 2) = 10 ^ (p + 2).toNat := by rw [ten_toNat (by omega : 0 ≤ p + 2)]; push_cast; rfl
    rw [hpow, hlog]
    have t1 := ht.low (p + 2).toNat
    have t2 := ht.high (p + 2).toNat
    have hP1 : 1 ≤ (p + 2).toNat := by omega
    generalize (p + 2).toNat = P at *
    have hM10 : (10 : ℝ) ≤ 10 ^ P := by
      calc (10 : ℝ) = 10 ^ 1 := by norm_num
        _ ≤ 10 ^ P := pow_le_pow_right₀ (by norm_num) hP1
    have hT0 : (0 : ℝ) < ten P := by nlinarith
    have hTi : 0 < ten P := by exact_mod_cast hT0
    have h1 := divNearest_err (K := ℝ) (l * 10 ^ P) (b := ten P) hTi
    push_cast at h1 ⊢
    generalize hM : (10 : ℝ) ^ P = M at *
    generalize (ten P : ℝ) = t at *
    have h2 : |(l : ℝ) * M / t - M * (Real.log d / Real.log 10)| ≤ 17 := by
      have e1 : (l : ℝ) * M / t - M * (Real.log d / Real.log 10) =
          M / t * ((l - M * Real.log d) + (M * Real.log 10 - t) * (Real.log d / Real.log 10)) := by field_simp; ring
      rw [e1, abs_mul]
      have a1 : |M / t| ≤ 0.455 := by
        rw [abs_of_pos (by positivity), div_le_iff₀ hT0]; nlinarith
      have a2 : |(M * Real.log 10 - t) * (Real.log d / Real.log 10)| ≤ 1 * 1 := by
        rw [abs_mul]
        exact mul_le_mul (by rw [abs_le]; constructor <;> linarith) hq (abs_nonneg _) (by norm_num)
      have a3 : |((l : ℝ) - M * Real.log d) + (M * Real.log 10 - t) * (Real.log d / Real.log 10)| ≤ 37 := by
        have := abs_add_le ((l : ℝ) - M * Real.log d) ((M * Real.log 10 - t) * (Real.log d / Real.log 10))
        linarith
      calc _ ≤ 0.455 * 37 := mul_le_mul a1 a3 (abs_nonneg _) (by norm_num)
        _ ≤ 17 := by norm_num
    have b1 := abs_le.1 h1
    have b2 := abs_le.1 h2
    rw [mul_add, abs_lt]
    constructor <;> linarith
  · rw [if_neg hp]
    refine ⟨_, rfl, final_div ?_⟩
    rw [hlog]
    have h1 : (10 : ℝ) ^ (p + 2) ≤ 1 := by
      calc (10 : ℝ) ^ (p + 2) ≤ 10 ^ (0 : ℤ) := ten_le.2 (by omega)
        _ = 1 := zpow_zero _
    have h0 := ten_pos (K := ℝ) (p + 2)
    have h2 : |(10 : ℝ) ^ (p + 2) * (Real.log d / Real.log 10)| ≤ 1 := by
      rw [abs_mul, abs_of_pos h0]
      nlinarith [abs_nonneg (Real.log d / Real.log 10)]
    have h3 := divNearest_err (K := ℝ) (outerExp c e) (b := 10 ^ (-(p + 2)).toNat) (by positivity)
    have e1 : (outerExp c e : ℝ) / ((10 ^ (-(p + 2)).toNat : ℤ) : ℝ) = 10 ^ (p + 2) * outerExp c e := by
      have := ten_toNat (K := ℝ) (a := -(p + 2)) (by omega)
      rw [zpow_neg] at this
      push_cast at this ⊢
      rw [← this]; simp; ring
    rw [e1] at h3
    push_cast
    have a1 := abs_le.1 h2
    have a2 := abs_le.1 h3
    rw [mul_add, abs_lt]
    constructor <;> linarith

end Verif.DecimalFunctions
