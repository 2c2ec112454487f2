/- Square roots. -/
import Verif.DecimalMore.Model
import Verif.Decimal.Division
import Mathlib.Analysis.Real.Sqrt
import Mathlib.Algebra.Order.Archimedean.Real.Basic

namespace Verif.DecimalMore
open Verif.Decimal

theorem newton_spec {c : ℕ} (hc : 0 < c) (fuel n : ℕ) (hn : 0 < n) (hf : n ≤ fuel) (h : c < (n + 1) * (n + 1)) :
    newton c fuel n * newton c fuel n ≤ c ∧ c < (newton c fuel n + 1) * (newton c fuel n + 1) := by
  induction fuel generalizing n with
  | zero => omega
  | succ fuel ih =>
    rw [newton]
    obtain ⟨q, hq⟩ : ∃ q, q = c / n := ⟨_, rfl⟩
    rw [← hq]
    have h1 : q * n ≤ c := by rw [hq]; exact Nat.div_mul_le_self c n
    have h2 : c < (q + 1) * n := by
      rw [hq, Nat.mul_comm]; exact Nat.lt_mul_div_succ c hn
    by_cases hle : n ≤ q
    · rw [if_pos hle]
      exact ⟨le_trans (Nat.mul_le_mul_right n hle) h1, h⟩
    · rw [if_neg hle]
      obtain ⟨m, hm⟩ : ∃ m, m = (n + q) / 2 := ⟨_, rfl⟩
      rw [← hm]
      have hm1 : n + q ≤ 2 * m + 1 := by omega
      have hm2 : m < n := by omega
      refine ih m ?_ (by omega) ?_
      · by_contra h0
        have : m = 0 := by omega
        have hn1 : n = 1 := by omega
        have hq0 : q = 0 := by omega
        rw [hn1, hq0] at h2; omega
      · have e1 : 4 * ((q + 1) * n) ≤ (n + q + 1) * (n + q + 1) := by
          zify
          nlinarith [sq_nonneg ((n : ℤ) - (q + 1))]
        have e2 : (n + q + 1) * (n + q + 1) ≤ (2 * m + 2) * (2 * m + 2) := Nat.mul_le_mul (by omega) (by omega)
        have e3 : (2 * m + 2) * (2 * m + 2) = 4 * ((m + 1) * (m + 1)) := by ring
        omega

theorem pow100 (n : ℕ) : (100 : ℕ) ^ n = 10 ^ (2 * n) := by rw [Nat.pow_mul]

/-- The argument is `c * 100 ** e`, and `c` has `d` digits in base 100. -/
theorem sqrtArgument_spec {i : Digits} (h : IsCoeff i) (h0 : i ≠ [0]) (x : ℤ) {c : ℕ} {e d : ℤ} (hs : sqrtArgument i x = (c, e, d)) :
    e = x / 2 ∧ 1 ≤ d ∧ 10 ^ (2 * (d - 1)).toNat ≤ c ∧ c < 10 ^ (2 * d).toNat ∧ (number i : ℝ) * 10 ^ x = c * (10 ^ e * 10 ^ e) := by
  have hl := h.length_pos
  have b1 := h.ge h0
  have b2 := h.lt
  unfold sqrtArgument at hs
  by_cases hx : x % 2 = 1
  · rw [if_pos hx, toInt_eq] at hs
    simp only [Prod.mk.injEq] at hs
    obtain ⟨rfl, rfl, rfl⟩ := hs
    refine ⟨rfl, by omega, ?_, ?_, ?_⟩
    · have : 10 ^ (2 * ((i.length : ℤ) / 2 + 1 - 1)).toNat ≤ 10 ^ i.length := Nat.pow_le_pow_right (by omega) (by omega)
      have h3 : 10 ^ i.length = 10 ^ (i.length - 1) * 10 := by rw [← Nat.pow_succ]; congr 1; omega
      omega
    · have : 10 ^ (i.length + 1) ≤ 10 ^ (2 * ((i.length : ℤ) / 2 + 1)).toNat := Nat.pow_le_pow_right (by omega) (by omega)
      have h3 : 10 ^ (i.length + 1) = 10 ^ i.length * 10 := Nat.pow_succ ..
      omega
    · rw [← ten_add]
      have : (10 : ℝ) ^ x = 10 * 10 ^ (x / 2 + x / 2) := by
        rw [show x = 1 + (x / 2 + x / 2) by omega, ten_add, zpow_one]; congr 2; omega
      rw [this]; push_cast; ring
  · rw [if_neg hx, toInt_eq] at hs
    simp only [Prod.mk.injEq] at hs
    obtain ⟨rfl, rfl, rfl⟩ := hs
    refine ⟨rfl, by omega, ?_, ?_, ?_⟩
    · exact le_trans (Nat.pow_le_pow_right (by omega) (by omega)) b1
    · exact lt_of_lt_of_le b2 (Nat.pow_le_pow_right (by omega) (by omega))
    · rw [← ten_add]; congr 2; omega

theorem sqrt_mul_sq {a b : ℝ} (ha : 0 ≤ a) (hb : 0 ≤ b) : Real.sqrt (a * (b * b)) = Real.sqrt a * b := by
  rw [Real.sqrt_mul ha, Real.sqrt_mul_self hb]

/-- The square root of a positive number. -/
theorem sqrtFin_spec {ctx : Ctx} (hc : ctx.Ok) {i : Digits} (h : IsCoeff i) (h0 : i ≠ [0]) (x : ℤ) (z : Bool) :
    ∃ e, e ≤ x / 2 ∧ (e < x / 2 → ¬ ∃ k : ℤ, Real.sqrt (number i * 10 ^ x) = k * 10 ^ (e + 1)) ∧
      IsResult { ctx with rounding := .halfEven } (Real.sqrt (number i * 10 ^ x)) z e (sqrtFin ctx i x) := by
  have hc' : Ctx.Ok { ctx with rounding := .halfEven } := ⟨hc.prec, hc.emin, hc.emax⟩
  have hp := hc.prec
  unfold sqrtFin
  obtain ⟨⟨c, e, d⟩, hs⟩ : ∃ p, p = sqrtArgument i x := ⟨_, rfl⟩
  rw [← hs]
  dsimp only
  obtain ⟨he, hd, hlow, hhigh, hval⟩ := sqrtArgument_spec h h0 x hs.symm
  obtain ⟨sh, hsh⟩ : ∃ sh : ℤ, sh = ((ctx.prec + 1 : ℕ) : ℤ) - d := ⟨_, rfl⟩
  rw [← hsh]
  obtain ⟨c', hcd⟩ : ∃ c', c' = if sh ≥ 0 then c * 100 ^ sh.toNat else c / 100 ^ (-sh).toNat := ⟨_, rfl⟩
  rw [← hcd]
  obtain ⟨n, hn⟩ : ∃ n, n = newton c' (10 ^ (ctx.prec + 1)) (10 ^ (ctx.prec + 1)) := ⟨_, rfl⟩
  rw [← hn]
  have hcpos : 0 < c := lt_of_lt_of_le (Nat.pos_of_ne_zero (by positivity)) hlow
  -- bounds on `c'`
  have hb1 : 10 ^ (2 * ctx.prec) ≤ c' := by
    rw [hcd]
    by_cases h3 : sh ≥ 0
    · rw [if_pos h3, pow100]
      refine le_trans (le_of_eq ?_) (Nat.mul_le_mul_right _ hlow)
      rw [← Nat.pow_add]; congr 1; omega
    · rw [if_neg h3, pow100, Nat.le_div_iff_mul_le (Nat.pos_of_ne_zero (by positivity))]
      refine le_trans (le_of_eq ?_) hlow
      rw [← Nat.pow_add]; congr 1; omega
  have hb2 : c' < 10 ^ (2 * (ctx.prec + 1)) := by
    rw [hcd]
    by_cases h3 : sh ≥ 0
    · rw [if_pos h3, pow100]
      refine lt_of_lt_of_le (Nat.mul_lt_mul_of_pos_right hhigh (Nat.pos_of_ne_zero (by positivity))) (le_of_eq ?_)
      rw [← Nat.pow_add]; congr 1; omega
    · rw [if_neg h3, pow100, Nat.div_lt_iff_lt_mul (Nat.pos_of_ne_zero (by positivity))]
      refine lt_of_lt_of_le hhigh (le_of_eq ?_)
      rw [← Nat.pow_add]; congr 1; omega
  have hc0 : 0 < c' := lt_of_lt_of_le (Nat.pos_of_ne_zero (by positivity)) hb1
  obtain ⟨n1, n2⟩ := newton_spec hc0 (10 ^ (ctx.prec + 1)) (10 ^ (ctx.prec + 1)) (Nat.pos_of_ne_zero (by positivity)) (le_refl _) (by
    refine lt_of_lt_of_le hb2 ?_
    rw [show 2 * (ctx.prec + 1) = (ctx.prec + 1) + (ctx.prec + 1) by omega, Nat.pow_add]
    exact Nat.mul_le_mul (by omega) (by omega))
  rw [← hn] at n1 n2
  have hnbig : 10 ^ ctx.prec ≤ n := by
    by_contra h3
    have h4 : (n + 1) * (n + 1) ≤ 10 ^ ctx.prec * 10 ^ ctx.prec := Nat.mul_le_mul (by omega) (by omega)
    rw [← Nat.pow_add, ← two_mul] at h4
    omega
  have hnpos : 0 < n := lt_of_lt_of_le (Nat.pos_of_ne_zero (by positivity)) hnbig
  have hroot : Real.sqrt (number i * 10 ^ x) = Real.sqrt c * 10 ^ e := by
    rw [hval]; exact sqrt_mul_sq (by positivity) (by positivity)
  by_cases hex : ((if sh ≥ 0 then true else c % 100 ^ (-sh).toNat == 0) && n * n == c') = true
  · rw [if_pos hex]
    rw [Bool.and_eq_true, beq_iff_eq] at hex
    obtain ⟨hex1, hex2⟩ := hex
    refine ⟨e, le_of_eq he, fun h3 => absurd h3 (by omega), ?_⟩
    obtain ⟨m, hm⟩ : ∃ m, m = if sh ≥ 0 then n / 10 ^ sh.toNat else n * 10 ^ (-sh).toNat := ⟨_, rfl⟩
    rw [← hm]
    have hmc : m * m = c := by
      rw [hm]
      by_cases h3 : sh ≥ 0
      · rw [if_pos h3]
        rw [hcd, if_pos h3] at hex2
        have hdvd : (10 ^ sh.toNat) ∣ n := by
          rw [← Nat.pow_dvd_pow_iff (n := 2) (by omega)]
          refine ⟨c, ?_⟩
          rw [sq n, hex2, ← Nat.pow_mul, Nat.mul_comm, pow100, Nat.mul_comm 2]
        obtain ⟨k, hk⟩ := hdvd
        have h10 : 0 < 10 ^ sh.toNat := Nat.pos_of_ne_zero (by positivity)
        rw [hk, Nat.mul_div_cancel_left _ h10]
        rw [hk, pow100, two_mul, Nat.pow_add] at hex2
        have : (10 ^ sh.toNat * 10 ^ sh.toNat) * (k * k) = (10 ^ sh.toNat * 10 ^ sh.toNat) * c := by
          rw [Nat.mul_comm _ c, ← hex2]; ring
        exact Nat.eq_of_mul_eq_mul_left (Nat.mul_pos h10 h10) this
      · rw [if_neg h3]
        rw [if_neg h3, beq_iff_eq] at hex1
        rw [hcd, if_neg h3] at hex2
        have h4 := Nat.div_add_mod c (100 ^ (-sh).toNat)
        rw [hex1, Nat.add_zero, ← hex2, pow100, two_mul, Nat.pow_add] at h4
        rw [← h4]; ring
    have hm0 : m ≠ 0 := by rintro rfl; omega
    have hsq : Real.sqrt (number i * 10 ^ x) = number (str m) * 10 ^ e := by
      rw [hroot, number_str, ← hmc]
      push_cast
      rw [Real.sqrt_mul_self (by positivity)]
    rw [hsq]
    have hM : (0 : ℝ) < number (str m) * 10 ^ e := mag_pos (isCoeff_str _) (str_ne_zero hm0) e
    exact .of_sign (s := false) hM (by simp) (fixFin_spec hc' false (isCoeff_str _) (str_ne_zero hm0) e)
  · rw [if_neg hex]
    -- the root lies between `n` and `n + 1`
    have hp1 := ten_pos (K := ℝ) (e - sh)
    have hM1 : (n : ℝ) * 10 ^ (e - sh) < Real.sqrt (number i * 10 ^ x) ∧ Real.sqrt (number i * 10 ^ x) < (n + 1) * 10 ^ (e - sh) := by
      have key : ((n * n : ℕ) : ℝ) * (10 ^ (e - sh) * 10 ^ (e - sh)) < number i * 10 ^ x ∧
          (number i : ℝ) * 10 ^ x < (((n + 1) * (n + 1) : ℕ) : ℝ) * (10 ^ (e - sh) * 10 ^ (e - sh)) := by
        rw [hval]
        by_cases h3 : sh ≥ 0
        · have hne : n * n ≠ c' := by
            intro h4; apply hex; rw [if_pos h3, h4]; simp
          have hlt : n * n < c' := by omega
          have hcc : (c : ℝ) * (10 ^ e * 10 ^ e) = (c' : ℝ) * (10 ^ (e - sh) * 10 ^ (e - sh)) := by
            rw [hcd, if_pos h3, pow100, two_mul]
            have : (10 : ℝ) ^ e = 10 ^ sh * 10 ^ (e - sh) := by rw [← ten_add]; congr 1; omega
            rw [this, ten_toNat h3]
            push_cast; rw [pow_add]; ring
          rw [hcc]
          exact ⟨mul_lt_mul_of_pos_right (by exact_mod_cast hlt) (mul_pos hp1 hp1), mul_lt_mul_of_pos_right (by exact_mod_cast n2) (mul_pos hp1 hp1)⟩
        · have h4 : (10 : ℝ) ^ (e - sh) = 10 ^ (-sh) * 10 ^ e := by rw [← ten_add]; congr 1; omega
          have hpe := ten_pos (K := ℝ) e
          obtain ⟨T, hT⟩ : ∃ T : ℕ, T = 100 ^ (-sh).toNat := ⟨_, rfl⟩
          have hT0 : 0 < T := by rw [hT]; positivity
          have h5 : (10 : ℝ) ^ (e - sh) * 10 ^ (e - sh) = T * (10 ^ e * 10 ^ e) := by
            rw [h4, ten_toNat (a := -sh) (by omega), hT, pow100, two_mul]; push_cast; rw [pow_add]; ring
          rw [h5]
          have hdm := Nat.div_add_mod c T
          have hml := Nat.mod_lt c hT0
          rw [hcd, if_neg h3, ← hT] at n1 n2
          rw [if_neg h3, hcd, if_neg h3, ← hT] at hex
          have hlt : n * n * T < c := by
            have h6 : n * n * T ≤ c / T * T := Nat.mul_le_mul_right _ n1
            have h7 : c / T * T ≤ c := Nat.div_mul_le_self c T
            rcases Nat.lt_or_ge (n * n * T) c with h8 | h8
            · exact h8
            · exfalso
              apply hex
              have h9 : n * n * T = c / T * T := by omega
              have h10 : n * n = c / T := Nat.eq_of_mul_eq_mul_right hT0 h9
              have h11 : c % T = 0 := by rw [Nat.mul_comm] at hdm; omega
              rw [h11, h10]; simp
          have hgt : c < (n + 1) * (n + 1) * T := by
            have h6 : (c / T + 1) * T ≤ (n + 1) * (n + 1) * T := Nat.mul_le_mul_right _ n2
            have h7 : c < (c / T + 1) * T := by rw [Nat.add_mul, Nat.mul_comm]; omega
            omega
          have k1 : ((n * n * T : ℕ) : ℝ) < c := by exact_mod_cast hlt
          have k2 : (c : ℝ) < (((n + 1) * (n + 1) * T : ℕ) : ℝ) := by exact_mod_cast hgt
          constructor
          · refine lt_of_le_of_lt (le_of_eq ?_) (mul_lt_mul_of_pos_right k1 (mul_pos hpe hpe))
            push_cast; ring
          · refine lt_of_lt_of_le (mul_lt_mul_of_pos_right k2 (mul_pos hpe hpe)) (le_of_eq ?_)
            push_cast; ring
      have hn0 : (0 : ℝ) ≤ n := by positivity
      constructor
      · rw [Real.lt_sqrt (by positivity)]
        refine lt_of_le_of_lt (le_of_eq ?_) key.1
        push_cast; ring
      · rw [Real.sqrt_lt' (by positivity)]
        refine lt_of_lt_of_le key.2 (le_of_eq ?_)
        push_cast; ring
    have hMpos : 0 < Real.sqrt (number i * 10 ^ x) := lt_of_le_of_lt (by positivity) hM1.1
    refine ⟨min e (e - sh), by rw [← he]; exact min_le_left _ _, ?_, ?_⟩
    · rintro h3 ⟨k, hk⟩
      have h4 : min e (e - sh) = e - sh := by omega
      rw [h4, ten_add, zpow_one] at hk
      rw [hk] at hM1
      have h5 : (n : ℝ) < ((k * 10 : ℤ) : ℝ) := by
        push_cast
        have := hM1.1
        rw [mul_comm ((10 : ℝ) ^ (e - sh)), ← mul_assoc] at this
        exact lt_of_mul_lt_mul_right this hp1.le
      have h6 : ((k * 10 : ℤ) : ℝ) < n + 1 := by
        push_cast
        have := hM1.2
        rw [mul_comm ((10 : ℝ) ^ (e - sh)), ← mul_assoc] at this
        exact lt_of_mul_lt_mul_right this hp1.le
      have h7 : (n : ℤ) < k * 10 := by exact_mod_cast h5
      have h8 : k * 10 < (n : ℤ) + 1 := by exact_mod_cast h6
      omega
    · exact .of_sign (s := false) hMpos (by simp) (sticky hc' false hnbig hM1.1 hM1.2 (min_le_right _ _))

end Verif.DecimalMore
