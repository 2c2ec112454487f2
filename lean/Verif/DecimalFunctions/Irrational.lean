/- Exponentials and logarithms of decimals are irrational; so the loops that look for enough digits end. -/
import Verif.DecimalFunctions.Rounded
import Verif.DecimalFunctions.Iexp
import Mathlib.NumberTheory.Transcendental.Lindemann.AnalyticalPart
import Mathlib.NumberTheory.Real.Irrational
import Mathlib.Topology.Algebra.Order.Floor

namespace Verif.DecimalFunctions
open Verif.Decimal

/-- Powers of `e` with a positive whole exponent are irrational. -/
theorem exp_nat_irrational {a : ℕ} (ha : a ≠ 0) : Irrational (Real.exp a) := by
  rintro ⟨w, hw⟩
  have hwpos : (0 : ℝ) < w := by rw [hw]; exact Real.exp_pos _
  obtain ⟨c, hc⟩ := LindemannWeierstrass.exp_polynomial_approx (Polynomial.X - Polynomial.C (a : ℤ)) (by simpa using ha)
  have hlim := FloorSemiring.tendsto_pow_div_factorial_atTop |c|
  have hlim2 := hlim.const_mul ((w.den : ℝ) * |c|)
  rw [mul_zero] at hlim2
  obtain ⟨N, hN⟩ := (hlim2.eventually (gt_mem_nhds (zero_lt_one' ℝ))).exists_forall_of_atTop
  obtain ⟨p, hpN, hp⟩ := Nat.exists_infinite_primes (N + 1 + a + w.num.natAbs + 1)
  obtain ⟨n, hn, gp, -, hr⟩ := hc p (by simp; omega) hp
  have hroot : (a : ℂ) ∈ (Polynomial.X - Polynomial.C (a : ℤ)).aroots ℂ := by
    rw [Polynomial.mem_aroots]
    refine ⟨Polynomial.X_sub_C_ne_zero _, by simp⟩
  have h1 := hr hroot
  have e1 : n • Complex.exp (a : ℂ) - p • (Polynomial.aeval (a : ℂ)) gp = (((n : ℝ) * Real.exp a - p * ((gp.eval (a : ℤ) : ℤ) : ℝ) : ℝ) : ℂ) := by
    have : (Polynomial.aeval (a : ℂ)) gp = ((gp.eval (a : ℤ) : ℤ) : ℂ) := by
      have := Polynomial.aeval_algebraMap_apply_eq_algebraMap_eval (A := ℂ) (a : ℤ) gp
      simpa using this
    rw [this, zsmul_eq_mul, nsmul_eq_mul]
    push_cast
    rfl
  rw [e1, Complex.norm_real, Real.norm_eq_abs] at h1
  have hden : (0 : ℝ) < w.den := by exact_mod_cast w.den_pos
  have hwq : Real.exp a = w.num / w.den := by rw [← hw]; exact_mod_cast (Rat.num_div_den w).symm
  have e2 : (w.den : ℝ) * (n * Real.exp a - p * ((gp.eval (a : ℤ) : ℤ) : ℝ)) = ((n * w.num - p * (w.den * gp.eval (a : ℤ)) : ℤ) : ℝ) := by
    rw [hwq]; push_cast; field_simp
  have hsmall : |((n * w.num - p * (w.den * gp.eval (a : ℤ)) : ℤ) : ℝ)| < 1 := by
    rw [← e2, abs_mul, abs_of_pos hden]
    have h2 := hN (p - 1) (by omega)
    have h3 : c ^ p / ((p - 1).factorial : ℝ) ≤ |c| * (|c| ^ (p - 1) / ((p - 1).factorial : ℝ)) := by
      rw [← mul_div_assoc, ← pow_succ', show p - 1 + 1 = p by have := hp.pos; omega]
      apply div_le_div_of_nonneg_right _ (by positivity)
      exact le_trans (le_abs_self _) (le_of_eq (abs_pow c p))
    calc (w.den : ℝ) * |(n : ℝ) * Real.exp a - p * ((gp.eval (a : ℤ) : ℤ) : ℝ)|
        ≤ w.den * (|c| * (|c| ^ (p - 1) / ((p - 1).factorial : ℝ))) := mul_le_mul_of_nonneg_left (le_trans h1 h3) hden.le
      _ = w.den * |c| * (|c| ^ (p - 1) / ((p - 1).factorial : ℝ)) := by ring
      _ < 1 := h2
  have hz : n * w.num - p * (w.den * gp.eval (a : ℤ)) = 0 := by
    rw [← Int.cast_abs] at hsmall
    have : |n * w.num - p * (w.den * gp.eval (a : ℤ))| < 1 := by exact_mod_cast hsmall
    exact Int.abs_lt_one_iff.1 this
  have hdvd : (p : ℤ) ∣ n * w.num := ⟨w.den * gp.eval (a : ℤ), by omega⟩
  have hpi : Prime (p : ℤ) := Nat.prime_iff_prime_int.1 hp
  rcases hpi.dvd_or_dvd hdvd with h | h
  · exact hn h
  · have hnum : w.num ≠ 0 := by
      intro h0
      rw [hwq, h0] at hw
      have := Real.exp_pos (a : ℝ)
      rw [hwq, h0] at this
      simp at this
    have := Int.natAbs_dvd_natAbs.2 h
    rw [Int.natAbs_natCast] at this
    have := Nat.le_of_dvd (Int.natAbs_pos.2 hnum) this
    omega

/-- Powers of `e` with a rational exponent other than zero are irrational. -/
theorem exp_irrational {q : ℚ} (hq : q ≠ 0) : Irrational (Real.exp q) := by
  rintro ⟨w, hw⟩
  have hden : (q.den : ℝ) ≠ 0 := by exact_mod_cast q.den_ne_zero
  have hpow : Real.exp q ^ q.den = Real.exp q.num := by
    rw [← Real.exp_nat_mul]
    congr 1
    have : (q : ℝ) = q.num / q.den := by exact_mod_cast (Rat.num_div_den q).symm
    rw [this]; field_simp
  have hnum : q.num.natAbs ≠ 0 := by simpa using hq
  refine exp_nat_irrational hnum ?_
  rcases Int.natAbs_eq q.num with h | h
  · refine ⟨w ^ q.den, ?_⟩
    push_cast
    rw [hw, hpow]
    congr 1
    rw [← Int.cast_natCast, ← h]
  · refine ⟨(w ^ q.den)⁻¹, ?_⟩
    push_cast
    rw [hw, hpow, ← Real.exp_neg]
    congr 1
    have : ((q.num : ℤ) : ℝ) = -((q.num.natAbs : ℤ) : ℝ) := by exact_mod_cast h
    rw [this]; simp

/-- The natural logarithm of a positive rational number other than one is irrational. -/
theorem log_irrational {x : ℚ} (h0 : 0 < x) (h1 : x ≠ 1) : Irrational (Real.log x) := by
  rintro ⟨w, hw⟩
  have hxr : (0 : ℝ) < x := by exact_mod_cast h0
  have hw0 : w ≠ 0 := by
    rintro rfl
    have h2 : Real.log x = 0 := by rw [← hw]; simp
    rcases Real.log_eq_zero.1 h2 with h | h | h
    · linarith
    · exact h1 (by exact_mod_cast h)
    · linarith
  refine exp_irrational hw0 ⟨x, ?_⟩
  rw [hw, Real.exp_log hxr]

theorem two_five {c a b : ℕ} (hb : b ≠ 0) (h : c ^ b = 10 ^ a) : ∃ k, c = 10 ^ k := by
  have h2 : Fact (Nat.Prime 2) := ⟨Nat.prime_two⟩
  have h5 : Fact (Nat.Prime 5) := ⟨Nat.prime_five⟩
  have hc : c ∣ 10 ^ a := h ▸ dvd_pow_self c hb
  have h10 : (10 : ℕ) ^ a = 2 ^ a * 5 ^ a := by rw [← Nat.mul_pow]
  rw [h10] at hc
  obtain ⟨d1, d2, hd1, hd2, hcd⟩ := exists_dvd_and_dvd_of_dvd_mul hc
  obtain ⟨i, -, rfl⟩ := (Nat.dvd_prime_pow Nat.prime_two).1 hd1
  obtain ⟨j, -, rfl⟩ := (Nat.dvd_prime_pow Nat.prime_five).1 hd2
  rw [hcd, h10, Nat.mul_pow, ← Nat.pow_mul, ← Nat.pow_mul] at h
  have cop : ∀ m n : ℕ, Nat.Coprime (2 ^ m) (5 ^ n) := fun m n => Nat.Coprime.pow _ _ (by decide)
  have e2 : 2 ^ (i * b) = 2 ^ a := by
    apply Nat.dvd_antisymm
    · exact (cop (i * b) a).dvd_of_dvd_mul_right (h ▸ Dvd.intro _ rfl)
    · exact (cop a (j * b)).dvd_of_dvd_mul_right (h ▸ Dvd.intro _ rfl)
  have e5 : 5 ^ (j * b) = 5 ^ a := by
    rw [e2] at h
    exact Nat.eq_of_mul_eq_mul_left (Nat.pow_pos (by omega)) h
  have i1 := Nat.pow_right_injective (le_refl 2) e2
  have i2 := Nat.pow_right_injective (by omega : 2 ≤ 5) e5
  have hij : i = j := Nat.eq_of_mul_eq_mul_right (Nat.pos_of_ne_zero hb) (i1.trans i2.symm)
  exact ⟨i, by rw [hcd, ← hij, ← Nat.mul_pow]⟩

/-- The decimal logarithm of a positive decimal that is not a power of ten is irrational. -/
theorem log10_irrational {c : ℕ} (hc : c ≠ 0) (e : ℤ) (h : ∀ k, c ≠ 10 ^ k) : Irrational (Real.log (c * 10 ^ e) / Real.log 10) := by
  rintro ⟨w, hw⟩
  have hL : (0 : ℝ) < Real.log 10 := by have := log_ten_gt; linarith
  have hcr : (0 : ℝ) < c := by exact_mod_cast Nat.pos_of_ne_zero hc
  have hden : (w.den : ℝ) ≠ 0 := by exact_mod_cast w.den_ne_zero
  have hwq : (w : ℝ) = w.num / w.den := by exact_mod_cast (Rat.num_div_den w).symm
  have h1 : Real.log (c * 10 ^ e) = Real.log c + e * Real.log 10 := by
    rw [Real.log_mul (by positivity) (ten_pos e).ne', Real.log_zpow]
  rw [h1, eq_div_iff hL.ne'] at hw
  have h2 : (w.den : ℝ) * Real.log c = ((w.num - w.den * e : ℤ) : ℝ) * Real.log 10 := by
    have : (w.num : ℝ) = w * w.den := by rw [hwq]; field_simp
    push_cast
    rw [this]
    linear_combination (-(w.den : ℝ)) * hw
  obtain ⟨z, hz⟩ : ∃ z : ℤ, z = w.num - w.den * e := ⟨_, rfl⟩
  rw [← hz] at h2
  have hz0 : 0 ≤ z := by
    have h3 : 0 ≤ Real.log c := Real.log_nonneg (by exact_mod_cast Nat.pos_of_ne_zero hc)
    have h4 : 0 ≤ (z : ℝ) * Real.log 10 := by rw [← h2]; positivity
    have : (0 : ℝ) ≤ z := nonneg_of_mul_nonneg_left h4 hL
    exact_mod_cast this
  obtain ⟨n, rfl⟩ := Int.eq_ofNat_of_zero_le hz0
  have h3 : Real.log ((c : ℝ) ^ w.den) = Real.log ((10 : ℝ) ^ n) := by
    rw [Real.log_pow, Real.log_pow]; exact_mod_cast h2
  have h4 : (c : ℝ) ^ w.den = 10 ^ n := Real.log_injOn_pos (Set.mem_Ioi.2 (by positivity)) (Set.mem_Ioi.2 (by positivity)) h3
  obtain ⟨k, hk⟩ := two_five w.den_ne_zero (by exact_mod_cast h4)
  exact h k hk

/-- The multiples of a power of ten keep away from an irrational number. -/
theorem apart {v : ℝ} (hv : Irrational v) (g : ℤ) : ∃ δ > 0, ∀ k : ℤ, δ ≤ |k * (10 : ℝ) ^ g - v| := by
  have hg := ten_pos (K := ℝ) g
  have hw : Irrational (v / 10 ^ g) := by
    rintro ⟨w, hw⟩
    refine hv ⟨w * 10 ^ g, ?_⟩
    push_cast
    rw [hw]; field_simp
  obtain ⟨d, hd⟩ : ∃ d, d = |v / 10 ^ g - round (v / 10 ^ g)| := ⟨_, rfl⟩
  have hd0 : 0 < d := by
    rw [hd, abs_pos]
    intro h
    exact hw ⟨(round (v / 10 ^ g) : ℤ), by push_cast; linarith⟩
  refine ⟨d * 10 ^ g, by positivity, fun k => ?_⟩
  have h1 := round_le (v / 10 ^ g) k
  rw [← hd, abs_sub_comm] at h1
  have : (k : ℝ) * 10 ^ g - v = (k - v / 10 ^ g) * 10 ^ g := by field_simp
  rw [this, abs_mul, abs_of_pos hg]
  exact mul_le_mul_of_nonneg_right h1 hg.le

/-- A coefficient that is not clear is a multiple of a power of ten. -/
theorem multiple_of_not_clear {coeff : ℤ} {p k : ℕ} (hk : p + 1 + k ≤ (str coeff.natAbs).length) (h : clear coeff p ≠ true) :
    ∃ m : ℤ, coeff = m * 10 ^ k := by
  have h1 : coeff % (5 * 10 ^ ((str coeff.natAbs).length - p - 1)) = 0 := by
    by_contra h2
    exact h (by rw [clear, bne_iff_ne]; exact h2)
  obtain ⟨m, hm⟩ := Int.dvd_of_emod_eq_zero h1
  refine ⟨5 * m * 10 ^ ((str coeff.natAbs).length - p - 1 - k), ?_⟩
  have : (10 : ℤ) ^ ((str coeff.natAbs).length - p - 1) = 10 ^ ((str coeff.natAbs).length - p - 1 - k) * 10 ^ k := by
    rw [← pow_add]; congr 1; omega
  rw [this] at hm
  rw [mul_right_comm, mul_assoc, mul_right_comm 5]
  linear_combination hm

theorem exists_adj {M : ℝ} (h : 0 < M) : ∃ a : ℤ, (10 : ℝ) ^ a ≤ M ∧ M < 10 ^ (a + 1) := by
  obtain ⟨n, h1, h2⟩ := exists_mem_Ico_zpow h (y := (10 : ℝ)) (by norm_num)
  exact ⟨n, h1, h2⟩

theorem small_power {δ : ℝ} (h : 0 < δ) : ∃ n : ℕ, (10 : ℝ) ^ (-(n : ℤ)) < δ := by
  obtain ⟨n, hn⟩ := exists_pow_lt_of_lt_one h (y := (1 / 10 : ℝ)) (by norm_num)
  refine ⟨n, ?_⟩
  rw [zpow_neg, zpow_natCast]
  simpa [one_div] using hn

theorem len_of_ge {n k : ℕ} (h : 10 ^ k ≤ n) : k + 1 ≤ (str n).length := by
  have h0 : n ≠ 0 := by have : 0 < 10 ^ k := Nat.pow_pos (by omega); omega
  by_contra hlt
  have := (length_str_le (k := k) h0).1 (by omega)
  omega

/-- The loops of the logarithms end. -/
theorem logLoop_ends {v : ℝ} (hv : Irrational v) {approx : ℤ → Option ℤ} (h : ∀ q : ℤ, ∃ r, approx q = some r ∧ |(r : ℝ) - 10 ^ q * v| < 1)
    (p : ℕ) (places : ℤ) : ∃ fuel r, logLoop approx p fuel places = some r := by
  by_contra hno
  have hnone : ∀ fuel, logLoop approx p fuel places = none := by
    intro fuel
    cases hl : logLoop approx p fuel places with
    | none => rfl
    | some r => exact absurd ⟨fuel, r, hl⟩ hno
  -- no coefficient is clear
  have hall : ∀ n : ℕ, ∀ pl : ℤ, (∀ fuel, logLoop approx p fuel pl = none) → ∃ r : ℤ, approx (pl + 3 * n) = some r ∧ clear r p ≠ true := by
    intro n
    induction n with
    | zero =>
      intro pl hpl
      obtain ⟨r, hr, -⟩ := h pl
      refine ⟨r, by simpa using hr, fun hcl => ?_⟩
      have := hpl 1
      rw [logLoop, hr] at this
      simp [hcl] at this
    | succ n ih =>
      intro pl hpl
      obtain ⟨r, hr, -⟩ := h pl
      have hcl : clear r p ≠ true := by
        intro hcl
        have := hpl 1
        rw [logLoop, hr] at this
        simp [hcl] at this
      obtain ⟨r', h1, h2⟩ := ih (pl + 3) (fun fuel => by
        have := hpl (fuel + 1)
        rw [logLoop, hr] at this
        simpa [hcl] using this)
      exact ⟨r', by rw [← h1]; congr 1; push_cast; ring, h2⟩
  have hv0 : v ≠ 0 := hv.ne_zero
  obtain ⟨a, ha1, -⟩ := exists_adj (abs_pos.2 hv0)
  obtain ⟨δ, hδ, hap⟩ := apart hv (a - p - 2)
  obtain ⟨N, hN⟩ := small_power hδ
  obtain ⟨n, hn⟩ : ∃ n : ℕ, (N : ℤ) ≤ places + 3 * n ∧ (p : ℤ) + 2 - a ≤ places + 3 * n := ⟨N + (p + 2 - a).toNat + (-places).toNat, by omega⟩
  obtain ⟨r, hr, hcl⟩ := hall n places hnone
  obtain ⟨r', hr', herr⟩ := h (places + 3 * n)
  rw [hr] at hr'
  obtain rfl := Option.some.inj hr'
  generalize places + 3 * (n : ℤ) = q at *
  have hq := ten_pos (K := ℝ) q
  -- the coefficient is long
  have hlen : p + 1 + (q + a - p - 2).toNat ≤ (str r.natAbs).length := by
    have hk : (q + a - p - 2).toNat + p + 1 = (q + a - 1).toNat := by omega
    have : 10 ^ (q + a - 1).toNat ≤ r.natAbs := by
      have h1 : (10 : ℝ) ^ (q + a) ≤ |10 ^ q * v| := by
        rw [ten_add, abs_mul, abs_of_pos hq]; exact mul_le_mul_of_nonneg_left ha1 hq.le
      have h2 : |(10 : ℝ) ^ q * v| ≤ |(r : ℝ)| + 1 := by
        have h3 := abs_sub_abs_le_abs_sub ((10 : ℝ) ^ q * v) r
        rw [abs_sub_comm] at h3
        linarith
      have h4 : (10 : ℝ) ^ (q + a) = 10 * ((10 ^ (q + a - 1).toNat : ℕ) : ℝ) := by
        rw [show q + a = 1 + (q + a - 1) by ring, ten_add, zpow_one, ten_toNat (a := q + a - 1) (by omega)]
        congr 3
        omega
      have h5 : ((r.natAbs : ℕ) : ℝ) = |(r : ℝ)| := by
        rw [← Int.cast_natCast, Int.natCast_natAbs]; push_cast; rfl
      have h6 : (1 : ℝ) ≤ ((10 ^ (q + a - 1).toNat : ℕ) : ℝ) := by exact_mod_cast Nat.pow_pos (by omega : 0 < 10)
      have h7 : ((10 ^ (q + a - 1).toNat : ℕ) : ℝ) ≤ ((r.natAbs : ℕ) : ℝ) := by rw [h5]; linarith
      exact_mod_cast h7
    have := len_of_ge this
    omega
  obtain ⟨m, hm⟩ := multiple_of_not_clear hlen hcl
  have h1 := hap m
  have h2 : (r : ℝ) = m * 10 ^ (a - p - 2) * 10 ^ q := by
    rw [hm]; push_cast
    rw [mul_assoc, ← ten_add, show a - p - 2 + q = q + a - p - 2 by ring, ten_toNat (a := q + a - p - 2) (by omega)]
    push_cast; rfl
  rw [h2, show (m : ℝ) * 10 ^ (a - p - 2) * 10 ^ q - 10 ^ q * v = 10 ^ q * (m * 10 ^ (a - p - 2) - v) by ring, abs_mul, abs_of_pos hq] at herr
  have h3 : (10 : ℝ) ^ (-q) ≤ 10 ^ (-(N : ℤ)) := ten_le.2 (by omega)
  have h4 : |(m : ℝ) * 10 ^ (a - p - 2) - v| < 10 ^ (-q) := by
    rw [zpow_neg, ← one_div, lt_div_iff₀ hq, mul_comm]; exact herr
  linarith

/-- More fuel does not change a result. -/
theorem logLoop_mono {approx : ℤ → Option ℤ} {p fuel : ℕ} {places : ℤ} {r : ℤ × ℤ} (h : logLoop approx p fuel places = some r) {fuel' : ℕ}
    (hf : fuel ≤ fuel') : logLoop approx p fuel' places = some r := by
  induction fuel generalizing places fuel' with
  | zero => exact absurd h (by simp [logLoop])
  | succ fuel ih =>
    obtain ⟨f, rfl⟩ : ∃ f, fuel' = f + 1 := ⟨fuel' - 1, by omega⟩
    rw [logLoop] at h ⊢
    obtain ⟨coeff, h1, h2⟩ := Option.bind_eq_some_iff.1 h
    rw [h1]
    by_cases hcl : clear coeff p = true
    · simpa [hcl] using h2
    · simp only [Option.bind_some, hcl] at h2 ⊢
      exact ih h2 (by omega)

theorem expLoop_spec {ten : ℕ → ℤ} {c e : ℤ} {p fuel : ℕ} {extra : ℤ} {r : ℤ × ℤ} (h : expLoop ten c e p fuel extra = some r) :
    ∃ x, extra ≤ x ∧ dexp ten c e (p + x) = r ∧ clear r.1 p = true := by
  induction fuel generalizing extra with
  | zero => exact absurd h (by simp [expLoop])
  | succ fuel ih =>
    rw [expLoop] at h
    obtain ⟨⟨d, f⟩, hd⟩ : ∃ q, dexp ten c e (p + extra) = q := ⟨_, rfl⟩
    rw [hd] at h
    by_cases hcl : clear d p = true
    · simp only [hcl, if_true, Option.some.injEq] at h
      exact ⟨extra, le_refl _, hd.trans h, by rw [← h]; exact hcl⟩
    · simp only [hcl] at h
      obtain ⟨x, h1, h2⟩ := ih h
      exact ⟨x, by omega, h2⟩

theorem expLoop_mono {ten : ℕ → ℤ} {c e : ℤ} {p fuel : ℕ} {extra : ℤ} {r : ℤ × ℤ} (h : expLoop ten c e p fuel extra = some r) {fuel' : ℕ}
    (hf : fuel ≤ fuel') : expLoop ten c e p fuel' extra = some r := by
  induction fuel generalizing extra fuel' with
  | zero => exact absurd h (by simp [expLoop])
  | succ fuel ih =>
    obtain ⟨f, rfl⟩ : ∃ f, fuel' = f + 1 := ⟨fuel' - 1, by omega⟩
    rw [expLoop] at h ⊢
    obtain ⟨⟨d, f⟩, hd⟩ : ∃ q, dexp ten c e (p + extra) = q := ⟨_, rfl⟩
    rw [hd] at h ⊢
    by_cases hcl : clear d p = true
    · simpa [hcl] using h
    · simp only [hcl] at h ⊢
      exact ih h (by omega)

/-- The loop of `exp` ends. -/
theorem expLoop_ends {ten : ℕ → ℤ} (ht : IsLogTen ten) {c e : ℤ} (hc : c ≠ 0) (p : ℕ) : ∃ fuel r, expLoop ten c e p fuel 3 = some r := by
  by_contra hno
  have hnone : ∀ fuel, expLoop ten c e p fuel 3 = none := by
    intro fuel
    cases hl : expLoop ten c e p fuel 3 with
    | none => rfl
    | some r => exact absurd ⟨fuel, r, hl⟩ hno
  have hall : ∀ n : ℕ, ∀ x : ℤ, (∀ fuel, expLoop ten c e p fuel x = none) → clear (dexp ten c e (p + (x + 3 * n))).1 p ≠ true := by
    intro n
    induction n with
    | zero =>
      intro x hx hcl
      have := hx 1
      rw [expLoop] at this
      simp only [Nat.cast_zero, mul_zero, add_zero] at hcl
      simp [hcl] at this
    | succ n ih =>
      intro x hx
      have hcl : clear (dexp ten c e (p + x)).1 p ≠ true := by
        intro hcl
        have := hx 1
        rw [expLoop] at this
        simp [hcl] at this
      have := ih (x + 3) (fun fuel => by
        have := hx (fuel + 1)
        rw [expLoop] at this
        simpa [hcl] using this)
      rw [show x + 3 * ((n + 1 : ℕ) : ℤ) = x + 3 + 3 * n by push_cast; ring]
      exact this
  obtain ⟨v, hvd⟩ : ∃ v, v = Real.exp (c * 10 ^ e) := ⟨_, rfl⟩
  have hv : Irrational v := by
    have hq : ((c : ℚ) * 10 ^ e) ≠ 0 := by
      have : (c : ℚ) ≠ 0 := by exact_mod_cast hc
      positivity
    have := exp_irrational hq
    push_cast at this
    rw [hvd]; exact this
  have hv0 : 0 < v := by rw [hvd]; exact Real.exp_pos _
  obtain ⟨a, ha1, ha2⟩ := exists_adj hv0
  obtain ⟨δ, hδ, hap⟩ := apart hv (a - p - 1)
  obtain ⟨N, hN⟩ := small_power hδ
  obtain ⟨n, hn⟩ : ∃ n : ℕ, (N : ℤ) + a + 3 ≤ p + (3 + 3 * n) := ⟨(N + a).toNat, by omega⟩
  have hcl := hall n 3 hnone
  obtain ⟨⟨d, f⟩, hd⟩ : ∃ q, dexp ten c e (p + (3 + 3 * n)) = q := ⟨_, rfl⟩
  rw [hd] at hcl
  obtain ⟨q, hq⟩ : ∃ q : ℕ, q = p + (3 + 3 * n) := ⟨_, rfl⟩
  have hqi : (p : ℤ) + (3 + 3 * n) = q := by rw [hq]; push_cast; ring
  rw [hqi] at hd hn
  obtain ⟨s1, s2, s3⟩ := dexp_spec ht c e q (by omega) hd
  rw [← hvd] at s1
  have hf := ten_pos (K := ℝ) f
  have s2' : (10 : ℤ) ^ (q - 1) ≤ d := by
    have h1 : (10 : ℝ) ^ ((q : ℤ) - 1) = ((10 ^ (q - 1) : ℤ) : ℝ) := by
      rw [show (q : ℤ) - 1 = ((q - 1 : ℕ) : ℤ) by omega, zpow_natCast]; push_cast; rfl
    rw [h1] at s2
    exact_mod_cast s2
  have hd0 : 0 < d := lt_of_lt_of_le (by positivity) s2'
  -- the exponent
  have hvf : v / 10 ^ f * 10 ^ f = v := by field_simp
  have hfa : a ≤ q + f := by
    have h1 : v / 10 ^ f < 10 ^ ((q : ℤ) + 1) := by
      have h3 := (abs_le.1 s1).1
      have h4 : (10 : ℝ) ^ ((q : ℤ) + 1) = 10 * 10 ^ (q : ℤ) := by rw [add_comm, ten_add, zpow_one]
      have h5 : (1 : ℝ) ≤ 10 ^ (q : ℤ) := by rw [zpow_natCast]; exact one_le_pow₀ (by norm_num)
      rw [h4]; linarith
    have h2 : v < 10 ^ ((q : ℤ) + 1 + f) := by
      rw [ten_add, ← hvf]; exact mul_lt_mul_of_pos_right h1 hf
    have h3 := ten_lt.1 (lt_of_le_of_lt ha1 h2)
    omega
  have hfs : f < -N := by
    have h1 : (10 : ℝ) ^ ((q : ℤ) - 2) ≤ v / 10 ^ f := by
      have h3 := (abs_le.1 s1).2
      have h4 : (10 : ℝ) ^ ((q : ℤ) - 1) = 10 * 10 ^ ((q : ℤ) - 2) := by
        rw [show (q : ℤ) - 1 = 1 + ((q : ℤ) - 2) by ring, ten_add, zpow_one]
      have h5 : (1 : ℝ) ≤ 10 ^ ((q : ℤ) - 2) := by
        rw [show (q : ℤ) - 2 = ((q - 2 : ℕ) : ℤ) by omega, zpow_natCast]; exact one_le_pow₀ (by norm_num)
      linarith
    have h2 : (10 : ℝ) ^ ((q : ℤ) - 2 + f) ≤ v := by
      rw [ten_add, ← hvf]; exact mul_le_mul_of_nonneg_right h1 hf.le
    have h3 := ten_lt.1 (lt_of_le_of_lt h2 ha2)
    omega
  have hlen : p + 1 + (q - p - 1) ≤ (str d.natAbs).length := by
    have : 10 ^ (q - 1) ≤ d.natAbs := by zify; rw [abs_of_pos hd0]; exact s2'
    have := len_of_ge this
    omega
  obtain ⟨m, hm⟩ := multiple_of_not_clear hlen hcl
  have h1 := hap (m * 10 ^ (q + f - a).toNat)
  have h2 : (d : ℝ) * 10 ^ f = ((m * 10 ^ (q + f - a).toNat : ℤ) : ℝ) * 10 ^ (a - p - 1) := by
    rw [hm]; push_cast
    have e1 : (10 : ℝ) ^ (q - p - 1) = 10 ^ ((q : ℤ) - p - 1) := by
      rw [← zpow_natCast]; congr 1; omega
    have e2 : (10 : ℝ) ^ (q + f - a).toNat = 10 ^ (q + f - a) := by
      rw [ten_toNat (a := q + f - a) (by omega)]; push_cast; rfl
    rw [e1, e2, mul_assoc, mul_assoc, ← ten_add, ← ten_add]
    congr 2
    ring
  rw [← h2] at h1
  have h3 : |(d : ℝ) * 10 ^ f - v| ≤ 0.66 * 10 ^ f := by
    have : (d : ℝ) * 10 ^ f - v = (d - v / 10 ^ f) * 10 ^ f := by field_simp
    rw [this, abs_mul, abs_of_pos hf]
    exact mul_le_mul_of_nonneg_right s1 hf.le
  have h4 : (10 : ℝ) ^ f ≤ 10 ^ (-(N : ℤ)) := ten_le.2 (by omega)
  linarith

end Verif.DecimalFunctions
