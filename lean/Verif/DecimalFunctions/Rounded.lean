/- From approximations to correctly rounded results; lower bounds for logarithms. -/
import Verif.DecimalFunctions.Dlog

namespace Verif.DecimalFunctions
open Verif.Decimal

/-- A coefficient that is less than one from the true value, and that is not near a boundary, gives the correctly rounded result. -/
theorem rounded_of_near {c : Ctx} (hc : c.Ok) {s : Bool} {n : ℕ} {x : ℤ} {M : ℝ} (hM : |(n : ℝ) - M / 10 ^ x| < 1)
    (hlen : c.prec + 1 ≤ (str n).length) (hclear : n % (5 * 10 ^ ((str n).length - c.prec - 1)) ≠ 0) {e : ℤ}
    (he : ∀ adj : ℤ, (10 : ℝ) ^ adj ≤ M → e < adj - c.prec + 1) : IsRounding c s M e (fixFin c s (str n) x) := by
  have hp := hc.prec
  have hn0 : n ≠ 0 := fun h => hclear (by rw [h, Nat.zero_mod])
  obtain ⟨k, hk⟩ : ∃ k, k = (str n).length - c.prec - 1 := ⟨_, rfl⟩
  rw [← hk] at hclear
  obtain ⟨C, hC⟩ : ∃ C, C = 5 * 10 ^ k := ⟨_, rfl⟩
  rw [← hC] at hclear
  have hC0 : 0 < C := by rw [hC]; positivity
  obtain ⟨j, hj⟩ : ∃ j, j = n / C := ⟨_, rfl⟩
  have hdm := Nat.div_add_mod n C
  have hml := Nat.mod_lt n hC0
  rw [← hj] at hdm
  have b1 : j * C + 1 ≤ n := by rw [Nat.mul_comm]; omega
  have b2 : n + 1 ≤ (j + 1) * C := by rw [Nat.add_mul, Nat.mul_comm j]; omega
  have hx := ten_pos (K := ℝ) x
  have b1r : (j : ℝ) * C + 1 ≤ n := by exact_mod_cast b1
  have b2r : (n : ℝ) + 1 ≤ (j + 1) * C := by exact_mod_cast b2
  have hMx : M / 10 ^ x * 10 ^ x = M := by field_simp
  obtain ⟨m1, m2⟩ := abs_lt.1 hM
  have hcell : (5 : ℝ) * 10 ^ (x + k) = C * 10 ^ x := by
    rw [hC, ten_add, zpow_natCast]; push_cast; ring
  have hM1 : (j : ℝ) * (C * 10 ^ x) < M := by rw [← mul_assoc, ← hMx]; exact mul_lt_mul_of_pos_right (by linarith) hx
  have hM2 : M < ((j : ℝ) + 1) * (C * 10 ^ x) := by rw [← mul_assoc, ← hMx]; exact mul_lt_mul_of_pos_right (by linarith) hx
  have hN1 : (j : ℝ) * (C * 10 ^ x) < n * 10 ^ x := by rw [← mul_assoc]; exact mul_lt_mul_of_pos_right (by linarith) hx
  have hN2 : (n : ℝ) * 10 ^ x < ((j : ℝ) + 1) * (C * 10 ^ x) := by rw [← mul_assoc]; exact mul_lt_mul_of_pos_right (by linarith) hx
  have hfix := fixFin_spec (K := ℝ) hc s (isCoeff_str n) (str_ne_zero hn0) x
  rw [number_str] at hfix
  obtain ⟨a1, a2⟩ := (isCoeff_str n).adj (K := ℝ) (str_ne_zero hn0) x
  rw [number_str] at a1 a2
  -- the power of ten below the coefficient is a boundary of cells
  have hge := (isCoeff_str n).ge (str_ne_zero hn0)
  rw [number_str] at hge
  have hdvd : C ∣ 10 ^ ((str n).length - 1) := by
    refine ⟨2 * 10 ^ (c.prec - 1), ?_⟩
    have : (str n).length - 1 = k + (1 + (c.prec - 1)) := by omega
    rw [this, Nat.pow_add, Nat.pow_add, hC]; ring
  obtain ⟨q, hq⟩ := hdvd
  have hqj : q ≤ j := by
    rw [hj, Nat.le_div_iff_mul_le hC0, Nat.mul_comm, ← hq]; exact hge
  have hlow : (10 : ℝ) ^ (x + (str n).length - 1) ≤ M := by
    have e1 : (10 : ℝ) ^ (x + (str n).length - 1) = q * (C * 10 ^ x) := by
      rw [show x + ((str n).length : ℤ) - 1 = ((str n).length - 1 : ℕ) + x by have := (isCoeff_str n).length_pos; omega, ten_add, ten_nat, hq]
      push_cast; ring
    rw [e1]
    have : (q : ℝ) ≤ j := by exact_mod_cast hqj
    exact (lt_of_le_of_lt (mul_le_mul_of_nonneg_right this (by positivity)) hM1).le
  have he2 := he _ hlow
  refine IsRounding.of_cell (g := x + k) (j := j) (a := x + (str n).length - 1) hfix ?_ ?_ ?_ ?_ ?_ ?_ (by omega) hp (by omega) (by omega)
  · rw [hcell]; exact_mod_cast hM1
  · rw [hcell]; exact_mod_cast hM2
  · rw [hcell]; exact_mod_cast hN1
  · rw [hcell]; exact_mod_cast hN2
  · exact a1
  · exact a2

theorem clear_natAbs {coeff : ℤ} {p : ℕ} (h : clear coeff p = true) : coeff.natAbs % (5 * 10 ^ ((str coeff.natAbs).length - p - 1)) ≠ 0 := by
  intro h1
  have h2 := Nat.dvd_of_mod_eq_zero h1
  have h3 : ((5 * 10 ^ ((str coeff.natAbs).length - p - 1) : ℕ) : ℤ) ∣ coeff := Int.natCast_dvd.2 h2
  have h4 := Int.emod_eq_zero_of_dvd h3
  push_cast at h4
  unfold clear at h
  rw [h4] at h
  simp at h

/-- The same for a number with a sign. -/
theorem rounded_of_clear {c : Ctx} (hc : c.Ok) {coeff places : ℤ} {v : ℝ} (h : |(coeff : ℝ) - 10 ^ places * v| < 1)
    (hbig : (10 : ℝ) ^ (c.prec : ℤ) ≤ |v| * 10 ^ places) (hclear : clear coeff c.prec = true) : IsRounded c v (logResult c (coeff, places)) := by
  intro e he
  have hc' : Ctx.Ok { c with rounding := .halfEven } := ⟨hc.prec, hc.emin, hc.emax⟩
  have hpl := ten_pos (K := ℝ) places
  have hp10 : (1 : ℝ) ≤ 10 ^ (c.prec : ℤ) := by rw [zpow_natCast]; exact one_le_pow₀ (by norm_num)
  have hv0 : v ≠ 0 := by
    rintro rfl
    rw [abs_zero, zero_mul] at hbig
    linarith
  have habs : |((coeff.natAbs : ℕ) : ℝ) - |v| / 10 ^ (-places)| < 1 := by
    have e1 : |v| / (10 : ℝ) ^ (-places) = |10 ^ places * v| := by
      rw [zpow_neg, div_inv_eq_mul, abs_mul, abs_of_pos hpl, mul_comm]
    have e2 : ((coeff.natAbs : ℕ) : ℝ) = |(coeff : ℝ)| := by
      rw [← Int.cast_natCast, Int.natCast_natAbs]; push_cast; rfl
    rw [e1, e2]
    exact lt_of_le_of_lt (abs_abs_sub_abs_le _ _) h
  have hbig2 : (10 : ℝ) ^ (c.prec : ℤ) ≤ |v| / 10 ^ (-places) := by
    rw [zpow_neg, div_inv_eq_mul]; exact hbig
  have hlen : c.prec + 1 ≤ (str coeff.natAbs).length := by
    have h1 := (abs_lt.1 habs).1
    have h2 : ((10 ^ c.prec : ℕ) : ℝ) < coeff.natAbs + 1 := by rw [zpow_natCast] at hbig2; push_cast; linarith
    have h3 : 10 ^ c.prec < coeff.natAbs + 1 := by exact_mod_cast h2
    have hne : coeff.natAbs ≠ 0 := by
      have : 0 < 10 ^ c.prec := Nat.pos_of_ne_zero (by positivity)
      omega
    by_contra hlt
    have := (length_str_le (k := c.prec) hne).1 (by omega)
    omega
  have hr := fun s => rounded_of_near hc' (s := s) habs hlen (clear_natAbs hclear) (e := e) he
  have hcne : (1 : ℝ) ≤ |(coeff : ℝ)| := by
    have h1 : coeff ≠ 0 := by
      rintro rfl
      simp [clear] at hclear
    exact_mod_cast Int.one_le_abs h1
  obtain ⟨n1, n2⟩ := abs_lt.1 h
  refine ⟨fun h0 => absurd h0 hv0, fun hneg => ?_, fun hpos => ?_⟩
  · have : (coeff : ℝ) < 1 := by nlinarith
    have h3 : coeff < 1 := by exact_mod_cast this
    have h4 : coeff < 0 := by
      rcases lt_or_ge coeff 0 with h | h
      · exact h
      · have : coeff = 0 := by omega
        rw [this] at hcne; simp at hcne; linarith
    have := hr true
    rw [abs_of_neg hneg] at this
    rw [logResult, finish, decide_eq_true h4]
    exact this
  · have : (-1 : ℝ) < coeff := by nlinarith
    have h3 : -1 < coeff := by exact_mod_cast this
    have h4 : ¬ coeff < 0 := by omega
    have := hr false
    rw [abs_of_pos hpos] at this
    rw [logResult, finish, decide_eq_false h4]
    exact this

theorem logLoop_spec {approx : ℤ → Option ℤ} {p : ℕ} {fuel : ℕ} {places : ℤ} {r : ℤ × ℤ} (h : logLoop approx p fuel places = some r) :
    approx r.2 = some r.1 ∧ clear r.1 p = true ∧ places ≤ r.2 := by
  induction fuel generalizing places with
  | zero => exact absurd h (by simp [logLoop])
  | succ fuel ih =>
    rw [logLoop] at h
    obtain ⟨coeff, h1, h2⟩ := Option.bind_eq_some_iff.1 h
    by_cases hcl : clear coeff p = true
    · rw [if_pos hcl] at h2
      obtain rfl := Option.some.inj h2
      exact ⟨h1, hcl, le_refl _⟩
    · rw [if_neg hcl] at h2
      obtain ⟨a, b, d⟩ := ih h2
      exact ⟨a, b, by omega⟩

/-! ### Lower bounds -/

theorem strLt_false {s t : Digits} (hs : ∀ x ∈ s, x < 10) (ht : ∀ x ∈ t, x < 10) (h : strLt s t = false) :
    number t * 10 ^ s.length ≤ number s * 10 ^ t.length := by
  induction s generalizing t with
  | nil =>
    cases t with
    | nil => simp
    | cons b bs => simp [strLt] at h
  | cons a as ih =>
    cases t with
    | nil => simp [number]
    | cons b bs =>
      rw [strLt] at h
      by_cases h1 : a < b
      · rw [if_pos h1] at h; simp at h
      · rw [if_neg h1] at h
        have hp1 : 0 < 10 ^ as.length := Nat.pos_of_ne_zero (by positivity)
        have hp2 : 0 < 10 ^ bs.length := Nat.pos_of_ne_zero (by positivity)
        simp only [number, List.length_cons]
        by_cases h2 : b < a
        · have h3 := number_lt (ds := bs) (fun x hx => ht x (by simp [hx]))
          have h4 : b * 10 ^ bs.length + number bs ≤ a * 10 ^ bs.length := by nlinarith
          calc (b * 10 ^ bs.length + number bs) * 10 ^ (as.length + 1) ≤ (a * 10 ^ bs.length) * 10 ^ (as.length + 1) := Nat.mul_le_mul_right _ h4
            _ = (a * 10 ^ as.length) * 10 ^ (bs.length + 1) := by rw [Nat.pow_succ, Nat.pow_succ]; ring
            _ ≤ _ := Nat.mul_le_mul_right _ (by omega)
        · rw [if_neg h2] at h
          obtain rfl : a = b := by omega
          have := ih (fun x hx => hs x (by simp [hx])) (fun x hx => ht x (by simp [hx])) h
          have e1 : (a * 10 ^ bs.length + number bs) * 10 ^ (as.length + 1) = 10 * (a * 10 ^ bs.length * 10 ^ as.length + number bs * 10 ^ as.length) := by
            rw [Nat.pow_succ]; ring
          have e2 : (a * 10 ^ as.length + number as) * 10 ^ (bs.length + 1) = 10 * (a * 10 ^ bs.length * 10 ^ as.length + number as * 10 ^ bs.length) := by
            rw [Nat.pow_succ]; ring
          rw [e1, e2]; omega

/-- A lower bound for a quotient from the digits of its parts. -/
theorem quotient_bound {N D : ℕ} (hN : N ≠ 0) (hD : D ≠ 0) {t : Digits} (ht : str D = t) :
    (10 : ℝ) ^ (((str N).length : ℤ) - t.length - if strLt (str N) t then 1 else 0) ≤ N / D := by
  subst ht
  have hDr : (0 : ℝ) < D := by exact_mod_cast Nat.pos_of_ne_zero hD
  rw [le_div_iff₀ hDr]
  by_cases h : strLt (str N) (str D) = true
  · rw [if_pos h]
    have h1 := (isCoeff_str N).ge (str_ne_zero hN)
    have h2 := (isCoeff_str D).lt
    rw [number_str] at h1 h2
    have h1r : (10 : ℝ) ^ (((str N).length : ℤ) - 1) ≤ N := by
      rw [show ((str N).length : ℤ) - 1 = ((str N).length - 1 : ℕ) by have := (isCoeff_str N).length_pos; omega, zpow_natCast]
      exact_mod_cast h1
    have h2r : (D : ℝ) ≤ 10 ^ ((str D).length : ℤ) := by rw [zpow_natCast]; exact_mod_cast h2.le
    calc (10 : ℝ) ^ (((str N).length : ℤ) - (str D).length - 1) * D ≤ 10 ^ (((str N).length : ℤ) - (str D).length - 1) * 10 ^ ((str D).length : ℤ) :=
          mul_le_mul_of_nonneg_left h2r (ten_pos _).le
      _ = 10 ^ (((str N).length : ℤ) - 1) := by rw [← ten_add]; congr 1; omega
      _ ≤ N := h1r
  · rw [if_neg h]
    have h1 := strLt_false (isCoeff_str N).digits (isCoeff_str D).digits (by simpa using h)
    rw [number_str, number_str] at h1
    have h1r : (D : ℝ) * 10 ^ (str N).length ≤ N * 10 ^ (str D).length := by exact_mod_cast h1
    rw [sub_zero, ten_sub, zpow_natCast, zpow_natCast, div_mul_eq_mul_div, div_le_iff₀ (by positivity)]
    linarith

theorem len_le {n : ℤ} (h : 0 < n) {x : ℝ} (hx : (n : ℝ) ≤ x) : (10 : ℝ) ^ ((len n : ℤ) - 1) ≤ x := by
  obtain ⟨h1, h2, _⟩ := len_bounds h
  rw [show ((len n : ℤ) - 1) = ((len n - 1 : ℕ) : ℤ) by omega, zpow_natCast]
  have : (10 : ℝ) ^ (len n - 1) ≤ n := by exact_mod_cast h2
  linarith

theorem neg_exp {e : ℤ} (h : e ≤ 0) : ((10 ^ (-e).toNat : ℕ) : ℝ) = (10 ^ e)⁻¹ := by
  rw [← ten_toNat (K := ℝ) (by omega : 0 ≤ -e), zpow_neg]

section
variable {i : Digits} (h : IsCoeff i) (h0 : i ≠ [0]) (e : ℤ)
include h h0

/-- Numbers from one to ten. -/
theorem between_one_ten (hadj : e + i.length - 1 = 0) (h1 : (number i : ℝ) * 10 ^ e ≠ 1) : e ≤ 0 ∧ 10 ^ (-e).toNat < number i ∧
    ((number i - 10 ^ (-e).toNat : ℕ) : ℝ) / number i ≤ Real.log (number i * 10 ^ e) := by
  have hl := h.length_pos
  have he : e ≤ 0 := by omega
  obtain ⟨a1, _⟩ := h.adj (K := ℝ) h0 e
  rw [hadj, zpow_zero] at a1
  have hpos : (0 : ℝ) < 10 ^ e := ten_pos e
  have hlt : 1 < (number i : ℝ) * 10 ^ e := lt_of_le_of_ne a1 (Ne.symm h1)
  have h2 : ((10 ^ (-e).toNat : ℕ) : ℝ) < number i := by
    rw [neg_exp he, inv_lt_iff_one_lt_mul₀ hpos, mul_comm]; linarith
  have h3 : 10 ^ (-e).toNat < number i := by exact_mod_cast h2
  refine ⟨he, h3, ?_⟩
  rw [Nat.cast_sub h3.le, neg_exp he]
  have hn : (0 : ℝ) < number i := by have := neg_exp he ▸ h2; exact lt_of_lt_of_le (by positivity) this.le
  have := Real.one_sub_inv_le_log_of_pos (x := (number i : ℝ) * 10 ^ e) (by linarith)
  refine le_trans (le_of_eq ?_) this
  field_simp

/-- Numbers from a tenth to one. -/
theorem below_one (hadj : e + i.length - 1 = -1) : e ≤ 0 ∧ number i < 10 ^ (-e).toNat ∧
    ((10 ^ (-e).toNat - number i : ℕ) : ℝ) * 10 ^ e ≤ -Real.log (number i * 10 ^ e) := by
  have hl := h.length_pos
  have he : e ≤ 0 := by omega
  obtain ⟨a0, a1⟩ := h.adj (K := ℝ) h0 e
  rw [hadj] at a1 a0
  norm_num at a1
  have hpos : (0 : ℝ) < 10 ^ e := ten_pos e
  have h2 : (number i : ℝ) < ((10 ^ (-e).toNat : ℕ) : ℝ) := by
    rw [neg_exp he, lt_inv_comm₀ (by have := ten_pos (K := ℝ) (-1); nlinarith) hpos, inv_eq_one_div, lt_div_iff₀ (by have := ten_pos (K := ℝ) (-1); nlinarith)]
    linarith
  have h3 : number i < 10 ^ (-e).toNat := by exact_mod_cast h2
  refine ⟨he, h3, ?_⟩
  rw [Nat.cast_sub h3.le, neg_exp he]
  have hX : 0 < (number i : ℝ) * 10 ^ e := lt_of_lt_of_le (ten_pos _) a0
  have := Real.log_le_sub_one_of_pos hX
  have e1 : ((10 ^ e)⁻¹ - (number i : ℝ)) * 10 ^ e = 1 - number i * 10 ^ e := by field_simp
  rw [e1]; linarith

/-- Numbers from ten on. -/
theorem above_ten : (e + i.length - 1 : ℤ) * Real.log 10 ≤ Real.log (number i * 10 ^ e) := by
  obtain ⟨a0, _⟩ := h.adj (K := ℝ) h0 e
  rw [← Real.log_zpow]
  exact Real.log_le_log (ten_pos _) a0

/-- Numbers below a tenth. -/
theorem below_tenth : (-1 - (e + i.length - 1) : ℤ) * Real.log 10 ≤ -Real.log (number i * 10 ^ e) := by
  obtain ⟨a0, a1⟩ := h.adj (K := ℝ) h0 e
  have := Real.log_le_log (lt_of_lt_of_le (ten_pos _) a0) a1.le
  rw [Real.log_zpow] at this
  push_cast at this ⊢
  linarith

theorem lnBound_spec (h1 : (number i : ℝ) * 10 ^ e ≠ 1) : (10 : ℝ) ^ lnBound i e ≤ |Real.log (number i * 10 ^ e)| := by
  have l1 := log_ten_gt
  unfold lnBound
  dsimp only
  rw [toInt_eq]
  by_cases c1 : e + i.length - 1 ≥ 1
  · rw [if_pos c1]
    refine le_trans (len_le (by omega) ?_) (le_abs_self _)
    refine le_trans ?_ (above_ten h h0 e)
    generalize e + (i.length : ℤ) - 1 = a at *
    have h2 : ((a * 23 / 10 : ℤ) : ℝ) * 10 ≤ a * 23 := by
      exact_mod_cast (by omega : (a * 23 / 10) * 10 ≤ a * 23)
    have h3 : (1 : ℝ) ≤ a := by exact_mod_cast c1
    nlinarith
  rw [if_neg c1]
  by_cases c2 : e + i.length - 1 ≤ -2
  · rw [if_pos c2]
    refine le_trans (len_le (by omega) ?_) (neg_le_abs _)
    refine le_trans ?_ (below_tenth h h0 e)
    generalize hb : -1 - (e + (i.length : ℤ) - 1) = b at *
    have h2 : ((b * 23 / 10 : ℤ) : ℝ) * 10 ≤ b * 23 := by
      exact_mod_cast (by omega : (b * 23 / 10) * 10 ≤ b * 23)
    have h3 : (1 : ℝ) ≤ b := by exact_mod_cast (by omega : 1 ≤ b)
    nlinarith
  rw [if_neg c2]
  by_cases c3 : e + i.length - 1 = 0
  · rw [if_pos c3]
    obtain ⟨_, h3, h4⟩ := between_one_ten h h0 e c3 h1
    exact le_trans (quotient_bound (Nat.sub_ne_zero_of_lt h3) (Nat.ne_of_gt (Nat.lt_of_le_of_lt (Nat.zero_le _) h3)) rfl) (le_trans h4 (le_abs_self _))
  · rw [if_neg c3]
    obtain ⟨_, h3, h4⟩ := below_one h h0 e (by omega)
    refine le_trans ?_ (le_trans h4 (neg_le_abs _))
    have hN := Nat.sub_ne_zero_of_lt h3
    generalize 10 ^ (-e).toNat - number i = N at *
    have h5 := (isCoeff_str N).ge (str_ne_zero hN)
    rw [number_str] at h5
    have h6 : (10 : ℝ) ^ ((str N).length - 1) ≤ N := by exact_mod_cast h5
    rw [show e + ((str N).length : ℤ) - 1 = ((str N).length - 1 : ℕ) + e by have := (isCoeff_str N).length_pos; omega, ten_add, zpow_natCast]
    exact mul_le_mul_of_nonneg_right h6 (ten_pos e).le

theorem log10Bound_spec (h1 : (number i : ℝ) * 10 ^ e ≠ 1) : (10 : ℝ) ^ log10Bound i e ≤ |Real.log (number i * 10 ^ e) / Real.log 10| := by
  have l1 := log_ten_gt
  have l2 := log_ten_lt
  have hL : 0 < Real.log 10 := by linarith
  rw [abs_div, abs_of_pos hL]
  have key : ∀ {a b x : ℝ}, a ≤ b / 2.31 → 0 ≤ b → b ≤ x → a ≤ x / Real.log 10 := by
    intro a b x h1 h2 h3
    refine le_trans h1 (le_trans (div_le_div_of_nonneg_left h2 hL (by linarith)) (div_le_div_of_nonneg_right h3 hL.le))
  unfold log10Bound
  dsimp only
  rw [toInt_eq]
  by_cases c1 : e + i.length - 1 ≥ 1
  · rw [if_pos c1]
    refine len_le (by omega) ?_
    rw [le_div_iff₀ hL]
    exact le_trans (above_ten h h0 e) (le_abs_self _)
  rw [if_neg c1]
  by_cases c2 : e + i.length - 1 ≤ -2
  · rw [if_pos c2]
    refine len_le (by omega) ?_
    rw [le_div_iff₀ hL]
    exact le_trans (below_tenth h h0 e) (neg_le_abs _)
  rw [if_neg c2]
  by_cases c3 : e + i.length - 1 = 0
  · rw [if_pos c3]
    obtain ⟨_, h3, h4⟩ := between_one_ten h h0 e c3 h1
    refine key ?_ (by positivity) (le_trans h4 (le_abs_self _))
    have hN := Nat.sub_ne_zero_of_lt h3
    have hi0 : 0 < number i := Nat.lt_of_le_of_lt (Nat.zero_le _) h3
    generalize number i - 10 ^ (-e).toNat = N at *
    · have := quotient_bound (N := N) (D := 231 * number i) hN (Nat.ne_of_gt (Nat.mul_pos (by norm_num) hi0)) rfl
      rw [ten_add]
      have hi : (0 : ℝ) < number i := by exact_mod_cast hi0
      have e1 : (N : ℝ) / number i / 2.31 = N / ((231 * number i : ℕ) : ℝ) * 100 := by push_cast; field_simp; norm_num
      rw [e1]
      calc _ ≤ (N : ℝ) / ((231 * number i : ℕ) : ℝ) * 10 ^ (2 : ℤ) := mul_le_mul_of_nonneg_right this (ten_pos _).le
        _ = _ := by norm_num
  · rw [if_neg c3]
    obtain ⟨_, h3, h4⟩ := below_one h h0 e (by omega)
    refine key ?_ (mul_nonneg (by positivity) (ten_pos e).le) (le_trans h4 (neg_le_abs _))
    have hN := Nat.sub_ne_zero_of_lt h3
    generalize 10 ^ (-e).toNat - number i = N at *
    · have := quotient_bound (N := N) (D := 231) (t := [2, 3, 1]) hN (by omega) (by decide)
      have e1 : (N : ℝ) * 10 ^ e / 2.31 = N / ((231 : ℕ) : ℝ) * 10 ^ (2 + e) := by rw [ten_add]; push_cast; field_simp; norm_num
      rw [e1]
      refine le_trans (le_of_eq ?_) (mul_le_mul_of_nonneg_right this (ten_pos (2 + e)).le)
      rw [← ten_add]; congr 1
      simp only [List.length_cons, List.length_nil]; push_cast; ring

end

end Verif.DecimalFunctions
