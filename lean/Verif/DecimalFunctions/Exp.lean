/- The exponential: arguments for which nothing is computed, and the others. -/
import Verif.DecimalFunctions.Irrational
import Verif.DecimalMore.Next

namespace Verif.DecimalFunctions
open Verif.Decimal

/-- Magnitudes that are too large have the same result. -/
theorem rounding_large {c : Ctx} (hc : c.Ok) {s : Bool} {M M' : ℝ} {e e' : ℤ} {o : Out Dec} (h : IsRounding c s M' e' o)
    (hM : (10 : ℝ) ^ (c.emax + 1) ≤ M) (hM' : (10 : ℝ) ^ (c.emax + 1) ≤ M') : IsRounding c s M e o := by
  have hp := hc.prec
  have hmin := hc.emin
  have hmax := hc.emax
  have key : ∀ M : ℝ, (10 : ℝ) ^ (c.emax + 1) ≤ M → ∀ adj : ℤ, (10 : ℝ) ^ adj ≤ M → M < 10 ^ (adj + 1) →
      (10 : ℝ) ^ (c.emax + 1) ≤ roundAbs c.rounding s (M / 10 ^ max (adj - c.prec + 1) (c.emin - c.prec + 1)) * 10 ^ max (adj - c.prec + 1) (c.emin - c.prec + 1) := by
    intro M hM adj h1 h2
    have hadj : c.emax + 1 < adj + 1 := ten_lt.1 (lt_of_le_of_lt hM h2)
    obtain ⟨q, hq⟩ : ∃ q, q = max (adj - (c.prec : ℤ) + 1) (c.emin - c.prec + 1) := ⟨_, rfl⟩
    rw [← hq]
    have hqe : q = adj - c.prec + 1 := by omega
    have hqp := ten_pos (K := ℝ) q
    have h3 : ((10 ^ (c.prec - 1) : ℤ) : ℝ) ≤ M / 10 ^ q := by
      rw [le_div_iff₀ hqp]
      refine le_trans (le_of_eq ?_) h1
      push_cast
      rw [← zpow_natCast, ← ten_add]
      congr 1; omega
    have h4 : (10 ^ (c.prec - 1) : ℤ) ≤ roundAbs c.rounding s (M / 10 ^ q) := le_trans (Int.le_floor.2 h3) (roundAbs_ge _ _ _)
    have h5 : ((10 ^ (c.prec - 1) : ℤ) : ℝ) ≤ roundAbs c.rounding s (M / 10 ^ q) := by exact_mod_cast h4
    refine le_trans ?_ (mul_le_mul_of_nonneg_right h5 hqp.le)
    push_cast
    rw [← zpow_natCast, ← ten_add]
    exact ten_le.2 (by omega)
  obtain ⟨a, a1, a2⟩ := exists_adj (lt_of_lt_of_le (ten_pos _) hM')
  have hr := (h a a1 a2).1 (key M' hM' a a1 a2)
  intro adj h1 h2
  exact ⟨fun _ => hr, fun hlt => absurd hlt (not_lt.2 (key M hM adj h1 h2))⟩

/-- Magnitudes below half of the smallest unit have the same result. -/
theorem rounding_small {c : Ctx} (hc : c.Ok) (hr : c.rounding = .halfEven) {M M' : ℝ} {e e' : ℤ} {o : Out Dec} (h : IsRounding c false M' e' o)
    (h0 : 0 < M) (hM : M ≤ 10 ^ (c.emin - c.prec)) (h0' : 0 < M') (hM' : M' ≤ 10 ^ (c.emin - c.prec)) (he : e < c.emin - c.prec + 1)
    (he' : e' < c.emin - c.prec + 1) : IsRounding c false M e o := by
  have hp := hc.prec
  have hmax := hc.emax
  have key : ∀ M : ℝ, 0 < M → M ≤ 10 ^ (c.emin - c.prec) → ∀ adj : ℤ, (10 : ℝ) ^ adj ≤ M → M < 10 ^ (adj + 1) →
      max (adj - c.prec + 1) (c.emin - c.prec + 1) = c.emin - c.prec + 1 ∧
      roundAbs .halfEven false (M / 10 ^ (c.emin - c.prec + 1)) = 0 ∧ M < 10 ^ c.emin := by
    intro M h0 hM adj h1 h2
    have hadj : adj ≤ c.emin - c.prec := ten_le.1 (le_trans h1 hM)
    refine ⟨by omega, ?_, lt_of_le_of_lt hM (ten_lt.2 (by omega))⟩
    obtain ⟨x, hx⟩ : ∃ x, x = M / (10 : ℝ) ^ (c.emin - c.prec + 1) := ⟨_, rfl⟩
    rw [← hx]
    have hx0 : 0 < x := by rw [hx]; exact div_pos h0 (ten_pos _)
    have hx1 : x ≤ 1 / 10 := by
      rw [hx, div_le_iff₀ (ten_pos _), add_comm (c.emin - (c.prec : ℤ)), ten_add, zpow_one]
      linarith
    have hfl : ⌊x⌋ = 0 := Int.floor_eq_iff.2 ⟨by push_cast; exact hx0.le, by push_cast; linarith⟩
    have hfl2 : ⌊x + 1 / 2⌋ = 0 := Int.floor_eq_iff.2 ⟨by push_cast; linarith, by push_cast; linarith⟩
    unfold roundAbs
    dsimp only
    rw [hfl, hfl2]
    split <;> rfl
  obtain ⟨a, a1, a2⟩ := exists_adj h0'
  obtain ⟨k1, k2, k3⟩ := key M' h0' hM' a a1 a2
  have h1 := (h a a1 a2).2
  rw [k1, hr, k2] at h1
  intro adj b1 b2
  obtain ⟨l1, l2, l3⟩ := key M h0 hM adj b1 b2
  dsimp only
  rw [l1, hr, l2]
  refine ⟨fun hbig => ?_, fun hlt => ?_⟩
  · have : (0 : ℝ) < 10 ^ (c.emax + 1) := ten_pos _
    simp only [Int.cast_zero, zero_mul] at hbig
    linarith
  · obtain ⟨coeff, x, g1, g2, g3, g4, g5⟩ := h1 hlt
    refine ⟨coeff, x, g1, g2, g3, ?_, ?_⟩
    · simp only [he', he, if_true] at g4 ⊢
      exact g4
    · have e1 : ((0 : ℤ) : ℝ) * 10 ^ (c.emin - c.prec + 1) ≠ M := by
        rw [Int.cast_zero, zero_mul]; exact h0.ne
      have e2 : ((0 : ℤ) : ℝ) * 10 ^ (c.emin - c.prec + 1) ≠ M' := by
        rw [Int.cast_zero, zero_mul]; exact h0'.ne
      simpa only [e1, e2, l3, k3, he, he', ne_eq, not_true, not_false_iff, true_and, and_true, true_or] using g5

theorem len_gt (n : ℤ) (h : 0 < n) : n < 10 ^ len n := (len_bounds h).2.2

theorem exp_thirty {k : ℤ} (hk : 0 ≤ k) : (10 : ℝ) ^ k ≤ Real.exp (3 * k) := by
  have h1 : (10 : ℝ) ^ k = Real.exp (k * Real.log 10) := by
    rw [mul_comm, Real.exp_mul, Real.exp_log (by norm_num), Real.rpow_intCast]
  rw [h1]
  have hkr : (0 : ℝ) ≤ k := by exact_mod_cast hk
  have := log_ten_lt
  exact Real.exp_le_exp.2 (by nlinarith)

theorem finish_spec {c : Ctx} (hc : c.Ok) {i : Digits} (h : IsCoeff i) (h0 : i ≠ [0]) (e : ℤ) :
    IsRounding { c with rounding := .halfEven } false ((number i : ℝ) * 10 ^ e) e (finish c false i e) :=
  fixFin_spec (K := ℝ) (c := { c with rounding := .halfEven }) ⟨hc.prec, hc.emin, hc.emax⟩ false h h0 e

theorem coeff_of_digits {d : ℕ} {rest : Digits} (h0 : d ≠ 0) (h : ∀ x ∈ d :: rest, x < 10) : IsCoeff (d :: rest) := .inr ⟨d, rest, rfl, h0, h⟩

/-- The exponential of a positive or negative number. -/
theorem expFin_spec {ten : ℕ → ℤ} (ht : IsLogTen ten) {c : Ctx} (hc : c.Ok) (s : Bool) {i : Digits} (hi : IsCoeff i) (h0 : i ≠ [0]) (e : ℤ) :
    ∃ o, IsRounded c (Real.exp (finValue s i e)) o ∧ ∃ fuel, ∀ fuel' ≥ fuel, expFin ten fuel' c s i e = some o := by
  have hp := hc.prec
  have hmin := hc.emin
  have hmax := hc.emax
  have hc' : Ctx.Ok { c with rounding := .halfEven } := ⟨hc.prec, hc.emin, hc.emax⟩
  obtain ⟨X, hX⟩ : ∃ X : ℝ, X = number i * 10 ^ e := ⟨_, rfl⟩
  obtain ⟨adj, hadj⟩ : ∃ adj, adj = e + (i.length : ℤ) - 1 := ⟨_, rfl⟩
  obtain ⟨a1, a2⟩ := hi.adj (K := ℝ) h0 e
  rw [← hX] at a1 a2
  rw [show e + (i.length : ℤ) - 1 + 1 = adj + 1 by omega] at a2
  rw [show e + (i.length : ℤ) - 1 = adj from hadj.symm] at a1
  have hX0 : 0 < X := lt_of_lt_of_le (ten_pos _) a1
  have hv : (finValue s i e : ℝ) = if s then -X else X := by
    unfold finValue; rw [← hX]; cases s <;> simp
  have hpos := Real.exp_pos (finValue s i e : ℝ)
  -- it is enough to have the result for the magnitude
  have red : ∀ {o : Out Dec}, (∀ x : ℤ, (∀ adj : ℤ, (10 : ℝ) ^ adj ≤ Real.exp (finValue s i e) → x < adj - c.prec + 1) →
      IsRounding { c with rounding := .halfEven } false (Real.exp (finValue s i e)) x o) → IsRounded c (Real.exp (finValue s i e)) o := by
    intro o h x hx
    rw [abs_of_pos hpos] at hx
    exact ⟨fun hz => absurd hz hpos.ne', fun hn => absurd hn (not_lt.2 hpos.le), fun _ => h x hx⟩
  unfold expFin
  dsimp only
  rw [← hadj]
  by_cases c1 : s = false ∧ adj > len ((c.emax + 1) * 3)
  · simp only [if_pos c1]
    refine ⟨_, red ?_, 0, fun _ _ => rfl⟩
    intro x hx
    have hf := finish_spec hc (i := [1]) (coeff_of_digits (by omega) (by simp)) (by simp) (c.emax + 1)
    have hone : (number [1] : ℝ) * 10 ^ (c.emax + 1) = 10 ^ (c.emax + 1) := by simp [number]
    rw [hone] at hf
    refine rounding_large hc' hf ?_ (le_refl _)
    rw [hv, c1.1]
    refine le_trans (exp_thirty (by omega : 0 ≤ c.emax + 1)) (Real.exp_le_exp.2 ?_)
    have h1 := len_gt ((c.emax + 1) * 3) (by omega)
    have h2 : (((c.emax + 1) * 3 : ℤ) : ℝ) ≤ ((10 ^ len ((c.emax + 1) * 3) : ℤ) : ℝ) := by exact_mod_cast h1.le
    have h3 : ((10 ^ len ((c.emax + 1) * 3) : ℤ) : ℝ) ≤ 10 ^ adj := by
      push_cast; rw [← zpow_natCast]; exact ten_le.2 (by omega)
    push_cast at h2 ⊢
    push_cast at h3
    linarith
  simp only [if_neg c1]
  by_cases c2 : s = true ∧ adj > len ((-c.etiny + 1) * 3)
  · simp only [if_pos c2]
    refine ⟨_, red ?_, 0, fun _ _ => rfl⟩
    intro x hx
    have het : c.etiny = c.emin - c.prec + 1 := rfl
    have hf := finish_spec hc (i := [1]) (coeff_of_digits (by omega) (by simp)) (by simp) (c.etiny - 1)
    have hone : (number [1] : ℝ) * 10 ^ (c.etiny - 1) = 10 ^ (c.etiny - 1) := by simp [number]
    rw [hone] at hf
    have hsmall : Real.exp (finValue s i e) ≤ 10 ^ (c.emin - c.prec) := by
      rw [hv, c2.1]
      simp only [if_true]
      rw [Real.exp_neg, show c.emin - (c.prec : ℤ) = -(-c.etiny + 1) by rw [het]; ring, zpow_neg]
      apply inv_anti₀ (ten_pos _)
      refine le_trans (exp_thirty (by rw [het]; omega : 0 ≤ -c.etiny + 1)) (Real.exp_le_exp.2 ?_)
      have h1 := len_gt ((-c.etiny + 1) * 3) (by rw [het]; omega)
      have h2 : (((-c.etiny + 1) * 3 : ℤ) : ℝ) ≤ ((10 ^ len ((-c.etiny + 1) * 3) : ℤ) : ℝ) := by exact_mod_cast h1.le
      have h3 : ((10 ^ len ((-c.etiny + 1) * 3) : ℤ) : ℝ) ≤ 10 ^ adj := by
        push_cast; rw [← zpow_natCast]; exact ten_le.2 (by omega)
      push_cast at h2 h3 ⊢
      linarith
    obtain ⟨a, b1, b2⟩ := exists_adj hpos
    have hxa := hx a b1
    have haa : a ≤ c.emin - c.prec := ten_le.1 (le_trans b1 hsmall)
    refine rounding_small hc' rfl hf hpos hsmall (ten_pos _) (ten_le.2 (by rw [het]; dsimp only; omega)) ?_ ?_
    · dsimp only; omega
    · rw [het]; dsimp only; omega
  simp only [if_neg c2]
  by_cases c3 : s = false ∧ adj < -(c.prec : ℤ)
  · simp only [if_pos c3]
    refine ⟨_, red ?_, 0, fun _ _ => rfl⟩
    intro x hx
    have hf := finish_spec hc (i := 1 :: (List.replicate (c.prec - 1) 0 ++ [1])) (coeff_of_digits (by omega) (by
      intro y hy
      simp only [List.mem_cons, List.mem_append, List.mem_replicate, List.not_mem_nil, or_false] at hy
      omega)) (by simp) (-(c.prec : ℤ))
    have hnum : number (1 :: (List.replicate (c.prec - 1) 0 ++ [1])) = 10 ^ c.prec + 1 := by
      have e1 : (1 :: (List.replicate (c.prec - 1) 0 ++ [1]) : Digits) = ([1] ++ List.replicate (c.prec - 1) 0) ++ [1] := rfl
      rw [e1, number_append, number_append, number_zeros]
      have h1 : number [1] = 1 := rfl
      have h2 : 10 ^ c.prec = 10 ^ (c.prec - 1) * 10 := by rw [← pow_succ]; congr 1; omega
      rw [h1, List.length_replicate, List.length_singleton, h2]; ring
    rw [hnum] at hf
    have hv' : (finValue s i e : ℝ) = X := by rw [hv, c3.1]; rfl
    rw [hv'] at hx ⊢
    obtain ⟨u, hu⟩ : ∃ u : ℝ, u = 10 ^ (-(c.prec : ℤ)) := ⟨_, rfl⟩
    have hu0 : 0 < u := by rw [hu]; exact ten_pos _
    have hXu : X < u := by rw [hu]; exact lt_of_lt_of_le a2 (ten_le.2 (by omega))
    have hu1 : u ≤ 1 / 10 := by
      rw [hu]; refine le_trans (ten_le.2 (by omega : -(c.prec : ℤ) ≤ -1)) ?_; norm_num
    have hpu : (10 : ℝ) ^ c.prec * u = 1 := by
      rw [hu, ← zpow_natCast, ← ten_add]; simp
    have hexp1 : 1 < Real.exp X := Real.one_lt_exp_iff.2 hX0
    have hexp2 : Real.exp X < 1 + 2 * u := by
      have h1 := Real.abs_exp_sub_one_sub_id_le (x := X) (by rw [abs_of_pos hX0]; linarith)
      have := (abs_le.1 h1).2
      nlinarith
    have hval : ((10 ^ c.prec + 1 : ℕ) : ℝ) * 10 ^ (-(c.prec : ℤ)) = 1 + u := by
      rw [← hu]; push_cast; rw [add_mul, hpu, one_mul]
    rw [hval] at hf
    have hcell : ((2 * 10 ^ (c.prec - 1) : ℤ) : ℝ) * (5 * 10 ^ (-(c.prec : ℤ))) = 1 := by
      rw [← hu]; push_cast
      rw [← hpu]
      have : (10 : ℝ) ^ c.prec = 10 * 10 ^ (c.prec - 1) := by rw [← pow_succ']; congr 1; omega
      rw [this]; ring
    have hcell2 : (((2 * 10 ^ (c.prec - 1) : ℤ) : ℝ) + 1) * (5 * 10 ^ (-(c.prec : ℤ))) = 1 + 5 * u := by
      rw [add_mul, hcell, ← hu]; ring
    have hx0 := hx 0 (by rw [zpow_zero]; exact hexp1.le)
    refine IsRounding.of_cell (g := -(c.prec : ℤ)) (j := 2 * 10 ^ (c.prec - 1)) (a := 0) hf ?_ ?_ ?_ ?_ ?_ ?_ ?_ hp ?_ ?_
    · rw [hcell]; exact hexp1
    · rw [hcell2]; linarith
    · rw [hcell]; linarith
    · rw [hcell2]; linarith
    · rw [zpow_zero]; linarith
    · norm_num; linarith
    · dsimp only; omega
    · dsimp only; omega
    · dsimp only; omega
  simp only [if_neg c3]
  by_cases c4 : s = true ∧ adj < -(c.prec : ℤ) - 1
  · simp only [if_pos c4]
    refine ⟨_, red ?_, 0, fun _ _ => rfl⟩
    intro x hx
    have hf := finish_spec hc (i := List.replicate (c.prec + 1) 9) (by
      rw [List.replicate_succ]
      exact coeff_of_digits (by omega) (by
        intro y hy
        simp only [List.mem_cons, List.mem_replicate] at hy
        omega)) (by rw [List.replicate_succ]; simp) (-(c.prec : ℤ) - 1)
    have hnum := Verif.DecimalMore.number_nines (c.prec + 1)
    have hv' : (finValue s i e : ℝ) = -X := by rw [hv, c4.1]; rfl
    rw [hv'] at hx ⊢
    obtain ⟨u, hu⟩ : ∃ u : ℝ, u = 10 ^ (-(c.prec : ℤ) - 1) := ⟨_, rfl⟩
    have hu0 : 0 < u := by rw [hu]; exact ten_pos _
    have hXu : X < u := by rw [hu]; exact lt_of_lt_of_le a2 (ten_le.2 (by omega))
    have hu1 : u ≤ 1 / 100 := by
      rw [hu]; refine le_trans (ten_le.2 (by omega : -(c.prec : ℤ) - 1 ≤ -2)) ?_; norm_num
    have hpu : (10 : ℝ) ^ (c.prec + 1) * u = 1 := by
      rw [hu, ← zpow_natCast, ← ten_add]
      rw [show ((c.prec + 1 : ℕ) : ℤ) + (-(c.prec : ℤ) - 1) = 0 by push_cast; ring, zpow_zero]
    have hexp1 : Real.exp (-X) < 1 := by rw [Real.exp_lt_one_iff]; linarith
    have hexp2 : 1 - u < Real.exp (-X) := by
      have := Real.add_one_le_exp (-X)
      linarith
    have hval : (number (List.replicate (c.prec + 1) 9) : ℝ) * 10 ^ (-(c.prec : ℤ) - 1) = 1 - u := by
      have : (number (List.replicate (c.prec + 1) 9) : ℝ) = 10 ^ (c.prec + 1) - 1 := by
        have h1 : ((number (List.replicate (c.prec + 1) 9) + 1 : ℕ) : ℝ) = ((10 ^ (c.prec + 1) : ℕ) : ℝ) := by rw [hnum]
        push_cast at h1; linarith
      rw [this, ← hu, sub_mul, hpu, one_mul]
    rw [hval] at hf
    have hcell2 : (((2 * 10 ^ c.prec - 1 : ℤ) : ℝ) + 1) * (5 * 10 ^ (-(c.prec : ℤ) - 1)) = 1 := by
      rw [← hu]; push_cast
      rw [← hpu, pow_succ]; ring
    have hcell : ((2 * 10 ^ c.prec - 1 : ℤ) : ℝ) * (5 * 10 ^ (-(c.prec : ℤ) - 1)) = 1 - 5 * u := by
      rw [← hcell2, add_mul, ← hu]; ring
    have hx0 := hx (-1) (by refine le_trans ?_ hexp2.le; norm_num; linarith)
    refine IsRounding.of_cell (g := -(c.prec : ℤ) - 1) (j := 2 * 10 ^ c.prec - 1) (a := -1) hf ?_ ?_ ?_ ?_ ?_ ?_ ?_ hp ?_ ?_
    · rw [hcell]; linarith
    · rw [hcell2]; linarith
    · rw [hcell]; linarith
    · rw [hcell2]; linarith
    · norm_num; linarith
    · norm_num; linarith
    · dsimp only; omega
    · dsimp only; omega
    · dsimp only; omega
  simp only [if_neg c4]
  obtain ⟨z, hz⟩ : ∃ z : ℤ, z = if s = true then -(toInt i : ℤ) else toInt i := ⟨_, rfl⟩
  rw [← hz]
  have hn0 : number i ≠ 0 := by
    intro h
    rw [hX, h] at hX0
    simp at hX0
  have hz0 : z ≠ 0 := by
    rw [hz, toInt_eq]
    split <;> omega
  have hzv : (z : ℝ) * 10 ^ e = finValue s i e := by
    rw [hv, hz, hX, toInt_eq]
    cases s <;> simp
  obtain ⟨fuel, r, hr⟩ := expLoop_ends ht (e := e) hz0 c.prec
  obtain ⟨x, hx3, hd, hcl⟩ := expLoop_spec hr
  obtain ⟨d, f⟩ := r
  refine ⟨finish c false (str d.natAbs) f, red ?_, fuel, fun fuel' hf => by rw [expLoop_mono hr hf]; rfl⟩
  intro y hy
  obtain ⟨s1, s2, -⟩ := dexp_spec ht z e _ (by omega) hd
  rw [hzv] at s1
  obtain ⟨q, hq⟩ : ∃ q : ℕ, (c.prec : ℤ) + x = q := ⟨(c.prec + x).toNat, by omega⟩
  rw [hq] at s2
  have s2' : (10 : ℤ) ^ (q - 1) ≤ d := by
    have h1 : (10 : ℝ) ^ ((q : ℤ) - 1) = ((10 ^ (q - 1) : ℤ) : ℝ) := by
      rw [show (q : ℤ) - 1 = ((q - 1 : ℕ) : ℤ) by omega, zpow_natCast]; push_cast; rfl
    rw [h1] at s2
    exact_mod_cast s2
  have hd0 : 0 < d := lt_of_lt_of_le (by positivity) s2'
  have hlen : q ≤ (str d.natAbs).length := by
    have : 10 ^ (q - 1) ≤ d.natAbs := by zify; rw [abs_of_pos hd0]; exact s2'
    have := len_of_ge this
    omega
  have hdr : ((d.natAbs : ℕ) : ℝ) = d := by
    rw [← Int.cast_natCast, Int.natCast_natAbs, abs_of_pos hd0]
  refine rounded_of_near (c := { c with rounding := .halfEven }) hc' ?_ ?_ (clear_natAbs hcl) hy
  · rw [hdr]; linarith
  · dsimp only; omega

end Verif.DecimalFunctions
