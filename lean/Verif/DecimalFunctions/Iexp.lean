/- The errors of `_iexp` and `_dexp`. -/
import Verif.DecimalFunctions.Dlog

namespace Verif.DecimalFunctions
open Verif.Decimal

theorem nbits_spec {n : ℤ} (h : 0 ≤ n) : n < 2 ^ nbits n ∧ (n < 2 ^ 10 → nbits n ≤ 10) := by
  obtain ⟨m, rfl⟩ := Int.eq_ofNat_of_zero_le h
  unfold nbits
  by_cases h0 : (m : ℤ) = 0
  · rw [if_pos h0, h0]; simp
  · rw [if_neg h0, Int.natAbs_natCast]
    have hm : m ≠ 0 := by omega
    constructor
    · exact_mod_cast Nat.lt_log2_self
    · intro h1
      have h2 : m < 2 ^ 10 := by exact_mod_cast h1
      have := (Nat.log2_lt hm).2 h2
      omega

/-- The series, in real numbers. -/
noncomputable def expSeries (t : ℝ) : ℕ → ℝ → ℝ
  | 0, v => v
  | k + 1, v => expSeries t k (t * (1 + v) / (k + 1 : ℕ))

theorem expSeries_eq (t : ℝ) (k : ℕ) (v : ℝ) :
    1 + expSeries t k v = ∑ i ∈ Finset.range (k + 1), t ^ i / (i.factorial : ℝ) + t ^ k / (k.factorial : ℝ) * v := by
  induction k generalizing v with
  | zero => simp [expSeries]
  | succ k ih =>
    rw [expSeries, ih, Finset.sum_range_succ _ (k + 1), Nat.factorial_succ]
    have : (k.factorial : ℝ) ≠ 0 := by exact_mod_cast Nat.factorial_ne_zero k
    have : ((k : ℝ) + 1) ≠ 0 := by positivity
    push_cast
    field_simp
    ring

theorem expSeries_near {t : ℝ} (h0 : 0 ≤ t) (ht : t < 1 / 256) {T : ℕ} (hT : 1 ≤ T) :
    |expSeries t (T - 1) (t / T) - (Real.exp t - 1)| ≤ t ^ (T + 1) := by
  obtain ⟨k, rfl⟩ : ∃ k, T = k + 1 := ⟨T - 1, by omega⟩
  have h := Real.exp_bound (x := t) (by rw [abs_of_nonneg h0]; linarith) (n := k + 2) (by omega)
  have e := expSeries_eq t k (t / (k + 1 : ℕ))
  have e2 : ∑ i ∈ Finset.range (k + 2), t ^ i / (i.factorial : ℝ) = 1 + expSeries t k (t / (k + 1 : ℕ)) := by
    rw [e, Finset.sum_range_succ _ (k + 1), Nat.factorial_succ]
    have : (k.factorial : ℝ) ≠ 0 := by exact_mod_cast Nat.factorial_ne_zero k
    have : ((k : ℝ) + 1) ≠ 0 := by positivity
    push_cast
    field_simp
    ring
  rw [e2, abs_of_nonneg h0] at h
  rw [Nat.add_sub_cancel, abs_sub_comm, show Real.exp t - 1 - expSeries t k (t / (k + 1 : ℕ)) = Real.exp t - (1 + expSeries t k (t / (k + 1 : ℕ))) by ring]
  refine le_trans h ?_
  have h1 : (((k + 2).succ : ℕ) : ℝ) / (((k + 2).factorial : ℕ) * ((k + 2 : ℕ) : ℝ)) ≤ 1 := by
    rw [div_le_one (by positivity)]
    have h2 : 2 ≤ (k + 2).factorial := Nat.self_le_factorial 2 |>.trans (Nat.factorial_le (by omega))
    have h3 : (k + 2).succ ≤ (k + 2).factorial * (k + 2) := by nlinarith
    exact_mod_cast h3
  calc t ^ (k + 2) * (((k + 2).succ : ℕ) / (((k + 2).factorial : ℕ) * ((k + 2 : ℕ) : ℝ))) ≤ t ^ (k + 2) * 1 :=
        mul_le_mul_of_nonneg_left h1 (by positivity)
    _ = t ^ (k + 1 + 1) := by ring

/-- The rounded series. -/
theorem iexpSeries_near {x S : ℤ} (hS : 0 < S) (hx : 0 ≤ x) (ht : (x : ℝ) / S < 1 / 256) (k : ℕ) (y : ℤ) (v : ℝ) (h : |(y : ℝ) - S * v| ≤ 0.51) :
    |(iexpSeries x S k y : ℝ) - S * expSeries (x / S) k v| ≤ 0.51 := by
  have hSr : (0 : ℝ) < S := by exact_mod_cast hS
  have hxr : (0 : ℝ) ≤ x := by exact_mod_cast hx
  induction k generalizing y v with
  | zero => exact h
  | succ k ih =>
    rw [iexpSeries, expSeries]
    apply ih
    have hk : (0 : ℝ) < ((k + 1 : ℕ) : ℝ) := by positivity
    have d := divNearest_err (K := ℝ) (x * (S + y)) (b := S * (k + 1 : ℕ)) (mul_pos hS (by omega))
    have e1 : ((x * (S + y) : ℤ) : ℝ) / ((S * (k + 1 : ℕ) : ℤ) : ℝ) = S * (x / S * (1 + v) / (k + 1 : ℕ)) + x / S / (k + 1 : ℕ) * (y - S * v) := by
      push_cast; field_simp; ring
    rw [e1] at d
    have hq : |(x : ℝ) / S / (k + 1 : ℕ) * (y - S * v)| ≤ 1 / 256 * 0.51 := by
      rw [abs_mul]
      apply mul_le_mul _ h (abs_nonneg _) (by norm_num)
      rw [abs_of_nonneg (by positivity), div_le_iff₀ hk]
      have : (1 : ℝ) ≤ ((k + 1 : ℕ) : ℝ) := by exact_mod_cast (by omega : 1 ≤ k + 1)
      nlinarith
    have a1 := abs_le.1 d
    have a2 := abs_le.1 hq
    rw [abs_le]
    constructor <;> linarith

theorem exp_le : Real.exp 2.4 ≤ 11.1 := by
  have h1 : Real.exp 2.4 ^ 5 = Real.exp 1 ^ 12 := by rw [← Real.exp_nat_mul, ← Real.exp_nat_mul]; norm_num
  have h2 := Real.exp_one_lt_d9
  have h3 : Real.exp 1 ^ 12 ≤ 2.7182818286 ^ 12 := pow_le_pow_left₀ (Real.exp_pos 1).le h2.le 12
  by_contra h4
  have h5 : (11.1 : ℝ) ^ 5 < Real.exp 2.4 ^ 5 := pow_lt_pow_left₀ (not_le.1 h4) (by norm_num) (by norm_num)
  norm_num at h5 h3 h1
  linarith

set_option maxHeartbeats 800000 in
/-- The expansion: with `k` rounds left, of ten at most, `y` is near to `2 ^ k * M * (exp (z / 2 ^ k) - 1)`. -/
theorem iexpExpand_near {M : ℤ} (hM : 100000 ≤ M) {z : ℝ} (hz0 : 0 ≤ z) (hz : z ≤ 2.4) (k n : ℕ) (hn : n + k ≤ 10) (y : ℤ)
    (h : |(y : ℝ) - 2 ^ k * M * (Real.exp (z / 2 ^ k) - 1)| ≤ (0.75 + 0.55 * n) * Real.exp (z / 2 ^ k)) :
    |(iexpExpand M k y : ℝ) - M * (Real.exp z - 1)| ≤ (0.75 + 0.55 * (n + k : ℕ)) * Real.exp z := by
  have hMr : (100000 : ℝ) ≤ M := by exact_mod_cast hM
  induction k generalizing n y with
  | zero => simpa [iexpExpand] using h
  | succ k ih =>
    rw [iexpExpand]
    have key : |(divNearest (y * (y + M * 2 ^ (k + 2))) (M * 2 ^ (k + 2)) : ℝ) - 2 ^ k * M * (Real.exp (z / 2 ^ k) - 1)| ≤
        (0.75 + 0.55 * ((n + 1 : ℕ) : ℝ)) * Real.exp (z / 2 ^ k) := by
      have hSpos : (0 : ℤ) < M * 2 ^ (k + 2) := by positivity
      have d := divNearest_err (K := ℝ) (y * (y + M * 2 ^ (k + 2))) hSpos
      push_cast at d
      obtain ⟨S, hS⟩ : ∃ S : ℝ, S = M * 2 ^ (k + 2) := ⟨_, rfl⟩
      obtain ⟨E, hE⟩ : ∃ E : ℝ, E = Real.exp (z / 2 ^ (k + 1)) := ⟨_, rfl⟩
      have hEE : Real.exp (z / 2 ^ k) = E * E := by
        rw [hE, ← Real.exp_add]; congr 1; rw [pow_succ]; field_simp; norm_num
      have hE1 : 1 ≤ E := by rw [hE]; exact Real.one_le_exp (by positivity)
      have hE2 : E ≤ 11.1 := by
        rw [hE]
        refine le_trans (Real.exp_le_exp.2 ?_) exp_le
        refine le_trans (div_le_self hz0 (one_le_pow₀ (by norm_num))) hz
      rw [← hE] at h
      rw [← hS] at d
      have hS1 : (400000 : ℝ) ≤ S := by
        rw [hS, pow_add]
        have : (1 : ℝ) ≤ 2 ^ k := one_le_pow₀ (by norm_num)
        nlinarith
      obtain ⟨A, hA⟩ : ∃ A : ℝ, A = 2 ^ (k + 1) * M * (E - 1) := ⟨_, rfl⟩
      rw [← hA] at h
      have hAS : 2 * A = S * (E - 1) := by rw [hA, hS]; ring
      have htarget : 2 ^ k * M * (Real.exp (z / 2 ^ k) - 1) = A * (A + S) / S := by
        rw [hEE, eq_div_iff (by linarith)]
        have : A = S / 2 * (E - 1) := by linarith
        have hS4 : (2 : ℝ) ^ k * M = S / 4 := by rw [hS]; ring
        rw [this, hS4]; ring
      rw [htarget, hEE]
      obtain ⟨δ, hδ⟩ : ∃ δ : ℝ, δ = y - A := ⟨_, rfl⟩
      rw [← hδ] at h
      have hy : (y : ℝ) = A + δ := by rw [hδ]; ring
      have hn10 : (n : ℝ) ≤ 10 := by exact_mod_cast (by omega : n ≤ 10)
      have hn0 : (0 : ℝ) ≤ n := by positivity
      have hδ70 : |δ| ≤ 70 := by
        refine le_trans h ?_
        nlinarith
      have e1 : (y : ℝ) * (y + S) / S - A * (A + S) / S = δ * (E + δ / S) := by
        have hA2 : A = S * (E - 1) / 2 := by linarith
        rw [hy, hA2]; field_simp; ring
      have hfac : |E + δ / S| ≤ E + 0.001 := by
        have : |δ / S| ≤ 0.001 := by
          rw [abs_div, abs_of_pos (by linarith : (0 : ℝ) < S), div_le_iff₀ (by linarith)]; nlinarith
        have := abs_add_le E (δ / S)
        rw [abs_of_pos (by linarith : (0 : ℝ) < E)] at this
        linarith
      have e2 : |(y : ℝ) * (y + S) / S - A * (A + S) / S| ≤ (0.75 + 0.55 * n) * E * (E + 0.001) := by
        rw [e1, abs_mul]
        exact mul_le_mul h hfac (abs_nonneg _) (by positivity)
      have a1 := abs_le.1 d
      have a2 := abs_le.1 e2
      have hEE1 : 1 ≤ E * E := by nlinarith
      have hfin : 1 / 2 + (0.75 + 0.55 * n) * E * (E + 0.001) ≤ (0.75 + 0.55 * ((n + 1 : ℕ) : ℝ)) * (E * E) := by
        push_cast
        have h1 : (0.75 + 0.55 * (n : ℝ)) ≤ 6.25 := by linarith
        have h2 : E ≤ E * E := by nlinarith
        have h3 : (0.75 + 0.55 * (n : ℝ)) * (0.001 * E) ≤ 6.25 * (0.001 * E) := mul_le_mul_of_nonneg_right h1 (by linarith)
        rw [show (0.75 + 0.55 * (n : ℝ)) * E * (E + 0.001) = (0.75 + 0.55 * (n : ℝ)) * (E * E) + (0.75 + 0.55 * (n : ℝ)) * (0.001 * E) by ring,
          show (0.75 + 0.55 * ((n : ℝ) + 1)) * (E * E) = (0.75 + 0.55 * (n : ℝ)) * (E * E) + 0.55 * (E * E) by ring]
        linarith
      rw [abs_le]
      constructor <;> linarith
    have := ih (n + 1) (by omega) _ key
    rw [show n + (k + 1) = n + 1 + k by omega]
    exact this

/-- The error of `_iexp` is at most 70 for arguments from 0 to 2.4 (its docstring says 60). -/
theorem iexp_spec {p : ℕ} (hp : 5 ≤ p) {x : ℤ} (hx : 0 ≤ x) (hx2 : (x : ℝ) ≤ 2.4 * 10 ^ p) :
    |(iexp x (10 ^ p) : ℝ) - 10 ^ p * Real.exp (x / 10 ^ p)| ≤ 70 := by
  obtain ⟨T, hTd, hT1, hT⟩ := terms_spec p
  obtain ⟨M, hMd⟩ : ∃ M : ℤ, M = 10 ^ p := ⟨_, rfl⟩
  have hMe : (10 : ℝ) ^ p = M := by rw [hMd]; push_cast; rfl
  rw [← hMd] at hTd
  rw [hMe] at hx2 hT
  rw [hMe, ← hMd]
  have hM : 100000 ≤ M := by
    rw [hMd]; calc (100000 : ℤ) = 10 ^ 5 := by norm_num
      _ ≤ 10 ^ p := pow_le_pow_right₀ (by norm_num) hp
  have hMr : (100000 : ℝ) ≤ M := by exact_mod_cast hM
  have hxr : (0 : ℝ) ≤ x := by exact_mod_cast hx
  obtain ⟨F, hF⟩ : ∃ F : ℤ, F = (x * 2 ^ 8).fdiv M := ⟨_, rfl⟩
  have g1 := Int.fmod_add_mul_fdiv (x * 2 ^ 8) M
  have g2 := Int.fmod_nonneg_of_pos (x * 2 ^ 8) (b := M) (by omega)
  have g3 := Int.fmod_lt_of_pos (x * 2 ^ 8) (b := M) (by omega)
  rw [← hF] at g1
  generalize (x * 2 ^ 8).fmod M = r at *
  have hF0 : 0 ≤ F := by
    by_contra h
    have : M * F ≤ M * (-1) := mul_le_mul_of_nonneg_left (by omega) (by omega)
    omega
  have hF1 : F < 2 ^ 10 := by
    have h1 : ((M * F : ℤ) : ℝ) ≤ ((x * 2 ^ 8 : ℤ) : ℝ) := by exact_mod_cast (by omega : M * F ≤ x * 2 ^ 8)
    push_cast at h1
    have h2 : (F : ℝ) < 1024 := by
      by_contra h3
      have : (M : ℝ) * 1024 ≤ M * F := mul_le_mul_of_nonneg_left (not_lt.1 h3) (by linarith)
      nlinarith
    have : F < 1024 := by exact_mod_cast h2
    omega
  obtain ⟨n1, n2⟩ := nbits_spec hF0
  have hR := n2 hF1
  unfold iexp
  dsimp only
  rw [← hF, hTd, show ((T : ℤ) - 1).toNat = T - 1 by omega]
  generalize nbits F = R at *
  obtain ⟨S, hS⟩ : ∃ S : ℤ, S = M * 2 ^ R := ⟨_, rfl⟩
  rw [← hS]
  have hSpos : 0 < S := by rw [hS]; positivity
  have hSr : (S : ℝ) = 2 ^ R * M := by rw [hS]; push_cast; ring
  have hSr0 : (0 : ℝ) < S := by exact_mod_cast hSpos
  have ht : (x : ℝ) / S < 1 / 256 := by
    rw [div_lt_div_iff₀ hSr0 (by norm_num)]
    have h1 : x * 2 ^ 8 < S := by
      have : M * (F + 1) ≤ M * 2 ^ R := mul_le_mul_of_nonneg_left (by omega) (by omega)
      rw [hS]; nlinarith
    have : ((x * 2 ^ 8 : ℤ) : ℝ) < S := by exact_mod_cast h1
    push_cast at this
    linarith
  have hser := iexpSeries_near hSpos hx ht (T - 1) (divNearest x T) (x / S / T) (by
    have d := divNearest_err (K := ℝ) x (b := T) (by omega)
    have : (S : ℝ) * (x / S / T) = x / T := by field_simp
    rw [this]; push_cast at d; linarith)
  have hnear := expSeries_near (t := (x : ℝ) / S) (by positivity) ht hT1
  have hz : (x : ℝ) / S = x / M / 2 ^ R := by rw [hSr]; field_simp
  have htrunc : (S : ℝ) * (x / S) ^ (T + 1) ≤ 0.24 := by
    have h4 : ((x : ℝ) / S) ^ T ≤ 1 / 256 ^ T := by
      rw [← one_div_pow]; exact pow_le_pow_left₀ (by positivity) ht.le T
    calc (S : ℝ) * (x / S) ^ (T + 1) = x * (x / S) ^ T := by rw [pow_succ]; field_simp
      _ ≤ (2.4 * M) * (1 / 256 ^ T) := mul_le_mul hx2 h4 (by positivity) (by positivity)
      _ = 2.4 * M / 256 ^ T := by ring
      _ ≤ 2.4 * M / (10 * M) := div_le_div_of_nonneg_left (by positivity) (by positivity) hT
      _ = 0.24 := by field_simp; norm_num
  have hstart : |((iexpSeries x S (T - 1) (divNearest x T) : ℤ) : ℝ) - 2 ^ R * M * (Real.exp (x / M / 2 ^ R) - 1)| ≤
      (0.75 + 0.55 * ((0 : ℕ) : ℝ)) * Real.exp (x / M / 2 ^ R) := by
    have h1 : |(S : ℝ) * expSeries (x / S) (T - 1) (x / S / T) - S * (Real.exp (x / S) - 1)| ≤ 0.24 := by
      rw [← mul_sub, abs_mul, abs_of_pos hSr0]
      exact le_trans (mul_le_mul_of_nonneg_left hnear hSr0.le) htrunc
    have a1 := abs_le.1 hser
    have a2 := abs_le.1 h1
    rw [← hz, ← hSr]
    have h3 : 1 ≤ Real.exp ((x : ℝ) / S) := Real.one_le_exp (by positivity)
    have h4 : (0.75 : ℝ) ≤ (0.75 + 0.55 * ((0 : ℕ) : ℝ)) * Real.exp ((x : ℝ) / S) := by push_cast; linarith
    refine le_trans ?_ h4
    rw [abs_le]
    constructor <;> linarith
  have hz2 : (x : ℝ) / M ≤ 2.4 := by rw [div_le_iff₀ (by linarith)]; exact hx2
  have hexp := iexpExpand_near hM (z := (x : ℝ) / M) (by positivity) hz2 R 0 (by omega) _ hstart
  have hb : (0.75 + 0.55 * ((0 + R : ℕ) : ℝ)) * Real.exp (x / M) ≤ 70 := by
    have h1 : ((0 + R : ℕ) : ℝ) ≤ 10 := by exact_mod_cast (by omega : 0 + R ≤ 10)
    have h2 := le_trans (Real.exp_le_exp.2 hz2) exp_le
    have h3 := Real.exp_pos ((x : ℝ) / M)
    nlinarith
  push_cast
  have := le_trans hexp hb
  rw [show (M : ℝ) + (iexpExpand M R (iexpSeries x S (T - 1) (divNearest x T)) : ℤ) - M * Real.exp (x / M) =
    (iexpExpand M R (iexpSeries x S (T - 1) (divNearest x T)) : ℤ) - M * (Real.exp (x / M) - 1) by ring]
  exact this

/-! ### `_dexp` -/

theorem exp_diff {a b : ℝ} (ha : a ≤ 2.4) (hb : b ≤ 2.4) : |Real.exp a - Real.exp b| ≤ 11.1 * |a - b| := by
  have key : ∀ a b : ℝ, a ≤ 2.4 → Real.exp a - Real.exp b ≤ 11.1 * |a - b| := by
    intro a b ha
    have h1 := Real.add_one_le_exp (b - a)
    have h2 : Real.exp b = Real.exp a * Real.exp (b - a) := by rw [← Real.exp_add]; congr 1; ring
    have h3 := le_trans (Real.exp_le_exp.2 ha) exp_le
    have h4 := Real.exp_pos a
    have h5 : Real.exp a - Real.exp b ≤ Real.exp a * (a - b) := by rw [h2]; nlinarith
    have h6 : Real.exp a * (a - b) ≤ Real.exp a * |a - b| := mul_le_mul_of_nonneg_left (le_abs_self _) h4.le
    nlinarith [abs_nonneg (a - b)]
  rw [abs_le]
  have h1 := key a b ha
  have h2 := key b a hb
  rw [abs_sub_comm b a] at h2
  constructor <;> linarith

theorem abs_lt_len (c e : ℤ) : |(c : ℝ) * 10 ^ e| ≤ 10 ^ (e + len c) := by
  have h1 : c.natAbs < 10 ^ len c := by
    have := (isCoeff_str c.natAbs).lt
    rw [number_str] at this
    refine lt_of_lt_of_le this (Nat.pow_le_pow_right (by omega) ?_)
    unfold len; omega
  have h2 : |(c : ℝ)| ≤ 10 ^ (len c : ℤ) := by
    rw [zpow_natCast]
    have e1 : |(c : ℝ)| = ((c.natAbs : ℕ) : ℝ) := by
      rw [← Int.cast_natCast, Int.natCast_natAbs]; push_cast; rfl
    rw [e1]; exact_mod_cast h1.le
  rw [abs_mul, abs_of_pos (ten_pos (K := ℝ) e), ten_add, mul_comm]
  exact mul_le_mul_of_nonneg_left h2 (ten_pos e).le

/-- The shifted coefficient, rounded down. -/
theorem cshift_spec (c s : ℤ) : ∃ φ : ℝ, 0 ≤ φ ∧ φ < 1 ∧
    (c : ℝ) * 10 ^ s = ((if s ≥ 0 then c * 10 ^ s.toNat else c.fdiv (10 ^ (-s).toNat) : ℤ) : ℝ) + φ := by
  by_cases h : s ≥ 0
  · refine ⟨0, le_refl _, by norm_num, ?_⟩
    rw [if_pos h, ten_toNat h]; push_cast; ring
  · rw [if_neg h]
    have hp : (0 : ℤ) < 10 ^ (-s).toNat := by positivity
    have g1 := Int.fmod_add_mul_fdiv c (10 ^ (-s).toNat)
    have g2 := Int.fmod_nonneg_of_pos c hp
    have g3 := Int.fmod_lt_of_pos c hp
    generalize c.fmod (10 ^ (-s).toNat) = r at *
    generalize c.fdiv (10 ^ (-s).toNat) = q at *
    have hpr : (0 : ℝ) < 10 ^ (-s).toNat := by positivity
    have g2r : (0 : ℝ) ≤ r := by exact_mod_cast g2
    have g3r : (r : ℝ) < 10 ^ (-s).toNat := by exact_mod_cast g3
    refine ⟨(r : ℝ) / 10 ^ (-s).toNat, by positivity, by rw [div_lt_one hpr]; exact g3r, ?_⟩
    have e : (10 : ℝ) ^ s = (10 ^ (-s).toNat)⁻¹ := by
      have := ten_toNat (K := ℝ) (a := -s) (by omega)
      rw [zpow_neg] at this
      push_cast at this
      rw [← this]; simp
    rw [e, ← g1]; push_cast; field_simp; ring

set_option maxHeartbeats 1600000 in
/-- `_dexp` gives `p` digits, with an error below two thirds. -/
theorem dexp_spec {ten : ℕ → ℤ} (ht : IsLogTen ten) (c e p : ℤ) (hp : 3 ≤ p) {d f : ℤ} (h : dexp ten c e p = (d, f)) :
    |(d : ℝ) - Real.exp (c * 10 ^ e) / 10 ^ f| ≤ 0.66 ∧ (10 : ℝ) ^ (p - 1) ≤ d ∧ (d : ℝ) ≤ 10 ^ p + 1 := by
  have l1 := log_ten_gt
  have l2 := log_ten_lt
  unfold dexp at h
  dsimp only at h
  simp only [Prod.mk.injEq] at h
  obtain ⟨hd, hf⟩ := h
  obtain ⟨P, hP⟩ : ∃ P : ℕ, p + 2 = P := ⟨(p + 2).toNat, by omega⟩
  obtain ⟨x, hx⟩ : ∃ x : ℕ, max 0 (e + len c - 1) = (x : ℤ) := ⟨(max 0 (e + len c - 1)).toNat, by omega⟩
  rw [hP, hx] at hd hf
  have hq : ((P : ℤ) + x).toNat = P + x := by omega
  rw [hq] at hd hf
  simp only [Int.toNat_natCast] at hd
  obtain ⟨φ, hφ0, hφ1, hcs⟩ := cshift_spec c (e + (P + x))
  generalize (if e + ((P : ℤ) + x) ≥ 0 then c * 10 ^ (e + ((P : ℤ) + x)).toNat else c.fdiv (10 ^ (-(e + ((P : ℤ) + x))).toNat)) = C at *
  have t1 := ht.low (P + x)
  have t2 := ht.high (P + x)
  have hP5 : 5 ≤ P := by omega
  have hPx : (100000 : ℝ) ≤ 10 ^ (P + x) := by
    calc (100000 : ℝ) = 10 ^ 5 := by norm_num
      _ ≤ 10 ^ (P + x) := pow_le_pow_right₀ (by norm_num) (by omega)
  have htpos : (0 : ℝ) < ten (P + x) := by nlinarith
  have htposi : 0 < ten (P + x) := by exact_mod_cast htpos
  have g1 := Int.fmod_add_mul_fdiv C (ten (P + x))
  have g2 := Int.fmod_nonneg_of_pos C htposi
  have g3 := Int.fmod_lt_of_pos C htposi
  generalize hqd : C.fdiv (ten (P + x)) = Q at *
  generalize C.fmod (ten (P + x)) = r at *
  obtain ⟨t, htd⟩ : ∃ t : ℝ, t = ten (P + x) := ⟨_, rfl⟩
  have g1r : (r : ℝ) + t * Q = C := by rw [htd]; exact_mod_cast g1
  have g2r : (0 : ℝ) ≤ r := by exact_mod_cast g2
  have g3r : (r : ℝ) < t := by rw [htd]; exact_mod_cast g3
  rw [← htd] at t1 t2 htpos
  obtain ⟨X, hX⟩ : ∃ X : ℝ, X = c * 10 ^ e := ⟨_, rfl⟩
  rw [← hX]
  have hXq : (10 : ℝ) ^ (P + x) * X = C + φ := by
    rw [← hcs, hX, show e + ((P : ℤ) + x) = ((P + x : ℕ) : ℤ) + e by push_cast; ring, ten_add, zpow_natCast]; ring
  have hXabs : |X| ≤ 10 * 10 ^ x := by
    rw [hX]
    refine le_trans (abs_lt_len c e) ?_
    calc (10 : ℝ) ^ (e + len c) ≤ 10 ^ (1 + (x : ℤ)) := ten_le.2 (by omega)
      _ = 10 * 10 ^ x := by rw [ten_add, zpow_one, zpow_natCast]
  obtain ⟨W, hW⟩ : ∃ W : ℝ, W = 10 ^ (P + x) := ⟨_, rfl⟩
  obtain ⟨m, hm⟩ : ∃ m : ℝ, m = 10 ^ P := ⟨_, rfl⟩
  obtain ⟨u, hu⟩ : ∃ u : ℝ, u = 10 ^ x := ⟨_, rfl⟩
  have hWmu : W = m * u := by rw [hW, hm, hu, pow_add]
  rw [← hW] at t1 t2 hXq hPx
  rw [← hu] at hXabs
  have hu1 : (1 : ℝ) ≤ u := by rw [hu]; exact one_le_pow₀ (by norm_num)
  have hm5 : (100000 : ℝ) ≤ m := by
    rw [hm]
    calc (100000 : ℝ) = 10 ^ 5 := by norm_num
      _ ≤ 10 ^ P := pow_le_pow_right₀ (by norm_num) hP5
  -- the quotient
  have hQ : |(Q : ℝ)| ≤ 5.5 * u := by
    have ht23 : 2.302 * W ≤ t := by nlinarith
    obtain ⟨x1, x2⟩ := abs_le.1 hXabs
    rw [abs_le]
    constructor
    · by_contra hlt
      have h1 : t * Q ≤ t * (-(5.5 * u)) := mul_le_mul_of_nonneg_left (by linarith) htpos.le
      have h2 : (2.302 * W) * (5.5 * u - 1) ≤ t * (5.5 * u - 1) := mul_le_mul_of_nonneg_right ht23 (by linarith)
      have h3 : W * (-(10 * u)) ≤ W * X := mul_le_mul_of_nonneg_left x1 (by linarith)
      have h4 : W ≤ W * u := by nlinarith
      nlinarith
    · by_contra hlt
      have h1 : t * (5.5 * u) ≤ t * Q := mul_le_mul_of_nonneg_left (by linarith) htpos.le
      have h2 : (2.302 * W) * (5.5 * u) ≤ t * (5.5 * u) := mul_le_mul_of_nonneg_right ht23 (by linarith)
      have h3 : W * X ≤ W * (10 * u) := mul_le_mul_of_nonneg_left x2 (by linarith)
      have h4 : W ≤ W * u := by nlinarith
      nlinarith
  -- the remainder
  obtain ⟨ρ, hρ⟩ : ∃ ρ : ℝ, ρ = X - Q * Real.log 10 := ⟨_, rfl⟩
  have hrem : |(r : ℝ) - W * ρ| ≤ 6.5 * u := by
    have e1 : (r : ℝ) - W * ρ = -φ + Q * (W * Real.log 10 - t) := by
      have : W * ρ = W * X - Q * (W * Real.log 10) := by rw [hρ]; ring
      rw [this, hXq, ← g1r]; ring
    have h2 : |(Q : ℝ) * (W * Real.log 10 - t)| ≤ 5.5 * u * 1 := by
      rw [abs_mul]
      exact mul_le_mul hQ (by rw [abs_le]; constructor <;> linarith) (abs_nonneg _) (by linarith)
    have := abs_le.1 h2
    rw [e1, abs_le]
    constructor <;> linarith
  have hdiv := divNearest_err (K := ℝ) r (b := 10 ^ x) (by positivity)
  obtain ⟨z, hz⟩ : ∃ z, z = divNearest r (10 ^ x) := ⟨_, rfl⟩
  rw [← hz] at hdiv hd
  push_cast at hdiv
  rw [← hu] at hdiv
  have hzρ : |(z : ℝ) - m * ρ| ≤ 7 := by
    have h1 : |(r : ℝ) / u - m * ρ| ≤ 6.5 := by
      have : (r : ℝ) / u - m * ρ = (r - W * ρ) / u := by rw [hWmu]; field_simp
      rw [this, abs_div, abs_of_pos (by linarith : (0 : ℝ) < u), div_le_iff₀ (by linarith)]
      exact hrem
    have a1 := abs_le.1 hdiv
    have a2 := abs_le.1 h1
    rw [abs_le]; constructor <;> linarith
  have hz0 : 0 ≤ z := (nearest_mono hdiv).1 (by push_cast; positivity)
  have hztop : (z : ℝ) ≤ 2.3028 * m := by
    have h1 : (r : ℝ) / u ≤ m * Real.log 10 := by
      rw [div_le_iff₀ (by linarith)]
      have : W * Real.log 10 = m * Real.log 10 * u := by rw [hWmu]; ring
      linarith
    have a1 := abs_le.1 hdiv
    nlinarith
  have hexp := iexp_spec hP5 hz0 (by rw [← hm]; linarith)
  rw [← hm] at hexp
  have hm0 : (0 : ℝ) < m := by linarith
  have hzm : (z : ℝ) / m ≤ 2.3028 := by rw [div_le_iff₀ hm0]; exact hztop
  have hdist : |(z : ℝ) / m - ρ| ≤ 7 / m := by
    have : (z : ℝ) / m - ρ = (z - m * ρ) / m := by field_simp
    rw [this, abs_div, abs_of_pos hm0]
    exact div_le_div_of_nonneg_right hzρ hm0.le
  have h7m : 7 / m ≤ 0.00007 := by rw [div_le_iff₀ hm0]; linarith
  have hρtop : ρ ≤ 2.4 := by have := (abs_le.1 hdist).1; linarith
  have hρlow : -(7 / m) ≤ ρ := by
    have h1 := (abs_le.1 hdist).2
    have h2 : (0 : ℝ) ≤ z / m := by
      have : (0 : ℝ) ≤ z := by exact_mod_cast hz0
      positivity
    linarith
  have hed := exp_diff (a := (z : ℝ) / m) (b := ρ) (by linarith) hρtop
  have hE : |m * Real.exp (z / m) - m * Real.exp ρ| ≤ 77.7 := by
    rw [← mul_sub, abs_mul, abs_of_pos hm0]
    calc m * |Real.exp (z / m) - Real.exp ρ| ≤ m * (11.1 * (7 / m)) :=
          mul_le_mul_of_nonneg_left (le_trans hed (mul_le_mul_of_nonneg_left hdist (by norm_num))) hm0.le
      _ = 77.7 := by field_simp; norm_num
  have hfin := divNearest_err (K := ℝ) (iexp z (10 ^ P)) (b := 1000) (by omega)
  push_cast at hfin
  rw [hd] at hfin
  have hval : Real.exp X / 10 ^ f = m / 1000 * Real.exp ρ := by
    have h1 : X = Q * Real.log 10 + ρ := by rw [hρ]; ring
    have h2 : Real.exp (Q * Real.log 10) = 10 ^ Q := by
      rw [mul_comm, Real.exp_mul, Real.exp_log (by norm_num), Real.rpow_intCast]
    rw [h1, Real.exp_add, h2, ← hf, hm]
    rw [show Q - (P : ℤ) + 3 = Q + (3 - (P : ℤ)) by ring, ten_add, show (10 : ℝ) ^ (3 - (P : ℤ)) = 1000 / 10 ^ P by rw [ten_sub, zpow_natCast]; norm_num]
    have := ten_pos (K := ℝ) Q
    field_simp
  have herr : |(d : ℝ) - Real.exp X / 10 ^ f| ≤ 0.66 := by
    rw [hval]
    have a1 := abs_le.1 hfin
    have a2 := abs_le.1 hexp
    have a3 := abs_le.1 hE
    rw [abs_le]; constructor <;> linarith
  have hm1000 : m / 1000 = 10 ^ (p - 1) := by
    rw [hm, ← zpow_natCast, ← hP, show p + 2 = (p - 1) + 3 by ring, ten_add]; norm_num
  have hpow1 : (100 : ℝ) ≤ m / 1000 := by rw [le_div_iff₀ (by norm_num)]; linarith
  refine ⟨herr, ?_, ?_⟩
  · have h1 := Real.add_one_le_exp ρ
    have h2 : m / 1000 * (1 - 7 / m) ≤ m / 1000 * Real.exp ρ := mul_le_mul_of_nonneg_left (by linarith) (by linarith)
    have h3 : m / 1000 * (1 - 7 / m) = m / 1000 - 0.007 := by field_simp; norm_num
    rw [hval] at herr
    have a1 := (abs_le.1 herr).1
    have h4 : (10 : ℝ) ^ (p - 1) - 1 < d := by rw [← hm1000]; linarith
    have h5 : (10 : ℝ) ^ (p - 1) = ((10 ^ (p - 1).toNat : ℤ) : ℝ) := by rw [ten_toNat (by omega)]; push_cast; rfl
    rw [h5] at h4 ⊢
    have h6 : (10 ^ (p - 1).toNat : ℤ) - 1 < d := by exact_mod_cast h4
    exact_mod_cast (by omega : (10 ^ (p - 1).toNat : ℤ) ≤ d)
  · have h1 : ρ ≤ Real.log 10 + 7 / m + 1 / m := by
      have h2 : (r : ℝ) / u ≤ m * Real.log 10 := by
        rw [div_le_iff₀ (by linarith)]
        have : W * Real.log 10 = m * Real.log 10 * u := by rw [hWmu]; ring
        linarith
      have a1 := abs_le.1 hdiv
      have a2 := abs_le.1 hzρ
      have h3 : m * ρ ≤ m * Real.log 10 + 8 := by linarith
      have h4 : ρ ≤ (m * Real.log 10 + 8) / m := by rw [le_div_iff₀ hm0]; linarith
      have h5 : (m * Real.log 10 + 8) / m = Real.log 10 + 7 / m + 1 / m := by field_simp; ring
      linarith
    have h2 : Real.exp ρ ≤ 10 + 11.1 * (8 / m) := by
      rcases le_total ρ (Real.log 10) with h3 | h3
      · have := Real.exp_le_exp.2 h3
        rw [Real.exp_log (by norm_num)] at this
        have : (0 : ℝ) ≤ 11.1 * (8 / m) := by positivity
        linarith
      · have := exp_diff (a := ρ) (b := Real.log 10) hρtop (by linarith)
        rw [Real.exp_log (by norm_num), abs_of_nonneg (by linarith : 0 ≤ ρ - Real.log 10)] at this
        have h4 := (abs_le.1 this).2
        have h5 : 7 / m + 1 / m = 8 / m := by ring
        nlinarith
    have h3 : m / 1000 * Real.exp ρ ≤ m / 1000 * (10 + 11.1 * (8 / m)) := mul_le_mul_of_nonneg_left h2 (by linarith)
    have h4 : m / 1000 * (10 + 11.1 * (8 / m)) = 10 * (m / 1000) + 0.0888 := by field_simp; norm_num
    rw [hval] at herr
    have a1 := (abs_le.1 herr).2
    have h5 : (10 : ℝ) ^ p = 10 * (m / 1000) := by rw [hm1000, show p = 1 + (p - 1) by ring, ten_add, zpow_one]; congr 2; ring
    rw [h5]
    linarith

end Verif.DecimalFunctions
