/- The integer arithmetic: nearest integers, square roots, exact shifts. -/
import Verif.DecimalFunctions.Model
import Verif.DecimalMore.Sqrt
import Mathlib.Data.List.TakeWhile
import Mathlib.Tactic.Ring
import Mathlib.Tactic.Linarith
import Mathlib.Tactic.FieldSimp

namespace Verif.DecimalFunctions
open Verif.Decimal

section
variable {K : Type} [Field K] [LinearOrder K] [IsStrictOrderedRing K]

theorem nearest_of {a b q r : ℤ} (hb : 0 < b) (h : a = q * b + r) (h0 : 0 ≤ r) (h1 : r < b) :
    IsNearestEven ((a : K) / b) (q + if 2 * r + q % 2 > b then 1 else 0) := by
  have hbK : (0 : K) < b := by exact_mod_cast hb
  have e : (a : K) / b = q + r / b := by rw [h]; push_cast; field_simp
  have hr : (r : K) / b * b = r := by field_simp
  have hr0 : (0 : K) ≤ r / b := by positivity
  by_cases hc : 2 * r + q % 2 > b
  · rw [if_pos hc, e]
    have h2 : b ≤ 2 * r := by omega
    have h2K : (b : K) ≤ 2 * r := by exact_mod_cast h2
    have h1K : (r : K) < b := by exact_mod_cast h1
    have k1 : (1 : K) / 2 ≤ r / b := by rw [div_le_div_iff₀ (by norm_num) hbK]; linarith
    have k2 : (r : K) / b < 1 := by rw [div_lt_one hbK]; exact h1K
    have k3 : (q : K) + r / b - ((q + 1 : ℤ) : K) = r / b - 1 := by push_cast; ring
    have k4 : |(r : K) / b - 1| = 1 - r / b := by rw [abs_of_neg (by linarith)]; ring
    refine ⟨?_, ?_⟩
    · rw [k3, k4]; linarith
    · rw [k3, k4]
      intro h3
      have h4 : (r : K) / b = 1 / 2 := by linarith
      rw [div_eq_div_iff hbK.ne' (by norm_num)] at h4
      have h5 : r * 2 = 1 * b := by exact_mod_cast h4
      omega
  · rw [if_neg hc, e]
    have h2 : 2 * r ≤ b := by omega
    have h2K : 2 * (r : K) ≤ b := by exact_mod_cast h2
    have k1 : (r : K) / b ≤ 1 / 2 := by rw [div_le_div_iff₀ hbK (by norm_num)]; linarith
    have k3 : (q : K) + r / b - ((q + 0 : ℤ) : K) = r / b := by push_cast; ring
    refine ⟨?_, ?_⟩
    · rw [k3, abs_of_nonneg hr0]; exact k1
    · rw [k3, abs_of_nonneg hr0]
      intro h4
      rw [div_eq_div_iff hbK.ne' (by norm_num)] at h4
      have h5 : r * 2 = 1 * b := by exact_mod_cast h4
      omega

theorem divNearest_spec (a : ℤ) {b : ℤ} (hb : 0 < b) : IsNearestEven ((a : K) / b) (divNearest a b) := by
  refine nearest_of hb ?_ ?_ ?_
  · have := Int.fmod_add_mul_fdiv a b; linarith
  · exact Int.fmod_nonneg_of_pos a hb
  · exact Int.fmod_lt_of_pos a hb

theorem rshiftNearest_spec (x : ℤ) (s : ℕ) : IsNearestEven ((x : K) / 2 ^ s) (rshiftNearest x s) := by
  have hb : (0 : ℤ) < 2 ^ s := by positivity
  have h := nearest_of (K := K) (a := x) (b := 2 ^ s) (q := x / 2 ^ s) (r := x % 2 ^ s) hb
    (by have := Int.emod_add_mul_ediv x (2 ^ s); linarith) (Int.emod_nonneg _ hb.ne') (Int.emod_lt_of_pos _ hb)
  push_cast at h
  exact h

/-- The error of a division. -/
theorem divNearest_err (a : ℤ) {b : ℤ} (hb : 0 < b) : |(divNearest a b : K) - a / b| ≤ 1 / 2 := by
  rw [abs_sub_comm]; exact (divNearest_spec a hb).1

theorem rshiftNearest_err (x : ℤ) (s : ℕ) : |(rshiftNearest x s : K) - x / 2 ^ s| ≤ 1 / 2 := by
  rw [abs_sub_comm]; exact (rshiftNearest_spec x s).1

end

/-! ### Square roots -/

/-- `r` is the integer nearest to the square root of `n`. -/
def IsRoot (n r : ℤ) : Prop := 1 ≤ r ∧ r * r - r < n ∧ n ≤ r * r + r

theorem exists_root {n : ℤ} (h : 0 < n) : ∃ r, IsRoot n r := by
  obtain ⟨m, rfl⟩ := Int.eq_ofNat_of_zero_le h.le
  have h1 : m.sqrt * m.sqrt ≤ m := Nat.sqrt_le m
  have h2 : m < (m.sqrt + 1) * (m.sqrt + 1) := Nat.lt_succ_sqrt m
  have hm : 0 < m := by omega
  have h3 : 0 < m.sqrt := Nat.sqrt_pos.2 hm
  generalize m.sqrt = s at *
  by_cases hc : m ≤ s * s + s
  · refine ⟨s, by omega, ?_, by exact_mod_cast hc⟩
    have : (s : ℤ) * s ≤ m := by exact_mod_cast h1
    omega
  · refine ⟨s + 1, by omega, ?_, ?_⟩
    · have h4 : s * s + s < m := by omega
      have : (s : ℤ) * s + s < m := by exact_mod_cast h4
      linarith
    · have : (m : ℤ) < (s + 1) * (s + 1) := by exact_mod_cast h2
      linarith

/-- One step of the iteration. -/
def step (n a : ℤ) : ℤ := (a - (-n).fdiv a) / 2

theorem step_eq {n a : ℤ} (ha : 0 < a) : ∃ c, (c - 1) * a < n ∧ n ≤ c * a ∧ step n a = (a + c) / 2 := by
  refine ⟨-(-n).fdiv a, ?_, ?_, by unfold step; ring_nf⟩
  · have h1 := Int.fmod_add_mul_fdiv (-n) a
    have h2 := Int.fmod_lt_of_pos (-n) ha
    nlinarith
  · have h1 := Int.fmod_add_mul_fdiv (-n) a
    have h2 := Int.fmod_nonneg_of_pos (-n) ha
    nlinarith

theorem step_ge {n a r : ℤ} (ha : 0 < a) (h : IsRoot n r) : r ≤ step n a := by
  obtain ⟨c, _, h2, h3⟩ := step_eq (n := n) ha
  rw [h3]
  by_contra hlt
  have h4 : a + c ≤ 2 * r - 1 := by omega
  have h5 : c * a ≤ (2 * r - 1 - a) * a := mul_le_mul_of_nonneg_right (by omega) ha.le
  have h6 : 0 ≤ (a - r) * (a - (r - 1)) := by
    rcases le_or_gt r a with h | h
    · exact mul_nonneg (by omega) (by omega)
    · exact mul_nonneg_of_nonpos_of_nonpos (by omega) (by omega)
  have := h.2.1
  nlinarith

theorem step_lt {n a r : ℤ} (h : IsRoot n r) (har : r < a) : step n a < a := by
  have ha : 0 < a := by have := h.1; omega
  obtain ⟨c, h1, _, h3⟩ := step_eq (n := n) ha
  rw [h3]
  have h4 : r * r + r ≤ (a - 1) * a := by have := h.1; nlinarith
  have h5 : (c - 1) * a < (a - 1) * a := by have := h.2.2; linarith
  have := lt_of_mul_lt_mul_right h5 ha.le
  omega

theorem step_fixed {n r : ℤ} (h : IsRoot n r) : step n r = r := by
  have hr : 0 < r := by have := h.1; omega
  obtain ⟨c, h1, h2, h3⟩ := step_eq (n := n) hr
  rw [h3]
  have h4 : (c - 1) * r < (r + 1) * r := by have := h.2.2; nlinarith
  have h5 : (r - 1) * r < c * r := by have := h.2.1; nlinarith
  have h4 := lt_of_mul_lt_mul_right h4 hr.le
  have h5 := lt_of_mul_lt_mul_right h5 hr.le
  omega

theorem step_fixed_eq {n a r : ℤ} (h : IsRoot n r) (ha : 0 < a) (hs : step n a = a) : a = r := by
  have h1 := step_ge ha h
  rcases eq_or_lt_of_le (hs ▸ h1 : r ≤ a) with h2 | h2
  · exact h2.symm
  · have := step_lt h h2; omega

theorem sqrtLoop_spec {n r : ℤ} (h : IsRoot n r) (fuel : ℕ) (a b : ℤ) (ha : r ≤ a) (hb : a = b → a = r) (hf : a - r + 2 ≤ fuel) :
    sqrtLoop n fuel a b = r := by
  induction fuel generalizing a b with
  | zero => omega
  | succ fuel ih =>
    rw [sqrtLoop]
    by_cases hab : a = b
    · rw [if_pos hab]; exact hb hab
    · rw [if_neg hab]
      change sqrtLoop n fuel (step n a) a = r
      have ha0 : 0 < a := by have := h.1; omega
      rcases eq_or_lt_of_le ha with h1 | h1
      · subst h1
        rw [step_fixed h]
        cases fuel with
        | zero => omega
        | succ k => rw [sqrtLoop, if_pos rfl]
      · have h2 := step_lt h h1
        exact ih _ _ (step_ge ha0 h) (fun h3 => by omega) (by push_cast at hf; omega)

theorem sqrtNearest_spec {n a : ℤ} (hn : 0 < n) (ha : 0 < a) : ∃ r, sqrtNearest n a = some r ∧ IsRoot n r := by
  obtain ⟨r, hr⟩ := exists_root hn
  refine ⟨r, ?_, hr⟩
  rw [sqrtNearest, if_neg (by omega)]
  congr 1
  rw [sqrtLoop, if_neg (by omega)]
  change sqrtLoop n _ (step n a) a = r
  refine sqrtLoop_spec hr _ _ _ (step_ge ha hr) (fun h3 => by rw [h3]; exact step_fixed_eq hr ha h3) ?_
  obtain ⟨c, h1, _, h3⟩ := step_eq (n := n) ha
  have h4 : c - 1 < n := by
    by_contra h5
    have h6 : n * a ≤ (c - 1) * a := mul_le_mul_of_nonneg_right (by omega) ha.le
    nlinarith
  have := hr.1
  push_cast
  omega

/-- The error of a root. -/
theorem IsRoot.err {n r : ℤ} (h : IsRoot n r) : |(r : ℝ) - Real.sqrt n| < 1 / 2 := by
  have h1 : (1 : ℝ) ≤ r := by exact_mod_cast h.1
  have h2 : (r : ℝ) * r - r + 1 ≤ n := by have := h.2.1; exact_mod_cast (by omega : r * r - r + 1 ≤ n)
  have h3 : (n : ℝ) ≤ r * r + r := by exact_mod_cast h.2.2
  rw [abs_lt]
  constructor
  · have : Real.sqrt n < r + 1 / 2 := by
      rw [Real.sqrt_lt' (by linarith)]; nlinarith
    linarith
  · have : (r : ℝ) - 1 / 2 < Real.sqrt n := by
      apply Real.lt_sqrt_of_sq_lt; nlinarith
    linarith

/-! ### Zeros at the end -/

theorem split_zeros (ds : Digits) :
    ds = (ds.reverse.dropWhile (· == 0)).reverse ++ List.replicate (ds.reverse.takeWhile (· == 0)).length 0 := by
  have h1 : ds.reverse.takeWhile (· == 0) = List.replicate (ds.reverse.takeWhile (· == 0)).length 0 := by
    rw [List.eq_replicate_iff]
    exact ⟨rfl, fun b hb => by simpa using List.mem_takeWhile_imp hb⟩
  have h2 : ds.reverse.takeWhile (· == 0) ++ ds.reverse.dropWhile (· == 0) = ds.reverse := List.takeWhile_append_dropWhile
  have h3 := congrArg List.reverse h2
  rw [List.reverse_append, List.reverse_reverse] at h3
  rw [h1, List.reverse_replicate] at h3
  exact h3.symm

theorem stripped_last (ds : Digits) : (ds.reverse.dropWhile (· == 0)).reverse = [] ∨
    ∃ j d, (ds.reverse.dropWhile (· == 0)).reverse = j ++ [d] ∧ d ≠ 0 := by
  cases h : ds.reverse.dropWhile (· == 0) with
  | nil => exact .inl rfl
  | cons d l =>
    refine .inr ⟨l.reverse, d, by simp, ?_⟩
    have := List.head?_dropWhile_not (p := fun x : ℕ => x == 0) ds.reverse
    rw [h] at this
    simpa using this

theorem pow_dvd_strip {d j v k : ℕ} (hd : d % 10 ≠ 0) (hj : j = d * 10 ^ v) : 10 ^ k ∣ j ↔ k ≤ v := by
  constructor
  · intro h
    by_contra hlt
    have h1 : 10 ^ (v + 1) ∣ d * 10 ^ v := hj ▸ dvd_trans (Nat.pow_dvd_pow 10 (by omega)) h
    rw [Nat.pow_succ, Nat.mul_comm d] at h1
    have h2 := Nat.dvd_of_mul_dvd_mul_left (Nat.pos_of_ne_zero (by positivity)) h1
    omega
  · intro h
    exact hj ▸ dvd_trans (Nat.pow_dvd_pow 10 h) (Nat.dvd_mul_left _ _)

theorem zeros_dvd {n : ℕ} (h : n ≠ 0) (k : ℕ) : 10 ^ k ∣ n ↔ k ≤ ((str n).reverse.takeWhile (· == 0)).length := by
  have hs := split_zeros (str n)
  generalize hv : ((str n).reverse.takeWhile (· == 0)).length = v at *
  have hn := congrArg number hs
  rw [number_str, number_append, number_zeros, List.length_replicate, Nat.add_zero] at hn
  refine pow_dvd_strip (d := number (((str n).reverse.dropWhile (· == 0)).reverse)) ?_ hn
  rcases stripped_last (str n) with h1 | ⟨j, d, h1, h2⟩
  · rw [h1] at hn; simp [number] at hn; exact absurd hn h
  · have hd : d < 10 := by
      apply (isCoeff_str n).digits
      rw [hs, h1]; simp
    rw [h1, number_append]
    simp [number]
    omega

theorem lshiftExact_spec (n e : ℤ) :
    (∀ m, lshiftExact n e = some m → (m : ℚ) = n * 10 ^ e) ∧ (lshiftExact n e = none → ¬ ∃ m : ℤ, (m : ℚ) = n * 10 ^ e) := by
  unfold lshiftExact
  by_cases h0 : n = 0
  · rw [if_pos h0]
    refine ⟨fun m hm => ?_, fun h => absurd h (by simp)⟩
    rw [← Option.some.inj hm, h0]; simp
  rw [if_neg h0]
  by_cases he : e ≥ 0
  · rw [if_pos he]
    refine ⟨fun m hm => ?_, fun h => absurd h (by simp)⟩
    rw [← Option.some.inj hm, ten_toNat he]; push_cast; rfl
  rw [if_neg he]
  have hk : (10 : ℚ) ^ e = 1 / ((10 ^ (-e).toNat : ℤ) : ℚ) := by
    have := ten_toNat (K := ℚ) (a := -e) (by omega)
    rw [zpow_neg] at this
    push_cast at this ⊢
    rw [← this]; simp
  have hp : (0 : ℤ) < 10 ^ (-e).toNat := by positivity
  have hpq : (0 : ℚ) < ((10 ^ (-e).toNat : ℤ) : ℚ) := by exact_mod_cast hp
  have hz := zeros_dvd (n := n.natAbs) (by omega) (-e).toNat
  have hdvd : (10 ^ (-e).toNat : ℤ) ∣ n ↔ 10 ^ (-e).toNat ∣ n.natAbs := by
    rw [← Int.natCast_dvd]; push_cast; rfl
  dsimp only
  by_cases hv : (((str n.natAbs).reverse.takeWhile (· == 0)).length : ℤ) < -e
  · rw [if_pos hv]
    refine ⟨fun m hm => absurd hm (by simp), fun _ ⟨m, hm⟩ => ?_⟩
    have h1 : (10 ^ (-e).toNat : ℤ) ∣ n := by
      refine ⟨m, ?_⟩
      rw [hk, mul_one_div, eq_div_iff hpq.ne'] at hm
      have : m * 10 ^ (-e).toNat = n := by exact_mod_cast hm
      linarith
    have := hz.1 (hdvd.1 h1)
    omega
  · rw [if_neg hv]
    refine ⟨fun m hm => ?_, fun h => absurd h (by simp)⟩
    obtain ⟨k, hk2⟩ := hdvd.2 (hz.2 (by omega))
    rw [← Option.some.inj hm, hk, hk2, Int.mul_fdiv_cancel_left _ hp.ne', mul_one_div]
    rw [eq_div_iff hpq.ne']; push_cast; ring

end Verif.DecimalFunctions
