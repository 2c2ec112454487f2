/- The digits of the logarithm of ten. -/
import Verif.DecimalFunctions.Ilog
import Verif.DecimalFunctions.Spec

namespace Verif.DecimalFunctions
open Verif.Decimal

/-- The digits are the first ones of the logarithm of ten. -/
structure IsTenDigits (ds : Digits) : Prop where
  digits : ∀ x ∈ ds, x < 10
  length : 1 ≤ ds.length
  low : (number ds : ℝ) ≤ 10 ^ (ds.length - 1) * Real.log 10
  high : 10 ^ (ds.length - 1) * Real.log 10 < number ds + 1

theorem digits_of_near {N D k : ℕ} {x : ℝ} (h1 : (D : ℝ) - 1 < x) (h2 : x < D + 1) (hN : N * 10 ^ k < D) (hN2 : D < (N + 1) * 10 ^ k) :
    (N : ℝ) * 10 ^ k ≤ x ∧ x < (N + 1) * 10 ^ k := by
  have a1 : (N : ℝ) * 10 ^ k + 1 ≤ D := by exact_mod_cast hN
  have a2 : (D : ℝ) + 1 ≤ (N + 1) * 10 ^ k := by exact_mod_cast hN2
  constructor <;> linarith

theorem digits_take {ds : Digits} (h : IsTenDigits ds) {p : ℕ} (hp : p < ds.length) :
    ((number (ds.take (p + 1)) : ℕ) : ℤ) = ⌊(10 : ℝ) ^ p * Real.log 10⌋ := by
  symm
  rw [Int.floor_eq_iff]
  have e := number_take_drop ds (p + 1)
  have l := number_drop_lt h.digits (p + 1)
  generalize number (ds.take (p + 1)) = N at *
  generalize number (ds.drop (p + 1)) = r at *
  have hk : ds.length - 1 = p + (ds.length - (p + 1)) := by omega
  have h1 := h.low
  have h2 := h.high
  rw [hk, pow_add] at h1 h2
  generalize ds.length - (p + 1) = k at *
  have hpk : (0 : ℝ) < 10 ^ k := by positivity
  have e1 : (N : ℝ) * 10 ^ k ≤ number ds := by rw [e]; push_cast; linarith [Nat.cast_nonneg (α := ℝ) r]
  have e2 : (number ds : ℝ) + 1 ≤ (N + 1) * 10 ^ k := by exact_mod_cast (by rw [e, Nat.add_mul]; omega : number ds + 1 ≤ (N + 1) * 10 ^ k)
  push_cast
  constructor
  · have : (N : ℝ) * 10 ^ k ≤ 10 ^ p * Real.log 10 * 10 ^ k := by nlinarith
    exact le_of_mul_le_mul_right this hpk
  · have : 10 ^ p * Real.log 10 * 10 ^ k < (N + 1 : ℝ) * 10 ^ k := by nlinarith
    exact lt_of_mul_lt_mul_right this hpk.le

/-- `_ilog` for ten, without the two digits that are not certain. -/
theorem ten_near (m : ℕ) : ∃ l, ilog (10 * 10 ^ (m + 2)) (10 ^ (m + 2)) = some l ∧ 0 ≤ divNearest l 100 ∧
    |((divNearest l 100 : ℤ) : ℝ) - 10 ^ m * Real.log 10| < 1 := by
  have hpos : (0 : ℤ) < 10 ^ (m + 2) := by positivity
  obtain ⟨l, hl, herr⟩ := ilog_spec (p := m + 2) (x := 10 * 10 ^ (m + 2)) (by omega) (by omega) (by omega)
  have e : (((10 * 10 ^ (m + 2) : ℤ)) : ℝ) / 10 ^ (m + 2) = 10 := by push_cast; field_simp
  rw [e] at herr
  have hd := divNearest_err (K := ℝ) l (b := 100) (by omega)
  push_cast at hd
  have b1 := abs_le.1 herr
  have b2 := abs_le.1 hd
  have e2 : (10 : ℝ) ^ (m + 2) * Real.log 10 = 100 * (10 ^ m * Real.log 10) := by ring
  rw [e2] at b1
  have hlt : |((divNearest l 100 : ℤ) : ℝ) - 10 ^ m * Real.log 10| < 1 := by rw [abs_lt]; constructor <;> linarith
  refine ⟨l, hl, ?_, hlt⟩
  have h3 := (abs_lt.1 hlt).1
  have h4 : (1 : ℝ) ≤ 10 ^ m := one_le_pow₀ (by norm_num)
  have h5 := log_ten_gt
  have : (0 : ℝ) < divNearest l 100 := by nlinarith
  exact_mod_cast this.le

theorem str_length {n k : ℕ} (h1 : 10 ^ k ≤ n) (h2 : n < 10 ^ (k + 1)) : (str n).length = k + 1 := by
  have hne : n ≠ 0 := by have : 0 < 10 ^ k := Nat.pos_of_ne_zero (by positivity); omega
  have a := (length_str_le (k := k + 1) hne).2 h2
  have b : ¬ (str n).length ≤ k := fun h => absurd ((length_str_le hne).1 h) (by omega)
  omega

theorem moreDigits_spec (p fuel extra : ℕ) (hx : 1 ≤ extra) {d : Digits} (h : moreDigits p fuel extra = some d) :
    IsTenDigits (stripLast d) ∧ p + 1 ≤ (stripLast d).length := by
  induction fuel generalizing extra with
  | zero => exact absurd h (by simp [moreDigits])
  | succ fuel ih =>
    obtain ⟨l, hl, h0, hnear⟩ := ten_near (p + extra)
    rw [moreDigits] at h
    simp only [hl, Option.bind_some] at h
    obtain ⟨D, hD⟩ : ∃ D : ℕ, divNearest l 100 = D := ⟨_, (Int.toNat_of_nonneg h0).symm⟩
    rw [hD] at h hnear
    rw [Int.toNat_natCast] at h
    push_cast at hnear
    obtain ⟨n1, n2⟩ := abs_lt.1 hnear
    generalize hm : p + extra = m at *
    have hlen : (str D).length = m + 1 := by
      have hp1 : (1 : ℝ) ≤ 10 ^ m := one_le_pow₀ (by norm_num)
      have l1 := log_ten_gt
      have l2 := log_ten_lt
      apply str_length
      · have : ((10 : ℕ) ^ m : ℝ) ≤ D := by push_cast; nlinarith
        exact_mod_cast this
      · have : (D : ℝ) < (10 : ℕ) ^ (m + 1) := by rw [pow_succ]; push_cast; nlinarith
        exact_mod_cast this
    by_cases hz : (str D).drop ((str D).length - extra) ≠ List.replicate extra 0
    · rw [if_pos hz] at h
      obtain rfl := Option.some.inj h
      have hs := split_zeros (str D)
      generalize hv : ((str D).reverse.takeWhile (· == 0)).length = v at hs
      have hvx : v < extra := by
        by_contra hge
        apply hz
        have hvl : v ≤ (str D).length := by rw [hs]; simp
        rw [hs]
        generalize ((str D).reverse.dropWhile (· == 0)).reverse = j
        rw [List.length_append, List.length_replicate, List.drop_append]
        rw [List.drop_eq_nil_of_le (by omega), List.nil_append, List.drop_replicate]
        congr 1; omega
      rcases stripped_last (str D) with h1 | ⟨j, e, h1, h2⟩
      · rw [h1] at hs
        have := congrArg List.length hs
        simp at this
        omega
      · have hstrip : stripLast (str D) = j := by rw [stripLast, h1]; simp
        rw [h1] at hs
        have hj : ∀ x ∈ j ++ [e], x < 10 := fun x hx => (isCoeff_str D).digits x (by rw [hs]; exact List.mem_append_left _ hx)
        have hl2 := congrArg List.length hs
        rw [hlen] at hl2
        simp at hl2
        have hn := congrArg number hs
        rw [number_str, number_append, number_zeros, List.length_replicate, Nat.add_zero, number_append] at hn
        have he : e < 10 := hj e (by simp)
        simp only [List.length_singleton, number, List.length_nil, pow_zero, mul_one, pow_one, Nat.add_zero] at hn
        rw [hstrip]
        have hj1 : 1 ≤ j.length := by omega
        have hpv : 0 < 10 ^ v := Nat.pos_of_ne_zero (by positivity)
        have hb := digits_of_near (N := number j) (D := D) (k := v + 1) (x := 10 ^ m * Real.log 10) (by linarith) (by linarith)
          (by rw [hn, Nat.pow_succ]; nlinarith [Nat.pos_of_ne_zero h2]) (by rw [hn, Nat.pow_succ]; nlinarith)
        have hm2 : m = (j.length - 1) + (v + 1) := by omega
        have hpm : (10 : ℝ) ^ m = 10 ^ (j.length - 1) * 10 ^ (v + 1) := by rw [← pow_add, ← hm2]
        rw [hpm] at hb
        have hpr : (0 : ℝ) < 10 ^ (v + 1) := by positivity
        refine ⟨⟨fun x hx => hj x (by simp [hx]), hj1, ?_, ?_⟩, by omega⟩
        · apply le_of_mul_le_mul_right _ hpr; linarith [hb.1]
        · apply lt_of_mul_lt_mul_right _ hpr.le; linarith [hb.2]
    · rw [if_neg hz] at h
      exact ih (extra + 3) (by omega) h

theorem firstDigits_spec : IsTenDigits firstDigits := by
  have hv : ilog (10 * 10 ^ 60) (10 ^ 60) = some 2302585092994045684017991454684364207601101488628772976033331 := by decide +kernel
  obtain ⟨r, hr, herr⟩ := ilog_spec (p := 60) (x := 10 * 10 ^ 60) (by omega) (by norm_num) (by norm_num)
  rw [hv] at hr
  obtain rfl := Option.some.inj hr
  have e : (((10 * 10 ^ 60 : ℤ)) : ℝ) / 10 ^ 60 = 10 := by norm_num
  rw [e] at herr
  have b := abs_le.1 herr
  have hn : number firstDigits = 23025850929940456840179914546843642076011014886 := by decide +kernel
  have hl : firstDigits.length = 47 := rfl
  refine ⟨by decide, by decide, ?_, ?_⟩
  · rw [hn, hl]; push_cast; norm_num at b ⊢; linarith [b.1, b.2]
  · rw [hn, hl]; push_cast; norm_num at b ⊢; linarith [b.1, b.2]

theorem getDigits_spec {fuel : ℕ} {stored : Digits} (h : IsTenDigits stored) {p : ℕ} {s : Digits} {r : ℕ} (hg : getDigits fuel stored p = some (s, r)) :
    IsTenDigits s ∧ (r : ℤ) = ⌊(10 : ℝ) ^ p * Real.log 10⌋ := by
  unfold getDigits at hg
  by_cases hp : p ≥ stored.length
  · rw [if_pos hp] at hg
    obtain ⟨d, hd, he⟩ := Option.map_eq_some_iff.1 hg
    obtain ⟨h1, h2⟩ := moreDigits_spec p fuel 3 (by omega) hd
    simp only [Prod.mk.injEq] at he
    obtain ⟨rfl, rfl⟩ := he
    exact ⟨h1, by rw [toInt_eq]; exact digits_take h1 (by omega)⟩
  · rw [if_neg hp] at hg
    simp only [Option.some.injEq, Prod.mk.injEq] at hg
    obtain ⟨rfl, rfl⟩ := hg
    exact ⟨h, by rw [toInt_eq]; exact digits_take h (by omega)⟩

end Verif.DecimalFunctions
