/- The digits of the logarithm of ten are always found. -/
import Verif.DecimalFunctions.Irrational
import Verif.DecimalFunctions.LogTen

namespace Verif.DecimalFunctions
open Verif.Decimal

theorem moreDigits_mono {p fuel extra : ℕ} {d : Digits} (h : moreDigits p fuel extra = some d) {fuel' : ℕ} (hf : fuel ≤ fuel') :
    moreDigits p fuel' extra = some d := by
  induction fuel generalizing extra fuel' with
  | zero => exact absurd h (by simp [moreDigits])
  | succ fuel ih =>
    obtain ⟨f, rfl⟩ : ∃ f, fuel' = f + 1 := ⟨fuel' - 1, by omega⟩
    rw [moreDigits] at h ⊢
    obtain ⟨l, h1, h2⟩ := Option.bind_eq_some_iff.1 h
    rw [h1]
    dsimp only at h2
    simp only [Option.bind_some]
    split at h2
    · rename_i hne
      rw [if_pos hne]; exact h2
    · rename_i hne
      rw [if_neg hne]; exact ih h2 (by omega)

theorem moreDigits_ends (p : ℕ) : ∃ fuel d, moreDigits p fuel 3 = some d := by
  by_contra hno
  have hnone : ∀ fuel, moreDigits p fuel 3 = none := by
    intro fuel
    cases hl : moreDigits p fuel 3 with
    | none => rfl
    | some r => exact absurd ⟨fuel, r, hl⟩ hno
  have hall : ∀ n x : ℕ, (∀ fuel, moreDigits p fuel x = none) → ∃ m : ℕ,
      |(m : ℝ) * 10 ^ (x + 3 * n) - 10 ^ (p + (x + 3 * n)) * Real.log 10| < 1 := by
    intro n
    induction n with
    | zero =>
      intro x hx
      obtain ⟨l, hl, h0, herr⟩ := ten_near (p + x)
      have := hx 1
      rw [moreDigits] at this
      dsimp only at this
      rw [hl] at this
      simp only [Option.bind_some] at this
      split at this
      · exact absurd this (by simp)
      · rename_i hz
        have hz := not_not.1 hz
        obtain ⟨D, hD⟩ : ∃ D : ℕ, (divNearest l 100).toNat = D := ⟨_, rfl⟩
        rw [hD] at hz
        have hDr : ((divNearest l 100 : ℤ) : ℝ) = D := by
          rw [← hD]; exact_mod_cast (Int.toNat_of_nonneg h0).symm
        rw [hDr] at herr
        have e := number_take_drop (str D) ((str D).length - x)
        rw [hz, number_zeros, number_str, Nat.add_zero] at e
        have hlen : (str D).length - ((str D).length - x) = x := by
          have := congrArg List.length hz
          rw [List.length_drop, List.length_replicate] at this
          exact this
        rw [hlen] at e
        refine ⟨number ((str D).take ((str D).length - x)), ?_⟩
        have er : (D : ℝ) = number ((str D).take ((str D).length - x)) * 10 ^ x := by exact_mod_cast e
        rw [Nat.mul_zero, Nat.add_zero, ← er]
        exact herr
    | succ n ih =>
      intro x hx
      obtain ⟨m, hm⟩ := ih (x + 3) (fun fuel => by
        have := hx (fuel + 1)
        obtain ⟨l, hl, -⟩ := ten_near (p + x)
        rw [moreDigits] at this
        dsimp only at this
        rw [hl] at this
        simp only [Option.bind_some] at this
        split at this
        · exact absurd this (by simp)
        · exact this)
      refine ⟨m, ?_⟩
      rw [show x + 3 * (n + 1) = x + 3 + 3 * n by ring]
      exact hm
  have hirr : Irrational (Real.log 10) := by
    have := log_irrational (x := 10) (by norm_num) (by norm_num)
    push_cast at this
    exact this
  obtain ⟨δ, hδ, hap⟩ := apart hirr (-(p : ℤ))
  obtain ⟨N, hN⟩ := small_power hδ
  obtain ⟨m, hm⟩ := hall N 3 hnone
  have h1 := hap m
  have hP : (0 : ℝ) < 10 ^ (p + (3 + 3 * N)) := by positivity
  have e : (m : ℝ) * 10 ^ (3 + 3 * N) - 10 ^ (p + (3 + 3 * N)) * Real.log 10 = 10 ^ (p + (3 + 3 * N)) * (((m : ℤ) : ℝ) * 10 ^ (-(p : ℤ)) - Real.log 10) := by
    rw [zpow_neg, zpow_natCast, pow_add _ p]
    push_cast
    generalize (10 : ℝ) ^ (3 + 3 * N) = w
    field_simp
  rw [e, abs_mul, abs_of_pos hP] at hm
  have h2 : (10 : ℝ) ^ N ≤ 10 ^ (p + (3 + 3 * N)) := pow_le_pow_right₀ (by norm_num) (by omega)
  rw [zpow_neg, zpow_natCast] at hN
  have h3 : (10 : ℝ) ^ N * (10 ^ N)⁻¹ = 1 := mul_inv_cancel₀ (by positivity)
  have h4 : 1 < (10 : ℝ) ^ N * δ := by rw [← h3]; exact mul_lt_mul_of_pos_left hN (by positivity)
  have h5 : (10 : ℝ) ^ N * δ ≤ 10 ^ (p + (3 + 3 * N)) * |((m : ℤ) : ℝ) * 10 ^ (-(p : ℤ)) - Real.log 10| := mul_le_mul h2 h1 hδ.le hP.le
  linarith

theorem getDigits_ends (stored : Digits) (p : ℕ) : ∃ s r fuel, ∀ fuel' ≥ fuel, getDigits fuel' stored p = some (s, r) := by
  by_cases hp : p ≥ stored.length
  · obtain ⟨fuel, d, hd⟩ := moreDigits_ends p
    exact ⟨stripLast d, toInt ((stripLast d).take (p + 1)), fuel, fun f hf => by rw [getDigits, if_pos hp, moreDigits_mono hd hf]; rfl⟩
  · exact ⟨_, _, 0, fun f _ => by rw [getDigits, if_neg hp]⟩

end Verif.DecimalFunctions
