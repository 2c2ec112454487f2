/- Hashes and integer ratios. -/
import Verif.DecimalMore.Model
import Verif.DecimalMore.Spec
import Verif.Decimal.Compare
import Verif.Decimal.Quantize
import Mathlib.Data.Nat.Prime.Basic
import Mathlib.Data.Nat.ModEq

namespace Verif.DecimalMore
open Verif.Decimal

/-! ### Hash -/

theorem inverse10_spec : 10 * inverse10 % modulus = 1 := by decide +kernel

theorem expHash_succ (e : ℤ) : expHash (e + 1) ≡ 10 * expHash e [MOD modulus] := by
  unfold expHash
  by_cases h : e ≥ 0
  · rw [if_pos h, if_pos (by omega)]
    rw [show (e + 1).toNat = e.toNat + 1 by omega, Nat.pow_succ]
    refine (Nat.mod_modEq _ _).trans ?_
    rw [Nat.mul_comm]
    exact (Nat.mod_modEq _ _).symm.mul_left 10
  · rw [if_neg h]
    obtain ⟨k, hk⟩ : ∃ k : ℕ, (-e).toNat = k + 1 := ⟨(-e).toNat - 1, by omega⟩
    have h1 : 10 * (inverse10 ^ (-e).toNat % modulus) ≡ inverse10 ^ k [MOD modulus] := by
      refine ((Nat.mod_modEq _ _).mul_left 10).trans ?_
      rw [hk, Nat.pow_succ, Nat.mul_comm (inverse10 ^ k), ← Nat.mul_assoc]
      have : 10 * inverse10 ≡ 1 [MOD modulus] := by rw [Nat.ModEq, inverse10_spec]; rfl
      simpa using this.mul_right (inverse10 ^ k)
    refine Nat.ModEq.trans ?_ h1.symm
    by_cases h2 : e + 1 ≥ 0
    · rw [if_pos h2]
      have : e = -1 := by omega
      subst this
      have : k = 0 := by simp at hk; omega
      subst this
      exact Nat.mod_modEq _ _
    · rw [if_neg h2, show (-(e + 1)).toNat = k by omega]
      exact Nat.mod_modEq _ _

theorem expHash_add (e : ℤ) (k : ℕ) : expHash (e + k) ≡ 10 ^ k * expHash e [MOD modulus] := by
  induction k with
  | zero => simp [Nat.ModEq]
  | succ k ih =>
    have := expHash_succ (e + k)
    rw [show e + ((k + 1 : ℕ) : ℤ) = e + k + 1 by push_cast; ring]
    refine this.trans ((ih.mul_left 10).trans ?_)
    rw [Nat.pow_succ, ← Nat.mul_assoc, Nat.mul_comm 10]

/-- Equal magnitudes have equal hashes. -/
theorem hash_mag {n1 n2 : ℕ} {e1 e2 : ℤ} (h : (n1 : ℚ) * 10 ^ e1 = n2 * 10 ^ e2) : n1 * expHash e1 % modulus = n2 * expHash e2 % modulus := by
  have key : ∀ {n1 n2 : ℕ} {e1 e2 : ℤ}, (n1 : ℚ) * 10 ^ e1 = n2 * 10 ^ e2 → e2 ≤ e1 → n1 * expHash e1 % modulus = n2 * expHash e2 % modulus := by
    intro n1 n2 e1 e2 h he
    obtain ⟨k, hk⟩ : ∃ k : ℕ, e1 = e2 + k := ⟨(e1 - e2).toNat, by omega⟩
    subst hk
    rw [ten_add, mul_comm ((10 : ℚ) ^ e2), ← mul_assoc, zpow_natCast] at h
    have h1 := mul_right_cancel₀ (ten_pos (K := ℚ) e2).ne' h
    have h2 : n1 * 10 ^ k = n2 := by exact_mod_cast h1
    rw [← h2]
    have := (expHash_add e2 k).mul_left n1
    rw [← Nat.mul_assoc] at this
    exact this
  rcases le_total e2 e1 with he | he
  · exact key h he
  · exact (key h.symm he).symm

theorem hash_fin (s : Bool) {i : Digits} (h : IsCoeff i) (e : ℤ) {h' : ℤ} (hh : h' = (number i * expHash e % modulus : ℕ)) :
    hash (.fin s i e) = some (if value s i e < 0 then (if h' = 1 then -2 else -h') else h') := by
  simp only [hash]
  rw [toInt_eq, ← hh]
  have hge : (ge (.fin s i e) (.fin false [0] 0)).2 = true ↔ ¬ value s i e < 0 := by
    have := cmpFin_spec (K := ℚ) h (i2 := [0]) (.inl rfl) s false e 0
    rw [finValue_zero] at this
    show decide (cmpFin s i e false [0] 0 ≥ 0) = true ↔ _
    rw [decide_eq_true_eq]
    unfold value
    rcases lt_trichotomy (finValue s i e : ℚ) 0 with h1 | h1 | h1
    · rw [this.1 h1]; simp [h1]
    · rw [this.2.1 h1]; simp [h1]
    · rw [this.2.2 h1]; simp [h1.le]
  have h0 : 0 ≤ h' := by rw [hh]; exact Int.natCast_nonneg _
  by_cases hv : value s i e < 0
  · have hg : (ge (.fin s i e) (.fin false [0] 0)).2 = false := by
      rw [Bool.eq_false_iff, ne_eq, hge]; simpa using hv
    rw [if_pos hv, hg]
    simp only [Bool.false_eq_true, if_false]
    by_cases h1 : h' = 1
    · rw [if_pos h1, h1]; rfl
    · rw [if_neg h1, if_neg (by omega)]
  · rw [if_neg hv, hge.2 hv]
    simp only [if_true]
    rw [if_neg (by omega)]

theorem value_abs (s : Bool) (i : Digits) (e : ℤ) : |value s i e| = number i * 10 ^ e := by
  have : (0 : ℚ) ≤ number i * 10 ^ e := mul_nonneg (by exact_mod_cast Nat.zero_le _) (ten_pos e).le
  unfold value finValue
  rw [abs_mul, abs_of_nonneg this]
  cases s <;> simp

/-! ### Integer ratio -/

theorem takeFives_spec (d n : ℕ) : n = (takeFives d n).1 * 5 ^ (d - (takeFives d n).2) ∧ (takeFives d n).2 ≤ d ∧
    ((takeFives d n).2 = 0 ∨ (takeFives d n).1 % 5 ≠ 0) := by
  induction d generalizing n with
  | zero => simp [takeFives]
  | succ d ih =>
    rw [takeFives]
    by_cases h : n % 5 = 0
    · rw [if_pos h]
      obtain ⟨h1, h2, h3⟩ := ih (n / 5)
      refine ⟨?_, by omega, h3⟩
      rw [show d + 1 - (takeFives d (n / 5)).2 = (d - (takeFives d (n / 5)).2) + 1 by omega, Nat.pow_succ, ← Nat.mul_assoc, ← h1]
      omega
    · rw [if_neg h]; simp [h]

theorem takeTwos_spec (d n : ℕ) : n = (takeTwos d n).1 * 2 ^ (d - (takeTwos d n).2) ∧ (takeTwos d n).2 ≤ d ∧
    ((takeTwos d n).2 = 0 ∨ (takeTwos d n).1 % 2 ≠ 0) := by
  induction d generalizing n with
  | zero => simp [takeTwos]
  | succ d ih =>
    rw [takeTwos]
    by_cases h : n % 2 = 0
    · rw [if_pos h]
      obtain ⟨h1, h2, h3⟩ := ih (n / 2)
      refine ⟨?_, by omega, h3⟩
      rw [show d + 1 - (takeTwos d (n / 2)).2 = (d - (takeTwos d (n / 2)).2) + 1 by omega, Nat.pow_succ, ← Nat.mul_assoc, ← h1]
      omega
    · rw [if_neg h]; simp [h]

theorem ratio_mag {i : Digits} {e : ℤ} (he : ¬ e ≥ 0) {n5 d5 n2 d2 : ℕ} (h5 : takeFives (-e).toNat (number i) = (n5, d5))
    (h2 : takeTwos (-e).toNat n5 = (n2, d2)) :
    (number i : ℚ) * 10 ^ e = n2 / ((5 ^ d5 * 2 ^ d2 : ℕ) : ℚ) ∧ Nat.Coprime n2 (5 ^ d5 * 2 ^ d2) := by
  have s5 := takeFives_spec (-e).toNat (number i)
  have s2 := takeTwos_spec (-e).toNat n5
  rw [h5] at s5
  rw [h2] at s2
  obtain ⟨a1, a2, a3⟩ := s5
  obtain ⟨b1, b2, b3⟩ := s2
  obtain ⟨k, hk⟩ : ∃ k : ℕ, e = -(k : ℤ) := ⟨(-e).toNat, by omega⟩
  subst hk
  simp only [neg_neg, Int.toNat_natCast] at a1 a2 a3 b1 b2 b3
  constructor
  · rw [zpow_neg, zpow_natCast, ← div_eq_mul_inv, div_eq_div_iff (by positivity) (by positivity)]
    have : number i * (5 ^ d5 * 2 ^ d2) = n2 * 10 ^ k := by
      rw [a1, b1, show (10 : ℕ) = 5 * 2 from rfl, Nat.mul_pow]
      have e5 : 5 ^ (k - d5) * 5 ^ d5 = 5 ^ k := by rw [← Nat.pow_add]; congr 1; omega
      have e2 : 2 ^ (k - d2) * 2 ^ d2 = 2 ^ k := by rw [← Nat.pow_add]; congr 1; omega
      rw [← e5, ← e2]; ring
    exact_mod_cast this
  · have hdiv : ∀ p, p ∣ n2 → p ∣ n5 := fun p hp => by rw [b1]; exact Dvd.dvd.mul_right hp _
    apply Nat.Coprime.mul_right
    · rcases a3 with h | h
      · rw [h]; simp
      · apply Nat.Coprime.pow_right
        rw [Nat.coprime_comm, Nat.Prime.coprime_iff_not_dvd Nat.prime_five]
        intro h6
        exact h (Nat.mod_eq_zero_of_dvd (hdiv 5 h6))
    · rcases b3 with h | h
      · rw [h]; simp
      · apply Nat.Coprime.pow_right
        rw [Nat.coprime_comm, Nat.Prime.coprime_iff_not_dvd Nat.prime_two]
        intro h6
        exact h (Nat.mod_eq_zero_of_dvd h6)

/-! ### Normalizing -/

theorem dropZeros_spec (m : ℤ) (ds : Digits) (e : ℤ) : ∃ k : ℕ, ds = List.replicate k 0 ++ (dropZeros m ds e).1 ∧ (dropZeros m ds e).2 = e + k ∧
    ((dropZeros m ds e).1.head? ≠ some 0 ∨ m ≤ (dropZeros m ds e).2) ∧ (e ≤ m → (dropZeros m ds e).2 ≤ m) := by
  induction ds generalizing e with
  | nil => exact ⟨0, by simp [dropZeros]⟩
  | cons x ds ih =>
    cases x with
    | zero =>
      rw [dropZeros]
      by_cases h : e < m
      · rw [if_pos h]
        obtain ⟨k, h1, h2, h3, h4⟩ := ih (e + 1)
        refine ⟨k + 1, ?_, by rw [h2]; push_cast; ring, h3, fun _ => h4 (by omega)⟩
        rw [List.replicate_succ, List.cons_append, ← h1]
      · rw [if_neg h]
        exact ⟨0, by simp, by simp, .inr (by simpa using h), fun h5 => h5⟩
    | succ x => exact ⟨0, by simp [dropZeros]⟩

end Verif.DecimalMore
