import Verif.Floats.Model
import Mathlib.Tactic.Linarith
import Mathlib.Tactic.Ring
import Mathlib.Tactic.FieldSimp
import Mathlib.Tactic.NormNum
import Mathlib.Algebra.Order.Floor.Ring
/-
Helper lemmas about rounding.
-/
namespace Verif.Floats

open Verif.Numeric (Fl Num Err nearest floatOfInt)

/-- What makes an integer the nearest one. -/
theorem nearestEven_of (x : ℚ) (n : Int) (h : |x - n| ≤ 1 / 2) (he : |x - n| = 1 / 2 → n % 2 = 0) : NearestEven x n := by
  have far : ∀ k : Int, k ≠ n → 1 / 2 ≤ |x - k| := by
    intro k hk
    have h1 : (1 : ℚ) ≤ |((n : ℚ) - k)| := by
      have : (1 : Int) ≤ |n - k| := Int.one_le_abs (sub_ne_zero.2 (Ne.symm hk))
      exact_mod_cast this
    have h2 : |((n : ℚ) - k)| ≤ |x - k| + |x - n| := by
      have := abs_sub_le (n : ℚ) x k
      rw [abs_sub_comm (n : ℚ) x] at this
      linarith
    linarith
  refine ⟨fun k => ?_, fun k hk hkn => he ?_⟩
  · by_cases hk : k = n
    · rw [hk]
    · exact h.trans (far k hk)
  · have := far k hk
    linarith

theorem nearest_half (x : ℚ) : |x - nearest x| ≤ 1 / 2 ∧ (|x - nearest x| = 1 / 2 → nearest x % 2 = 0) := by
  have h1 := Int.floor_le x
  have h2 := Int.lt_floor_add_one x
  unfold nearest
  simp only
  split
  · rename_i h
    rw [abs_of_nonneg (by linarith)]
    exact ⟨by linarith, fun e => by linarith⟩
  · rename_i h
    split
    · rename_i h'
      push_cast
      rw [abs_of_nonpos (by linarith)]
      exact ⟨by linarith, fun e => by linarith⟩
    · rename_i h'
      have hx : x - ⌊x⌋ = 1 / 2 := by linarith
      split
      · rename_i he
        rw [hx, abs_of_pos (by norm_num)]
        exact ⟨le_refl _, fun _ => he⟩
      · rename_i he
        push_cast
        rw [show x - (⌊x⌋ + 1) = -(1 / 2) by linarith, abs_neg, abs_of_pos (by norm_num)]
        exact ⟨le_refl _, fun _ => by omega⟩

theorem nearest_nearestEven (x : ℚ) : NearestEven x (nearest x) := nearestEven_of x _ (nearest_half x).1 (nearest_half x).2

theorem nearestEven_unique (x : ℚ) (m n : Int) (hm : NearestEven x m) (hn : NearestEven x n) : m = n := by
  by_contra h
  have he : |x - m| = |x - n| := le_antisymm (hm.1 n) (hn.1 m)
  have e1 := hm.2 n (Ne.symm h) he.symm
  have e2 := hn.2 m h he
  -- two different even integers: the one between is nearer
  have key : ∀ a b : Int, a < b → a % 2 = 0 → b % 2 = 0 → |x - a| = |x - b| → |x - ((a + 1 : Int) : ℚ)| < |x - a| := by
    intro a b hab ha hb hab'
    have hb2 : a + 2 ≤ b := by omega
    have hb3 : (a : ℚ) + 2 ≤ b := by exact_mod_cast hb2
    have hmid : 2 * x = a + b := by
      rcases abs_eq_abs.1 hab' with h | h
      · linarith
      · linarith
    push_cast
    rw [abs_of_nonneg (show (0 : ℚ) ≤ x - (a + 1) by linarith), abs_of_nonneg (show (0 : ℚ) ≤ x - a by linarith)]
    linarith
  rcases lt_or_gt_of_ne h with h | h
  · exact absurd (hm.1 (m + 1)) (not_le.2 (key m n h e1 e2 he))
  · exact absurd (hn.1 (n + 1)) (not_le.2 (key n m h e2 e1 he.symm))

/-! ### Rounding to a float -/

theorem two_zpow_pos (e : Int) : (0 : ℚ) < 2 ^ e := zpow_pos (by norm_num) e

theorem exponent_spec (q : ℚ) (hq : q ≠ 0) : (2 : ℚ) ^ exponent q ≤ |q| ∧ |q| < (2 : ℚ) ^ (exponent q + 1) := by
  obtain ⟨a, ha⟩ : ∃ a, a = Nat.log2 q.num.natAbs := ⟨_, rfl⟩
  obtain ⟨b, hb⟩ : ∃ b, b = Nat.log2 q.den := ⟨_, rfl⟩
  have hn : q.num.natAbs ≠ 0 := by simpa using hq
  have hd : q.den ≠ 0 := q.den_nz
  have ha1 : (2 : ℚ) ^ a ≤ q.num.natAbs := by
    have := Nat.log2_self_le hn
    rw [ha]; exact_mod_cast this
  have ha2 : (q.num.natAbs : ℚ) < 2 ^ (a + 1) := by
    have : q.num.natAbs < 2 ^ (a + 1) := ha ▸ Nat.lt_log2_self
    exact_mod_cast this
  have hb1 : (2 : ℚ) ^ b ≤ q.den := by
    have := Nat.log2_self_le hd
    rw [hb]; exact_mod_cast this
  have hb2 : (q.den : ℚ) < 2 ^ (b + 1) := by
    have : q.den < 2 ^ (b + 1) := hb ▸ Nat.lt_log2_self
    exact_mod_cast this
  have hdp : (0 : ℚ) < q.den := by exact_mod_cast Nat.pos_of_ne_zero hd
  have habs : |q| * q.den = q.num.natAbs := by
    have h1 : |q| * q.den = |q * q.den| := by rw [abs_mul, abs_of_pos hdp]
    rw [h1, Rat.mul_den_eq_num, ← Int.cast_abs, Int.abs_eq_natAbs, Int.cast_natCast]
  have hz : ∀ i j : Nat, (2 : ℚ) ^ ((i : Int) - (j : Int)) * 2 ^ j = 2 ^ i := by
    intro i j
    rw [← zpow_natCast, ← zpow_add₀ (by norm_num), ← zpow_natCast]
    congr 1
    omega
  have hup : |q| < (2 : ℚ) ^ ((a : Int) - b + 1) := by
    have h1 : |q| * 2 ^ b ≤ |q| * q.den := mul_le_mul_of_nonneg_left hb1 (abs_nonneg q)
    have h2 : |q| * 2 ^ b < (2 : ℚ) ^ ((a : Int) - b + 1) * 2 ^ b := by
      have h3 := hz (a + 1) b
      rw [show ((a + 1 : Nat) : Int) - (b : Int) = (a : Int) - b + 1 by push_cast; ring] at h3
      rw [h3]
      linarith
    exact lt_of_mul_lt_mul_right h2 (by positivity)
  have hlo : (2 : ℚ) ^ ((a : Int) - b - 1) ≤ |q| := by
    have h3 := hz a (b + 1)
    rw [show (a : Int) - ((b + 1 : Nat) : Int) = (a : Int) - b - 1 by push_cast; ring] at h3
    have h4 : (2 : ℚ) ^ ((a : Int) - b - 1) * 2 ^ (b + 1) ≤ |q| * 2 ^ (b + 1) := by
      rw [h3]
      have : |q| * q.den ≤ |q| * 2 ^ (b + 1) := mul_le_mul_of_nonneg_left hb2.le (abs_nonneg q)
      linarith
    exact le_of_mul_le_mul_right h4 (by positivity)
  unfold exponent
  simp only [← ha, ← hb]
  split
  · rename_i h
    exact ⟨h, hup⟩
  · rename_i h
    refine ⟨hlo, ?_⟩
    rw [sub_add_cancel]
    exact not_le.1 h

/-- `2 ^ 53` steps of the last place are enough. -/
theorem scaled_lt (q : ℚ) (hq : q ≠ 0) : |q| < 2 ^ 53 * (2 : ℚ) ^ max (-1074) (exponent q - 52) := by
  have h := (exponent_spec q hq).2
  refine h.trans_le ?_
  have h1 : (2 : ℚ) ^ (exponent q + 1) = 2 ^ 53 * (2 : ℚ) ^ (exponent q - 52) := by
    rw [← zpow_natCast, ← zpow_add₀ (by norm_num)]
    congr 1
    push_cast
    ring
  rw [h1]
  exact mul_le_mul_of_nonneg_left (zpow_le_zpow_right₀ (by norm_num) (le_max_right _ _)) (by positivity)

theorem nearest_bound (x : ℚ) (b : Nat) (h : |x| < b) : |nearest x| ≤ b := by
  have h1 := (nearest_half x).1
  have h2 : |((nearest x : Int) : ℚ)| ≤ |x| + 1 / 2 := by
    have := abs_sub_abs_le_abs_sub ((nearest x : Int) : ℚ) x
    rw [abs_sub_comm] at this
    linarith
  have h3 : |((nearest x : Int) : ℚ)| < (b : ℚ) + 1 := by linarith
  have h4 : |nearest x| < (b : Int) + 1 := by exact_mod_cast h3
  omega

theorem nearest_lower (x : ℚ) (b : Nat) (h : (b : ℚ) ≤ |x|) : (b : Int) ≤ |nearest x| := by
  have h1 := (nearest_half x).1
  have h2 : |x| - 1 / 2 ≤ |((nearest x : Int) : ℚ)| := by
    have := abs_sub_abs_le_abs_sub x ((nearest x : Int) : ℚ)
    linarith
  have h3 : (b : ℚ) < |((nearest x : Int) : ℚ)| + 1 := by linarith
  have h4 : (b : Int) < |nearest x| + 1 := by exact_mod_cast h3
  omega

theorem pow_971 : (2 : ℚ) ^ 971 = 2 * 2 ^ 970 := pow_succ' 2 970

theorem pow_1024 : (2 : ℚ) ^ 1024 = 18014398509481984 * 2 ^ 970 := by
  rw [show (18014398509481984 : ℚ) = 2 ^ 54 by norm_num, ← pow_add]

theorem toDouble_rounds (q : ℚ) : RoundsTo q (toDouble q) := by
  obtain ⟨P, hP⟩ : ∃ P, P = (2 : ℚ) ^ 970 := ⟨_, rfl⟩
  have hP0 : 0 < P := by rw [hP]; exact pow_pos (by norm_num) 970
  have h971 : (2 : ℚ) ^ 971 = 2 * P := by rw [hP]; exact pow_971
  have h1024 : (2 : ℚ) ^ 1024 = 18014398509481984 * P := by rw [hP]; exact pow_1024
  unfold toDouble
  by_cases hq : q = 0
  · rw [if_pos hq, hq]
    refine ⟨by rw [abs_zero, h1024, ← hP]; linarith only [hP0], ⟨0, 0, by simp, by norm_num, by norm_num, by norm_num⟩, fun d' _ => ?_, fun d' _ hne h => ?_⟩
    · rw [sub_zero, abs_zero]; exact abs_nonneg _
    · rw [zero_sub, abs_neg, sub_zero, abs_zero] at h
      exact absurd (abs_eq_zero.1 h) hne
  · rw [if_neg hq]
    simp only
    obtain ⟨e, he⟩ : ∃ e, e = max (-1074) (exponent q - 52) := ⟨_, rfl⟩
    obtain ⟨m, hm⟩ : ∃ m, m = nearest (q / (2 : ℚ) ^ e) := ⟨_, rfl⟩
    rw [← he, ← hm]
    have hpos := two_zpow_pos e
    have hpne : (2 : ℚ) ^ e ≠ 0 := ne_of_gt hpos
    have hlow : -1074 ≤ e := he ▸ le_max_left _ _
    have hdiv : ∀ k : Int, |q - k * (2 : ℚ) ^ e| = |q / (2 : ℚ) ^ e - k| * (2 : ℚ) ^ e := by
      intro k
      rw [show q - k * (2 : ℚ) ^ e = (q / (2 : ℚ) ^ e - k) * (2 : ℚ) ^ e by field_simp, abs_mul, abs_of_pos hpos]
    have hne := nearest_nearestEven (q / (2 : ℚ) ^ e)
    rw [← hm] at hne
    have hhalf : |q - m * (2 : ℚ) ^ e| ≤ 2 ^ e / 2 := by
      rw [hdiv]
      have := (nearest_half (q / (2 : ℚ) ^ e)).1
      rw [← hm] at this
      nlinarith
    have hqlt : |q| < 2 ^ 53 * (2 : ℚ) ^ e := he ▸ scaled_lt q hq
    have hmle : |m| ≤ 2 ^ 53 := by
      have := nearest_bound (q / (2 : ℚ) ^ e) (2 ^ 53) (by
        rw [abs_div, abs_of_pos hpos, div_lt_iff₀ hpos]
        exact_mod_cast hqlt)
      rw [← hm] at this
      exact_mod_cast this
    have hvabs : |(m : ℚ) * (2 : ℚ) ^ e| = (|m| : Int) * (2 : ℚ) ^ e := by
      rw [abs_mul, abs_of_pos hpos, Int.cast_abs]
    -- with a large exponent the number is large
    have hbig : -1074 < e → (2 : ℚ) ^ 52 * (2 : ℚ) ^ e ≤ |q| := by
      intro h
      have hee : e = exponent q - 52 := by omega
      have := (exponent_spec q hq).1
      rw [show (2 : ℚ) ^ 52 * (2 : ℚ) ^ e = (2 : ℚ) ^ exponent q by
        rw [← zpow_natCast, ← zpow_add₀ (by norm_num), hee]
        congr 1
        push_cast
        ring]
      exact this
    have hpow : ∀ k : Nat, ∀ j : Int, (2 : ℚ) ^ k * (2 : ℚ) ^ j = (2 : ℚ) ^ (k + j) := by
      intro k j
      rw [← zpow_natCast, ← zpow_add₀ (by norm_num)]
    have hmono : ∀ i j : Int, i ≤ j → (2 : ℚ) ^ i ≤ (2 : ℚ) ^ j := fun i j h => zpow_le_zpow_right₀ (by norm_num) h
    have hcast : ∀ k : Nat, (2 : ℚ) ^ (k : Int) = 2 ^ k := fun k => zpow_natCast 2 k
    have hme : 972 ≤ e → (2 : ℚ) ^ 1024 ≤ |(m : ℚ) * (2 : ℚ) ^ e| := by
      intro h
      have h1 : ((2 ^ 52 : Nat) : Int) ≤ |m| := by
        rw [hm]
        refine nearest_lower _ _ ?_
        rw [abs_div, abs_of_pos hpos, le_div_iff₀ hpos]
        have := hbig (by omega)
        exact_mod_cast this
      rw [hvabs]
      have h2 : ((2 : ℚ) ^ 52) ≤ ((|m| : Int) : ℚ) := by exact_mod_cast h1
      have h3 : (2 : ℚ) ^ 1024 ≤ 2 ^ 52 * (2 : ℚ) ^ e := by
        rw [hpow, ← hcast]
        refine hmono _ _ ?_
        push_cast
        omega
      exact h3.trans (mul_le_mul_of_nonneg_right h2 hpos.le)
    split
    · rename_i h
      refine ⟨?_, by simp⟩
      by_cases hgt : 972 ≤ e
      · have h1 := hbig (by omega)
        have h3 : (2 : ℚ) ^ 1024 ≤ 2 ^ 52 * (2 : ℚ) ^ e := by
          rw [hpow, ← hcast]
          refine hmono _ _ ?_
          push_cast
          omega
        rw [h1024] at h3 ⊢
        rw [← hP]
        linarith only [hP0, h1, h3]
      · have hle : e ≤ 971 := by omega
        have h1 : (2 : ℚ) ^ e ≤ 2 ^ 971 := by
          have := hmono e 971 hle
          rwa [show (2 : ℚ) ^ (971 : Int) = 2 ^ 971 from hcast 971] at this
        have h2 := abs_sub_abs_le_abs_sub ((m : ℚ) * (2 : ℚ) ^ e) q
        rw [abs_sub_comm] at h2
        rw [h971] at h1
        rw [h1024] at h ⊢
        rw [← hP]
        linarith
    · rename_i h
      have hle : e ≤ 971 := by
        by_contra hc
        exact h (hme (by omega))
      have heven : ∀ he2 : m % 2 = 0, EvenDouble ((m : ℚ) * (2 : ℚ) ^ e) := by
        intro he2
        by_cases hmm : |m| = 2 ^ 53
        · have he3 : e ≤ 970 := by
            by_contra hc
            have : e = 971 := by omega
            apply h
            rw [hvabs, hmm, this, show (2 : ℚ) ^ (971 : Int) = 2 ^ 971 from hcast 971, h971, h1024]
            push_cast
            linarith
          refine ⟨m / 2, e + 1, ?_, ?_, by omega, by omega, ?_⟩
          · rw [zpow_add₀ (by norm_num), zpow_one]
            have : m = 2 * (m / 2) := by omega
            conv_lhs => rw [this]
            push_cast
            ring
          · rcases abs_cases m with ⟨h1, _⟩ | ⟨h1, _⟩ <;> rw [abs_lt] <;> omega
          · rcases abs_cases m with ⟨h1, _⟩ | ⟨h1, _⟩ <;> omega
        · exact ⟨m, e, rfl, by omega, hlow, hle, he2⟩
      have hdbl : IsDouble ((m : ℚ) * (2 : ℚ) ^ e) := by
        by_cases hmm : |m| = 2 ^ 53
        · have : m % 2 = 0 := by rcases abs_cases m with ⟨h1, _⟩ | ⟨h1, _⟩ <;> omega
          obtain ⟨m', e', h1, h2, h3, h4, _⟩ := heven this
          exact ⟨m', e', h1, h2, h3, h4⟩
        · exact ⟨m, e, rfl, by omega, hlow, hle⟩
      -- other floats are further away
      have hother : ∀ d', IsDouble d' → (∃ k : Int, d' = k * (2 : ℚ) ^ e) ∨ |q - m * (2 : ℚ) ^ e| < |q - d'| := by
        rintro d' ⟨m', e', rfl, h1, h2, h3⟩
        by_cases hee : e ≤ e'
        · left
          refine ⟨m' * 2 ^ (e' - e).toNat, ?_⟩
          push_cast
          rw [mul_assoc, hpow]
          congr 2
          omega
        · right
          have hb := hbig (by omega)
          have hd' : |(m' : ℚ) * (2 : ℚ) ^ e'| < 2 ^ 52 * (2 : ℚ) ^ e := by
            rw [abs_mul, abs_of_pos (two_zpow_pos e')]
            have h5 : |(m' : ℚ)| < 2 ^ 53 := by
              rw [← Int.cast_abs]
              exact_mod_cast h1
            have h6 : (2 : ℚ) ^ 53 * (2 : ℚ) ^ e' ≤ 2 ^ 52 * (2 : ℚ) ^ e := by
              rw [hpow, hpow]
              refine hmono _ _ ?_
              push_cast
              omega
            exact (mul_lt_mul_of_pos_right h5 (two_zpow_pos e')).trans_le h6
          have h7 := abs_sub_abs_le_abs_sub q ((m' : ℚ) * (2 : ℚ) ^ e')
          -- the multiple of the same sign
          obtain ⟨k, hk⟩ : ∃ k : Int, |q - k * (2 : ℚ) ^ e| = |q| - 2 ^ 52 * (2 : ℚ) ^ e := by
            rcases le_total 0 q with h0 | h0
            · refine ⟨2 ^ 52, ?_⟩
              rw [abs_of_nonneg h0] at hb
              push_cast
              rw [abs_of_nonneg (by linarith), abs_of_nonneg h0]
              norm_num
            · refine ⟨-2 ^ 52, ?_⟩
              rw [abs_of_nonpos h0] at hb
              push_cast
              rw [abs_of_nonpos (by linarith), abs_of_nonpos h0]
              ring
          have h8 : |q - m * (2 : ℚ) ^ e| ≤ |q - k * (2 : ℚ) ^ e| := by
            rw [hdiv, hdiv]
            exact mul_le_mul_of_nonneg_right (hne.1 k) hpos.le
          linarith
      refine ⟨?_, hdbl, fun d' hd' => ?_, fun d' hd' hned heq => ?_⟩
      · -- below the point where infinity begins
        have h1 : |(m : ℚ) * (2 : ℚ) ^ e| ≤ 2 ^ 1024 - 2 ^ 971 := by
          obtain ⟨m', e', h1, h2, h3, h4⟩ := hdbl
          rw [h1, abs_mul, abs_of_pos (two_zpow_pos e')]
          have h5 : |(m' : ℚ)| ≤ 2 ^ 53 - 1 := by
            rw [← Int.cast_abs]
            have : |m'| ≤ 2 ^ 53 - 1 := by omega
            exact_mod_cast this
          have h6 : (2 : ℚ) ^ e' ≤ 2 ^ 971 := by
            have := hmono e' 971 h4
            rwa [show (2 : ℚ) ^ (971 : Int) = 2 ^ 971 from hcast 971] at this
          calc |(m' : ℚ)| * (2 : ℚ) ^ e' ≤ (2 ^ 53 - 1) * 2 ^ 971 :=
                mul_le_mul h5 h6 (two_zpow_pos e').le (by norm_num)
            _ = 2 ^ 1024 - 2 ^ 971 := by rw [h971, h1024]; ring
        have h2 : (2 : ℚ) ^ e ≤ 2 ^ 971 := by
          have := hmono e 971 hle
          rwa [show (2 : ℚ) ^ (971 : Int) = 2 ^ 971 from hcast 971] at this
        have h3 := abs_sub_abs_le_abs_sub q ((m : ℚ) * (2 : ℚ) ^ e)
        rw [h971] at h1 h2
        rw [h1024] at h1 ⊢
        rw [← hP]
        by_contra hc
        have hc' := not_lt.1 hc
        have e1 : |(m : ℚ) * (2 : ℚ) ^ e| = 18014398509481984 * P - 2 * P := by linarith
        have e2 : |q - m * (2 : ℚ) ^ e| = 2 ^ e / 2 := by linarith
        have e3 : (2 : ℚ) ^ e = 2 * P := by linarith
        have e4 : m % 2 = 0 := by
          have := (nearest_half (q / (2 : ℚ) ^ e)).2
          rw [← hm] at this
          refine this ?_
          rw [hdiv] at e2
          exact mul_right_cancel₀ hpne (show _ * (2 : ℚ) ^ e = 1 / 2 * (2 : ℚ) ^ e by rw [e2]; ring)
        have e5 : ((|m| : Int) : ℚ) = ((2 ^ 53 - 1 : Int) : ℚ) := by
          rw [hvabs, e3] at e1
          have : ((|m| : Int) : ℚ) * (2 * P) = (2 ^ 53 - 1) * (2 * P) := by rw [e1]; ring
          have := mul_right_cancel₀ (show 2 * P ≠ 0 from (mul_pos two_pos hP0).ne') this
          rw [this]
          norm_num
        have e6 : |m| = 2 ^ 53 - 1 := by exact_mod_cast e5
        rcases abs_cases m with ⟨h1, _⟩ | ⟨h1, _⟩ <;> omega
      · rcases hother d' hd' with ⟨k, rfl⟩ | h1
        · rw [hdiv, hdiv]
          exact mul_le_mul_of_nonneg_right (hne.1 k) hpos.le
        · exact h1.le
      · rcases hother d' hd' with ⟨k, rfl⟩ | h1
        · refine heven (hne.2 k (fun e => hned (by rw [e])) ?_)
          rw [hdiv, hdiv] at heq
          exact mul_right_cancel₀ hpne heq
        · exact absurd heq (ne_of_gt h1)

end Verif.Floats
