/- Division, integer division and remainders. -/
import Verif.Decimal.Arith

namespace Verif.Decimal

set_option linter.unusedSectionVars false

section
variable {K : Type} [Field K] [LinearOrder K] [IsStrictOrderedRing K] [FloorRing K]

/-- A coefficient with more digits than the precision, rounded down and with its last digit adjusted, is rounded as the exact number. -/
theorem sticky {c : Ctx} (hc : c.Ok) (s : Bool) {coeff : ℕ} (hbig : 10 ^ c.prec ≤ coeff) {M : K} {exp e0 : ℤ} (h1 : (coeff : K) * 10 ^ exp < M)
    (h2 : M < (coeff + 1) * 10 ^ exp) (he : e0 ≤ exp) :
    IsRounding c s M e0 (fixFin c s (str (if coeff % 5 = 0 then coeff + 1 else coeff)) exp) := by
  have hp := hc.prec
  have h10 : 1 ≤ 10 ^ c.prec := Nat.one_le_pow _ _ (by omega)
  have hG := ten_pos (K := K) exp
  obtain ⟨N, hN⟩ : ∃ N, N = if coeff % 5 = 0 then coeff + 1 else coeff := ⟨_, rfl⟩
  rw [← hN]
  have hN1 : coeff / 5 * 5 < N ∧ N < (coeff / 5 + 1) * 5 ∧ coeff ≤ N := by
    rw [hN]; split <;> omega
  have hN0 : N ≠ 0 := by omega
  have hr := fixFin_spec (K := K) hc s (isCoeff_str N) (str_ne_zero hN0) exp
  have had := (isCoeff_str N).adj (K := K) (str_ne_zero hN0) exp
  rw [number_str] at hr had
  have hlen : c.prec < (str N).length := by
    rw [← Nat.not_le, length_str_le hN0]; omega
  have b1 : ((coeff / 5 : ℕ) : K) * 5 ≤ coeff := by exact_mod_cast (by omega : coeff / 5 * 5 ≤ coeff)
  have b2 : (coeff : K) + 1 ≤ ((coeff / 5 : ℕ) + 1) * 5 := by exact_mod_cast (by omega : coeff + 1 ≤ (coeff / 5 + 1) * 5)
  have b3 : ((coeff / 5 : ℕ) : K) * 5 < N := by exact_mod_cast hN1.1
  have b4 : (N : K) < ((coeff / 5 : ℕ) + 1) * 5 := by exact_mod_cast hN1.2.1
  refine hr.of_cell (j := ((coeff / 5 : ℕ) : ℤ)) (g := exp) ?_ ?_ ?_ ?_ had.1 had.2 (by omega) hp (by omega) (by omega)
  · rw [← mul_assoc]; push_cast
    exact lt_of_le_of_lt (mul_le_mul_of_nonneg_right (by exact_mod_cast b1) hG.le) h1
  · rw [← mul_assoc]; push_cast
    exact lt_of_lt_of_le h2 (mul_le_mul_of_nonneg_right (by exact_mod_cast b2) hG.le)
  · rw [← mul_assoc]; push_cast
    exact mul_lt_mul_of_pos_right (by exact_mod_cast b3) hG
  · rw [← mul_assoc]; push_cast
    exact mul_lt_mul_of_pos_right (by exact_mod_cast b4) hG

theorem stripZeros_spec (fuel coeff : ℕ) (exp : ℤ) (h0 : 0 < coeff) :
    0 < (stripZeros fuel coeff exp).1 ∧ (((stripZeros fuel coeff exp).1 : K) * 10 ^ (stripZeros fuel coeff exp).2 = coeff * 10 ^ exp) ∧
    exp ≤ (stripZeros fuel coeff exp).2 ∧ (stripZeros fuel coeff exp).2 ≤ exp + fuel ∧
    ((stripZeros fuel coeff exp).2 < exp + fuel → (stripZeros fuel coeff exp).1 % 10 ≠ 0) := by
  induction fuel generalizing coeff exp with
  | zero => simp only [stripZeros]; exact ⟨h0, trivial, le_refl _, by omega, by omega⟩
  | succ fuel ih =>
    rw [stripZeros]
    by_cases h : coeff % 10 = 0
    · rw [if_pos h]
      obtain ⟨a1, a2, a3, a4, a5⟩ := ih (coeff / 10) (exp + 1) (by omega)
      refine ⟨a1, ?_, by omega, by push_cast; omega, fun h1 => a5 (by push_cast at h1; omega)⟩
      rw [a2]
      have : (coeff : K) = (coeff / 10 : ℕ) * 10 := by exact_mod_cast (by omega : coeff = coeff / 10 * 10)
      rw [this, ten_add, zpow_one]; ring
    · rw [if_neg h]
      exact ⟨h0, rfl, le_refl _, by push_cast; omega, fun _ => h⟩

theorem finValue_div (s1 s2 : Bool) (i1 i2 : Digits) (e1 e2 : ℤ) :
    (finValue s1 i1 e1 / finValue s2 i2 e2 : K) = (if s1 ^^ s2 then -1 else 1) * ((number i1 * 10 ^ e1) / (number i2 * 10 ^ e2)) := by
  rw [finValue, finValue]
  cases s1 <;> cases s2 <;> simp [neg_div, div_neg]

theorem abs_sign (s : Bool) {M : K} (h : 0 < M) : |(if s then -1 else 1) * M| = M := by
  cases s
  · simp [abs_of_pos h]
  · simp [abs_of_pos h]

/-- The quotient of numbers that are not zero. -/
theorem divFin_spec {c : Ctx} (hc : c.Ok) {s1 s2 : Bool} {i1 i2 : Digits} (h1 : IsCoeff i1) (h2 : IsCoeff i2) (z1 : i1 ≠ [0]) (z2 : i2 ≠ [0])
    (e1 e2 : ℤ) (z : Bool) : ∃ e, e ≤ e1 - e2 ∧ (e < e1 - e2 → ¬ ∃ k : ℤ, |(finValue s1 i1 e1 / finValue s2 i2 e2 : K)| = k * 10 ^ (e + 1)) ∧
      IsResult c (finValue s1 i1 e1 / finValue s2 i2 e2 : K) z e (divFin c s1 i1 e1 s2 i2 e2) := by
  have hp := hc.prec
  have hl1 := h1.length_pos
  have hl2 := h2.length_pos
  have m1 := mag_pos (K := K) h1 z1 e1
  have m2 := mag_pos (K := K) h2 z2 e2
  have hM : (0 : K) < (number i1 * 10 ^ e1) / (number i2 * 10 ^ e2) := div_pos m1 m2
  rw [finValue_div, abs_sign _ hM]
  unfold divFin
  dsimp only
  rw [toInt_eq, toInt_eq]
  obtain ⟨shift, hs⟩ : ∃ sh : ℤ, sh = i2.length - i1.length + c.prec + 1 := ⟨_, rfl⟩
  rw [← hs]
  obtain ⟨num, hnum⟩ : ∃ n : ℕ, n = if shift ≥ 0 then number i1 * 10 ^ shift.toNat else number i1 := ⟨_, rfl⟩
  obtain ⟨den, hden⟩ : ∃ n : ℕ, n = if shift ≥ 0 then number i2 else number i2 * 10 ^ (-shift).toNat := ⟨_, rfl⟩
  rw [← hnum, ← hden]
  have hden0 : 0 < den := by
    rw [hden]; split
    · exact h2.pos z2
    · exact Nat.mul_pos (h2.pos z2) (Nat.pow_pos (by omega))
  have hden0' : (0 : K) < den := by exact_mod_cast hden0
  have hn2 : (0 : K) < number i2 := by exact_mod_cast h2.pos z2
  -- the exact quotient
  have hMq : ((number i1 * 10 ^ e1) / (number i2 * 10 ^ e2) : K) = (num / den) * 10 ^ (e1 - e2 - shift) := by
    rw [ten_sub, ten_sub, hnum, hden]
    have t1 := ten_pos (K := K) e2
    have t2 := ten_pos (K := K) shift
    by_cases hsh : shift ≥ 0
    · rw [if_pos hsh, if_pos hsh]
      rw [ten_toNat (a := shift) hsh] at t2 ⊢
      push_cast at t2 ⊢
      field_simp
    · rw [if_neg hsh, if_neg hsh]
      have t3 : (10 : K) ^ shift * ((10 ^ (-shift).toNat : ℕ) : K) = 1 := by
        rw [← ten_toNat (by omega), ← ten_add]; simp
      push_cast at t3 ⊢
      have t4 : (10 : K) ^ shift = 1 / 10 ^ (-shift).toNat := by
        rw [eq_div_iff (by positivity)]; exact t3
      rw [t4]
      field_simp
  have hbig : 10 ^ c.prec ≤ num / den := by
    rw [Nat.le_div_iff_mul_le hden0, hnum, hden]
    have g1 := h1.ge z1
    have g2 := h2.lt.le
    by_cases hsh : shift ≥ 0
    · rw [if_pos hsh, if_pos hsh]
      calc 10 ^ c.prec * number i2 ≤ 10 ^ c.prec * 10 ^ i2.length := Nat.mul_le_mul_left _ g2
        _ = 10 ^ (i1.length - 1) * 10 ^ shift.toNat := by rw [← Nat.pow_add, ← Nat.pow_add]; congr 1; omega
        _ ≤ number i1 * 10 ^ shift.toNat := Nat.mul_le_mul_right _ g1
    · rw [if_neg hsh, if_neg hsh]
      calc 10 ^ c.prec * (number i2 * 10 ^ (-shift).toNat) ≤ 10 ^ c.prec * (10 ^ i2.length * 10 ^ (-shift).toNat) :=
            Nat.mul_le_mul_left _ (Nat.mul_le_mul_right _ g2)
        _ = 10 ^ (i1.length - 1) := by rw [← Nat.pow_add, ← Nat.pow_add]; congr 1; omega
        _ ≤ number i1 := g1
  have h10 : 1 ≤ 10 ^ c.prec := Nat.one_le_pow _ _ (by omega)
  rw [hMq] at hM ⊢
  obtain ⟨exp, hexp⟩ : ∃ x : ℤ, x = e1 - e2 - shift := ⟨_, rfl⟩
  rw [← hexp] at hM ⊢
  have hE := ten_pos (K := K) exp
  by_cases hrem : num % den ≠ 0
  · rw [if_pos hrem]
    have hdm := Nat.div_add_mod num den
    have hml := Nat.mod_lt num hden0
    have a1 : ((num / den : ℕ) : K) < num / den := by
      rw [lt_div_iff₀ hden0']
      exact_mod_cast (by rw [Nat.mul_comm]; omega : num / den * den < num)
    have a2 : (num : K) / den < ((num / den : ℕ) : K) + 1 := by
      rw [div_lt_iff₀ hden0']
      exact_mod_cast (by rw [Nat.add_mul, Nat.mul_comm]; omega : num < (num / den + 1) * den)
    refine ⟨min exp (e1 - e2), by omega, ?_, .of_sign hM rfl (sticky hc _ hbig (mul_lt_mul_of_pos_right a1 hE) (mul_lt_mul_of_pos_right a2 hE) (by omega))⟩
    intro hlt
    rw [min_eq_left (by omega)]
    rintro ⟨k, hk⟩
    rw [ten_add, zpow_one, mul_comm ((10 : K) ^ exp), ← mul_assoc] at hk
    have hk2 := mul_right_cancel₀ hE.ne' hk
    rw [hk2] at a1 a2
    generalize num / den = cf at a1 a2
    have b1 : ((cf : ℤ) : K) < ((k * 10 : ℤ) : K) := by push_cast; exact a1
    have b2 : ((k * 10 : ℤ) : K) < ((cf + 1 : ℤ) : K) := by push_cast; exact a2
    rw [Int.cast_lt] at b1 b2
    omega
  · rw [if_neg hrem]
    have hex : num = num / den * den := by
      have := Nat.div_add_mod num den
      rw [Nat.mul_comm]; omega
    have hq : (num : K) / den = ((num / den : ℕ) : K) := by
      rw [div_eq_iff hden0'.ne']
      exact_mod_cast hex
    rw [hq] at hM ⊢
    generalize num / den = coeff at *
    by_cases hsh : shift ≥ 0
    · obtain ⟨a1, a2, a3, a4, a5⟩ := stripZeros_spec (K := K) (e1 - e2 - exp).toNat coeff exp (by omega)
      generalize stripZeros (e1 - e2 - exp).toNat coeff exp = r at *
      obtain ⟨co, ex⟩ := r
      simp only at a1 a2 a3 a4 a5 ⊢
      refine ⟨ex, by omega, ?_, ?_⟩
      · intro hlt
        rintro ⟨k, hk⟩
        rw [← a2, ten_add, zpow_one, mul_comm ((10 : K) ^ ex), ← mul_assoc] at hk
        have hk2 := mul_right_cancel₀ (ten_pos ex).ne' hk
        have hk3 : (co : ℤ) = k * 10 := by exact_mod_cast hk2
        exact a5 (by omega) (by omega)
      · rw [← a2]
        have := fix_result (K := K) hc (s1 ^^ s2) (isCoeff_str co) ex
        rw [finValue, number_str] at this
        refine this.sign fun h0 => ?_
        exfalso
        have hne := finValue_ne_zero (K := K) (isCoeff_str co) (str_ne_zero (by omega)) (s1 ^^ s2) ex
        rw [finValue, number_str] at hne
        exact hne h0
    · have hf : (e1 - e2 - exp).toNat = 0 := by omega
      rw [hf]
      simp only [stripZeros]
      refine ⟨e1 - e2, le_refl _, fun h => absurd h (lt_irrefl _), .of_sign hM rfl ?_⟩
      have hc0 : coeff ≠ 0 := by omega
      have hr := fixFin_spec (K := K) hc (s1 ^^ s2) (isCoeff_str coeff) (str_ne_zero hc0) exp
      have had := (isCoeff_str coeff).adj (K := K) (str_ne_zero hc0) exp
      rw [number_str] at hr had
      have hlen : c.prec < (str coeff).length := by
        rw [← Nat.not_le, length_str_le hc0]; omega
      exact hr.of_lt had.1 had.2 (by omega) (by omega)

/-! ### Integer division -/

/-- Both operands with the smaller exponent. -/
theorem scaled {i1 i2 : Digits} (e1 e2 : ℤ) {n1 n2 : ℕ} (hn1 : n1 = number i1 * (if e1 ≥ e2 then 10 ^ (e1 - e2).toNat else 1))
    (hn2 : n2 = number i2 * (if e1 ≥ e2 then 1 else 10 ^ (e2 - e1).toNat)) :
    (number i1 : K) * 10 ^ e1 = n1 * 10 ^ (min e1 e2) ∧ (number i2 : K) * 10 ^ e2 = n2 * 10 ^ (min e1 e2) := by
  subst hn1 hn2
  by_cases h : e1 ≥ e2
  · rw [if_pos h, if_pos h, min_eq_right h]
    refine ⟨?_, by push_cast; ring⟩
    have : (10 : K) ^ e1 = 10 ^ (e1 - e2) * 10 ^ e2 := by rw [← ten_add]; congr 1; omega
    rw [this, ten_toNat (by omega)]; push_cast; ring
  · rw [if_neg h, if_neg h, min_eq_left (by omega)]
    refine ⟨by push_cast; ring, ?_⟩
    have : (10 : K) ^ e2 = 10 ^ (e2 - e1) * 10 ^ e1 := by rw [← ten_add]; congr 1; omega
    rw [this, ten_toNat (by omega)]; push_cast; ring

theorem floor_div (a b : ℕ) (hb : 0 < b) : ⌊(a : K) / b⌋ = ((a / b : ℕ) : ℤ) := by
  have hb' : (0 : K) < b := by exact_mod_cast hb
  have hdm := Nat.div_add_mod a b
  have hml := Nat.mod_lt a hb
  rw [Int.floor_eq_iff]
  constructor
  · rw [le_div_iff₀ hb']
    exact_mod_cast (by rw [Nat.mul_comm]; omega : a / b * b ≤ a)
  · rw [div_lt_iff₀ hb']
    exact_mod_cast (by rw [Nat.add_mul, Nat.mul_comm]; omega : a < (a / b + 1) * b)

/-- How the quotient relates to the difference of the exponents. -/
theorem quot_bounds {i1 i2 : Digits} (h1 : IsCoeff i1) (h2 : IsCoeff i2) (z1 : i1 ≠ [0]) (z2 : i2 ≠ [0]) (e1 e2 : ℤ) :
    (10 : K) ^ ((e1 + i1.length - 1) - (e2 + i2.length - 1) - 1) < (number i1 * 10 ^ e1) / (number i2 * 10 ^ e2) ∧
    ((number i1 : K) * 10 ^ e1) / (number i2 * 10 ^ e2) < 10 ^ ((e1 + i1.length - 1) - (e2 + i2.length - 1) + 1) := by
  have a1 := h1.adj (K := K) z1 e1
  have a2 := h2.adj (K := K) z2 e2
  have m2 := mag_pos (K := K) h2 z2 e2
  generalize e1 + (i1.length : ℤ) - 1 = x at *
  generalize e2 + (i2.length : ℤ) - 1 = y at *
  constructor
  · rw [lt_div_iff₀ m2]
    calc (10 : K) ^ (x - y - 1) * (number i2 * 10 ^ e2) < 10 ^ (x - y - 1) * 10 ^ (y + 1) := mul_lt_mul_of_pos_left a2.2 (ten_pos _)
      _ = 10 ^ x := by rw [← ten_add]; congr 1; omega
      _ ≤ _ := a1.1
  · rw [div_lt_iff₀ m2]
    calc (number i1 : K) * 10 ^ e1 < 10 ^ (x + 1) := a1.2
      _ = 10 ^ (x - y + 1) * 10 ^ y := by rw [← ten_add]; congr 1; omega
      _ ≤ _ := mul_le_mul_of_nonneg_left a2.1 (ten_pos _).le

/-- `_divide`: the integral quotient and the remainder, unless the quotient has too many digits. -/
theorem divide_spec {c : Ctx} {s1 s2 : Bool} {i1 i2 : Digits} (h1 : IsCoeff i1) (h2 : IsCoeff i2) (z2 : i2 ≠ [0])
    (e1 e2 : ℤ) {q : ℤ} (hq : q = ⌊((number i1 : K) * 10 ^ e1) / (number i2 * 10 ^ e2)⌋) :
    (q < 10 ^ c.prec → ∃ i, divide c s1 i1 e1 s2 i2 e2 = ([], .fin (s1 ^^ s2) (str q.toNat) 0, .fin s1 i (min e1 e2)) ∧ 0 ≤ q ∧ IsCoeff i ∧
      (number i : K) * 10 ^ (min e1 e2) = number i1 * 10 ^ e1 - q * (number i2 * 10 ^ e2)) ∧
    (10 ^ c.prec ≤ q → divide c s1 i1 e1 s2 i2 e2 = ([.invalidOperation], .NaN, .NaN)) := by
  have m2 := mag_pos (K := K) h2 z2 e2
  have hpow : (1 : ℤ) ≤ 10 ^ c.prec := by exact_mod_cast Nat.one_le_pow c.prec 10 (by omega)
  unfold divide
  dsimp only
  by_cases hz : i1 = [0] ∨ (e1 + (i1.length : ℤ) - 1) - (e2 + i2.length - 1) ≤ -2
  · rw [if_pos (by simpa using hz)]
    have hq0 : q = 0 := by
      rcases hz with hz | hz
      · subst hz; rw [hq]; simp [number]
      · by_cases z1 : i1 = [0]
        · subst z1; rw [hq]; simp [number]
        · rw [hq, Int.floor_eq_iff]
          have m1 := mag_pos (K := K) h1 z1 e1
          refine ⟨by push_cast; exact (div_pos m1 m2).le, lt_of_lt_of_le (quot_bounds h1 h2 z1 z2 e1 e2).2 ?_⟩
          calc (10 : K) ^ ((e1 + i1.length - 1) - (e2 + i2.length - 1) + 1) ≤ 10 ^ (0 : ℤ) := ten_le.2 (by omega)
            _ = _ := by simp
    obtain ⟨i', r1, r2, r3, _⟩ := rescale_pad (K := K) c.rounding s1 h1 (e := e1) (x := min e1 e2) (by omega)
    refine ⟨fun _ => ⟨i', ?_, by omega, r2, ?_⟩, fun h => by omega⟩
    · rw [r1, hq0]; rfl
    · rw [r3, hq0]; simp
  · rw [if_neg (by simpa using hz)]
    rw [not_or] at hz
    obtain ⟨z1, hexp⟩ := hz
    rw [toInt_eq, toInt_eq]
    obtain ⟨n1, hn1⟩ : ∃ n : ℕ, n = number i1 * (if e1 ≥ e2 then 10 ^ (e1 - e2).toNat else 1) := ⟨_, rfl⟩
    obtain ⟨n2, hn2⟩ : ∃ n : ℕ, n = number i2 * (if e1 ≥ e2 then 1 else 10 ^ (e2 - e1).toNat) := ⟨_, rfl⟩
    obtain ⟨v1, v2⟩ := scaled (K := K) e1 e2 hn1 hn2
    have hb := (quot_bounds (K := K) h1 h2 z1 z2 e1 e2).1
    rw [← hn1, ← hn2]
    rw [v1, v2] at hb hq ⊢
    rw [v2] at m2
    have hE := ten_pos (K := K) (min e1 e2)
    have hn20 : 0 < n2 := by
      rcases Nat.eq_zero_or_pos n2 with h | h
      · rw [h] at m2; simp at m2
      · exact h
    rw [mul_div_mul_right _ _ hE.ne'] at hb hq
    rw [floor_div n1 n2 hn20] at hq
    have hqn : (q < 10 ^ c.prec) ↔ n1 / n2 < 10 ^ c.prec := by rw [hq]; norm_cast
    refine ⟨fun hlt => ?_, fun hge => ?_⟩
    · have hed : (e1 + (i1.length : ℤ) - 1) - (e2 + i2.length - 1) ≤ c.prec := by
        by_contra hgt
        have a1 : (10 : K) ^ (c.prec : ℤ) < (n1 : K) / n2 := lt_of_le_of_lt (ten_le.2 (by omega)) hb
        have a2 : (((10 : ℤ) ^ c.prec : ℤ) : K) ≤ (n1 : K) / n2 := by push_cast; rw [← zpow_natCast]; exact a1.le
        have a3 := Int.le_floor.2 a2
        rw [floor_div n1 n2 hn20, ← hq] at a3
        omega
      rw [if_pos (by rw [Bool.and_eq_true]; exact ⟨by simpa using hed, by simpa using hqn.1 hlt⟩)]
      refine ⟨str (n1 % n2), by rw [hq]; rfl, by rw [hq]; positivity, isCoeff_str _, ?_⟩
      rw [number_str, hq]
      have := Nat.div_add_mod n1 n2
      generalize n1 / n2 = d at *
      generalize n1 % n2 = r at *
      have h3 : (n1 : K) = n2 * d + r := by exact_mod_cast this.symm
      rw [h3]; push_cast; ring
    · rw [if_neg]
      rw [Bool.and_eq_true]
      rintro ⟨_, h3⟩
      have : q < 10 ^ c.prec := hqn.2 (by simpa using h3)
      omega

/-- `remainder_near`: the quotient is rounded to the nearest integer, an even one if there are two. -/
theorem remainderNear_spec {c : Ctx} (hc : c.Ok) {s1 s2 : Bool} {i1 i2 : Digits} (h1 : IsCoeff i1) (h2 : IsCoeff i2) (z2 : i2 ≠ [0])
    (e1 e2 : ℤ) {q : ℤ} (hq : q = roundAbs .halfEven false (((number i1 : K) * 10 ^ e1) / (number i2 * 10 ^ e2))) :
    (q < 10 ^ c.prec → IsResult c ((if s1 then -1 else 1) * ((number i1 : K) * 10 ^ e1 - q * (number i2 * 10 ^ e2))) s1 (min e1 e2)
      (remainderNear c s1 i1 e1 s2 i2 e2)) ∧
    (10 ^ c.prec ≤ q → remainderNear c s1 i1 e1 s2 i2 e2 = ([.invalidOperation], .NaN)) := by
  have m2 := mag_pos (K := K) h2 z2 e2
  have hpow : (1 : ℤ) ≤ 10 ^ c.prec := by exact_mod_cast Nat.one_le_pow c.prec 10 (by omega)
  unfold remainderNear
  dsimp only
  by_cases z1 : i1 = [0]
  · rw [if_pos (show (i1 == [0]) = true by simpa using z1)]
    subst z1
    have hq0 : q = 0 := by
      rw [hq]
      have := roundAbs_int (K := K) .halfEven false 0
      simpa [number] using this
    refine ⟨fun _ => ?_, fun h => by omega⟩
    have := fix_result (K := K) hc s1 (i := [0]) (.inl rfl) (min e1 e2)
    rw [finValue_zero] at this
    rw [hq0]; simpa [number] using this
  · rw [if_neg (show ¬ (i1 == [0]) = true by simpa using z1)]
    obtain ⟨b1, b2⟩ := quot_bounds (K := K) h1 h2 z1 z2 e1 e2
    have m1 := mag_pos (K := K) h1 z1 e1
    have hx0 := div_pos m1 m2
    by_cases hbig : (e1 + (i1.length : ℤ) - 1) - (e2 + i2.length - 1) ≥ c.prec + 1
    · rw [if_pos hbig]
      refine ⟨fun h => ?_, fun _ => rfl⟩
      exfalso
      have a1 : (10 : K) ^ (c.prec : ℤ) < ((number i1 : K) * 10 ^ e1) / (number i2 * 10 ^ e2) := lt_of_le_of_lt (ten_le.2 (by omega)) b1
      have a2 : (((10 : ℤ) ^ c.prec : ℤ) : K) ≤ ((number i1 : K) * 10 ^ e1) / (number i2 * 10 ^ e2) := by
        push_cast; rw [← zpow_natCast]; exact a1.le
      have a3 := le_trans (Int.le_floor.2 a2) (roundAbs_ge .halfEven false _)
      omega
    · rw [if_neg hbig]
      by_cases hsm : (e1 + (i1.length : ℤ) - 1) - (e2 + i2.length - 1) ≤ -2
      · rw [if_pos hsm]
        have hlt : ((number i1 : K) * 10 ^ e1) / (number i2 * 10 ^ e2) < 1 / 10 := by
          refine lt_of_lt_of_le b2 ?_
          calc (10 : K) ^ ((e1 + i1.length - 1) - (e2 + i2.length - 1) + 1) ≤ 10 ^ (-1 : ℤ) := ten_le.2 (by omega)
            _ = _ := by norm_num
        have hq0 : q = 0 := by
          rw [hq]
          have := roundAbs_toward (K := K) (m := .halfEven) (s := false) (t := 0) hx0 (by linarith) (by
            simp only [Away]; rintro (h | ⟨h, _⟩) <;> linarith)
          simpa using this
        refine ⟨fun _ => ?_, fun h => by omega⟩
        obtain ⟨i', r1, r2, r3, _⟩ := rescale_pad (K := K) c.rounding s1 h1 (e := e1) (x := min e1 e2) (by omega)
        unfold fixRescale
        rw [r1, hq0]
        have := fix_result (K := K) hc s1 r2 (min e1 e2)
        rw [finValue, r3] at this
        simpa [fix] using this
      · rw [if_neg hsm]
        rw [toInt_eq, toInt_eq]
        obtain ⟨n1, hn1⟩ : ∃ n : ℕ, n = number i1 * (if e1 ≥ e2 then 10 ^ (e1 - e2).toNat else 1) := ⟨_, rfl⟩
        obtain ⟨n2, hn2⟩ : ∃ n : ℕ, n = number i2 * (if e1 ≥ e2 then 1 else 10 ^ (e2 - e1).toNat) := ⟨_, rfl⟩
        obtain ⟨v1, v2⟩ := scaled (K := K) e1 e2 hn1 hn2
        rw [← hn1, ← hn2]
        rw [v1, v2] at hq ⊢
        rw [v2] at m2
        have hE := ten_pos (K := K) (min e1 e2)
        have hn20 : 0 < n2 := by
          rcases Nat.eq_zero_or_pos n2 with h | h
          · rw [h] at m2; simp at m2
          · exact h
        have hn2' : (0 : K) < n2 := by exact_mod_cast hn20
        rw [mul_div_mul_right _ _ hE.ne'] at hq
        have hdm := Nat.div_add_mod n1 n2
        have hml := Nat.mod_lt n1 hn20
        generalize n1 / n2 = d at *
        generalize n1 % n2 = r at *
        have hn1v : (n1 : K) = n2 * d + r := by exact_mod_cast hdm.symm
        have hxv : (n1 : K) / n2 = ((d : ℤ) : K) + r / n2 := by rw [hn1v]; push_cast; field_simp
        have f0 : (0 : K) ≤ (r : K) / n2 := by positivity
        have f1 : (r : K) / n2 < 1 := by rw [div_lt_one hn2']; exact_mod_cast hml
        have hq' : q = if 2 * r + d % 2 > n2 then (d : ℤ) + 1 else d := by
          rw [hq, hxv]
          rcases Nat.eq_zero_or_pos r with hr | hr
          · rw [if_neg (by omega), hr]
            have := roundAbs_int (K := K) .halfEven false d
            simpa using this
          · have fp : (0 : K) < (r : K) / n2 := div_pos (by exact_mod_cast hr) hn2'
            have t1 : (1 : K) / 2 < (r : K) / n2 ↔ n2 < 2 * r := by
              rw [div_lt_div_iff₀ (by norm_num) hn2', ← Nat.cast_lt (α := K)]; push_cast; constructor <;> intro h <;> linarith
            have t2 : (r : K) / n2 = 1 / 2 ↔ 2 * r = n2 := by
              rw [div_eq_div_iff hn2'.ne' (by norm_num), ← Nat.cast_inj (R := K)]; push_cast; constructor <;> intro h <;> linarith
            have ha : Away .halfEven false (d : ℤ) ((r : K) / n2) ↔ 2 * r + d % 2 > n2 := by
              simp only [Away]
              rw [t1, t2]; omega
            by_cases hh : 2 * r + d % 2 > n2
            · rw [if_pos hh]; exact roundAbs_away fp f1 (ha.2 hh)
            · rw [if_neg hh]; exact roundAbs_toward fp f1 (mt ha.1 hh)
        have hqn : q < 10 ^ c.prec ↔ ¬ (if 2 * r + d % 2 > n2 then d + 1 else d) ≥ 10 ^ c.prec := by
          rw [hq']
          by_cases hh : 2 * r + d % 2 > n2
          · rw [if_pos hh, if_pos hh, ge_iff_le, not_le]; norm_cast
          · rw [if_neg hh, if_neg hh, ge_iff_le, not_le]; norm_cast
        refine ⟨fun hlt => ?_, fun hge => ?_⟩
        · rw [if_neg (hqn.1 hlt)]
          by_cases hh : 2 * r + d % 2 > n2
          · rw [if_pos hh]
            rw [if_pos hh] at hq'
            have hr0 : 0 < n2 - r := by omega
            have := fix_result (K := K) hc (!s1) (isCoeff_str (n2 - r)) (min e1 e2)
            have hv : (if s1 then -1 else 1) * ((n1 : K) * 10 ^ min e1 e2 - q * (n2 * 10 ^ min e1 e2)) =
                finValue (!s1) (str (n2 - r)) (min e1 e2) := by
              rw [finValue, number_str, Nat.cast_sub hml.le, hq', hn1v]
              push_cast
              cases s1 <;> simp <;> ring
            rw [hv]
            refine this.sign fun h0 => ?_
            exact absurd h0 (finValue_ne_zero (isCoeff_str _) (str_ne_zero (by omega)) _ _)
          · rw [if_neg hh]
            rw [if_neg hh] at hq'
            have := fix_result (K := K) hc s1 (isCoeff_str r) (min e1 e2)
            have hv : (if s1 then -1 else 1) * ((n1 : K) * 10 ^ min e1 e2 - q * (n2 * 10 ^ min e1 e2)) =
                finValue s1 (str r) (min e1 e2) := by
              rw [finValue, number_str, hq', hn1v]
              push_cast
              cases s1 <;> simp <;> ring
            rw [hv]
            exact this
        · rw [if_pos]
          by_contra h3
          have := hqn.2 h3
          omega

end

end Verif.Decimal
