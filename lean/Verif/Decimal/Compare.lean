/- Comparisons, and rounding to integers. -/
import Verif.Decimal.Arith

namespace Verif.Decimal

set_option linter.unusedSectionVars false

theorem strLt_iff {a b : Digits} (hl : a.length = b.length) (ha : ∀ x ∈ a, x < 10) (hb : ∀ x ∈ b, x < 10) :
    strLt a b = true ↔ number a < number b := by
  induction a generalizing b with
  | nil => cases b with
    | nil => simp [strLt]
    | cons => simp at hl
  | cons x a ih => cases b with
    | nil => simp at hl
    | cons y b =>
      rw [List.length_cons, List.length_cons] at hl
      have hl' : a.length = b.length := by omega
      have h1 := number_lt fun z hz => ha z (List.mem_cons_of_mem _ hz)
      have h2 := number_lt fun z hz => hb z (List.mem_cons_of_mem _ hz)
      have hi := ih hl' (fun z hz => ha z (List.mem_cons_of_mem _ hz)) (fun z hz => hb z (List.mem_cons_of_mem _ hz))
      rw [strLt, number, number, hl']
      rw [hl'] at h1
      by_cases hxy : x < y
      · rw [if_pos hxy]
        simp only [true_iff]
        have : (x + 1) * 10 ^ b.length ≤ y * 10 ^ b.length := Nat.mul_le_mul_right _ hxy
        rw [Nat.add_mul] at this
        omega
      · rw [if_neg hxy]
        by_cases hyx : y < x
        · rw [if_pos hyx]
          have : (y + 1) * 10 ^ b.length ≤ x * 10 ^ b.length := Nat.mul_le_mul_right _ hyx
          rw [Nat.add_mul] at this
          constructor
          · intro h; cases h
          · omega
        · rw [if_neg hyx, hi]
          have : x = y := by omega
          subst this
          omega

section
variable {K : Type} [Field K] [LinearOrder K] [IsStrictOrderedRing K] [FloorRing K]

/-- How two magnitudes compare. -/
def magCmp (i1 : Digits) (e1 : ℤ) (i2 : Digits) (e2 : ℤ) (s : Bool) : ℤ :=
  if e1 + (i1.length : ℤ) - 1 = e2 + i2.length - 1 then
    if pad i1 (e1 - e2) = pad i2 (e2 - e1) then 0
    else if strLt (pad i1 (e1 - e2)) (pad i2 (e2 - e1)) then -(minusOne s)
    else minusOne s
  else if e1 + (i1.length : ℤ) - 1 > e2 + i2.length - 1 then minusOne s
  else -(minusOne s)

theorem magCmp_spec {i1 i2 : Digits} (h1 : IsCoeff i1) (h2 : IsCoeff i2) (z1 : i1 ≠ [0]) (z2 : i2 ≠ [0]) (e1 e2 : ℤ) (s : Bool) :
    ((number i1 : K) * 10 ^ e1 < number i2 * 10 ^ e2 → magCmp i1 e1 i2 e2 s = -(minusOne s)) ∧
    ((number i1 : K) * 10 ^ e1 = number i2 * 10 ^ e2 → magCmp i1 e1 i2 e2 s = 0) ∧
    ((number i2 : K) * 10 ^ e2 < number i1 * 10 ^ e1 → magCmp i1 e1 i2 e2 s = minusOne s) := by
  have a1 := h1.adj (K := K) z1 e1
  have a2 := h2.adj (K := K) z2 e2
  unfold magCmp
  by_cases ha : e1 + (i1.length : ℤ) - 1 = e2 + i2.length - 1
  · rw [if_pos ha]
    have hl : (pad i1 (e1 - e2)).length = (pad i2 (e2 - e1)).length := by rw [length_pad, length_pad]; omega
    have p1 := h1.pad z1 (e1 - e2)
    have p2 := h2.pad z2 (e2 - e1)
    have hlt := strLt_iff hl p1.digits p2.digits
    have v1 : (number i1 : K) * 10 ^ e1 = number (pad i1 (e1 - e2)) * 10 ^ (min e1 e2) := by
      rw [number_pad]
      by_cases h : e1 ≥ e2
      · rw [min_eq_right h]
        have : (10 : K) ^ e1 = 10 ^ (e1 - e2) * 10 ^ e2 := by rw [← ten_add]; congr 1; omega
        rw [this, ten_toNat (by omega)]; push_cast; ring
      · rw [min_eq_left (by omega), show (e1 - e2).toNat = 0 by omega]; simp
    have v2 : (number i2 : K) * 10 ^ e2 = number (pad i2 (e2 - e1)) * 10 ^ (min e1 e2) := by
      rw [number_pad]
      by_cases h : e2 ≥ e1
      · rw [min_eq_left h]
        have : (10 : K) ^ e2 = 10 ^ (e2 - e1) * 10 ^ e1 := by rw [← ten_add]; congr 1; omega
        rw [this, ten_toNat (by omega)]; push_cast; ring
      · rw [min_eq_right (by omega), show (e2 - e1).toNat = 0 by omega]; simp
    rw [v1, v2]
    have hE := ten_pos (K := K) (min e1 e2)
    refine ⟨fun h => ?_, fun h => ?_, fun h => ?_⟩
    · have h3 : number (pad i1 (e1 - e2)) < number (pad i2 (e2 - e1)) := by exact_mod_cast lt_of_mul_lt_mul_right h hE.le
      rw [if_neg (fun h4 => by rw [h4] at h3; omega), if_pos (hlt.2 h3)]
    · have h3 : number (pad i1 (e1 - e2)) = number (pad i2 (e2 - e1)) := by exact_mod_cast mul_right_cancel₀ hE.ne' h
      rw [if_pos (p1.inj p2 h3)]
    · have h3 : number (pad i2 (e2 - e1)) < number (pad i1 (e1 - e2)) := by exact_mod_cast lt_of_mul_lt_mul_right h hE.le
      rw [if_neg (fun h4 => by rw [h4] at h3; omega), if_neg (fun h4 => by have := hlt.1 h4; omega)]
  · rw [if_neg ha]
    by_cases hgt : e1 + (i1.length : ℤ) - 1 > e2 + i2.length - 1
    · rw [if_pos hgt]
      have : (number i2 : K) * 10 ^ e2 < number i1 * 10 ^ e1 := lt_of_lt_of_le a2.2 (le_trans (ten_le.2 (by omega)) a1.1)
      exact ⟨fun h => absurd h this.not_gt, fun h => absurd h this.ne', fun _ => rfl⟩
    · rw [if_neg hgt]
      have : (number i1 : K) * 10 ^ e1 < number i2 * 10 ^ e2 := lt_of_lt_of_le a1.2 (le_trans (ten_le.2 (by omega)) a2.1)
      exact ⟨fun _ => rfl, fun h => absurd h this.ne, fun h => absurd h this.not_gt⟩

/-- `_cmp` of finite numbers. -/
theorem cmpFin_spec {i1 i2 : Digits} (h1 : IsCoeff i1) (h2 : IsCoeff i2) (s1 s2 : Bool) (e1 e2 : ℤ) :
    ((finValue s1 i1 e1 : K) < finValue s2 i2 e2 → cmpFin s1 i1 e1 s2 i2 e2 = -1) ∧
    ((finValue s1 i1 e1 : K) = finValue s2 i2 e2 → cmpFin s1 i1 e1 s2 i2 e2 = 0) ∧
    ((finValue s2 i2 e2 : K) < finValue s1 i1 e1 → cmpFin s1 i1 e1 s2 i2 e2 = 1) := by
  by_cases z1 : i1 = [0]
  · subst z1
    rw [finValue_zero]
    unfold cmpFin
    rw [if_pos (by rfl)]
    by_cases z2 : i2 = [0]
    · subst z2
      rw [finValue_zero, if_pos (by rfl)]
      exact ⟨fun h => absurd h (lt_irrefl _), fun _ => rfl, fun h => absurd h (lt_irrefl _)⟩
    · rw [if_neg (by simpa using z2)]
      have := mag_pos (K := K) h2 z2 e2
      cases s2
      · rw [finValue_false]
        exact ⟨fun _ => rfl, fun h => absurd h this.ne, fun h => absurd h this.not_gt⟩
      · rw [finValue_true]
        exact ⟨fun h => by linarith, fun h => by linarith, fun _ => rfl⟩
  · unfold cmpFin
    rw [if_neg (by simpa using z1)]
    have m1 := mag_pos (K := K) h1 z1 e1
    by_cases z2 : i2 = [0]
    · subst z2
      rw [finValue_zero, if_pos (by rfl)]
      cases s1
      · rw [finValue_false]
        exact ⟨fun h => absurd h m1.not_gt, fun h => absurd h m1.ne', fun _ => rfl⟩
      · rw [finValue_true]
        exact ⟨fun _ => rfl, fun h => by linarith, fun h => by linarith⟩
    · rw [if_neg (by simpa using z2)]
      have m2 := mag_pos (K := K) h2 z2 e2
      have hm := fun s => magCmp_spec (K := K) h1 h2 z1 z2 e1 e2 s
      cases s1 <;> cases s2
      · rw [if_neg (by simp), if_neg (by simp), finValue_false, finValue_false]
        exact hm false
      · rw [if_neg (by simp), if_pos (by simp), finValue_false, finValue_true]
        exact ⟨fun h => by linarith, fun h => by linarith, fun _ => rfl⟩
      · rw [if_pos (by simp), finValue_false, finValue_true]
        exact ⟨fun _ => rfl, fun h => by linarith, fun h => by linarith⟩
      · rw [if_neg (by simp), if_neg (by simp), finValue_true, finValue_true]
        obtain ⟨c1, c2, c3⟩ := hm true
        exact ⟨fun h => c3 (by linarith), fun h => c2 (by linarith), fun h => c1 (by linarith)⟩

/-! ### Rescaling and integers -/

/-- `_rescale` rounds to a whole number of units. -/
theorem rescale_spec (m : Mode) (s : Bool) {i : Digits} (h : IsCoeff i) (e x : ℤ) :
    ∃ i', rescale m s i e x = .fin s i' x ∧ IsCoeff i' ∧ (number i' : ℤ) = roundAbs m s ((number i : K) * 10 ^ e / 10 ^ x) := by
  by_cases hx : x ≤ e
  · obtain ⟨i', r1, r2, r3, _⟩ := rescale_pad (K := K) m s h hx
    refine ⟨i', r1, r2, ?_⟩
    rw [← r3, mul_div_assoc, div_self (ten_pos x).ne', mul_one]
    exact_mod_cast (roundAbs_int (K := K) m s (number i')).symm
  · unfold rescale
    by_cases h0 : i = [0]
    · subst h0
      refine ⟨[0], rfl, .inl rfl, ?_⟩
      have := roundAbs_int (K := K) m s 0
      simpa [number] using this.symm
    · rw [if_neg (by simpa using h0), if_neg (by omega)]
      obtain ⟨c1, c2, c3, c4⟩ := cut_spec (K := K) m s h h0 (q := x) (by omega : e < x) rfl
      dsimp only
      rw [toInt_eq]
      rcases c4 with ⟨c4, c5, c6⟩ | ⟨c4, c5, c6⟩ | ⟨c4, c5, c6⟩
      · rw [if_neg (by omega)]; exact ⟨_, rfl, c1, c6.symm⟩
      · rw [if_pos c5]; exact ⟨_, rfl, isCoeff_str _, by rw [number_str, c6]; push_cast; rfl⟩
      · rw [if_neg (by omega)]; exact ⟨_, rfl, c1, c6.symm⟩

theorem minusOne_eq (s : Bool) : minusOne s = if s then -1 else 1 := rfl

/-- `int(d)`: the part after the point is dropped. -/
theorem toInteger_spec (s : Bool) {i : Digits} (h : IsCoeff i) (e : ℤ) :
    toInteger s i e = minusOne s * ⌊(number i : K) * 10 ^ e⌋ := by
  unfold toInteger
  rw [toInt_eq, toInt_eq]
  by_cases he : e ≥ 0
  · rw [if_pos he, mul_assoc]
    congr 1
    rw [ten_toNat he]
    have : ((number i : K) * ((10 ^ e.toNat : ℕ) : K)) = ((number i * 10 ^ e.toNat : ℕ) : K) := by push_cast; rfl
    rw [this, Int.floor_natCast]; push_cast; rfl
  · rw [if_neg he]
    congr 1
    by_cases h0 : i = [0]
    · subst h0
      have : (([0] : Digits).length + e).toNat = 0 := by simp; omega
      rw [this]; simp [orZero, number]
    · have hcut := cut_spec (K := K) .down s h h0 (q := 0) (by omega : e < 0) rfl
      have e2 : number (cut .down s i e 0).2 = number (orZero (i.take ((i.length : ℤ) + e).toNat)) := by
        unfold cut
        simp only [sub_zero]
        by_cases hd : (i.length : ℤ) + e < 0
        · rw [if_pos hd, show ((i.length : ℤ) + e).toNat = 0 by omega]; rfl
        · rw [if_neg hd]
      rw [← e2]
      symm
      rw [Int.floor_eq_iff]
      have hz : (number i : K) * 10 ^ e / 10 ^ (0 : ℤ) = number i * 10 ^ e := by simp
      rw [hz] at hcut
      exact ⟨by exact_mod_cast hcut.2.1, by exact_mod_cast hcut.2.2.1⟩

/-- `round(d)`, `math.floor(d)` and `math.ceil(d)`. -/
theorem roundTo_spec (m : Mode) (s : Bool) {i : Digits} (h : IsCoeff i) (e : ℤ) :
    roundTo m (.fin s i e) = some (minusOne s * roundAbs m s ((number i : K) * 10 ^ e)) := by
  obtain ⟨i', r1, r2, r3⟩ := rescale_spec (K := K) m s h e 0
  rw [roundTo, r1, intOf, toInteger_spec (K := K) s r2 0]
  rw [zpow_zero, div_one] at r3
  rw [← r3]; simp

end

end Verif.Decimal
