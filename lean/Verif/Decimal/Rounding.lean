/- Lemmas about rounding: the functions on digits round as the specification does. -/
import Verif.Decimal.Digits
import Mathlib.Tactic.FieldSimp
import Mathlib.Tactic.NormNum
import Mathlib.Tactic.Positivity

namespace Verif.Decimal

set_option linter.unusedSectionVars false

section
variable {K : Type} [Field K] [LinearOrder K] [IsStrictOrderedRing K] [FloorRing K]

/-- Whether `t + f`, `0 < f < 1`, is rounded to `t + 1`. -/
def Away (m : Mode) (s : Bool) (t : ℤ) (f : K) : Prop :=
  match m with
  | .down => False
  | .up => True
  | .ceiling => s = false
  | .floor => s = true
  | .halfUp => 1 / 2 ≤ f
  | .halfDown => 1 / 2 < f
  | .halfEven => 1 / 2 < f ∨ (f = 1 / 2 ∧ t % 2 ≠ 0)
  | .r05up => t % 5 = 0

theorem floor_add {t : ℤ} {f : K} (h0 : 0 ≤ f) (h1 : f < 1) : ⌊(t : K) + f⌋ = t :=
  Int.floor_eq_iff.2 ⟨by linarith, by linarith⟩

theorem ceil_add {t : ℤ} {f : K} (h0 : 0 < f) (h1 : f < 1) : ⌈(t : K) + f⌉ = t + 1 :=
  Int.ceil_eq_iff.2 ⟨by push_cast; linarith, by push_cast; linarith⟩

theorem roundAbs_int (m : Mode) (s : Bool) (t : ℤ) : roundAbs m s (t : K) = t := by
  have h1 : ⌊(t : K) + 1 / 2⌋ = t := floor_add (by norm_num) (by norm_num)
  have h2 : ⌈(t : K) - 1 / 2⌉ = t := Int.ceil_eq_iff.2 ⟨by linarith, by linarith⟩
  cases m <;> simp only [roundAbs, Int.floor_intCast, Int.ceil_intCast, ite_self, h1, h2]

theorem roundAbs_away {m : Mode} {s : Bool} {t : ℤ} {f : K} (h0 : 0 < f) (h1 : f < 1) (h : Away m s t f) :
    roundAbs m s ((t : K) + f) = t + 1 := by
  have hf := floor_add (t := t) h0.le h1
  have hc := ceil_add (t := t) h0 h1
  have up : 1 / 2 ≤ f → ⌊(t : K) + f + 1 / 2⌋ = t + 1 := fun h =>
    Int.floor_eq_iff.2 ⟨by push_cast; linarith, by push_cast; linarith⟩
  cases m <;> simp only [Away] at h <;> simp only [roundAbs, hf, hc]
  case halfUp => exact up h
  case halfDown => exact Int.ceil_eq_iff.2 ⟨by push_cast; linarith, by push_cast; linarith⟩
  case halfEven =>
    rcases h with h | ⟨h, h2⟩
    · rw [if_neg (by rintro ⟨h3, _⟩; linarith)]; exact up h.le
    · rw [if_neg (by rintro ⟨_, h3⟩; exact h2 h3)]; exact up h.ge
  case ceiling => rw [h]; rfl
  case floor => rw [h]; rfl
  case r05up => rw [if_pos h]

theorem roundAbs_toward {m : Mode} {s : Bool} {t : ℤ} {f : K} (h0 : 0 < f) (h1 : f < 1) (h : ¬ Away m s t f) :
    roundAbs m s ((t : K) + f) = t := by
  have hf := floor_add (t := t) h0.le h1
  have hc := ceil_add (t := t) h0 h1
  have down : f < 1 / 2 → ⌊(t : K) + f + 1 / 2⌋ = t := fun h =>
    Int.floor_eq_iff.2 ⟨by linarith, by linarith⟩
  cases m <;> simp only [Away] at h <;> simp only [roundAbs, hf, hc]
  case up => exact absurd trivial h
  case halfUp => exact down (lt_of_not_ge h)
  case halfDown => exact Int.ceil_eq_iff.2 ⟨by linarith, by linarith⟩
  case halfEven =>
    rw [not_or, not_lt] at h
    rcases h.1.lt_or_eq with h2 | h2
    · rw [if_neg (by rintro ⟨h3, _⟩; linarith)]; exact down h2
    · rw [if_pos ⟨by linarith, by have := h.2; by_contra h3; exact this ⟨h2, h3⟩⟩]
  case ceiling => simp only [Bool.not_eq_false] at h; rw [h]; rfl
  case floor => simp only [Bool.not_eq_true] at h; rw [h]; rfl
  case r05up => rw [if_neg h]

theorem roundAbs_ge (m : Mode) (s : Bool) (x : K) : ⌊x⌋ ≤ roundAbs m s x := by
  have hx : x = (⌊x⌋ : K) + (x - ⌊x⌋) := by ring
  have h1 : x - ⌊x⌋ < 1 := by have := Int.lt_floor_add_one x; linarith
  have h0 : 0 ≤ x - ⌊x⌋ := by have := Int.floor_le x; linarith
  rcases h0.lt_or_eq with h2 | h2
  · rcases Classical.em (Away m s ⌊x⌋ (x - ⌊x⌋)) with h3 | h3
    · have := roundAbs_away h2 h1 h3; rw [← hx] at this; omega
    · have := roundAbs_toward h2 h1 h3; rw [← hx] at this; omega
  · rw [← h2, add_zero] at hx
    rw [hx, roundAbs_int, Int.floor_intCast]

theorem roundAbs_le (m : Mode) (s : Bool) {x : K} {b : ℤ} (hb : x ≤ b) : roundAbs m s x ≤ b := by
  have hx : x = (⌊x⌋ : K) + (x - ⌊x⌋) := by ring
  have h1 : x - ⌊x⌋ < 1 := by have := Int.lt_floor_add_one x; linarith
  have h0 : 0 ≤ x - ⌊x⌋ := by have := Int.floor_le x; linarith
  rcases h0.lt_or_eq with h2 | h2
  · have h4 : ⌊x⌋ < b := by
      have : (⌊x⌋ : K) < b := by linarith
      exact_mod_cast this
    rcases Classical.em (Away m s ⌊x⌋ (x - ⌊x⌋)) with h3 | h3
    · have := roundAbs_away h2 h1 h3; rw [← hx] at this; omega
    · have := roundAbs_toward h2 h1 h3; rw [← hx] at this; omega
  · rw [← h2, add_zero] at hx
    rw [hx] at hb ⊢
    rw [roundAbs_int]
    exact_mod_cast hb

/-- Rounding depends on the integral part, and on where the rest is relative to a half. -/
theorem away_congr {m : Mode} {s : Bool} {t : ℤ} {f g : K} (h1 : f < 1 / 2 ↔ g < 1 / 2) (h2 : 1 / 2 < f ↔ 1 / 2 < g) :
    Away m s t f ↔ Away m s t g := by
  have h3 : 1 / 2 ≤ f ↔ 1 / 2 ≤ g := by rw [← not_lt, ← not_lt, h1]
  have h4 : f = 1 / 2 ↔ g = 1 / 2 := by
    rw [le_antisymm_iff, le_antisymm_iff (a := g), ← not_lt, ← not_lt (a := 1 / 2) (b := g), h2, h3]
  cases m <;> simp only [Away, h2, h3, h4]

/-! ### The functions on digits -/

/-- `_round_*`, by the part that is cut off. -/
theorem roundBy_spec (m : Mode) (s : Bool) {ds : Digits} (hd : ∀ x ∈ ds, x < 10) {k : Nat} (hk : k < ds.length) :
    (number (ds.drop k) = 0 → roundBy m s ds k = 0) ∧
    (0 < number (ds.drop k) → Away m s (number (ds.take k)) ((number (ds.drop k) : K) / 10 ^ (ds.length - k)) → roundBy m s ds k = 1) ∧
    (0 < number (ds.drop k) → ¬ Away m s (number (ds.take k)) ((number (ds.drop k) : K) / 10 ^ (ds.length - k)) → roundBy m s ds k = -1) := by
  have hD : (0 : K) < 10 ^ (ds.length - k) := by positivity
  have hpos : 0 < 10 ^ (ds.length - k) := Nat.pow_pos (by omega)
  have e1 : (1 : K) / 2 ≤ (number (ds.drop k) : K) / 10 ^ (ds.length - k) ↔ 10 ^ (ds.length - k) ≤ 2 * number (ds.drop k) := by
    rw [div_le_div_iff₀ (by norm_num) hD, ← Nat.cast_le (α := K)]; push_cast; constructor <;> intro h <;> linarith
  have e2 : (1 : K) / 2 < (number (ds.drop k) : K) / 10 ^ (ds.length - k) ↔ 10 ^ (ds.length - k) < 2 * number (ds.drop k) := by
    rw [div_lt_div_iff₀ (by norm_num) hD, ← Nat.cast_lt (α := K)]; push_cast; constructor <;> intro h <;> linarith
  have e3 : (number (ds.drop k) : K) / 10 ^ (ds.length - k) = 1 / 2 ↔ 2 * number (ds.drop k) = 10 ^ (ds.length - k) := by
    rw [le_antisymm_iff, ← not_lt, e2, e1]; omega
  have z := allZeros_iff ds k
  have hh := exactHalf_iff hd hk
  have h5 := digit_ge_five hd hk
  -- parities of the last digit that is kept
  have par : k = 0 ∨ ((ds.getD (k - 1) 0) % 2 = number (ds.take k) % 2 ∧ (ds.getD (k - 1) 0 = 0 ∨ ds.getD (k - 1) 0 = 5 ↔ number (ds.take k) % 5 = 0)) := by
    rcases Nat.eq_zero_or_pos k with h | h
    · exact .inl h
    · right
      rw [take_last h (by omega)]
      have : ds.getD (k - 1) 0 < 10 := by
        rw [List.getD_eq_getElem?_getD, List.getElem?_eq_getElem (by omega)]
        exact hd _ (List.getElem_mem _)
      omega
  have t0 : k = 0 → number (ds.take k) = 0 := by rintro rfl; rfl
  generalize hr : number (ds.drop k) = r at *
  generalize 10 ^ (ds.length - k) = D at *
  generalize hT : number (ds.take k) = t at *
  -- the basic function
  have down : roundDown ds k = if r = 0 then 0 else -1 := by
    unfold roundDown
    by_cases h : r = 0
    · rw [if_pos (z.2 h), if_pos h]
    · rw [if_neg (mt z.1 h), if_neg h]
  have hup : roundHalfUp ds k = if D ≤ 2 * r then 1 else if r = 0 then 0 else -1 := by
    unfold roundHalfUp
    by_cases h : D ≤ 2 * r
    · rw [if_pos (h5.2 h), if_pos h]
    · rw [if_neg (mt h5.1 h), if_neg h]
      by_cases h : r = 0
      · rw [if_pos (z.2 h), if_pos h]
      · rw [if_neg (mt z.1 h), if_neg h]
  have hdown : roundHalfDown ds k = if D < 2 * r then 1 else if r = 0 then 0 else -1 := by
    unfold roundHalfDown
    by_cases h : 2 * r = D
    · rw [if_pos (hh.2 h), if_neg (by omega), if_neg (by omega)]
    · rw [if_neg (mt hh.1 h), hup]
      by_cases h2 : D < 2 * r
      · rw [if_pos h2, if_pos (by omega)]
      · rw [if_neg h2, if_neg (by omega)]
  have heven : roundHalfEven ds k = if D < 2 * r ∨ (2 * r = D ∧ t % 2 ≠ 0) then 1 else if r = 0 then 0 else -1 := by
    unfold roundHalfEven
    generalize ds.getD (k - 1) 0 = dl at par ⊢
    by_cases h : 2 * r = D
    · rw [hh.2 h, Bool.true_and]
      by_cases h2 : t % 2 = 0
      · rw [if_pos, if_neg (by omega), if_neg (by omega)]
        rw [Bool.or_eq_true]
        rcases par with h3 | ⟨h3, _⟩
        · left; simp [h3]
        · right; simp; omega
      · rw [if_neg, hup, if_pos (by omega), if_pos (by omega)]
        rw [Bool.or_eq_true]
        rintro (h3 | h3)
        · exact h2 (by rw [t0 (by simpa using h3)])
        · rcases par with h4 | ⟨h4, _⟩
          · exact h2 (by rw [t0 h4])
          · simp at h3; omega
    · rw [Bool.eq_false_iff.2 (mt hh.1 h), Bool.false_and, if_neg (by simp), hup]
      by_cases h2 : D < 2 * r
      · rw [if_pos (show D ≤ 2 * r by omega), if_pos (.inl h2)]
      · rw [if_neg (show ¬ D ≤ 2 * r by omega), if_neg (show ¬ (D < 2 * r ∨ (2 * r = D ∧ t % 2 ≠ 0)) by omega)]
  have h05 : round05up ds k = if t % 5 = 0 then -(roundDown ds k) else roundDown ds k := by
    unfold round05up
    generalize ds.getD (k - 1) 0 = dl at par ⊢
    by_cases h : t % 5 = 0
    · rw [if_pos h, if_neg]
      simp only [ne_eq, Bool.and_eq_true, decide_eq_true_eq]
      rintro ⟨⟨h1, h2⟩, h3⟩
      rcases par with h4 | ⟨_, h4⟩
      · exact h1 h4
      · exact (h4.2 h).elim h2 h3
    · rw [if_neg h, if_pos]
      simp only [ne_eq, Bool.and_eq_true, decide_eq_true_eq]
      have hk0 : k ≠ 0 := fun h1 => h (by rw [t0 h1])
      rcases par with h4 | ⟨_, h4⟩
      · exact absurd h4 hk0
      · exact ⟨⟨hk0, fun h5 => h (h4.1 (.inl h5))⟩, fun h5 => h (h4.1 (.inr h5))⟩
  have e1' : Away .halfUp s (t : ℤ) ((r : K) / 10 ^ (ds.length - k)) ↔ D ≤ 2 * r := e1
  have e2' : Away .halfDown s (t : ℤ) ((r : K) / 10 ^ (ds.length - k)) ↔ D < 2 * r := e2
  have e3' : Away .halfEven s (t : ℤ) ((r : K) / 10 ^ (ds.length - k)) ↔ D < 2 * r ∨ (2 * r = D ∧ t % 2 ≠ 0) := by
    rw [Away, e2, e3]; omega
  have e4' : Away .r05up s (t : ℤ) ((r : K) / 10 ^ (ds.length - k)) ↔ t % 5 = 0 := by rw [Away]; omega
  cases m <;> unfold roundBy <;> simp only [down, hup, hdown, heven, h05, e1', e2', e3', e4']
  case down => simp only [Away]; refine ⟨fun h => if_pos h, fun _ h => h.elim, fun h _ => if_neg (by omega)⟩
  case up =>
    simp only [Away]
    exact ⟨fun h => by rw [if_pos h]; rfl, fun h _ => by rw [if_neg (by omega)]; rfl, fun _ h => absurd trivial h⟩
  case ceiling =>
    simp only [Away]
    cases s <;> simp <;> omega
  case floor =>
    simp only [Away]
    cases s <;> simp <;> omega
  all_goals
    refine ⟨fun h => ?_, fun h h1 => ?_, fun h h1 => ?_⟩
  case halfUp.refine_1 => rw [if_neg (by omega), if_pos h]
  case halfUp.refine_2 => rw [if_pos h1]
  case halfUp.refine_3 => rw [if_neg h1, if_neg (by omega)]
  case halfDown.refine_1 => rw [if_neg (by omega), if_pos h]
  case halfDown.refine_2 => rw [if_pos h1]
  case halfDown.refine_3 => rw [if_neg h1, if_neg (by omega)]
  case halfEven.refine_1 => rw [if_neg (by omega), if_pos h]
  case halfEven.refine_2 => rw [if_pos h1]
  case halfEven.refine_3 => rw [if_neg h1, if_neg (by omega)]
  case r05up.refine_1 => rw [if_pos h]; simp
  case r05up.refine_2 => rw [if_pos h1, if_neg (by omega)]; rfl
  case r05up.refine_3 => rw [if_neg h1, if_neg (by omega)]

end

end Verif.Decimal
