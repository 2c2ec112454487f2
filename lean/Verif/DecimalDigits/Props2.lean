/- Theorems about choices between decimals, and integers. -/
import Verif.DecimalDigits.Choice

namespace Verif.DecimalDigits
open Verif.Decimal Verif.DecimalMore

/-! ### Maxima and minima -/

/-- `max` and `min` give the last and the first of two numbers, rounded: by value, and by the total order of representations if the values
are equal. -/
theorem extremes {c : Ctx} (hc : c.Ok) {a b : Dec} (ha : Proper a) (hb : Proper b) (na : ¬ IsNaN a) (nb : ¬ IsNaN b) :
    (∃ d, (d = a ∨ d = b) ∧ ¬ Before d a ∧ ¬ Before d b ∧ IsRounded c d (max c a b)) ∧
    (∃ d, (d = a ∨ d = b) ∧ ¬ Before a d ∧ ¬ Before b d ∧ IsRounded c d (min c a b)) ∧
    (Before a b ∨ a = b ∨ Before b a) := by
  obtain ⟨h1, h2, h3⟩ := orTotal_spec ha hb na nb
  obtain ⟨a1, a2, _⟩ := orTotal_spec ha ha na na
  obtain ⟨b1, b2, _⟩ := orTotal_spec hb hb nb nb
  have ia : ¬ Before a a := fun h => by have := a1.2 h; rw [a2.2 h] at this; exact absurd this (by decide)
  have ib : ¬ Before b b := fun h => by have := b1.2 h; rw [b2.2 h] at this; exact absurd this (by decide)
  have asym : Before a b → ¬ Before b a := fun h h' => by have := h1.2 h; rw [h2.2 h'] at this; exact absurd this (by decide)
  have hn := chooseNans_none c na nb
  refine ⟨?_, ?_, h3⟩
  · simp only [max, hn]
    by_cases h : Before a b
    · rw [if_pos (h1.2 h)]
      exact ⟨b, .inr rfl, asym h, ib, fix_rounded hc (ok_of_proper hb) nb⟩
    · rw [if_neg (mt h1.1 h)]
      exact ⟨a, .inl rfl, ia, h, fix_rounded hc (ok_of_proper ha) na⟩
  · simp only [min, hn]
    by_cases h : Before a b
    · rw [if_pos (h1.2 h)]
      exact ⟨a, .inl rfl, ia, asym h, fix_rounded hc (ok_of_proper ha) na⟩
    · rw [if_neg (mt h1.1 h)]
      exact ⟨b, .inr rfl, h, ib, fix_rounded hc (ok_of_proper hb) nb⟩

/-- `max_mag` and `min_mag` compare magnitudes. -/
theorem extremes_of_magnitude {c : Ctx} (hc : c.Ok) {a b : Dec} (ha : Proper a) (hb : Proper b) (na : ¬ IsNaN a) (nb : ¬ IsNaN b) :
    (∃ d, (d = a ∨ d = b) ∧ ¬ BeforeMag d a ∧ ¬ BeforeMag d b ∧ IsRounded c d (maxMag c a b)) ∧
    (∃ d, (d = a ∨ d = b) ∧ ¬ BeforeMag a d ∧ ¬ BeforeMag b d ∧ IsRounded c d (minMag c a b)) ∧
    (BeforeMag a b ∨ a = b ∨ BeforeMag b a) := by
  obtain ⟨h1, h2, h3⟩ := orTotalMag_spec ha hb na nb
  obtain ⟨a1, a2, _⟩ := orTotalMag_spec ha ha na na
  obtain ⟨b1, b2, _⟩ := orTotalMag_spec hb hb nb nb
  have ia : ¬ BeforeMag a a := fun h => by have := a1.2 h; rw [a2.2 h] at this; exact absurd this (by decide)
  have ib : ¬ BeforeMag b b := fun h => by have := b1.2 h; rw [b2.2 h] at this; exact absurd this (by decide)
  have asym : BeforeMag a b → ¬ BeforeMag b a := fun h h' => by have := h1.2 h; rw [h2.2 h'] at this; exact absurd this (by decide)
  have hn := chooseNans_none c na nb
  refine ⟨?_, ?_, h3⟩
  · simp only [maxMag, hn]
    by_cases h : BeforeMag a b
    · rw [if_pos (h1.2 h)]
      exact ⟨b, .inr rfl, asym h, ib, fix_rounded hc (ok_of_proper hb) nb⟩
    · rw [if_neg (mt h1.1 h)]
      exact ⟨a, .inl rfl, ia, h, fix_rounded hc (ok_of_proper ha) na⟩
  · simp only [minMag, hn]
    by_cases h : BeforeMag a b
    · rw [if_pos (h1.2 h)]
      exact ⟨a, .inl rfl, ia, asym h, fix_rounded hc (ok_of_proper ha) na⟩
    · rw [if_neg (mt h1.1 h)]
      exact ⟨b, .inr rfl, h, ib, fix_rounded hc (ok_of_proper hb) nb⟩

example : max small (.fin false [1] 0) (.fin false [1, 0] (-1)) = ([], .fin false [1] 0) ∧
    min small (.fin false [1] 0) (.fin false [1, 0] (-1)) = ([], .fin false [1, 0] (-1)) ∧
    max small (.fin true [0] 0) (.fin false [0] 0) = ([], .fin false [0] 0) ∧ maxMag small (.fin true [3] 0) (.fin false [2] 0) = ([], .fin true [3] 0) ∧
    max small (.fin false [1, 2, 3, 4] 0) (.inf true) = ([.inexact, .rounded], .fin false [1, 2, 3] 1) := by
  decide +kernel

/-- A quiet NaN gives way to a number; otherwise NaNs spread as in arithmetic. -/
theorem extremes_nan {c : Ctx} (hc : c.Ok) {a b : Dec} :
    (∀ s p, a = .nan s p false → b.Ok → ¬ IsNaN b → ∀ op ∈ [max c, min c, maxMag c, minMag c], IsRounded c b (op a b) ∧ IsRounded c b (op b a)) ∧
    (∀ s p g, decisive [a, b] = some (.nan s p g) → (g = true ∨ (IsNaN a ∧ IsNaN b)) → (∀ x ∈ p, x < 10) →
      ∃ r, IsQuieted c s p r ∧ ∀ op ∈ [max c, min c, maxMag c, minMag c], op a b = (if g then [.invalidOperation] else [], r)) := by
  constructor
  · rintro s p rfl hb nb
    have k0 : nanKind b = 0 := by
      rcases b with ⟨s', i, e⟩ | s' | ⟨s', p', g⟩
      · rfl
      · rfl
      · exact absurd ⟨_, _, _, rfl⟩ nb
    have h1 : chooseNans c (.nan s p false) b = some (fix c b) := by
      unfold chooseNans; rw [k0]; rfl
    have h2 : chooseNans c b (.nan s p false) = some (fix c b) := by
      unfold chooseNans; rw [k0]; rfl
    intro op hop
    simp only [List.mem_cons, List.not_mem_nil, or_false] at hop
    rcases hop with rfl | rfl | rfl | rfl
    · simp only [max, h1, h2]; exact ⟨fix_rounded hc hb nb, fix_rounded hc hb nb⟩
    · simp only [min, h1, h2]; exact ⟨fix_rounded hc hb nb, fix_rounded hc hb nb⟩
    · simp only [maxMag, h1, h2]; exact ⟨fix_rounded hc hb nb, fix_rounded hc hb nb⟩
    · simp only [minMag, h1, h2]; exact ⟨fix_rounded hc hb nb, fix_rounded hc hb nb⟩
  · intro s p g hd hg hp
    obtain ⟨r, h1, h2⟩ := checkNans_spec c hd hp
    have hch : chooseNans c a b = some (if g then [.invalidOperation] else [], r) := by
      rw [← h1]
      unfold chooseNans
      rcases a with ⟨s1, i1, e1⟩ | s1 | ⟨s1, p1, _ | _⟩ <;> rcases b with ⟨s2, i2, e2⟩ | s2 | ⟨s2, p2, _ | _⟩ <;>
        simp [decisive] at hd <;> obtain ⟨rfl, rfl, rfl⟩ := hd <;> simp [IsNaN] at hg <;> simp [nanKind]
    refine ⟨r, h2, ?_⟩
    intro op hop
    simp only [List.mem_cons, List.not_mem_nil, or_false] at hop
    rcases hop with rfl | rfl | rfl | rfl
    · simp only [max, hch]
    · simp only [min, hch]
    · simp only [maxMag, hch]
    · simp only [minMag, hch]

example : max small (.nan true [4] false) (.fin false [7] 0) = ([], .fin false [7] 0) ∧
    min small (.nan true [4] false) (.nan false [5] true) = ([.invalidOperation], .nan false [5] false) := by decide

/-! ### The next number towards another -/

/-- `next_toward`: towards a greater number, the least number above that the context can hold; towards a smaller one, the greatest below; with
an equal number, itself with the other's sign. If the result is infinite an overflow is signaled, and if it is below the normal numbers an
underflow. Missing: that otherwise nothing is signaled. -/
theorem next_toward_partial {c : Ctx} (hc : c.Ok) (s : Bool) {i : Digits} (hi : IsCoeff i) (e : ℤ) {b : Dec} (hb : b.Ok) (nb : ¬ IsNaN b) :
    (Less ℚ (.fin s i e) b →
      (((nextToward c (.fin s i e) b).2 = .inf false ∧ ∀ w, Holds c w → w ≤ value s i e) ∨
       ∃ s' i' e', (nextToward c (.fin s i e) b).2 = .fin s' i' e' ∧ Fits c i' e' ∧ value s i e < value s' i' e' ∧
        ∀ w, Holds c w → value s i e < w → value s' i' e' ≤ w)) ∧
    (Less ℚ b (.fin s i e) →
      (((nextToward c (.fin s i e) b).2 = .inf true ∧ ∀ w, Holds c w → value s i e ≤ w) ∨
       ∃ s' i' e', (nextToward c (.fin s i e) b).2 = .fin s' i' e' ∧ Fits c i' e' ∧ value s' i' e' < value s i e ∧
        ∀ w, Holds c w → w < value s i e → w ≤ value s' i' e')) ∧
    (Same ℚ (.fin s i e) b → nextToward c (.fin s i e) b = ([], withSign (negative b) (.fin s i e))) ∧
    (¬ Same ℚ (.fin s i e) b →
      (∀ s', (nextToward c (.fin s i e) b).2 = .inf s' → ∀ g ∈ [.overflow, .inexact, .rounded], g ∈ (nextToward c (.fin s i e) b).1) ∧
      (∀ s' i' e', (nextToward c (.fin s i e) b).2 = .fin s' i' e' → i' ≠ [0] → |value s' i' e'| < 10 ^ c.emin →
        ∀ g ∈ [.underflow, .subnormal, .inexact, .rounded], g ∈ (nextToward c (.fin s i e) b).1)) := by
  have hnan := checkNans_none c (a := .fin s i e) (by rintro ⟨_, _, _, h⟩; cases h) nb
  obtain ⟨h1, h2, h3, h4⟩ := cmp_spec (a := .fin s i e) hi hb (by rintro ⟨_, _, _, h⟩; cases h) nb
  have ht : nextToward c (.fin s i e) b = if Decimal.cmp (.fin s i e) b = 0 then ([], copySign (.fin s i e) b) else
      ((if Decimal.cmp (.fin s i e) b = -1 then nextPlus c (.fin s i e) else nextMinus c (.fin s i e)).1 ++
        towardFlags c (if Decimal.cmp (.fin s i e) b = -1 then nextPlus c (.fin s i e) else nextMinus c (.fin s i e)).2,
       (if Decimal.cmp (.fin s i e) b = -1 then nextPlus c (.fin s i e) else nextMinus c (.fin s i e)).2) := by
    simp only [nextToward, hnan]
  have hs : signOf b = negative b := by cases b <;> rfl
  refine ⟨fun h => ?_, fun h => ?_, fun h => ?_, fun h => ?_⟩
  · rw [ht, h1 h, if_neg (by decide), if_pos rfl]
    exact next_plus_number hc s hi e
  · rw [ht, h3 h, if_neg (by decide), if_neg (by decide)]
    exact next_minus_number hc s hi e
  · rw [ht, h2 h, if_pos rfl, copySign, withSign, hs]
  · have hne : Decimal.cmp (.fin s i e) b ≠ 0 := by
      rcases h4 with h' | h' | h'
      · rw [h1 h']; decide
      · exact absurd h' h
      · rw [h3 h']; decide
    have hfits : ∀ s' i' e', (if Decimal.cmp (.fin s i e) b = -1 then nextPlus c (.fin s i e) else nextMinus c (.fin s i e)).2 = .fin s' i' e' → IsCoeff i' := by
      intro s' i' e' hr
      split at hr
      · rcases next_plus_number hc s hi e with ⟨h', _⟩ | ⟨_, _, _, h', hf, _⟩
        · rw [h'] at hr; cases hr
        · rw [h'] at hr; cases hr; exact hf.wellFormed
      · rcases next_minus_number hc s hi e with ⟨h', _⟩ | ⟨_, _, _, h', hf, _⟩
        · rw [h'] at hr; cases hr
        · rw [h'] at hr; cases hr; exact hf.wellFormed
    rw [ht, if_neg hne]
    revert hfits
    generalize (if Decimal.cmp (.fin s i e) b = -1 then nextPlus c (.fin s i e) else nextMinus c (.fin s i e)) = ans
    intro hfits
    obtain ⟨sigs, d⟩ := ans
    dsimp only at hfits ⊢
    refine ⟨?_, ?_⟩
    · rintro s' rfl g hg
      exact List.mem_append_right _ hg
    · rintro s' i' e' rfl h0 hlt g hg
      refine List.mem_append_right _ ?_
      have hadj : adjusted (.fin s' i' e') < c.emin := by
        show e' + i'.length - 1 < c.emin
        obtain ⟨p1, _⟩ := (hfits _ _ _ rfl).adj (K := ℚ) h0 e'
        rw [value_abs] at hlt
        exact ten_lt.1 (lt_of_le_of_lt p1 hlt)
      simp only [towardFlags, isInf, Bool.false_eq_true, if_false, hadj, if_true]
      exact List.mem_append_left _ hg

example : nextToward small (.fin false [1] 0) (.fin false [0] 0) = ([.inexact, .rounded], .fin false [9, 9, 9] (-3)) ∧
    nextToward small (.fin false [1, 0] (-1)) (.fin true [1] 0) = ([.inexact, .rounded], .fin false [9, 9, 9] (-3)) ∧
    nextToward small (.fin false [0] 0) (.fin true [0] 3) = ([], .fin true [0] 0) ∧
    nextToward small (.fin false [9, 9, 9] 3) (.inf false) = ([.overflow, .inexact, .rounded, .overflow, .inexact, .rounded], .inf false) := by
  decide +kernel

/-- A disagreement: the number next to 1, which the context holds exactly, is found with signals that `Decimal.next_toward` does not give,
since the context in which `next_plus` works does not heed its own list of ignored signals. -/
theorem next_toward_signals : ∃ (c : Ctx) (i : Digits) (b : Dec), c.Ok ∧ Fits c i 0 ∧ b.Ok ∧
    nextToward c (.fin false i 0) b = ([.inexact, .rounded], .fin false [1, 0, 1] (-2)) :=
  ⟨small, [1], .fin false [2] 0, small_ok, ⟨.inr ⟨1, [], rfl, by decide, by decide⟩, by decide, by decide, by decide, by decide⟩,
    .inr ⟨2, [], rfl, by decide, by decide⟩, by decide +kernel⟩

/-! ### Integers -/

/-- `to_integral_exact`: the number rounded to an integer in the mode asked for. `Rounded` is signaled if digits after the point are given up,
`Inexact` if the value changes. -/
theorem to_integral_exact (c : Ctx) (m : Mode) (s : Bool) {i : Digits} (h : IsCoeff i) (e : ℤ) :
    ∃ i', (toIntegralExact c m (.fin s i e)).2 = .fin s i' (Max.max e 0) ∧ IsCoeff i' ∧
      (number i' : ℚ) * 10 ^ (Max.max e 0) = roundAbs m s (number i * 10 ^ e : ℚ) ∧
      (toIntegralExact c m (.fin s i e)).1 = (if value s i' (Max.max e 0) ≠ value s i e then [.inexact] else []) ++
        (if e < 0 ∧ value s i e ≠ 0 then [.rounded] else []) := by
  have hn : checkNan c (.fin s i e) = none := rfl
  obtain ⟨i', t1, t2, t3⟩ := to_integral m s h e
  have vz : value s i e = 0 ↔ i = [0] := by
    constructor
    · intro hv
      by_contra h0
      have := mag_pos (K := ℚ) h h0 e
      have h' : |value s i e| = number i * 10 ^ e := value_abs s i e
      rw [hv, abs_zero] at h'
      rw [← h'] at this
      exact lt_irrefl _ this
    · rintro rfl; exact finValue_zero s e
  unfold toIntegral at t1
  by_cases he : e ≥ 0
  · rw [if_pos he] at t1
    rw [max_eq_left he] at t1 t3 ⊢
    injection t1 with _ t1 _
    subst t1
    have hr : toIntegralExact c m (.fin s i e) = ([], .fin s i e) := by
      simp only [toIntegralExact, hn, if_pos he]
    refine ⟨i, ?_, h, t3, ?_⟩
    · rw [hr]
    · rw [hr, if_neg (by simp), if_neg (by rintro ⟨h', _⟩; exact absurd h' (not_lt.2 he))]; rfl
  · rw [if_neg he] at t1
    rw [max_eq_right (by omega)] at t1 t3 ⊢
    by_cases h0 : i = [0]
    · subst h0
      have hr : toIntegralExact c m (.fin s [0] e) = ([], .fin s [0] 0) := by
        simp only [toIntegralExact, hn, if_neg he]; rfl
      refine ⟨[0], ?_, h, ?_, ?_⟩
      · rw [hr]
      · have h1 : ((number [0] : ℕ) : ℚ) * 10 ^ e = ((0 : ℤ) : ℚ) := by simp [number]
        rw [h1, roundAbs_int]; simp [number]
      · rw [hr, if_neg (by rw [vz.2 rfl, not_not]; exact finValue_zero s 0), if_neg (by rw [vz.2 rfl]; simp)]; rfl
    · have hr : toIntegralExact c m (.fin s i e) = ((if (Decimal.eq c (.fin s i' 0) (.fin s i e)).2 then [] else [.inexact]) ++ [.rounded], .fin s i' 0) := by
        simp only [toIntegralExact, hn, if_neg he, t1]
        rw [if_neg (by simpa using h0)]
      refine ⟨i', ?_, t2, t3, ?_⟩
      · rw [hr]
      · have hc' : e < 0 ∧ value s i e ≠ 0 := ⟨by omega, fun h' => h0 (vz.1 h')⟩
        rw [hr]
        have hk := (comparisons c (a := .fin s i' 0) (b := .fin s i e) t2 h (by rintro ⟨_, _, _, h⟩; cases h) (by rintro ⟨_, _, _, h⟩; cases h)).2.2.2.2.2.2.2.2.2
        have hk' : (Decimal.eq c (.fin s i' 0) (.fin s i e)).2 = true ↔ value s i' 0 = value s i e := hk
        by_cases hv : value s i' 0 = value s i e
        · simp only [hk'.2 hv, hv, hc', ne_eq, not_true, not_false_eq_true, if_true, if_false, and_self]
        · simp only [mt hk'.1 hv, hv, hc', ne_eq, not_false_eq_true, if_true, and_self]
          rfl

example : toIntegralExact small .halfEven (.fin true [2, 5] (-1)) = ([.inexact, .rounded], .fin true [2] 0) ∧
    toIntegralExact small .up (.fin false [2, 0] (-1)) = ([.rounded], .fin false [2] 0) ∧ toIntegralExact small .up (.fin false [2] 3) = ([], .fin false [2] 3) := by
  decide +kernel

/-! ### Comparisons -/

theorem ofInt_spec (n : ℤ) : ∃ s i, ofInt n = .fin s i 0 ∧ IsCoeff i ∧ value s i 0 = n := by
  refine ⟨_, _, rfl, isCoeff_str _, ?_⟩
  unfold value finValue
  rw [number_str, zpow_zero, mul_one]
  by_cases h : n < 0
  · have : ((n.natAbs : ℕ) : ℚ) = ((-n : ℤ) : ℚ) := by rw [show -n = ((n.natAbs : ℕ) : ℤ) by omega]; simp
    simp only [decide_eq_true h, if_true, this]; push_cast; ring
  · have : ((n.natAbs : ℕ) : ℚ) = ((n : ℤ) : ℚ) := by rw [show n = ((n.natAbs : ℕ) : ℤ) by omega]; simp
    simp only [decide_eq_false h, Bool.false_eq_true, if_false, this]; ring

/-- `compare` and `compare_signal` give minus one, zero or one, without signals, for numbers and infinities. -/
theorem compare_numbers (c : Ctx) {a b : Dec} (ha : a.Ok) (hb : b.Ok) (na : ¬ IsNaN a) (nb : ¬ IsNaN b) :
    compareSignal c a b = compare c a b ∧
    (Less ℚ a b → compare c a b = ([], .fin true [1] 0)) ∧ (Same ℚ a b → compare c a b = ([], .fin false [0] 0)) ∧
    (Less ℚ b a → compare c a b = ([], .fin false [1] 0)) ∧ (Less ℚ a b ∨ Same ℚ a b ∨ Less ℚ b a) := by
  obtain ⟨h1, h2, h3, h4⟩ := cmp_spec ha hb na nb
  have hn := checkNans_none c na nb
  refine ⟨?_, fun h => ?_, fun h => ?_, fun h => ?_, h4⟩
  · have : signalNans c a b = none := by
      rcases a with ⟨s1, i1, e1⟩ | s1 | ⟨s1, p1, g1⟩
      · rcases b with ⟨s2, i2, e2⟩ | s2 | ⟨s2, p2, g2⟩
        · rfl
        · rfl
        · exact absurd ⟨_, _, _, rfl⟩ nb
      · rcases b with ⟨s2, i2, e2⟩ | s2 | ⟨s2, p2, g2⟩
        · rfl
        · rfl
        · exact absurd ⟨_, _, _, rfl⟩ nb
      · exact absurd ⟨_, _, _, rfl⟩ na
    simp only [compareSignal, this]
  · simp only [compare, hn, h1 h]; rfl
  · simp only [compare, hn, h2 h]; rfl
  · simp only [compare, hn, h3 h]; rfl

/-- With NaNs both give the decisive one, quieted; `compare_signal` signals also for quiet ones. -/
theorem compare_nans (c : Ctx) {a b : Dec} {s : Bool} {p : Digits} {g : Bool} (h : decisive [a, b] = some (.nan s p g)) (hp : ∀ x ∈ p, x < 10) :
    ∃ r, IsQuieted c s p r ∧ compare c a b = (if g then [.invalidOperation] else [], r) ∧ compareSignal c a b = ([.invalidOperation], r) := by
  obtain ⟨r, h1, h2⟩ := checkNans_spec c h hp
  refine ⟨r, h2, ?_, ?_⟩
  · simp only [compare, h1]
  · have : signalNans c a b = some ([.invalidOperation], r) := by
      rcases a with ⟨s1, i1, e1⟩ | s1 | ⟨s1, p1, _ | _⟩ <;> rcases b with ⟨s2, i2, e2⟩ | s2 | ⟨s2, p2, _ | _⟩ <;>
        simp [decisive] at h <;> obtain ⟨rfl, rfl, rfl⟩ := h <;> (simp only [checkNans, Option.some.injEq, Prod.mk.injEq] at h1; rw [← h1.2]; rfl)
    simp only [compareSignal, this]

example : compare small (.fin false [1] 0) (.fin false [1, 0] (-1)) = ([], .fin false [0] 0) ∧
    compare small (.nan false [7] false) (.inf true) = ([], .nan false [7] false) ∧
    compareSignal small (.nan false [7] false) (.inf true) = ([.invalidOperation], .nan false [7] false) := by decide +kernel

/-- `compare_total_mag` is the total order without signs. -/
theorem total_order_of_magnitudes {a b : Dec} (ha : Proper a) (hb : Proper b) :
    (TotalBelow (withSign false a) (withSign false b) → compareTotalMag a b = -1) ∧
    (TotalBelow (withSign false b) (withSign false a) → compareTotalMag a b = 1) ∧
    (withSign false a = withSign false b → compareTotalMag a b = 0) ∧
    (TotalBelow (withSign false a) (withSign false b) ∨ withSign false a = withSign false b ∨ TotalBelow (withSign false b) (withSign false a)) := by
  have e : ∀ d, withSign false d = copyAbs d := by intro d; cases d <;> rfl
  have pr : ∀ {d}, Proper d → Proper (copyAbs d) := by intro d hd; cases d <;> exact hd
  rw [e, e]
  exact total_order (pr ha) (pr hb)

/-- `same_quantum` compares exponents; infinities go with infinities, NaNs with NaNs. -/
theorem same_quantum (a b : Dec) :
    sameQuantum a b = true ↔ (∃ s i s' i' e, a = .fin s i e ∧ b = .fin s' i' e) ∨ (∃ s s', a = .inf s ∧ b = .inf s') ∨ (IsNaN a ∧ IsNaN b) := by
  rcases a with ⟨s1, i1, e1⟩ | s1 | ⟨s1, p1, _ | _⟩ <;> rcases b with ⟨s2, i2, e2⟩ | s2 | ⟨s2, p2, _ | _⟩ <;>
    simp [sameQuantum, IsNaN, nanKind, isInf]
  exact eq_comm

/-- `copy_sign` takes the sign of the other operand, whatever they are, and leaves the rest. -/
theorem copy_sign (a b : Dec) : copySign a b = withSign (negative b) a ∧ negative (copySign a b) = negative b := by
  cases a <;> cases b <;> exact ⟨rfl, rfl⟩

example : compareTotalMag (.fin true [2] 0) (.fin false [1] 0) = 1 ∧ sameQuantum (.fin false [3] 2) (.fin true [0] 2) = true ∧
    copySign (.nan false [3] true) (.inf true) = .nan true [3] true := by decide +kernel

/-! ### Integers among decimals -/

theorem number_zero {ds : Digits} : number ds = 0 ↔ ds.all (· == 0) = true := by
  induction ds with
  | nil => simp [number]
  | cons d ds ih =>
    rw [number, List.all_cons, Bool.and_eq_true, ← ih, Nat.add_eq_zero_iff, Nat.mul_eq_zero]
    simp

theorem value_integer {s : Bool} {i : Digits} {e : ℤ} (he : ¬ e ≥ 0) : (∃ n : ℤ, value s i e = n) ↔ 10 ^ (-e).toNat ∣ number i := by
  have hv : (number i : ℚ) * 10 ^ e * 10 ^ (-e).toNat = number i := by
    rw [mul_assoc, ← zpow_natCast, ← ten_add, show e + (((-e).toNat : ℕ) : ℤ) = 0 by omega, zpow_zero, mul_one]
  constructor
  · rintro ⟨n, hn⟩
    have h1 : |value s i e| = number i * 10 ^ e := value_abs s i e
    rw [hn] at h1
    rw [← h1] at hv
    refine ⟨n.natAbs, ?_⟩
    have : ((n.natAbs : ℕ) : ℚ) = |(n : ℚ)| := by rw [Nat.cast_natAbs, Int.cast_abs]
    rw [← this] at hv
    have h2 : (n.natAbs * 10 ^ (-e).toNat : ℕ) = number i := by exact_mod_cast hv
    rw [← h2, Nat.mul_comm]
  · rintro ⟨k, hk⟩
    have hp : (10 : ℚ) ^ (-e).toNat ≠ 0 := by positivity
    have h1 : (number i : ℚ) * 10 ^ e = k := by
      apply mul_right_cancel₀ hp
      rw [hv, hk]; push_cast; ring
    refine ⟨(if s then -1 else 1) * (k : ℤ), ?_⟩
    unfold value finValue
    rw [h1]
    cases s <;> simp

/-- The test for integers. -/
theorem integers (s : Bool) {i : Digits} (h : IsCoeff i) (e : ℤ) : isInteger (.fin s i e) = true ↔ ∃ n : ℤ, value s i e = n := by
  by_cases he : e ≥ 0
  · simp only [isInteger, if_pos he, true_iff]
    refine ⟨(if s then -1 else 1) * ((number i : ℤ) * 10 ^ e.toNat), ?_⟩
    unfold value finValue
    rw [ten_toNat he]
    cases s <;> simp
  · rw [value_integer he]
    simp only [isInteger, if_neg he]
    rw [← number_zero]
    have hd := h.digits
    have hsplit : number i = number (i.take (i.length + e).toNat) * 10 ^ (i.drop (i.length + e).toNat).length + number (i.drop (i.length + e).toNat) := by
      rw [← number_append, List.take_append_drop]
    have hlt : number (i.drop (i.length + e).toNat) < 10 ^ (i.drop (i.length + e).toNat).length := number_lt fun x hx => hd x (List.mem_of_mem_drop hx)
    rw [List.length_drop] at hsplit hlt
    by_cases hl : (-e).toNat ≤ i.length
    · rw [show i.length - (i.length + e).toNat = (-e).toNat by omega] at hsplit hlt
      rw [hsplit, Nat.dvd_add_right (Dvd.intro_left _ rfl)]
      constructor
      · intro h0; rw [h0]; exact dvd_zero _
      · intro h0; exact Nat.eq_zero_of_dvd_of_lt h0 hlt
    · rw [show (i.length + e).toNat = 0 by omega] at *
      simp only [List.drop_zero] at *
      have : (10 : ℕ) ^ (i.length - 0) ≤ 10 ^ (-e).toNat := Nat.pow_le_pow_right (by decide) (by omega)
      constructor
      · intro h0; rw [h0]; exact dvd_zero _
      · intro h0; exact Nat.eq_zero_of_dvd_of_lt h0 (lt_of_lt_of_le hlt this)

/-- The test for even integers. -/
theorem even_integers (s : Bool) {i : Digits} (h : IsCoeff i) (e : ℤ) {n : ℤ} (hn : value s i e = n) : isEven (.fin s i e) = true ↔ n % 2 = 0 := by
  have hmag : (number i : ℚ) * 10 ^ e = (n.natAbs : ℕ) := by
    have h1 : |value s i e| = number i * 10 ^ e := value_abs s i e
    rw [← h1, hn, Nat.cast_natAbs, Int.cast_abs]
  have hpar : n % 2 = 0 ↔ n.natAbs % 2 = 0 := by omega
  rw [hpar]
  by_cases h0 : i = [0]
  · subst h0
    have : n.natAbs = 0 := by
      have : ((n.natAbs : ℕ) : ℚ) = 0 := by rw [← hmag]; simp [number]
      exact_mod_cast this
    rw [this]; simp [isEven]
  · by_cases he : e > 0
    · have h1 : number i * 10 ^ e.toNat = n.natAbs := by
        have : (number i : ℚ) * 10 ^ e.toNat = (n.natAbs : ℕ) := by rw [← hmag, ten_toNat he.le]; push_cast; rfl
        exact_mod_cast this
      have h2 : n.natAbs % 2 = 0 := by
        rw [← h1, show e.toNat = (e.toNat - 1) + 1 by omega, Nat.pow_succ, ← Nat.mul_assoc]; omega
      simp [isEven, he, h2]
    · have h1 : n.natAbs * 10 ^ (-e).toNat = number i := by
        have : ((n.natAbs : ℕ) : ℚ) * 10 ^ (-e).toNat = number i := by
          rw [← hmag, mul_assoc, ← zpow_natCast, ← ten_add, show e + (((-e).toNat : ℕ) : ℤ) = 0 by omega, zpow_zero, mul_one]
        exact_mod_cast this
      have hpos : 0 < number i := h.pos h0
      have hlt : number i < 10 ^ i.length := number_lt h.digits
      have hl : (-e).toNat < i.length := by
        by_contra hcon
        have h2 : (10 : ℕ) ^ i.length ≤ 10 ^ (-e).toNat := Nat.pow_le_pow_right (by decide) (by omega)
        have h3 : n.natAbs ≠ 0 := by intro h3; rw [h3] at h1; omega
        have h4 : 1 * 10 ^ (-e).toNat ≤ n.natAbs * 10 ^ (-e).toNat := Nat.mul_le_mul_right _ (by omega)
        omega
      have hdig := digitAt_number h.digits (-e).toNat
      unfold digitAt at' at hdig
      rw [← h1, Nat.mul_div_cancel _ (by positivity), List.getElem?_reverse hl, show i.length - 1 - (-e).toNat = (i.length + e - 1).toNat by omega] at hdig
      have hz : (i == [0]) = false := by simpa using h0
      simp only [isEven, hz, decide_eq_false he, Bool.or_false, Bool.false_eq_true, if_false, beq_iff_eq, List.getD_eq_getElem?_getD, ← hdig]
      omega

example : isInteger (.fin false [2, 0, 0] (-2)) = true ∧ isInteger (.fin false [2, 5] (-1)) = false ∧ isInteger (.fin false [0] (-7)) = true ∧
    isEven (.fin true [1, 3, 0, 0] (-2)) = false ∧ isEven (.fin true [1, 3, 0, 0] (-1)) = true := by decide

/-! ### Significant digits -/

/-- Rounding to a number of significant digits: the result has exactly so many digits, and the value is the rounded one. -/
theorem significant_digits (m : Mode) {places : ℕ} (hp : 0 < places) (s : Bool) {i : Digits} (h : IsCoeff i) (h0 : i ≠ [0]) (e : ℤ) {adj : ℤ}
    (h1 : (10 : ℚ) ^ adj ≤ |value s i e|) (h2 : |value s i e| < 10 ^ (adj + 1)) :
    ∃ i' e', roundPlaces m places (.fin s i e) = .fin s i' e' ∧ IsCoeff i' ∧ i'.length = places ∧
      (number i' : ℚ) * 10 ^ e' = roundAbs m s (|value s i e| / 10 ^ (adj + 1 - places)) * 10 ^ (adj + 1 - places) := by
  have hM : |value s i e| = number i * 10 ^ e := value_abs s i e
  have hadj := h.adj (K := ℚ) h0 e
  rw [hM] at h1 h2 ⊢
  obtain rfl := adj_unique h1 h2 hadj.1 hadj.2
  generalize hq : e + (i.length : ℤ) - 1 + 1 - places = q
  obtain ⟨i', r1, r2, r3⟩ := rescale_spec (K := ℚ) m s h e q
  have hqp := ten_pos (K := ℚ) q
  -- the coefficient has as many digits, or is the next power of ten
  have lo : ((10 ^ (places - 1) : ℕ) : ℚ) ≤ number i * 10 ^ e / 10 ^ q := by
    rw [le_div_iff₀ hqp, ← ten_nat, ← ten_add]
    refine le_trans (le_of_eq ?_) hadj.1
    congr 1; omega
  have hi : number i * 10 ^ e / 10 ^ q ≤ (((10 ^ places : ℕ) : ℤ) : ℚ) := by
    rw [div_le_iff₀ hqp, Int.cast_natCast, ← ten_nat, ← ten_add]
    refine le_trans hadj.2.le (le_of_eq ?_)
    congr 1; omega
  have n1 : 10 ^ (places - 1) ≤ number i' := by
    have := le_trans (Int.le_floor.2 (by exact_mod_cast lo)) (roundAbs_ge m s (number i * 10 ^ e / 10 ^ q : ℚ))
    rw [← r3] at this
    exact_mod_cast this
  have n2 : number i' ≤ 10 ^ places := by
    have := roundAbs_le m s hi
    rw [← r3] at this
    exact_mod_cast this
  have h0' : i' ≠ [0] := by
    rintro rfl
    have : 0 < 10 ^ (places - 1) := by positivity
    simp [number] at n1
  have hz : (i == [0]) = false := by simpa using h0
  have ha : adjusted (.fin s i e) + 1 - places = q := hq
  have ha' : adjusted (.fin s i' q) = q + i'.length - 1 := rfl
  have ha0 : adjusted (.fin s i e) = q + places - 1 := by omega
  have len : places ≤ i'.length := by
    by_contra hcon
    have h3 := (r2.length_le h0' (k := places - 1)).1 (by omega)
    omega
  rw [← r3]
  by_cases hn : number i' = 10 ^ places
  · have hl' : i'.length = places + 1 := by
      have h3 : ¬ i'.length ≤ places := by rw [r2.length_le h0', hn]; exact lt_irrefl _
      have h4 : i'.length ≤ places + 1 := by rw [r2.length_le h0', hn]; exact Nat.pow_lt_pow_right (by decide) (by omega)
      omega
    obtain ⟨j, t1, t2, t3⟩ := rescale_spec (K := ℚ) m s r2 q (q + 1)
    have hx : (number i' : ℚ) * 10 ^ q / 10 ^ (q + 1) = (((10 ^ (places - 1) : ℕ) : ℤ) : ℚ) := by
      rw [hn, div_eq_iff (ten_pos _).ne', Int.cast_natCast, ← ten_nat, ← ten_nat, ← ten_add, ← ten_add]
      congr 1; omega
    rw [hx, roundAbs_int] at t3
    have t3' : number j = 10 ^ (places - 1) := by exact_mod_cast t3
    have hj0 : j ≠ [0] := by
      rintro rfl
      have : 0 < 10 ^ (places - 1) := by positivity
      rw [← t3'] at this
      exact absurd this (by decide)
    refine ⟨j, q + 1, ?_, t2, ?_, ?_⟩
    · simp only [roundPlaces, hz, Bool.false_eq_true, if_false, ha, r1]
      rw [if_pos (by rw [ha', ha0, hl']; omega), ha', hl', show q + ((places + 1 : ℕ) : ℤ) - 1 + 1 - places = q + 1 by omega, t1]
    · have h3 : j.length ≤ places := by rw [t2.length_le hj0, t3']; exact Nat.pow_lt_pow_right (by decide) (by omega)
      have h4 : ¬ j.length ≤ places - 1 := by rw [t2.length_le hj0, t3']; exact lt_irrefl _
      omega
    · rw [t3', Int.cast_natCast, hn, ← ten_nat, ← ten_nat, ← ten_add, ← ten_add]
      congr 1; omega
  · have hl' : i'.length = places := by
      have h3 : i'.length ≤ places := by rw [r2.length_le h0']; omega
      omega
    refine ⟨i', q, ?_, r2, hl', ?_⟩
    · simp only [roundPlaces, hz, Bool.false_eq_true, if_false, ha, r1]
      rw [if_neg (by rw [not_not, ha', ha0, hl'])]
    · push_cast; rfl

example : roundPlaces .halfEven 3 (.fin true [9, 9, 9, 7] (-2)) = .fin true [1, 0, 0] 0 ∧ roundPlaces .down 3 (.fin true [7] 0) = .fin true [7, 0, 0] (-2) := by
  decide +kernel

end Verif.DecimalDigits
