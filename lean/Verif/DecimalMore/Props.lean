/- Theorems about further operations on decimals. -/
import Verif.DecimalMore.Sqrt
import Verif.DecimalMore.Text
import Verif.DecimalMore.Normal

namespace Verif.DecimalMore
open Verif.Decimal

/-! ### Square root -/

/-- The square root of a positive number is the real square root, rounded once half to even, whatever the mode of the context. The ideal
exponent is half the exponent if the root can be written with it, and otherwise the largest one with which it can be written, if there is
such an exponent. -/
theorem square_root {c : Ctx} (hc : c.Ok) {i : Digits} (h : IsCoeff i) (h0 : i ≠ [0]) (x : ℤ) :
    ∃ e, e ≤ x / 2 ∧ (e < x / 2 → ¬ ∃ k : ℤ, Real.sqrt (number i * 10 ^ x) = k * 10 ^ (e + 1)) ∧
      IsResult { c with rounding := .halfEven } (Real.sqrt (number i * 10 ^ x)) false e (sqrt c (.fin false i x)) := by
  have : sqrt c (.fin false i x) = sqrtFin c i x := by
    show (if i == [0] then _ else _) = _
    rw [if_neg (by simpa using h0)]; rfl
  rw [this]
  exact sqrtFin_spec hc h h0 x false

example : IsCoeff [2] ∧ sqrt small (.fin false [2] 0) = ([.inexact, .rounded], .fin false [1, 4, 1] (-2)) ∧
    sqrt small (.fin false [1, 6, 0, 0] (-2)) = ([], .fin false [4, 0] (-1)) ∧ sqrt small (.fin false [4] 1) = ([.inexact, .rounded], .fin false [6, 3, 2] (-2)) :=
  ⟨.inr ⟨2, [], rfl, by simp⟩, by decide +kernel, by decide +kernel, by decide +kernel⟩

/-- The root of a zero is a zero with the same sign and half the exponent; negative numbers and minus infinity have none. -/
theorem square_root_other (c : Ctx) (s : Bool) (x : ℤ) {i : Digits} (h0 : i ≠ [0]) :
    IsZeroResult c s (x / 2) (sqrt c (.fin s [0] x)) ∧ sqrt c (.fin true i x) = ([.invalidOperation], .NaN) ∧
    sqrt c (.inf true) = ([.invalidOperation], .NaN) ∧ sqrt c (.inf false) = ([], .inf false) := by
  refine ⟨fixFin_zero c s (x / 2), ?_, rfl, rfl⟩
  show (if i == [0] then _ else _) = _
  rw [if_neg (by simpa using h0)]; rfl

example : sqrt small (.fin true [0] 3) = ([], .fin true [0] 1) := by decide

/-! ### Hash -/

/-- Equal numbers have equal hashes, whatever exponents they are written with. -/
theorem hash_equal {a b : Dec} (ha : a.Ok) (hb : b.Ok) (h : Same ℚ a b) : hash a = hash b := by
  rcases a with ⟨s1, i1, e1⟩ | s1 | ⟨s1, p1, g1⟩
  · rcases b with ⟨s2, i2, e2⟩ | s2 | ⟨s2, p2, g2⟩
    · have hv : value s1 i1 e1 = value s2 i2 e2 := h
      have hm : (number i1 : ℚ) * 10 ^ e1 = number i2 * 10 ^ e2 := by rw [← value_abs s1, ← value_abs s2, hv]
      rw [hash_fin s1 ha e1 rfl, hash_fin s2 hb e2 rfl, hv, hash_mag hm]
    · exact absurd h (by simp [Same])
    · exact absurd h (by simp [Same])
  · rcases b with ⟨s2, i2, e2⟩ | s2 | ⟨s2, p2, g2⟩
    · exact absurd h (by simp [Same])
    · obtain rfl : s1 = s2 := h
      rfl
    · exact absurd h (by simp [Same])
  · exact absurd h (by simp [Same])

example : Same ℚ (.fin false [2, 5, 0] (-2)) (.fin false [2, 5] (-1)) ∧ hash (.fin false [2, 5, 0] (-2)) = hash (.fin false [2, 5] (-1)) ∧
    hash (.fin false [2, 5] (-1)) = some 1152921504606846978 :=
  ⟨by simp [Same, finValue, number]; norm_num, by decide +kernel, by decide +kernel⟩

/-- A decimal that is an integer has the hash of the integer. -/
theorem hash_integer {s : Bool} {i : Digits} (h : IsCoeff i) {e : ℤ} {n : ℤ} (hn : value s i e = n) : hash (.fin s i e) = some (intHash n) := by
  have hm : (number i : ℚ) * 10 ^ e = (n.natAbs : ℕ) * 10 ^ (0 : ℤ) := by
    rw [← value_abs s, hn, zpow_zero, mul_one, Nat.cast_natAbs, Int.cast_abs]
  have h1 : number i * expHash e % modulus = n.natAbs % (2 ^ 61 - 1) := by
    rw [hash_mag hm]
    have : expHash 0 = 1 := by decide
    rw [this, Nat.mul_one]; rfl
  rw [hash_fin s h e rfl, h1, hn]
  unfold intHash
  dsimp only
  by_cases hneg : n < 0
  · rw [if_pos hneg, if_pos (by exact_mod_cast hneg)]
    congr 1
    by_cases h2 : n.natAbs % (2 ^ 61 - 1) = 1
    · rw [if_pos h2, if_pos (by exact_mod_cast h2)]
    · rw [if_neg h2, if_neg (by exact_mod_cast h2)]
  · rw [if_neg hneg, if_neg (by exact_mod_cast hneg)]

example : value true [1, 0] (-1) = (-1 : ℤ) ∧ hash (.fin true [1, 0] (-1)) = some (-2) ∧ intHash (-1) = -2 :=
  ⟨by simp [value, finValue, number], by decide +kernel, by decide⟩

/-! ### Integer ratio -/

/-- The ratio is the number, in lowest terms, with a positive denominator. -/
theorem integer_ratio (s : Bool) {i : Digits} (h : IsCoeff i) (e : ℤ) :
    ((integerRatio s i e).1 : ℚ) / (integerRatio s i e).2 = value s i e ∧ 0 < (integerRatio s i e).2 ∧
    Int.gcd (integerRatio s i e).1 (integerRatio s i e).2 = 1 := by
  by_cases h0 : i = [0]
  · subst h0
    refine ⟨?_, show (0 : ℤ) < 1 by decide, show Int.gcd 0 1 = 1 by decide⟩
    rw [value, finValue_zero]
    show ((0 : ℤ) : ℚ) / ((1 : ℤ) : ℚ) = 0
    simp
  · have hi : ¬ (i == [0]) = true := by simpa using h0
    have sign : ∀ {n d : ℕ}, 0 < d → (number i : ℚ) * 10 ^ e = n / (d : ℚ) → Nat.Coprime n d →
        (((if s then -(n : ℤ) else n : ℤ) : ℚ) / ((d : ℤ) : ℚ) = value s i e ∧ 0 < (d : ℤ) ∧ Int.gcd (if s then -(n : ℤ) else n) d = 1) := by
      intro n d hd hv hc
      refine ⟨?_, by exact_mod_cast hd, ?_⟩
      · unfold value finValue
        rw [hv]
        cases s
        · simp
        · simp [neg_div]
      · cases s
        · simpa [Int.gcd] using hc
        · simpa [Int.gcd] using hc
    unfold integerRatio
    rw [if_neg hi]
    by_cases he : e ≥ 0
    · rw [if_pos he]
      refine sign (n := toInt i * 10 ^ e.toNat) (d := 1) (by decide) ?_ (Nat.coprime_one_right _)
      rw [toInt_eq, ten_toNat he]; push_cast; ring
    · rw [if_neg he, toInt_eq]
      obtain ⟨⟨n5, d5⟩, h5⟩ : ∃ p, p = takeFives (-e).toNat (number i) := ⟨_, rfl⟩
      obtain ⟨⟨n2, d2⟩, h2⟩ : ∃ p, p = takeTwos (-e).toNat n5 := ⟨_, rfl⟩
      simp only [← h5, ← h2]
      obtain ⟨h6, h7⟩ := ratio_mag he h5.symm h2.symm
      exact sign (by positivity) h6 h7

example : IsCoeff [3, 7, 5] ∧ integerRatio true [3, 7, 5] (-2) = (-15, 4) ∧ integerRatio false [1, 2] 1 = (120, 1) :=
  ⟨.inr ⟨3, [7, 5], rfl, by simp⟩, by decide +kernel, by decide⟩

/-! ### Normalizing -/

/-- Normalizing rounds to the context, with the same signals, and then takes off zeros at the end, up to the largest exponent; a zero gets
exponent 0. -/
theorem normalizing {c : Ctx} (hc : c.Ok) (s : Bool) {i : Digits} (h : IsCoeff i) (e : ℤ) :
    ∃ o, IsResult c (finValue s i e : ℚ) s e o ∧ (normalizeDec c (.fin s i e)).1 = o.1 ∧
      ((∃ s', o.2 = .inf s' ∧ (normalizeDec c (.fin s i e)).2 = .inf s') ∨
       ∃ s' i' e' j x, o.2 = .fin s' i' e' ∧ (normalizeDec c (.fin s i e)).2 = .fin s' j x ∧ IsCoeff j ∧ value s' j x = value s' i' e' ∧
         (value s' i' e' = 0 → j = [0] ∧ x = 0) ∧
         (value s' i' e' ≠ 0 → x ≤ (if c.clamp then c.emax - c.prec + 1 else c.emax) ∧
           (j.getLast? ≠ some 0 ∨ x = if c.clamp then c.emax - c.prec + 1 else c.emax))) := by
  have hr := fix_result (K := ℚ) hc s h e
  rw [normalize_fin]
  obtain ⟨⟨sigs, d⟩, ho⟩ : ∃ o, o = fixFin c s i e := ⟨_, rfl⟩
  rw [← ho] at hr ⊢
  refine ⟨(sigs, d), hr, ?_⟩
  rcases result_fits hc hr with ⟨s', hd⟩ | ⟨s', i', x', hd, hf⟩
  · obtain rfl : d = .inf s' := hd
    exact ⟨rfl, .inl ⟨s', rfl, rfl⟩⟩
  · obtain rfl : d = .fin s' i' x' := hd
    dsimp only
    by_cases h0 : i' = [0]
    · subst h0
      refine ⟨rfl, .inr ⟨s', [0], x', [0], 0, rfl, rfl, .inl rfl, ?_, fun _ => ⟨rfl, rfl⟩, fun h1 => ?_⟩⟩
      · simp [value, finValue_zero]
      · rw [value, finValue_zero] at h1; exact absurd rfl h1
    · rw [if_neg (by simpa using h0)]
      obtain ⟨h1, h2, h3, h4⟩ := normal_spec hf h0 (Prod.eta (dropZeros (topExp c) i'.reverse x')).symm
      refine ⟨rfl, .inr ⟨s', i', x', _, _, rfl, rfl, h1, ?_, fun h5 => ?_, fun _ => ⟨h3, h4⟩⟩⟩
      · unfold value finValue; rw [h2]
      · exact absurd h5 (finValue_ne_zero hf.wellFormed h0 s' x')

example : normalizeDec small (.fin true [1, 2, 0, 0] (-3)) = ([.rounded], .fin true [1, 2] (-1)) ∧ normalizeDec small (.fin false [0] 4) = ([], .fin false [0] 0) := by
  decide

/-- Numbers that round to the same number other than zero are normalized to the same representation. -/
theorem normal_form {c : Ctx} (hc : c.Ok) {s1 s2 : Bool} {i1 i2 : Digits} (h1 : IsCoeff i1) (h2 : IsCoeff i2) {e1 e2 : ℤ}
    (h : value s1 i1 e1 = value s2 i2 e2) (h0 : value s1 i1 e1 ≠ 0) :
    (normalizeDec c (.fin s1 i1 e1)).2 = (normalizeDec c (.fin s2 i2 e2)).2 := by
  have hs : s1 = s2 := by
    have p1 := mag_pos (K := ℚ) h1 (fun hz => h0 (by rw [hz, value, finValue_zero])) e1
    have p2 := mag_pos (K := ℚ) h2 (fun hz => h0 (by rw [h, hz, value, finValue_zero])) e2
    unfold value at h
    cases s1 <;> cases s2
    · rfl
    · rw [finValue_false, finValue_true] at h; linarith
    · rw [finValue_false, finValue_true] at h; linarith
    · rfl
  subst hs
  have z1 : i1 ≠ [0] := fun hz => h0 (by rw [hz, value, finValue_zero])
  have z2 : i2 ≠ [0] := fun hz => h0 (by rw [h, hz, value, finValue_zero])
  -- both round to the same number
  have hm : (number i1 : ℚ) * 10 ^ e1 = number i2 * 10 ^ e2 := by rw [← value_abs s1, ← value_abs s1, h]
  obtain ⟨adj, a1, a2⟩ := exists_adj (mag_pos (K := ℚ) h1 z1 e1)
  have r1 := fixFin_spec (K := ℚ) hc s1 h1 z1 e1 adj a1 a2
  have r2 := fixFin_spec (K := ℚ) hc s1 h2 z2 e2 adj (hm ▸ a1) (hm ▸ a2)
  rw [← hm] at r2
  rw [normalize_fin, normalize_fin]
  obtain ⟨⟨g1, d1⟩, ho1⟩ : ∃ o, o = fixFin c s1 i1 e1 := ⟨_, rfl⟩
  obtain ⟨⟨g2, d2⟩, ho2⟩ : ∃ o, o = fixFin c s1 i2 e2 := ⟨_, rfl⟩
  rw [← ho1] at r1 ⊢
  rw [← ho2] at r2 ⊢
  by_cases hb : (10 : ℚ) ^ (c.emax + 1) ≤ roundAbs c.rounding s1 (number i1 * 10 ^ e1 / 10 ^ max (adj - (c.prec : ℤ) + 1) (c.emin - c.prec + 1) : ℚ) * 10 ^ max (adj - (c.prec : ℤ) + 1) (c.emin - c.prec + 1)
  · obtain rfl : d1 = tooLarge c s1 := (r1.1 hb).1
    obtain rfl : d2 = tooLarge c s1 := (r2.1 hb).1
    cases ht : tooLarge c s1 with
    | fin s i e => dsimp only; split <;> rfl
    | inf s => rfl
    | nan s p g => rfl
  · obtain ⟨j1, x1, b1, f1, v1, -⟩ := r1.2 (not_le.1 hb)
    obtain ⟨j2, x2, b2, f2, v2, -⟩ := r2.2 (not_le.1 hb)
    obtain rfl : d1 = .fin s1 j1 x1 := b1
    obtain rfl : d2 = .fin s1 j2 x2 := b2
    have hv : (number j1 : ℚ) * 10 ^ x1 = number j2 * 10 ^ x2 := v1.trans v2.symm
    dsimp only
    by_cases w1 : j1 = [0]
    · have w2 : j2 = [0] := by
        by_contra w2
        have := mag_pos (K := ℚ) f2.wellFormed w2 x2
        rw [← hv, w1] at this
        simp [number] at this
      rw [w1, w2]; rfl
    · have w2 : j2 ≠ [0] := by
        intro w2
        have := mag_pos (K := ℚ) f1.wellFormed w1 x1
        rw [hv, w2] at this
        simp [number] at this
      rw [if_neg (by simpa using w1), if_neg (by simpa using w2)]
      obtain ⟨k1, k2, k3, k4⟩ := normal_spec f1 w1 (Prod.eta (dropZeros (topExp c) j1.reverse x1)).symm
      obtain ⟨l1, l2, l3, l4⟩ := normal_spec f2 w2 (Prod.eta (dropZeros (topExp c) j2.reverse x2)).symm
      obtain ⟨u1, u2⟩ := normal_unique k1 l1 (k2.trans (hv.trans l2.symm)) k3 l3 k4 l4
      dsimp only
      rw [u1, u2]

example : value false [5, 0] 1 = value false [5] 2 ∧ (normalizeDec small (.fin false [5, 0] 1)).2 = .fin false [5] 2 :=
  ⟨by simp [value, finValue, number]; norm_num, by decide⟩

/-! ### The total order -/

/-- `compare_total` decides the total order of representations. -/
theorem total_order {a b : Dec} (ha : Proper a) (hb : Proper b) :
    (TotalBelow a b → compareTotal a b = -1) ∧ (TotalBelow b a → compareTotal a b = 1) ∧ (a = b → compareTotal a b = 0) ∧
    (TotalBelow a b ∨ a = b ∨ TotalBelow b a) := by
  have sg : ∀ d : Dec, signOf d = negative d := fun d => by cases d <;> rfl
  unfold TotalBelow
  cases hsa : negative a <;> cases hsb : negative b
  · have h := compareTotal_same ha hb false hsa hsb
    exact ⟨h.1, h.2.1, h.2.2.1, h.2.2.2⟩
  · refine ⟨False.elim, fun _ => ?_, fun h => ?_, .inr (.inr trivial)⟩
    · unfold compareTotal; rw [sg, sg, hsa, hsb]; rfl
    · rw [h, hsb] at hsa; exact absurd hsa (by decide)
  · refine ⟨fun _ => ?_, False.elim, fun h => ?_, .inl trivial⟩
    · unfold compareTotal; rw [sg, sg, hsa, hsb]; rfl
    · rw [h, hsb] at hsa; exact absurd hsa (by decide)
  · have h := compareTotal_same ha hb true hsa hsb
    refine ⟨h.2.1, h.1, h.2.2.1, ?_⟩
    rcases h.2.2.2 with h | h | h
    · exact .inr (.inr h)
    · exact .inr (.inl h)
    · exact .inl h

/-- It is a strict order. -/
theorem total_order_strict (a b d : Dec) : ¬ TotalBelow a a ∧ (TotalBelow a b → TotalBelow b d → TotalBelow a d) := by
  unfold TotalBelow
  constructor
  · cases negative a <;> exact magnitudeBelow_irrefl a
  · cases negative a <;> cases negative b <;> cases negative d <;> intro h1 h2 <;> first
      | exact trivial
      | exact absurd h1 id
      | exact absurd h2 id
      | exact magnitudeBelow_trans h1 h2
      | exact magnitudeBelow_trans h2 h1

example : Proper (.fin false [1, 0] (-1)) ∧ TotalBelow (.fin false [1, 0] (-1)) (.fin false [1] 0) ∧
    compareTotal (.fin false [1, 0] (-1)) (.fin false [1] 0) = -1 ∧ compareTotal (.nan true [4] false) (.nan true [] true) = -1 :=
  ⟨.inr ⟨1, [0], rfl, by simp⟩, .inr (.inr ⟨by simp [value, finValue, number], by decide⟩), by decide, by decide⟩

/-! ### Neighbours -/

/-- The next number is the least number above that the context can hold, or infinity if there is none. -/
theorem next_plus_number {c : Ctx} (hc : c.Ok) (s : Bool) {i : Digits} (h : IsCoeff i) (e : ℤ) :
    ((nextPlus c (.fin s i e)).2 = .inf false ∧ ∀ w, Holds c w → w ≤ value s i e) ∨
    ∃ s' i' e', (nextPlus c (.fin s i e)).2 = .fin s' i' e' ∧ Fits c i' e' ∧ value s i e < value s' i' e' ∧
      ∀ w, Holds c w → value s i e < w → value s' i' e' ≤ w :=
  nextPlus_spec hc s h e

/-- The previous number is the greatest number below that the context can hold, or minus infinity if there is none. -/
theorem next_minus_number {c : Ctx} (hc : c.Ok) (s : Bool) {i : Digits} (h : IsCoeff i) (e : ℤ) :
    ((nextMinus c (.fin s i e)).2 = .inf true ∧ ∀ w, Holds c w → value s i e ≤ w) ∨
    ∃ s' i' e', (nextMinus c (.fin s i e)).2 = .fin s' i' e' ∧ Fits c i' e' ∧ value s' i' e' < value s i e ∧
      ∀ w, Holds c w → w < value s i e → w ≤ value s' i' e' :=
  nextMinus_spec hc s h e

/-- The neighbours of infinities: themselves, or the numbers with the largest magnitude. -/
theorem next_infinite {c : Ctx} (hc : c.Ok) :
    nextPlus c (.inf false) = ([], .inf false) ∧ nextMinus c (.inf true) = ([], .inf true) ∧
    (∃ i e, nextPlus c (.inf true) = ([], .fin true i e) ∧ nextMinus c (.inf false) = ([], .fin false i e) ∧ Fits c i e ∧
      ∀ w, Holds c w → value true i e ≤ w ∧ w ≤ value false i e) := by
  refine ⟨rfl, rfl, _, _, rfl, rfl, fits_largest hc, fun w hw => ?_⟩
  have h0 : HoldsMag c (number (List.replicate c.prec 9) * 10 ^ (c.emax - c.prec + 1)) := ⟨_, _, fits_largest hc, rfl⟩
  have hp := h0.nonneg
  show (finValue true (List.replicate c.prec 9) (c.emax - c.prec + 1) : ℚ) ≤ w ∧ w ≤ finValue false (List.replicate c.prec 9) (c.emax - c.prec + 1)
  rw [finValue_true, finValue_false]
  rcases holds_iff.1 hw with h | h
  · have h1 := h.le_largest
    have := h.nonneg
    exact ⟨by linarith, h1⟩
  · have h1 := h.le_largest
    have := h.nonneg
    exact ⟨by linarith, by linarith⟩

example : (nextPlus small (.fin false [1] 0)).2 = .fin false [1, 0, 1] (-2) ∧ (nextMinus small (.fin false [1] 0)).2 = .fin false [9, 9, 9] (-3) ∧
    (nextPlus small (.fin false [1, 2, 3, 4] (-3))).2 = .fin false [1, 2, 4] (-2) := by
  decide +kernel

/-- Disagreement: the specification lets `next_plus` signal nothing for numbers, and the code asks for that with `_ignore_all_flags`, but
`_raise_error_in_ctx` does not look at the ignored flags. After the largest number it signals an overflow, which the default context traps,
so that an exception comes instead of infinity. -/
theorem next_plus_signals : ∃ (c : Ctx) (i : Digits) (e : ℤ), c.Ok ∧ Fits c i e ∧ nextPlus c (.fin false i e) = ([.overflow, .inexact, .rounded], .inf false) :=
  ⟨small, [9, 9, 9], 3, small_ok, ⟨.inr ⟨9, [9, 9], rfl, by simp⟩, by decide, by decide, fun _ => by decide, fun h => absurd h (by decide)⟩, by decide +kernel⟩

/-- NaNs are passed on, quieted and cut to what there is room for; signaling ones are invalid. -/
theorem nan_operand (c : Ctx) (s : Bool) {p : Digits} (g : Bool) (hp : ∀ x ∈ p, x < 10) :
    ∃ r, IsQuieted c s p r ∧ ∀ op ∈ [sqrt c, normalizeDec c, nextPlus c, nextMinus c], op (.nan s p g) = (if g then [.invalidOperation] else [], r) := by
  obtain ⟨r, h1, h2⟩ := checkNans_spec c (a := .nan s p g) (b := .inf false) (s := s) (p := p) (g := g) (by cases g <;> rfl) hp
  refine ⟨r, h2, ?_⟩
  have h1' : checkNan c (.nan s p g) = _ := h1
  intro op hop
  simp only [List.mem_cons, List.not_mem_nil, or_false] at hop
  rcases hop with rfl | rfl | rfl | rfl
  · simp only [sqrt, h1']
  · simp only [normalizeDec, h1']
  · simp only [nextPlus, h1']
  · simp only [nextMinus, h1']

example : sqrt small (.nan true [7] true) = ([.invalidOperation], .nan true [7] false) := by decide

/-! ### Text -/

/-- A decimal is read back from its text, with the same coefficient and exponent. -/
theorem text_round_trip (capitals : Bool) {d : Dec} (h : Proper d) : parse (text capitals false d) = some d := by
  rcases d with ⟨s, i, e⟩ | s | ⟨s, p, g⟩
  · rw [parse_number s capitals false h e, if_neg (not_lt.2 (dotPlace_le h e false (.inl rfl)))]
  · exact parse_special s capitals false
  · exact parse_nan s g capitals false h

/-- In engineering notation, the value is read back, also with the same coefficient and exponent unless zeros were written at its end. -/
theorem eng_round_trip (capitals : Bool) {d : Dec} (h : Proper d) :
    match d with
    | .fin s i e => ∃ j x, parse (text capitals true d) = some (.fin s j x) ∧ value s j x = value s i e ∧ (e ≤ x → j = i ∧ x = e)
    | _ => parse (text capitals true d) = some d := by
  rcases d with ⟨s, i, e⟩ | s | ⟨s, p, g⟩
  · dsimp only
    rw [parse_number s capitals true h e]
    by_cases hd : dotPlace true i e > i.length
    · rw [if_pos hd]
      refine ⟨_, _, rfl, ?_, fun h1 => ?_⟩
      · unfold value finValue
        rw [number_str]
        congr 1
        generalize dotPlace true i e = dp at hd ⊢
        have h2 : e = ((dp - i.length).toNat : ℤ) + (e + i.length - dp) := by omega
        conv_rhs => rw [h2, ten_add, ten_nat]
        push_cast; ring
      · omega
    · rw [if_neg hd]
      exact ⟨i, e, rfl, rfl, fun _ => ⟨rfl, rfl⟩⟩
  · exact parse_special s capitals true
  · exact parse_nan s g capitals true h

/-- The form of the text: without exponent if the exponent is not positive and the number not below `10 ** -6`; otherwise scientific, with one
digit before the point, or engineering, with an exponent divisible by three and one to three digits before the point. -/
theorem text_form (capitals eng s : Bool) {i : Digits} (h : IsCoeff i) (e : ℤ) :
    ∃ before after x, (∀ d ∈ before, d < 10) ∧ (∀ d ∈ after, d < 10) ∧ Written capitals s before after x (text capitals eng (.fin s i e)) ∧
      (number (before ++ after) : ℚ) * 10 ^ (x - after.length) = number i * 10 ^ e ∧
      (e ≤ 0 ∧ -6 ≤ e + i.length - 1 → x = 0 ∧ before ≠ []) ∧
      (¬ (e ≤ 0 ∧ -6 ≤ e + i.length - 1) → if eng then x % 3 = 0 ∧ 1 ≤ before.length ∧ before.length ≤ 3 else before.length = 1) := by
  obtain ⟨I, F, h1, h2, h3, h4⟩ := finText_written s capitals h e (dotPlace eng i e)
  have hI0 : I ≠ [] := by
    rintro rfl
    simp only [List.length_nil, Nat.cast_zero] at h3
    omega
  refine ⟨I, F, _, h1, h2, h4, ?_, ?_, ?_⟩
  · have p1 := parse_written capitals s h1 hI0 h2 h4
    have p2 := parse_number s capitals eng h e
    rw [show text capitals eng (.fin s i e) = (if s then ['-'] else []) ++ finText capitals i (e + i.length) (dotPlace eng i e) from rfl, p1] at p2
    generalize dotPlace eng i e = dp at p2 ⊢
    by_cases hd : dp > i.length
    · rw [if_pos hd] at p2
      injection p2 with p2
      injection p2 with _ p3 p4
      have p5 := congrArg number p3
      rw [number_str, number_str] at p5
      rw [p4, p5]
      have h2 : e = ((dp - i.length).toNat : ℤ) + (e + i.length - dp) := by omega
      conv_rhs => rw [h2, ten_add, ten_nat]
      push_cast; ring
    · rw [if_neg hd] at p2
      injection p2 with p2
      injection p2 with _ p3 p4
      have p5 := congrArg number p3
      rw [number_str] at p5
      rw [p4, p5]
  · rintro ⟨he, hl⟩
    refine ⟨?_, hI0⟩
    have : dotPlace eng i e = e + i.length := by
      unfold dotPlace
      dsimp only
      rw [if_pos (by simp only [Bool.and_eq_true, decide_eq_true_eq]; omega)]
    rw [this]; omega
  · intro hn
    have hd : dotPlace eng i e = if !eng then 1 else if i == [0] then (e + i.length + 1) % 3 - 1 else (e + i.length - 1) % 3 + 1 := by
      unfold dotPlace
      dsimp only
      rw [if_neg (by simp only [Bool.and_eq_true, decide_eq_true_eq]; omega)]
    cases eng
    · rw [if_neg (by decide)]
      rw [hd] at h3
      simp only [Bool.not_false, if_true] at h3
      omega
    · rw [if_pos rfl]
      rw [hd] at h3 ⊢
      simp only [Bool.not_true, Bool.false_eq_true, if_false] at h3 ⊢
      by_cases h0 : (i == [0]) = true
      · rw [if_pos h0] at h3 ⊢; omega
      · rw [if_neg h0] at h3 ⊢; omega

/-- Text in that form is read as the number it says. -/
theorem parse_form (capitals s : Bool) {before after : Digits} (h1 : ∀ d ∈ before, d < 10) (h2 : ∀ d ∈ after, d < 10) (h0 : before ≠ []) {x : ℤ}
    {cs : List Char} (h : Written capitals s before after x cs) :
    ∃ j, IsCoeff j ∧ number j = number (before ++ after) ∧ parse cs = some (.fin s j (x - after.length)) :=
  ⟨_, isCoeff_str _, number_str _, parse_written capitals s h1 h0 h2 h⟩

example : Proper (.nan true [4, 2] true) ∧ text true false (.nan true [4, 2] true) = "-sNaN42".toList ∧
    text true false (.fin true [1, 2, 3] (-8)) = "-0.00000123".toList ∧ text true false (.fin false [1, 2, 3] (-9)) = "1.23E-7".toList ∧
    text false true (.fin false [1, 2, 3] (-9)) = "123e-9".toList ∧ text true true (.fin false [1] 1) = "10".toList ∧
    parse "+1e".toList = none ∧ parse "-.5e3".toList = some (.fin true [5] 2) ∧
    Written true true [1] [2, 3] (-7) "-1.23E-7".toList :=
  ⟨⟨by simp, by simp⟩, by decide +kernel, by decide +kernel, by decide +kernel, by decide +kernel, by decide +kernel, by decide +kernel,
    by decide +kernel, [7], .inr ⟨7, [], rfl, by simp⟩, rfl, by decide +kernel⟩

end Verif.DecimalMore
