/- Lemmas about rounding for a format and the place of the point. -/
import Verif.DecimalFormat.Reading
import Verif.Decimal.Compare

namespace Verif.DecimalFormat
open Verif.Decimal Verif.DecimalMore

variable {K : Type} [Field K] [LinearOrder K] [IsStrictOrderedRing K] [FloorRing K]

theorem length_of_bounds {a : Digits} (h : IsCoeff a) (h0 : a ≠ [0]) {k : Nat} (hk : 0 < k) (h1 : 10 ^ (k - 1) ≤ number a) (h2 : number a < 10 ^ k) :
    a.length = k := by
  have l1 := (h.length_le h0 (k := k)).2 h2
  have l2 := mt (h.length_le h0 (k := k - 1)).1 (by omega)
  omega

theorem mag_bounds {i : Digits} (h : IsCoeff i) (h0 : i ≠ [0]) (e : ℤ) :
    (10 : K) ^ (e + i.length - 1) ≤ number i * 10 ^ e ∧ (number i : K) * 10 ^ e < 10 ^ (e + i.length - 1 + 1) := by
  have hl := h.length_pos
  have hp := ten_pos (K := K) e
  constructor
  · rw [show e + (i.length : ℤ) - 1 = ((i.length - 1 : ℕ) : ℤ) + e by omega, ten_add, ten_nat]
    exact mul_le_mul_of_nonneg_right (Nat.cast_le.2 (h.ge h0)) hp.le
  · rw [show e + (i.length : ℤ) - 1 + 1 = ((i.length : ℕ) : ℤ) + e by omega, ten_add, ten_nat]
    exact mul_lt_mul_of_pos_right (Nat.cast_lt.2 h.lt) hp

theorem round_spec (m : Mode) (s : Bool) {i : Digits} (h : IsCoeff i) (h0 : i ≠ [0]) (e : ℤ) {places : Nat} (hp : 0 < places) :
    ∃ i' e', round m places s i e = .ok (.fin s i' e') ∧ IsCoeff i' ∧ i' ≠ [0] ∧ i'.length = places ∧
      Significant m s places ((number i : K) * 10 ^ e) (number i' * 10 ^ e') := by
  obtain ⟨b1, b2⟩ := mag_bounds (K := K) h h0 e
  generalize hM : (number i : K) * 10 ^ e = M at *
  generalize hadj : e + (i.length : ℤ) - 1 = adj at *
  have hMpos : 0 < M := lt_of_lt_of_le (ten_pos adj) b1
  obtain ⟨i1, r1, r2, r3⟩ := rescale_spec (K := K) m s h e (adj + 1 - places)
  rw [hM] at r3
  have hx := ten_pos (K := K) (adj + 1 - places)
  have lo : ((10 ^ (places - 1) : ℕ) : ℤ) ≤ number i1 := by
    rw [r3]
    refine le_trans ?_ (roundAbs_ge m s _)
    rw [Int.le_floor, le_div_iff₀ hx]
    have : (((10 ^ (places - 1) : ℕ) : ℤ) : K) = 10 ^ ((places - 1 : ℕ) : ℤ) := by rw [ten_nat, Int.cast_natCast]
    rw [this, ← ten_add, show ((places - 1 : ℕ) : ℤ) + (adj + 1 - places) = adj by omega]
    exact b1
  have hi : (number i1 : ℤ) ≤ ((10 ^ places : ℕ) : ℤ) := by
    rw [r3]
    refine roundAbs_le m s ?_
    rw [div_le_iff₀ hx]
    have : (((10 ^ places : ℕ) : ℤ) : K) = 10 ^ ((places : ℕ) : ℤ) := by rw [ten_nat, Int.cast_natCast]
    rw [this, ← ten_add, show ((places : ℕ) : ℤ) + (adj + 1 - places) = adj + 1 by omega]
    exact b2.le
  have lo' : 10 ^ (places - 1) ≤ number i1 := by exact_mod_cast lo
  have hi' : number i1 ≤ 10 ^ places := by exact_mod_cast hi
  have n0 : i1 ≠ [0] := by
    rintro rfl
    have : 0 < 10 ^ (places - 1) := Nat.pow_pos (by omega)
    simp [number] at lo'
  have sig : ∀ v : K, v = number i1 * 10 ^ (adj + 1 - (places : ℤ)) → Significant m s places M v := by
    rintro v rfl
    refine ⟨fun h => absurd h hMpos.ne', fun a h1 h2 => ?_⟩
    obtain rfl : a = adj := adj_unique h1 h2 b1 b2
    rw [← r3]
    push_cast
    rfl
  unfold round
  rw [if_neg (by omega), if_neg h0]
  simp only [adjusted, hadj, r1]
  rcases Nat.lt_or_eq_of_le hi' with hlt | heq
  · have hlen := length_of_bounds r2 n0 hp lo' hlt
    rw [if_neg (by rw [hlen]; omega)]
    exact ⟨i1, _, rfl, r2, n0, hlen, sig _ rfl⟩
  · have hlen : i1.length = places + 1 := length_of_bounds r2 n0 (by omega) (by rw [heq, Nat.add_sub_cancel])
      (by rw [heq]; exact Nat.pow_lt_pow_right (by omega) (by omega))
    rw [if_pos (by rw [hlen]; push_cast; omega)]
    rw [hlen, show adj + 1 - (places : ℤ) + ((places + 1 : ℕ) : ℤ) - 1 + 1 - places = adj + 1 - places + 1 by push_cast; ring]
    obtain ⟨i2, q1, q2, q3⟩ := rescale_spec (K := K) m s r2 (adj + 1 - places) (adj + 1 - places + 1)
    have e1 : (number i1 : K) * 10 ^ (adj + 1 - (places : ℤ)) / 10 ^ (adj + 1 - (places : ℤ) + 1) = (((10 ^ (places - 1) : ℕ) : ℤ) : K) := by
      obtain ⟨p, rfl⟩ : ∃ p, places = p + 1 := ⟨places - 1, by omega⟩
      rw [heq, ten_add _ 1, zpow_one, div_eq_iff (by positivity), Nat.add_sub_cancel, pow_succ]
      push_cast
      ring
    rw [e1, roundAbs_int] at q3
    have q3' : number i2 = 10 ^ (places - 1) := by exact_mod_cast q3
    have z0 : i2 ≠ [0] := by
      rintro rfl
      have : 0 < 10 ^ (places - 1) := Nat.pow_pos (by omega)
      simp [number] at q3'
      omega
    refine ⟨i2, adj + 1 - places + 1, by rw [q1], q2, z0, length_of_bounds q2 z0 hp (by omega) (by rw [q3']; exact Nat.pow_lt_pow_right (by omega) (by omega)), sig _ ?_⟩
    rw [q3', heq, ten_add _ 1, zpow_one]
    obtain ⟨p, rfl⟩ : ∃ p, places = p + 1 := ⟨places - 1, by omega⟩
    rw [Nat.add_sub_cancel, pow_succ]
    push_cast
    ring

theorem split_spec {i : Digits} (h : IsCoeff i) {dp : ℤ} (hz : i = [0] → dp ≤ 1) :
    IsCoeff (splitAt i dp).1 ∧ (∀ d ∈ (splitAt i dp).2, d < 10) ∧
    (number ((splitAt i dp).1 ++ (splitAt i dp).2) : K) * 10 ^ (-((splitAt i dp).2.length : ℤ)) = number i * 10 ^ (dp - i.length) ∧
    (number ((splitAt i dp).1 ++ (splitAt i dp).2) = 0 ↔ i = [0]) ∧
    ((splitAt i dp).2.length : ℤ) = max 0 (i.length - dp) ∧
    (dp ≤ i.length → number ((splitAt i dp).1 ++ (splitAt i dp).2) = number i) ∧
    (dp = 1 → (splitAt i dp).1.length = 1 ∧ ((splitAt i dp).1 = [0] → number (splitAt i dp).2 = 0)) := by
  have hl := h.length_pos
  unfold splitAt
  by_cases h1 : dp < 0
  · rw [if_pos h1]
    have e1 : number ([0] ++ (List.replicate (-dp).toNat 0 ++ i)) = number i := by
      rw [number_append, number_append, number_zeros]; simp [number]
    dsimp only
    refine ⟨.inl rfl, ?_, ?_, ?_, ?_, fun _ => e1, fun h => by omega⟩
    · intro d hd
      rcases List.mem_append.1 hd with hd | hd
      · rw [List.eq_of_mem_replicate hd]; omega
      · exact h.digits d hd
    · rw [e1]
      congr 2
      simp only [List.length_append, List.length_replicate]
      omega
    · rw [e1]; exact h.eq_zero
    · simp only [List.length_append, List.length_replicate]
      omega
  · rw [if_neg h1]
    by_cases h2 : dp > i.length
    · rw [if_pos h2]
      have hn : i ≠ [0] := by
        intro h3
        have := hz h3
        omega
      dsimp only
      have e1 : number (pad i (dp - i.length) ++ []) = number i * 10 ^ (dp - i.length).toNat := by rw [List.append_nil, number_pad]
      refine ⟨h.pad hn _, by simp, ?_, ?_, ?_, fun h => by omega, fun h => by omega⟩
      · rw [e1, List.length_nil]
        have := ten_toNat (K := K) (a := dp - i.length) (by omega)
        rw [this]
        push_cast
        simp
      · rw [e1]
        have := h.pos hn
        have h4 : 0 < 10 ^ (dp - i.length).toNat := Nat.pow_pos (by omega)
        constructor
        · intro h5
          have := Nat.mul_pos this h4
          omega
        · intro h5; exact absurd h5 hn
      · rw [List.length_nil]; omega
    · rw [if_neg h2]
      obtain ⟨n, rfl⟩ : ∃ n : ℕ, dp = n := ⟨dp.toNat, by omega⟩
      rw [Int.toNat_natCast]
      dsimp only
      have e1 : number ((if i.take n = [] then [0] else i.take n) ++ i.drop n) = number i := by
        split
        · rename_i h3
          conv_rhs => rw [← List.take_append_drop n i, h3]
          simp [number]
        · rw [List.take_append_drop]
      refine ⟨?_, fun d hd => h.digits d (List.mem_of_mem_drop hd), ?_, ?_, ?_, fun _ => e1, ?_⟩
      · split
        · exact .inl rfl
        · rename_i h3
          by_cases hn : i = [0]
          · subst hn
            have := hz rfl
            cases n with
            | zero => simp at h3
            | succ n => exact .inl (by simp)
          · exact (h.take hn (k := n) (by
              cases n with
              | zero => simp at h3
              | succ n => omega)).1
      · rw [e1, List.length_drop]
        congr 2
        omega
      · rw [e1]; exact h.eq_zero
      · rw [List.length_drop]; omega
      · intro hd
        obtain rfl : n = 1 := by omega
        obtain ⟨d, ds, rfl⟩ : ∃ d ds, i = d :: ds := by
          cases i with
          | nil => simp at hl
          | cons d ds => exact ⟨d, ds, rfl⟩
        refine ⟨by simp, ?_⟩
        intro h3
        simp at h3
        subst h3
        rcases h with h | ⟨d', rest, h4, h5, _⟩
        · cases h; rfl
        · cases h4; exact absurd rfl h5

/-! ### From the number to the parts of the text -/

/-- The number after rounding, and after zeros are made to fit. -/
structure Rounded (m : Mode) (k : Kind) (precision : Option Nat) (s : Bool) (M : K) (digits : Nat) (i : Digits) (e : ℤ) : Prop where
  coeff : IsCoeff i
  shown : Shown m s k precision M digits ((number i : K) * 10 ^ e)
  zero : k.fixed = true → i = [0] → e ≤ 0
  fixed : k.fixed = true → ∀ p, precision = some p → e = -(p : ℤ)
  scientific : k.scientific = true → i ≠ [0] → ∀ p, precision = some p → i.length = p + 1
  general : k.fixed = false → k.scientific = false → ∀ p, precision = some p → i.length ≤ p

theorem zeroFor_eq (m : Mode) (k : Kind) (s : Bool) (i : Digits) (e : ℤ) :
    zeroFor m k s i e = if i = [0] ∧ e > 0 ∧ k.fixed then .fin s [0] 0 else .fin s i e := by
  rw [zeroFor]
  split
  · rename_i h
    rw [h.1]
    rfl
  · rfl

theorem roundFor_spec (m : Mode) {k : Kind} (hk : k ≠ .n) {precision : Option Nat}
    (hp : precision = some 0 → k.fixed = true ∨ k.scientific = true) (s : Bool) {i : Digits} (h : IsCoeff i) (e : ℤ) :
    ∃ i1 e1 i2 e2, roundFor m k precision s i e = .ok (.fin s i1 e1) ∧ zeroFor m k s i1 e1 = .fin s i2 e2 ∧
      Rounded m k precision s ((number i : K) * 10 ^ e) i.length i2 e2 := by
  have hl := h.length_pos
  cases precision with
  | none =>
    refine ⟨i, e, ?_⟩
    by_cases hz : i = [0] ∧ e > 0 ∧ k.fixed
    · refine ⟨[0], 0, rfl, by rw [zeroFor_eq, if_pos hz], .inl rfl, ?_, fun _ _ => le_refl _, fun _ p hp => (by cases hp),
        fun _ h => absurd rfl h, fun _ _ p hp => (by cases hp)⟩
      rw [hz.1]
      simp [Shown, number]
    · refine ⟨i, e, rfl, by rw [zeroFor_eq, if_neg hz], h, rfl, fun h1 h2 => ?_, fun _ p hp => (by cases hp),
        fun _ h p hp => (by cases hp), fun _ _ p hp => (by cases hp)⟩
      by_contra h3
      exact hz ⟨h2, by omega, h1⟩
  | some p =>
    have plain : k.fixed = false → ∀ i e, zeroFor m k s i e = .fin s i e := by
      intro h1 i e
      rw [zeroFor_eq, if_neg (by simp [h1])]
    have zero : ∀ pl : ℕ, Significant m s pl ((number [0] : K) * 10 ^ e) ((number [0] : K) * 10 ^ e) := by
      intro pl
      simp only [number]
      refine ⟨fun h => h, fun adj h1 _ => ?_⟩
      have := ten_pos (K := K) adj
      simp at h1
      linarith
    by_cases hs : k.scientific = true
    · have hfix : k.fixed = false := by cases k <;> first | rfl | cases hs
      rw [roundFor, if_pos hs]
      by_cases h0 : i = [0]
      · subst h0
        refine ⟨[0], e, [0], e, ?_, plain hfix _ _, .inl rfl, ?_, fun h => (by rw [hfix] at h; cases h), fun h => (by rw [hfix] at h; cases h),
          fun _ h => absurd rfl h, fun _ h => (by rw [hs] at h; cases h)⟩
        · rw [round, if_neg (by omega), if_pos rfl]
        · cases k <;> first | exact zero _ | cases hs
      · obtain ⟨i', e', r1, r2, r3, r4, r5⟩ := round_spec (K := K) m s h h0 e (places := p + 1) (by omega)
        refine ⟨i', e', i', e', r1, plain hfix _ _, r2, ?_, fun h => (by rw [hfix] at h; cases h), fun h => (by rw [hfix] at h; cases h),
          fun _ _ q hq => ?_, fun _ h => (by rw [hs] at h; cases h)⟩
        · cases k <;> first | exact r5 | cases hs
        · cases hq; exact r4
    · rw [Bool.not_eq_true] at hs
      by_cases hfix : k.fixed = true
      · rw [roundFor, if_neg (by simp [hs]), if_pos hfix]
        obtain ⟨i', r1, r2, r3⟩ := rescale_spec (K := K) m s h e (-(p : ℤ))
        rw [r1]
        refine ⟨i', _, i', _, rfl, by rw [zeroFor_eq, if_neg (by omega)], r2, ?_, fun _ _ => by omega, fun _ q hq => (by cases hq; rfl),
          fun h => (by rw [hs] at h; cases h), fun h => (by rw [hfix] at h; cases h)⟩
        have e1 : (number i' : K) * 10 ^ (-(p : ℤ)) = roundAbs m s ((number i : K) * 10 ^ e * 10 ^ p) / 10 ^ p := by
          have : (number i' : K) = ((number i' : ℤ) : K) := by rw [Int.cast_natCast]
          rw [this, r3, zpow_neg, zpow_natCast, div_inv_eq_mul, div_eq_mul_inv]
        cases k <;> first | exact e1 | cases hfix
      · rw [Bool.not_eq_true] at hfix
        rw [roundFor, if_neg (by simp [hs]), if_neg (by simp [hfix])]
        have hkind : k = .g ∨ k = .G := by cases k <;> simp_all [Kind.fixed, Kind.scientific]
        have hp0 : 0 < p := by
          rcases Nat.eq_zero_or_pos p with rfl | h1
          · rcases hp rfl with h2 | h2
            · rw [hfix] at h2; cases h2
            · rw [hs] at h2; cases h2
          · exact h1
        by_cases hlen : i.length > p
        · rw [if_pos hlen]
          have h0 : i ≠ [0] := by rintro rfl; simp at hlen; omega
          obtain ⟨i', e', r1, r2, r3, r4, r5⟩ := round_spec (K := K) m s h h0 e hp0
          refine ⟨i', e', i', e', r1, plain hfix _ _, r2, ?_, fun h => (by rw [hfix] at h; cases h), fun h => (by rw [hfix] at h; cases h),
            fun h => (by rw [hs] at h; cases h), fun _ _ q hq => (by cases hq; omega)⟩
          rcases hkind with rfl | rfl <;> exact ⟨fun h => by omega, fun _ => r5⟩
        · rw [if_neg hlen]
          refine ⟨i, e, i, e, rfl, plain hfix _ _, h, ?_, fun h => (by rw [hfix] at h; cases h), fun h => (by rw [hfix] at h; cases h),
            fun h => (by rw [hs] at h; cases h), fun _ _ q hq => (by cases hq; omega)⟩
          rcases hkind with rfl | rfl <;> exact ⟨fun _ => rfl, fun h => by omega⟩

theorem scientific_iff (k : Kind) : k.scientific = true ↔ k = .e ∨ k = .E := by cases k <;> simp [Kind.scientific]
theorem fixed_iff (k : Kind) : k.fixed = true ↔ k = .f ∨ k = .F ∨ k = .percent := by cases k <;> simp [Kind.fixed]

/-- The digits on both sides of the point and the exponent. -/
theorem layout_spec {m : Mode} {k : Kind} {precision : Option Nat} {s : Bool} {M : K} {digits : Nat} {i : Digits} {e : ℤ}
    (h : Rounded m k precision s M digits i e) :
    let dp := pointPlace k precision i e
    let sp := splitAt i dp
    Layout k precision sp.1 sp.2 (e + i.length - dp) ∧
    (number (sp.1 ++ sp.2) : K) * 10 ^ (e + i.length - dp - (sp.2.length : ℤ)) = number i * 10 ^ e ∧
    (number (sp.1 ++ sp.2) = 0 ↔ i = [0]) := by
  intro dp sp
  have hl := h.coeff.length_pos
  have hz : i = [0] → dp ≤ 1 := by
    intro h0
    show pointPlace k precision i e ≤ 1
    have hlen : (i.length : ℤ) = 1 := by rw [h0]; rfl
    unfold pointPlace
    dsimp only
    split
    · split
      · omega
      · omega
    · split
      · rename_i hf
        have := h.zero hf h0
        omega
      · split
        · rename_i h1
          omega
        · omega
  have hdp : k.fixed = false → k.scientific = false → dp ≤ i.length := by
    intro h1 h2
    show pointPlace k precision i e ≤ i.length
    unfold pointPlace
    dsimp only
    rw [if_neg (by simp [h2]), if_neg (by simp [h1])]
    split <;> omega
  obtain ⟨p1, p2, p3, p4, p5, p6, p7⟩ := split_spec (K := K) h.coeff hz
  refine ⟨⟨p1, p2, ?_, ?_, ?_, ?_⟩, ?_, p4⟩
  · intro hk
    have hf := (fixed_iff k).2 hk
    have hs : k.scientific = false := by rcases hk with rfl | rfl | rfl <;> rfl
    have hd : dp = e + i.length := by
      show pointPlace k precision i e = _
      unfold pointPlace; dsimp only
      rw [if_neg (by simp [hs]), if_pos hf]
    refine ⟨by omega, fun p hp => ?_⟩
    have := h.fixed hf p hp
    have : ((splitAt i dp).2.length : ℤ) = p := by rw [p5]; omega
    exact_mod_cast this
  · intro hk p hp
    have hs := (scientific_iff k).2 hk
    by_cases h0 : i = [0]
    · have hd : dp = 1 - p := by
        show pointPlace k precision i e = _
        unfold pointPlace; dsimp only
        rw [if_pos hs, hp]; dsimp only
        rw [if_pos h0]
      have hlen : (i.length : ℤ) = 1 := by rw [h0]; rfl
      have : ((splitAt i dp).2.length : ℤ) = p := by rw [p5]; omega
      exact_mod_cast this
    · have hd : dp = 1 := by
        show pointPlace k precision i e = _
        unfold pointPlace; dsimp only
        rw [if_pos hs, hp]; dsimp only
        rw [if_neg h0]
      have := h.scientific hs h0 p hp
      have : ((splitAt i dp).2.length : ℤ) = p := by rw [p5]; omega
      exact_mod_cast this
  · intro hk
    by_cases hd : dp = 1
    · exact p7 hd
    · -- only zeros in scientific notation are elsewhere
      have h0 : i = [0] ∧ ∃ p, precision = some p ∧ dp = 1 - (p : ℤ) := by
        have hdd : pointPlace k precision i e = dp := rfl
        unfold pointPlace at hdd
        dsimp only at hdd
        split at hdd
        · split at hdd
          · rename_i p
            split at hdd
            · rename_i h1; exact ⟨h1, p, rfl, hdd.symm⟩
            · omega
          · omega
        · rename_i hs
          have hx : e + (i.length : ℤ) - dp ≠ 0 := by
            rcases hk with h1 | h1
            · exact h1
            · exact absurd ((scientific_iff k).2 h1) hs
          split at hdd
          · omega
          · split at hdd
            · omega
            · omega
      obtain ⟨h0, p, hp, hd'⟩ := h0
      subst h0
      have e1 : (splitAt [0] dp).1 = [0] := by
        rw [splitAt]
        split
        · rfl
        · rw [if_neg (by simp; omega)]
          rw [show dp = 0 by omega]
          rfl
      refine ⟨by rw [show sp.1 = [0] from e1]; rfl, fun _ => ?_⟩
      have := p4.2 rfl
      rw [e1, number_append] at this
      simpa [number] using this
  · intro hk p hp
    have hs : k.scientific = false := by rcases hk with rfl | rfl <;> rfl
    have hf : k.fixed = false := by rcases hk with rfl | rfl <;> rfl
    rw [p6 (hdp hf hs)]
    exact lt_of_lt_of_le h.coeff.lt (Nat.pow_le_pow_right (by omega) (h.general hf hs p hp))
  · have e1 : e + (i.length : ℤ) - dp - (sp.2.length : ℤ) = -(sp.2.length : ℤ) + (e + i.length - dp) := by ring
    rw [e1, ten_add, ← mul_assoc, p3, mul_assoc, ← ten_add]
    congr 2
    ring

/-! ### From the parts to the text -/

theorem signedText_eq (x : ℤ) : signedText x = (if x < 0 then '-' else '+') :: numeral x.natAbs := by rw [signedText, numeral_eq]

theorem formatNumber_spec {f : FSpec} {sizes : Nat → Option Nat} (hs : Sizes f.grouping sizes) (negative : Bool) {whole frac : Digits} {x : ℤ} {k : Kind}
    (hw : ∀ d ∈ whole, d < 10) (hf : ∀ d ∈ frac, d < 10) (hk : k ≠ .n) (hx : k.fixed = true → x = 0) :
    ∃ t out, Separated sizes f.sep (digitsText whole)
        (if f.zeropad then (f.width : ℤ) - (tailText f k frac x).length - (signFor f.sign negative).length else 0) t ∧
      formatNumber negative whole frac x k f = .ok out ∧ Padded f.fill f.align f.width (signFor f.sign negative) (t ++ tailText f k frac x) out := by
  have e0 : formatSign negative f = signFor f.sign negative := by
    rw [formatSign]
    cases negative <;> cases f.sign <;> rfl
  have e1 : exponentPart x k = .ok (if x ≠ 0 ∨ k = .e ∨ k = .E then exponentText k x else []) := by
    rw [exponentPart]
    split
    · rename_i h
      rw [exponentText, signedText_eq]
      cases k with
      | f | F | percent => have := hx rfl; simp [this] at h
      | n => exact absurd rfl hk
      | e | E | g | G => rfl
    · rfl
  have e2 : ((if frac ≠ [] ∨ f.alt = true then f.point ++ digitText frac else []) ++ (if x ≠ 0 ∨ k = .e ∨ k = .E then exponentText k x else []) ++
      (if k = .percent then ['%'] else [])) = tailText f k frac x := by
    rw [tailText, digitText_eq hf, digitsText]
  obtain ⟨t, h1, h2⟩ := insertSep_separated hs (digitText whole)
    (if f.zeropad then (f.width : ℤ) - (tailText f k frac x).length - (signFor f.sign negative).length else 0)
  refine ⟨t, _, by rw [digitsText, ← digitText_eq hw]; exact h2, ?_, formatAlign_padded _ _ _⟩
  unfold formatNumber
  simp only [e0, e1]
  simp only [bind, Except.bind, e2, h1]

theorem grouped_exists {sizes : Nat → Option Nat} (sep : List Char) (hpos : ∀ i g, sizes i = some g → 0 < g) :
    ∀ (n i : Nat) (full : List Char), full.length ≤ n → full ≠ [] → ∃ t, Grouped sizes sep i full t := by
  intro n
  induction n with
  | zero => intro i full h1 h2; exact absurd (List.eq_nil_of_length_eq_zero (by omega)) h2
  | succ n ih =>
    intro i full h1 h2
    cases hs : sizes i with
    | none => exact ⟨full, .one h2 fun g hg => by rw [hs] at hg; cases hg⟩
    | some g =>
      have hg := hpos i g hs
      by_cases hl : full.length ≤ g
      · exact ⟨full, .one h2 fun g' hg' => by rw [hs] at hg'; cases hg'; exact hl⟩
      · obtain ⟨t, ht⟩ := ih (i + 1) (full.take (full.length - g)) (by simp; omega) (by
          intro h
          have := congrArg List.length h
          simp at this
          omega)
        have := Grouped.more (sep := sep) (tail := full.drop (full.length - g)) hs (by simp; omega) ht
        rw [List.take_append_drop] at this
        exact ⟨_, this⟩

/-- Without a width no zeros are put in front. -/
theorem separated_narrow {sizes : Nat → Option Nat} {sep digits t : List Char} {w : ℤ} (hpos : ∀ i g, sizes i = some g → 0 < g) (hd : digits ≠ [])
    (hw : w ≤ 0) (h : Separated sizes sep digits w t) : Grouped sizes sep 0 digits t := by
  obtain ⟨zeros, h1, _, h3⟩ := h
  cases zeros with
  | zero => simpa using h1
  | succ z =>
    obtain ⟨t', ht⟩ := grouped_exists sep hpos digits.length 0 digits (Nat.le_refl _) hd
    have := h3 0 (by omega) t' (by simpa using ht)
    omega

theorem grouped_nil {sizes : Nat → Option Nat} {i : Nat} {full t : List Char} (h : Grouped sizes [] i full t) : t = full := by
  induction h with
  | one _ _ => rfl
  | more _ _ _ ih => rw [ih, List.append_nil]

end Verif.DecimalFormat
