/- Theorems about operations on the digits of decimals, and choices between decimals. -/
import Verif.DecimalDigits.Lemmas
import Verif.DecimalMore.Props

namespace Verif.DecimalDigits
open Verif.Decimal Verif.DecimalMore

/-! ### Logical operations -/

theorem logical_spec {c : Ctx} {a b : Dec} {m n : ℕ} (ha : IsLogical a m) (hb : IsLogical b n) (f : Logic) (g : Bool → Bool → Bool)
    (hg : ∀ x y, x < 2 → y < 2 → f.apply x y < 2 ∧ (f.apply x y == 1) = g (x == 1) (y == 1)) :
    ∃ d r, logical f c a b = ([], d) ∧ IsLogical d r ∧ ∀ k, bit r k = (decide (k < c.prec) && g (bit m k) (bit n k)) := by
  obtain ⟨x, hx, x2, xk⟩ := logicalDigits_of ha
  obtain ⟨y, hy, y2, yk⟩ := logicalDigits_of hb
  have h00 : f.apply 0 0 = 0 := by cases f <;> rfl
  let res := (List.zip (fill c x) (fill c y)).map fun p => f.apply p.1 p.2
  have hl : (fill c x).length = (fill c y).length := by rw [fill_length, fill_length]
  have hres : ∀ z ∈ res, z < 2 := by
    intro z hz
    obtain ⟨p, hp, rfl⟩ := List.mem_map.1 hz
    have := List.of_mem_zip hp
    exact (hg _ _ (fill_digits c (by decide) x2 _ this.1) (fill_digits c (by decide) y2 _ this.2)).1
  have hres10 : ∀ z ∈ res, z < 10 := fun z hz => by have := hres z hz; omega
  obtain ⟨c1, c2⟩ := clean hres10
  have hat : ∀ k, digitAt (number res) k = f.apply (if k < c.prec then digitAt m k else 0) (if k < c.prec then digitAt n k else 0) := by
    intro k
    rw [digitAt_number hres10, zip_at f.apply h00 hl, fill_at, fill_at, xk, yk]
  have lt2 : ∀ {ds : Digits}, (∀ z ∈ ds, z < 2) → ∀ k, at' ds k < 2 := by
    intro ds h k
    unfold at'
    by_cases hk : k < ds.reverse.length
    · rw [List.getElem?_eq_getElem hk]
      exact h _ (List.mem_reverse.1 (List.getElem_mem hk))
    · rw [List.getElem?_eq_none (by omega)]; simp
  refine ⟨.fin false (orZero (lstrip res)) 0, number res, ?_, ⟨_, rfl, c1, c2, fun k => ?_⟩, fun k => ?_⟩
  · simp only [logical, hx, hy]; rfl
  · rw [digitAt_number hres10]
    exact Nat.le_of_lt_succ (lt2 hres k)
  · unfold bit
    rw [hat]
    by_cases hk : k < c.prec
    · rw [if_pos hk, if_pos hk, decide_eq_true hk, Bool.true_and]
      exact (hg _ _ (by rw [xk]; exact lt2 x2 k) (by rw [yk]; exact lt2 y2 k)).2
    · rw [if_neg hk, if_neg hk, decide_eq_false hk, Bool.false_and, h00]; rfl

/-- `logical_and`, `logical_or` and `logical_xor` work digit by digit on the last `prec` digits, and the result is a logical operand. -/
theorem logical_operations {c : Ctx} {a b : Dec} {m n : ℕ} (ha : IsLogical a m) (hb : IsLogical b n) :
    (∃ d r, logical .land c a b = ([], d) ∧ IsLogical d r ∧ ∀ k, bit r k = (decide (k < c.prec) && (bit m k && bit n k))) ∧
    (∃ d r, logical .lor c a b = ([], d) ∧ IsLogical d r ∧ ∀ k, bit r k = (decide (k < c.prec) && (bit m k || bit n k))) ∧
    (∃ d r, logical .lxor c a b = ([], d) ∧ IsLogical d r ∧ ∀ k, bit r k = (decide (k < c.prec) && (bit m k ^^ bit n k))) := by
  have two : ∀ x : ℕ, x < 2 → x = 0 ∨ x = 1 := fun x h => by omega
  refine ⟨logical_spec ha hb .land (· && ·) ?_, logical_spec ha hb .lor (· || ·) ?_, logical_spec ha hb .lxor (· ^^ ·) ?_⟩ <;>
  · intro x y hx hy
    rcases two x hx with rfl | rfl <;> rcases two y hy with rfl | rfl <;> decide

/-- `logical_invert` turns all of the `prec` digits over. -/
theorem logical_inversion {c : Ctx} (hc : c.Ok) {a : Dec} {m : ℕ} (ha : IsLogical a m) :
    ∃ d r, logicalInvert c a = ([], d) ∧ IsLogical d r ∧ ∀ k, bit r k = (decide (k < c.prec) && !bit m k) := by
  have ones : IsCoeff (List.replicate c.prec 1) := by
    obtain ⟨p, hp⟩ : ∃ p, c.prec = p + 1 := ⟨c.prec - 1, by have := hc.prec; omega⟩
    rw [hp, List.replicate_succ]
    refine .inr ⟨1, _, rfl, by decide, fun x hx => ?_⟩
    rcases List.mem_cons.1 hx with rfl | hx
    · decide
    · rw [List.eq_of_mem_replicate hx]; decide
  have hk : ∀ k, digitAt (number (List.replicate c.prec 1)) k = if k < c.prec then 1 else 0 := by
    intro k
    rw [digitAt_number ones.digits, at', List.reverse_replicate, List.getElem?_replicate]
    split <;> rfl
  have hb : IsLogical (.fin false (List.replicate c.prec 1) 0) (number (List.replicate c.prec 1)) :=
    ⟨_, rfl, ones, rfl, fun k => by rw [hk]; split <;> decide⟩
  obtain ⟨d, r, h1, h2, h3⟩ := (logical_operations (c := c) ha hb).2.2
  refine ⟨d, r, h1, h2, fun k => ?_⟩
  rw [h3 k]
  by_cases hp : k < c.prec
  · have : bit (number (List.replicate c.prec 1)) k = true := by unfold bit; rw [hk, if_pos hp]; rfl
    rw [this]; simp
  · rw [decide_eq_false hp]; rfl

/-- Other operands are invalid. -/
theorem logical_invalid (c : Ctx) (f : Logic) {a b : Dec} (ha : a.Ok) (hb : b.Ok) (h : (∀ n, ¬ IsLogical a n) ∨ ∀ n, ¬ IsLogical b n) :
    logical f c a b = ([.invalidOperation], .NaN) := by
  unfold logical
  cases h1 : logicalDigits a with
  | none => rfl
  | some x =>
    cases h2 : logicalDigits b with
    | none => rfl
    | some y =>
      obtain ⟨m, hm⟩ := isLogical_of ha h1
      obtain ⟨n, hn⟩ := isLogical_of hb h2
      rcases h with h | h
      · exact absurd hm (h m)
      · exact absurd hn (h n)

theorem digitAt_eleven (k : ℕ) : digitAt 101 k ≤ 1 := by
  rcases k with _ | _ | _ | k
  · decide
  · decide
  · decide
  · unfold digitAt
    rw [Nat.div_eq_of_lt]
    · decide
    · calc 101 < 10 ^ 3 := by decide
        _ ≤ 10 ^ (k + 3) := Nat.pow_le_pow_right (by decide) (by omega)

example : IsLogical (.fin false [1, 0, 1] 0) 101 ∧ logical .lxor small (.fin false [1, 0, 1] 0) (.fin false [1, 1] 0) = ([], .fin false [1, 1, 0] 0) ∧
    logical .land small (.fin false [1, 0, 1, 1] 0) (.fin false [1, 1] 0) = ([], .fin false [1, 1] 0) ∧
    logicalInvert small (.fin false [1] 0) = ([], .fin false [1, 1, 0] 0) ∧ logical .lor small (.fin true [1] 0) (.fin false [2] 0) = ([.invalidOperation], .NaN) :=
  ⟨⟨_, rfl, .inr ⟨1, [0, 1], rfl, by simp⟩, rfl, digitAt_eleven⟩, by decide, by decide, by decide, by decide⟩

/-! ### Shifts -/

/-- `shift`: the digits move to the left by `n` places (to the right if it is negative); those that leave the `prec` places are lost, and
zeros come in. -/
theorem shifting {c : Ctx} (s : Bool) {i : Digits} (hi : IsCoeff i) (e : ℤ) {b : Dec} {n : ℤ} (hb : IsCount b n)
    (hn : -(c.prec : ℤ) ≤ n ∧ n ≤ c.prec) :
    ∃ j, shift c (.fin s i e) b = ([], .fin s j e) ∧ IsCoeff j ∧
      ∀ k : ℕ, digitAt (number j) k = if k < c.prec ∧ 0 ≤ (k : ℤ) - n ∧ (k : ℤ) - n < c.prec then digitAt (number i) ((k : ℤ) - n).toNat else 0 := by
  have hcnt := count_of (limit := c.prec) hb
  rw [if_pos hn] at hcnt
  have nb : ¬ IsNaN b := by
    obtain ⟨_, _, rfl, _⟩ := hb
    rintro ⟨_, _, _, h⟩; cases h
  have hnan := checkNans_none c (a := .fin s i e) (by rintro ⟨_, _, _, h⟩; cases h) nb
  let shifted := if n < 0 then sliceTo (toRotate c i) n else sliceFrom (pad (toRotate c i) n) (-(c.prec : Int))
  have hf : ∀ x ∈ fill c i, x < 10 := fill_digits c (by decide) hi.digits
  have hat : (∀ x ∈ shifted, x < 10) ∧ ∀ k : ℕ, at' shifted k =
      if k < c.prec ∧ 0 ≤ (k : ℤ) - n ∧ (k : ℤ) - n < c.prec then at' i ((k : ℤ) - n).toNat else 0 := by
    show (∀ x ∈ (if n < 0 then _ else _ : Digits), x < 10) ∧ ∀ k : ℕ, at' (if n < 0 then _ else _) k = _
    rw [toRotate_eq]
    have hlen := fill_length c i
    by_cases h0 : n < 0
    · rw [if_pos h0, sliceTo, if_pos h0]
      refine ⟨fun x hx => hf x (List.mem_of_mem_take hx), fun k => ?_⟩
      rw [take_at, hlen, fill_at]
      have e1 : k + (c.prec - ((c.prec : ℤ) + n).toNat) = ((k : ℤ) - n).toNat := by omega
      rw [e1]
      by_cases h1 : ((k : ℤ) - n).toNat < c.prec
      · rw [if_pos h1, if_pos (by omega)]
      · rw [if_neg h1, if_neg (by omega)]
    · rw [if_neg h0, sliceFrom]
      have hp : ¬ c.prec = 0 → (-(c.prec : ℤ)) < 0 := by omega
      by_cases hz : c.prec = 0
      · have hn0 : n = 0 := by omega
        subst hn0
        have hnil : fill c i = [] := List.length_eq_zero_iff.1 (by rw [hlen, hz])
        rw [if_neg (by omega), hnil]
        refine ⟨by simp [pad], fun k => ?_⟩
        rw [if_neg (by omega)]
        simp [pad, at']
      · rw [if_pos (hp hz)]
        refine ⟨fun x hx => ?_, fun k => ?_⟩
        · have := List.mem_of_mem_drop hx
          rw [pad] at this
          rcases List.mem_append.1 this with h | h
          · exact hf x h
          · rw [List.eq_of_mem_replicate h]; decide
        · rw [drop_at, length_pad, hlen, pad, pad_at, fill_at]
          have e1 : c.prec + n.toNat - ((↑(c.prec + n.toNat) : ℤ) + -(c.prec : ℤ)).toNat = c.prec := by omega
          rw [e1]
          by_cases h1 : k < c.prec
          · rw [if_pos h1]
            by_cases h2 : k < n.toNat
            · rw [if_pos h2, if_neg (by omega)]
            · rw [if_neg h2, if_pos (by omega), if_pos (by omega), show k - n.toNat = ((k : ℤ) - n).toNat by omega]
          · rw [if_neg h1, if_neg (by omega)]
  obtain ⟨c1, c2⟩ := clean hat.1
  refine ⟨orZero (lstrip shifted), ?_, c1, fun k => ?_⟩
  · simp only [shift, hnan, hcnt]; rfl
  · rw [c2, digitAt_number hat.1, hat.2, digitAt_number hi.digits]

/-- `rotate`: the digits move by `n` places around the `prec` places. -/
theorem rotation {c : Ctx} (s : Bool) {i : Digits} (hi : IsCoeff i) (e : ℤ) {b : Dec} {n : ℤ} (hb : IsCount b n)
    (hn : -(c.prec : ℤ) ≤ n ∧ n ≤ c.prec) :
    ∃ j, rotate c (.fin s i e) b = ([], .fin s j e) ∧ IsCoeff j ∧
      ∀ k : ℕ, digitAt (number j) k = if k < c.prec then digitAt (number i) (((k : ℤ) - n) % c.prec).toNat else 0 := by
  have hcnt := count_of (limit := c.prec) hb
  rw [if_pos hn] at hcnt
  have nb : ¬ IsNaN b := by
    obtain ⟨_, _, rfl, _⟩ := hb
    rintro ⟨_, _, _, h⟩; cases h
  have hnan := checkNans_none c (a := .fin s i e) (by rintro ⟨_, _, _, h⟩; cases h) nb
  let rotated := sliceFrom (toRotate c i) n ++ sliceTo (toRotate c i) n
  have hf : ∀ x ∈ fill c i, x < 10 := fill_digits c (by decide) hi.digits
  have hlen := fill_length c i
  have hm : ∃ m : ℕ, m ≤ c.prec ∧ (m : ℤ) = (if n < 0 then c.prec + n else n) ∧ rotated = (fill c i).drop m ++ (fill c i).take m := by
    show ∃ m : ℕ, _ ∧ _ ∧ sliceFrom (toRotate c i) n ++ sliceTo (toRotate c i) n = _
    rw [toRotate_eq, sliceFrom, sliceTo, hlen]
    by_cases h0 : n < 0
    · refine ⟨((c.prec : ℤ) + n).toNat, by omega, by rw [if_pos h0]; omega, by rw [if_pos h0, if_pos h0]⟩
    · refine ⟨n.toNat, by omega, by rw [if_neg h0]; omega, by rw [if_neg h0, if_neg h0]⟩
  obtain ⟨m, hmp, hmn, hrot⟩ := hm
  have hd : ∀ x ∈ rotated, x < 10 := by
    intro x hx
    rw [hrot] at hx
    rcases List.mem_append.1 hx with h | h
    · exact hf x (List.mem_of_mem_drop h)
    · exact hf x (List.mem_of_mem_take h)
  obtain ⟨c1, c2⟩ := clean hd
  refine ⟨orZero (lstrip rotated), ?_, c1, fun k => ?_⟩
  · simp only [rotate, hnan, hcnt]; rfl
  · rw [c2, digitAt_number hd, hrot, rotate_at hlen hmp, digitAt_number hi.digits]
    by_cases hk : k < c.prec
    · rw [if_pos hk]
      have hmod : ∀ j : ℕ, j < c.prec → (∃ t : ℤ, (k : ℤ) - n = j + c.prec * t) → (((k : ℤ) - n) % c.prec).toNat = j := by
        rintro j hj ⟨t, ht⟩
        rw [ht, Int.add_mul_emod_self_left, Int.emod_eq_of_lt (by omega) (by omega)]
        omega
      by_cases hkm : k < m
      · have : ∃ t : ℤ, (k : ℤ) - n = (k + c.prec - m : ℕ) + c.prec * t := by
          by_cases h0 : n < 0
          · rw [if_pos h0] at hmn
            exact ⟨0, by push_cast [show m ≤ k + c.prec by omega]; omega⟩
          · rw [if_neg h0] at hmn
            exact ⟨-1, by push_cast [show m ≤ k + c.prec by omega]; omega⟩
        rw [if_pos hkm, fill_at, if_pos (show k + c.prec - m < c.prec by omega), if_pos hk, hmod (k + c.prec - m) (by omega) this]
      · have : ∃ t : ℤ, (k : ℤ) - n = (k - m : ℕ) + c.prec * t := by
          by_cases h0 : n < 0
          · rw [if_pos h0] at hmn
            exact ⟨1, by push_cast [show m ≤ k by omega]; omega⟩
          · rw [if_neg h0] at hmn
            exact ⟨0, by push_cast [show m ≤ k by omega]; omega⟩
        rw [if_neg hkm, if_pos hk, fill_at, if_pos (by omega), hmod (k - m) (by omega) this]
    · rw [if_neg (by omega), if_neg hk, if_neg hk]

/-- `scaleb` multiplies by a power of ten: the exponent changes, and the result is rounded to the context. -/
theorem scaling {c : Ctx} (hc : c.Ok) (s : Bool) {i : Digits} (hi : IsCoeff i) (e : ℤ) {b : Dec} {n : ℤ} (hb : IsCount b n)
    (hn : -(2 * (c.emax + c.prec)) ≤ n ∧ n ≤ 2 * (c.emax + c.prec)) :
    IsResult c (value s i e * 10 ^ n) s (e + n) (scaleb c (.fin s i e) b) := by
  have hcnt := count_of (limit := 2 * (c.emax + c.prec)) hb
  rw [if_pos hn] at hcnt
  have nb : ¬ IsNaN b := by
    obtain ⟨_, _, rfl, _⟩ := hb
    rintro ⟨_, _, _, h⟩; cases h
  have hnan := checkNans_none c (a := .fin s i e) (by rintro ⟨_, _, _, h⟩; cases h) nb
  have he : scaleb c (.fin s i e) b = fixFin c s i (e + n) := by simp only [scaleb, hnan, hcnt]; rfl
  rw [he]
  have := fix_result (K := ℚ) hc s hi (e + n)
  rw [show value s i e * 10 ^ n = finValue s i (e + n) by unfold value finValue; rw [ten_add]; ring]
  exact this

/-- Other second operands are invalid: not integers written with exponent zero, or beyond the limits. Infinities do not change. -/
theorem shift_limits (c : Ctx) {a b : Dec} (hb : b.Ok) (na : ¬ IsNaN a) (nb : ¬ IsNaN b) :
    ((∀ n, IsCount b n → n < -(c.prec : ℤ) ∨ c.prec < n) → shift c a b = ([.invalidOperation], .NaN) ∧ rotate c a b = ([.invalidOperation], .NaN)) ∧
    ((∀ n, IsCount b n → n < -(2 * (c.emax + c.prec)) ∨ 2 * (c.emax + c.prec) < n) → scaleb c a b = ([.invalidOperation], .NaN)) ∧
    (∀ s n, IsCount b n → -(c.prec : ℤ) ≤ n ∧ n ≤ c.prec → shift c (.inf s) b = ([], .inf s) ∧ rotate c (.inf s) b = ([], .inf s)) ∧
    (∀ s n, IsCount b n → -(2 * (c.emax + c.prec)) ≤ n ∧ n ≤ 2 * (c.emax + c.prec) → scaleb c (.inf s) b = ([], .inf s)) := by
  have hnan := checkNans_none c na nb
  have hinf : ∀ s, checkNans c (.inf s) b = none := fun s => checkNans_none c (by rintro ⟨_, _, _, h⟩; cases h) nb
  refine ⟨fun h => ?_, fun h => ?_, fun s n hn h => ?_, fun s n hn h => ?_⟩
  · have : count c.prec b = none := by
      cases hcnt : count c.prec b with
      | none => rfl
      | some n =>
        obtain ⟨h1, h2, h3⟩ := isCount_of hb hcnt
        have := h n h1
        omega
    constructor
    · simp only [shift, hnan, this]
    · simp only [rotate, hnan, this]
  · have : count (2 * (c.emax + c.prec)) b = none := by
      cases hcnt : count (2 * (c.emax + c.prec)) b with
      | none => rfl
      | some n =>
        obtain ⟨h1, h2, h3⟩ := isCount_of hb hcnt
        have := h n h1
        omega
    simp only [scaleb, hnan, this]
  · have := count_of (limit := c.prec) hn
    rw [if_pos h] at this
    exact ⟨by simp only [shift, hinf, this], by simp only [rotate, hinf, this]⟩
  · have := count_of (limit := 2 * (c.emax + c.prec)) hn
    rw [if_pos h] at this
    simp only [scaleb, hinf, this]

example : IsCount (.fin true [1] 0) (-1) ∧ shift small (.fin false [1, 2, 3, 4] 1) (.fin true [1] 0) = ([], .fin false [2, 3] 1) ∧
    shift small (.fin false [1, 2] 1) (.fin false [2] 0) = ([], .fin false [2, 0, 0] 1) ∧
    rotate small (.fin false [1, 2] 1) (.fin false [2] 0) = ([], .fin false [2, 0, 1] 1) ∧
    rotate small (.fin false [1, 2] 1) (.fin true [2] 0) = ([], .fin false [1, 2, 0] 1) ∧
    scaleb small (.fin false [1, 2] 1) (.fin true [2] 0) = ([], .fin false [1, 2] (-1)) ∧
    shift small (.fin false [1, 2] 1) (.fin false [4] 0) = ([.invalidOperation], .NaN) :=
  ⟨⟨_, _, rfl, .inr ⟨1, [], rfl, by simp⟩, by simp [value, finValue, number]⟩, by decide, by decide, by decide, by decide, by decide, by decide⟩

/-- `logb`: the integer power of ten at or below the magnitude, rounded to the context; infinity for infinities, and for zero minus infinity
with a division by zero. -/
theorem exponent {c : Ctx} (hc : c.Ok) (s : Bool) {i : Digits} (hi : IsCoeff i) (e : ℤ) :
    (∀ k : ℤ, 10 ^ k ≤ |value s i e| → |value s i e| < 10 ^ (k + 1) → IsResult c (k : ℚ) false 0 (logb c (.fin s i e))) ∧
    (value s i e = 0 → logb c (.fin s i e) = ([.divisionByZero], .inf true)) ∧ logb c (.inf s) = ([], .inf false) := by
  refine ⟨fun k h1 h2 => ?_, fun h => ?_, rfl⟩
  · rw [value_abs] at h1 h2
    have h0 : i ≠ [0] := by
      rintro rfl
      have := ten_pos (K := ℚ) k
      simp [number] at h1
      linarith
    have hb : (i == [0]) = false := by simpa using h0
    obtain ⟨h3, h4⟩ := hi.adj (K := ℚ) h0 e
    have hk := adj_unique h1 h2 h3 h4
    have he : logb c (.fin s i e) = fixFin c (decide (e + i.length - 1 < 0)) (str (e + i.length - 1).natAbs) 0 := by
      simp only [logb, checkNan, checkNans, isInf, isZero, hb, Bool.false_eq_true, if_false]; rfl
    rw [he, ← hk]
    have hf := fix_result (K := ℚ) hc (decide (k < 0)) (isCoeff_str k.natAbs) 0
    have hv : (finValue (decide (k < 0)) (str k.natAbs) 0 : ℚ) = k := by
      unfold finValue
      rw [number_str, zpow_zero, mul_one, Nat.cast_natAbs]
      by_cases hneg : k < 0
      · rw [decide_eq_true hneg, if_pos rfl, abs_of_neg hneg]; push_cast; ring
      · rw [decide_eq_false hneg, if_neg (by decide), abs_of_nonneg (by omega)]; ring
    rw [hv] at hf
    refine ⟨fun hz => ?_, hf.negative, hf.positive⟩
    have hk0 : k = 0 := by exact_mod_cast hz
    have := hf.zero hz
    rw [hk0] at this ⊢
    exact this
  · have h0 : i = [0] := by
      by_contra h0
      have := mag_pos (K := ℚ) hi h0 e
      have h' := value_abs s i e
      rw [h, abs_zero] at h'
      linarith
    subst h0
    rfl

example : logb small (.fin true [1, 2, 3] 4) = ([], .fin false [6] 0) ∧ logb small (.fin true [1] (-7)) = ([], .fin true [7] 0) := by decide +kernel

/-! ### Classes -/

theorem fin_facts (s : Bool) {i : Digits} (hi : IsCoeff i) (e : ℤ) :
    (i = [0] → value s i e = 0) ∧ (i ≠ [0] → (10 : ℚ) ^ (e + i.length - 1) ≤ |value s i e| ∧ |value s i e| < 10 ^ (e + i.length - 1 + 1) ∧
      (s = true → value s i e < 0) ∧ (s = false → 0 < value s i e)) := by
  constructor
  · rintro rfl; exact finValue_zero s e
  · intro h0
    rw [value_abs]
    obtain ⟨h1, h2⟩ := hi.adj (K := ℚ) h0 e
    have hp := mag_pos (K := ℚ) hi h0 e
    refine ⟨h1, h2, ?_, ?_⟩
    · rintro rfl
      unfold value; rw [finValue_true]; linarith
    · rintro rfl
      unfold value; rw [finValue_false]; exact hp

/-- `number_class` gives the class of a decimal, `is_normal` and `is_subnormal` tell normal and subnormal numbers. -/
theorem classes (c : Ctx) {a : Dec} (ha : a.Ok) :
    (∀ k, HasClass c a k ↔ numberClass c a = k) ∧
    (isNormal c a = true ↔ numberClass c a = "+Normal" ∨ numberClass c a = "-Normal") ∧
    (isSubnormal c a = true ↔ numberClass c a = "+Subnormal" ∨ numberClass c a = "-Subnormal") := by
  rcases a with ⟨s, i, e⟩ | s | ⟨s, p, g⟩
  · obtain ⟨hz, hnz⟩ := fin_facts s (i := i) ha e
    by_cases h0 : i = [0]
    · have hv := hz h0
      subst h0
      have hcls : numberClass c (.fin s [0] e) = if s then "-Zero" else "+Zero" := by cases s <;> rfl
      have hp := ten_pos (K := ℚ) c.emin
      refine ⟨fun k => ?_, ?_, ?_⟩
      · rw [hcls]
        constructor
        · intro h
          cases h with
          | posZero => rfl
          | negZero => rfl
          | posSub _ _ _ h1 h2 => rw [hv] at h1; exact absurd h1 (lt_irrefl _)
          | negSub _ _ _ h1 h2 => rw [hv] at h1; exact absurd h1 (lt_irrefl _)
          | posNormal _ _ _ h1 => rw [hv] at h1; linarith
          | negNormal _ _ _ h1 => rw [hv] at h1; linarith
        · rintro rfl
          cases s
          · exact .posZero _ _ hv
          · exact .negZero _ _ hv
      · rw [hcls]; cases s <;> simp [isNormal]
      · rw [hcls]; cases s <;> simp [isSubnormal]
    · obtain ⟨h1, h2, h3, h4⟩ := hnz h0
      have hb : (i == [0]) = false := by simpa using h0
      have hsub : isSubnormal c (.fin s i e) = decide (e + i.length - 1 < c.emin) := by simp [isSubnormal, hb, adjusted]; rfl
      have hnor : isNormal c (.fin s i e) = decide (c.emin ≤ e + i.length - 1) := by simp [isNormal, hb, adjusted]; rfl
      have hcls : numberClass c (.fin s i e) =
          if e + i.length - 1 < c.emin then (if s then "-Subnormal" else "+Subnormal") else if s then "-Normal" else "+Normal" := by
        unfold numberClass
        rw [hsub]
        simp [nanKind, infinity, isZero, hb, signOf]
        rfl
      have hs : e + i.length - 1 < c.emin ↔ |value s i e| < 10 ^ c.emin := by
        constructor
        · intro h
          exact lt_of_lt_of_le h2 (ten_le.2 (by omega))
        · intro h
          exact ten_lt.1 (lt_of_le_of_lt h1 h)
      have hv0 : value s i e ≠ 0 := by
        intro h
        rw [h, abs_zero] at h1
        exact absurd (ten_pos (K := ℚ) (e + i.length - 1)) (not_lt.2 h1)
      refine ⟨fun k => ?_, ?_, ?_⟩
      · rw [hcls]
        constructor
        · intro h
          cases h with
          | posZero _ _ h => exact absurd h hv0
          | negZero _ _ h => exact absurd h hv0
          | posSub _ _ _ p1 p2 =>
            have : s = false := by cases s; · rfl
                                   · have := h3 rfl; linarith
            rw [if_pos (hs.2 (by rw [abs_of_pos p1]; exact p2)), this]; rfl
          | negSub _ _ _ p1 p2 =>
            have : s = true := by cases s; · have := h4 rfl; linarith
                                  · rfl
            rw [if_pos (hs.2 (by rw [abs_of_neg p1]; linarith)), this]; rfl
          | posNormal _ _ _ p1 =>
            have hp := ten_pos (K := ℚ) c.emin
            have : s = false := by cases s; · rfl
                                   · have := h3 rfl; linarith
            rw [if_neg (fun h => by have := hs.1 h; rw [abs_of_pos (by linarith)] at this; linarith), this]; rfl
          | negNormal _ _ _ p1 =>
            have hp := ten_pos (K := ℚ) c.emin
            have : s = true := by cases s; · have := h4 rfl; linarith
                                  · rfl
            rw [if_neg (fun h => by have := hs.1 h; rw [abs_of_neg (by linarith)] at this; linarith), this]; rfl
        · rintro rfl
          by_cases hlt : e + i.length - 1 < c.emin
          · rw [if_pos hlt]
            have := hs.1 hlt
            cases s
            · have hp := h4 rfl
              rw [abs_of_pos hp] at this
              exact .posSub _ _ _ hp this
            · have hp := h3 rfl
              rw [abs_of_neg hp] at this
              exact .negSub _ _ _ hp (by linarith)
          · rw [if_neg hlt]
            have := not_lt.1 (mt hs.2 hlt)
            cases s
            · have hp := h4 rfl
              rw [abs_of_pos hp] at this
              exact .posNormal _ _ _ this
            · have hp := h3 rfl
              rw [abs_of_neg hp] at this
              exact .negNormal _ _ _ (by linarith)
      · rw [hcls, hnor]
        by_cases hlt : e + i.length - 1 < c.emin
        · rw [if_pos hlt, decide_eq_false (by omega)]; cases s <;> simp
        · rw [if_neg hlt, decide_eq_true (by omega)]; cases s <;> simp
      · rw [hcls, hsub]
        by_cases hlt : e + i.length - 1 < c.emin
        · rw [if_pos hlt, decide_eq_true hlt]; cases s <;> simp
        · rw [if_neg hlt, decide_eq_false hlt]; cases s <;> simp
  · cases s
    · refine ⟨fun k => ⟨fun h => by cases h; rfl, ?_⟩, by simp [isNormal, numberClass, nanKind, infinity, minusOne], by simp [isSubnormal, numberClass, nanKind, infinity, minusOne]⟩
      rintro rfl; exact .posInf
    · refine ⟨fun k => ⟨fun h => by cases h; rfl, ?_⟩, by simp [isNormal, numberClass, nanKind, infinity, minusOne], by simp [isSubnormal, numberClass, nanKind, infinity, minusOne]⟩
      rintro rfl; exact .negInf
  · cases g
    · refine ⟨fun k => ⟨fun h => by cases h; rfl, ?_⟩, by simp [isNormal, numberClass, nanKind], by simp [isSubnormal, numberClass, nanKind]⟩
      rintro rfl; exact .nan _ _
    · refine ⟨fun k => ⟨fun h => by cases h; rfl, ?_⟩, by simp [isNormal, numberClass, nanKind], by simp [isSubnormal, numberClass, nanKind]⟩
      rintro rfl; exact .sNaN _ _

example : numberClass small (.fin true [1] (-6)) = "-Subnormal" ∧ numberClass small (.fin true [1, 0] (-6)) = "-Normal" := by decide

end Verif.DecimalDigits
