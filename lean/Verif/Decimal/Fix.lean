/- Rounding to a context gives what the specification says. -/
import Verif.Decimal.Rounding

namespace Verif.Decimal

set_option linter.unusedSectionVars false

section
variable {K : Type} [Field K] [LinearOrder K] [IsStrictOrderedRing K] [FloorRing K]

theorem ten_pos (n : ℤ) : (0 : K) < 10 ^ n := zpow_pos (by norm_num) n

theorem ten_add (a b : ℤ) : (10 : K) ^ (a + b) = 10 ^ a * 10 ^ b := zpow_add₀ (by norm_num) a b

theorem ten_sub (a b : ℤ) : (10 : K) ^ (a - b) = 10 ^ a / 10 ^ b := zpow_sub₀ (by norm_num) a b

theorem ten_le {a b : ℤ} : (10 : K) ^ a ≤ 10 ^ b ↔ a ≤ b := zpow_le_zpow_iff_right₀ (by norm_num)

theorem ten_lt {a b : ℤ} : (10 : K) ^ a < 10 ^ b ↔ a < b := zpow_lt_zpow_iff_right₀ (by norm_num)

theorem ten_toNat {a : ℤ} (h : 0 ≤ a) : (10 : K) ^ a = ((10 ^ a.toNat : ℕ) : K) := by
  rw [Nat.cast_pow, ← zpow_natCast, Int.toNat_of_nonneg h]; rfl

theorem ten_nat (n : ℕ) : (10 : K) ^ (n : ℤ) = ((10 ^ n : ℕ) : K) := by
  rw [Nat.cast_pow, ← zpow_natCast]; rfl

theorem adj_unique {M : K} {a b : ℤ} (h1 : 10 ^ a ≤ M) (h2 : M < 10 ^ (a + 1)) (h3 : 10 ^ b ≤ M) (h4 : M < 10 ^ (b + 1)) : a = b := by
  have h5 := ten_lt.1 (lt_of_le_of_lt h1 h4)
  have h6 := ten_lt.1 (lt_of_le_of_lt h3 h2)
  omega

/-- The magnitude of a coefficient. -/
theorem IsCoeff.adj {i : Digits} (h : IsCoeff i) (h0 : i ≠ [0]) (e : ℤ) :
    (10 : K) ^ (e + i.length - 1) ≤ number i * 10 ^ e ∧ (number i : K) * 10 ^ e < 10 ^ (e + i.length - 1 + 1) := by
  have hl := h.length_pos
  have e1 : e + i.length - 1 = ((i.length - 1 : ℕ) : ℤ) + e := by omega
  have e2 : e + i.length - 1 + 1 = (i.length : ℤ) + e := by omega
  rw [e2, e1, ten_add, ten_add, ten_nat, ten_nat]
  constructor
  · exact mul_le_mul_of_nonneg_right (by exact_mod_cast h.ge h0) (ten_pos e).le
  · exact mul_lt_mul_of_pos_right (by exact_mod_cast h.lt) (ten_pos e)

/-- What is cut off and how it is rounded. -/
theorem cut_spec (m : Mode) (s : Bool) {i : Digits} (h : IsCoeff i) (h0 : i ≠ [0]) {e q : ℤ} (he : e < q) {x : K}
    (hx : x = number i * 10 ^ e / 10 ^ q) :
    IsCoeff (cut m s i e q).2 ∧ (number (cut m s i e q).2 : K) ≤ x ∧ x < number (cut m s i e q).2 + 1 ∧
    ((x = number (cut m s i e q).2 ∧ (cut m s i e q).1 = 0 ∧ roundAbs m s x = number (cut m s i e q).2) ∨
     (x ≠ number (cut m s i e q).2 ∧ (cut m s i e q).1 = 1 ∧ roundAbs m s x = number (cut m s i e q).2 + 1) ∨
     (x ≠ number (cut m s i e q).2 ∧ (cut m s i e q).1 = -1 ∧ roundAbs m s x = number (cut m s i e q).2)) := by
  have hl := h.length_pos
  by_cases hd : (i.length : ℤ) + e - q < 0
  · -- far below the unit
    have e1 : cut m s i e q = (roundBy m s [1] 0, [0]) := by
      unfold cut
      simp only [if_pos hd]
      rw [show ((i.length : ℤ) + e - q).toNat = 0 by omega]; rfl
    rw [e1]
    have hx0 : 0 < x := by
      rw [hx]
      exact div_pos (mul_pos (by exact_mod_cast h.pos h0) (ten_pos e)) (ten_pos q)
    have hx1 : x < 1 / 2 := by
      have h1 : (number i : K) * 10 ^ e < 10 ^ (q - 1) :=
        lt_of_lt_of_le (h.adj h0 e).2 (ten_le.2 (by omega))
      rw [hx, div_lt_iff₀ (ten_pos q)]
      have h2 : (10 : K) ^ q = 10 ^ (q - 1) * 10 := by
        rw [← zpow_add_one₀ (by norm_num)]; congr 1; omega
      rw [h2]
      have := ten_pos (K := K) (q - 1)
      linarith
    have h1 := roundBy_spec (K := K) m s (ds := [1]) (by simp) (k := 0) (by simp)
    have hn : number ([1] : Digits) = 1 := rfl
    have hn0 : number ([0] : Digits) = 0 := rfl
    have hne : number ([] : Digits) = 0 := rfl
    simp only [List.drop_zero, List.take_zero, hn, hne, List.length_cons, List.length_nil] at h1
    obtain ⟨-, h2, h3⟩ := h1
    have hc : Away m s 0 ((1 : ℕ) / 10 ^ (0 + 1 - 0) : K) ↔ Away m s 0 x := by
      refine away_congr ?_ ?_
      · norm_num; linarith
      · norm_num; linarith
    refine ⟨.inl rfl, ?_, ?_, .inr ?_⟩
    · simp [hn0, hx0.le]
    · simp only [hn0]; push_cast; linarith
    · have hxne : x ≠ ((number ([0] : Digits) : ℕ) : K) := by rw [hn0]; push_cast; exact hx0.ne'
      rcases Classical.em (Away m s 0 x) with h4 | h4
      · left
        refine ⟨hxne, h2 (by omega) (hc.2 h4), ?_⟩
        have := roundAbs_away (m := m) (s := s) (t := 0) hx0 (by linarith) h4
        simpa [hn0] using this
      · right
        refine ⟨hxne, h3 (by omega) (mt hc.1 h4), ?_⟩
        have := roundAbs_toward (m := m) (s := s) (t := 0) hx0 (by linarith) h4
        simpa [hn0] using this
  · obtain ⟨k, hk⟩ : ∃ k : ℕ, (i.length : ℤ) + e - q = k := ⟨((i.length : ℤ) + e - q).toNat, by omega⟩
    have hkl : k < i.length := by omega
    have e1 : cut m s i e q = (roundBy m s i k, orZero (i.take k)) := by
      unfold cut
      simp only [hk, if_neg (show ¬ (k : ℤ) < 0 by omega), Int.toNat_natCast]
    have hoz : number (orZero (i.take k)) = number (i.take k) ∧ IsCoeff (orZero (i.take k)) := by
      rcases Nat.eq_zero_or_pos k with rfl | hk0
      · exact ⟨rfl, .inl rfl⟩
      · have := h.take h0 hk0
        have hne : (i.take k).isEmpty = false := by
          rw [List.isEmpty_eq_false_iff]
          intro h1
          have := this.1.length_pos
          rw [h1] at this; simp at this
        unfold orZero
        rw [hne]
        exact ⟨rfl, this.1⟩
    have hD : (0 : K) < 10 ^ (i.length - k) := by positivity
    have hxx : x = (number (i.take k) : K) + (number (i.drop k) : K) / 10 ^ (i.length - k) := by
      rw [hx, mul_div_assoc, ← ten_sub]
      have : e - q = -((i.length - k : ℕ) : ℤ) := by omega
      rw [this, zpow_neg, zpow_natCast, ← div_eq_mul_inv, number_take_drop i k]
      push_cast
      field_simp
    have hlt : (number (i.drop k) : K) / 10 ^ (i.length - k) < 1 := by
      rw [div_lt_one hD]
      exact_mod_cast number_drop_lt h.digits k
    have hnn : (0 : K) ≤ (number (i.drop k) : K) / 10 ^ (i.length - k) := div_nonneg (by positivity) hD.le
    rw [e1]
    simp only [hoz.1]
    obtain ⟨r0, r1, r2⟩ := roundBy_spec (K := K) m s h.digits hkl
    refine ⟨hoz.2, by rw [hxx]; linarith, by rw [hxx]; linarith, ?_⟩
    rcases Nat.eq_zero_or_pos (number (i.drop k)) with hz | hz
    · left
      have : x = (number (i.take k) : K) := by rw [hxx, hz]; simp
      refine ⟨this, r0 hz, ?_⟩
      rw [this]
      exact_mod_cast roundAbs_int (K := K) m s (number (i.take k))
    · right
      have hpos : (0 : K) < (number (i.drop k) : K) / 10 ^ (i.length - k) := div_pos (by exact_mod_cast hz) hD
      have hne : x ≠ (number (i.take k) : K) := by rw [hxx]; intro h1; linarith
      rcases Classical.em (Away m s (number (i.take k)) ((number (i.drop k) : K) / 10 ^ (i.length - k))) with h4 | h4
      · left
        refine ⟨hne, r1 hz h4, ?_⟩
        have := roundAbs_away hpos hlt h4
        rw [hxx]; exact_mod_cast this
      · right
        refine ⟨hne, r2 hz h4, ?_⟩
        have := roundAbs_toward hpos hlt h4
        rw [hxx]; exact_mod_cast this

theorem handleOverflow_eq (c : Ctx) (s : Bool) : handleOverflow c s = tooLarge c s := by
  unfold handleOverflow tooLarge
  cases c.rounding <;> cases s <;> rfl

theorem not_isZero_tooLarge {c : Ctx} (hc : c.Ok) (s : Bool) : isZero (tooLarge c s) = false := by
  have h : (List.replicate c.prec 9 == [0]) = false := by
    obtain ⟨k, hk⟩ : ∃ k, c.prec = k + 1 := ⟨c.prec - 1, by have := hc.prec; omega⟩
    rw [hk, List.replicate_succ]; rfl
  unfold tooLarge
  split <;> simp only [isZero, h]

/-- The digits after rounding: number `n`, and one digit less if there are too many. -/
theorem bump_spec {p t : Nat} (hp : 1 ≤ p) (ht : t < 10 ^ p) :
    ((str (t + 1)).length > p ↔ t + 1 = 10 ^ p) ∧
    (t + 1 = 10 ^ p → number (str (t + 1)).dropLast = 10 ^ (p - 1) ∧ IsCoeff (str (t + 1)).dropLast ∧ (str (t + 1)).dropLast.length = p) := by
  have h1 : (str (t + 1)).length > p ↔ t + 1 = 10 ^ p := by
    rw [gt_iff_lt, ← Nat.not_le, length_str_le (by omega)]; omega
  refine ⟨h1, fun h => ?_⟩
  have hl : (str (t + 1)).length = p + 1 := by
    refine Nat.le_antisymm ((length_str_le (by omega)).2 ?_) (h1.2 h)
    rw [h]; exact Nat.pow_lt_pow_right (by omega) (by omega)
  have hd : (str (t + 1)).dropLast = (str (t + 1)).take p := by rw [List.dropLast_eq_take, hl]; rfl
  have hn := number_str (t + 1)
  rw [number_take_drop _ p, hl] at hn
  have h2 := number_drop_lt (isCoeff_str (t + 1)).digits p
  rw [hl] at h2
  have hp' : 10 ^ p = 10 * 10 ^ (p - 1) := by rw [Nat.mul_comm, ← Nat.pow_succ]; congr 1; omega
  have e1 : p + 1 - p = 1 := by omega
  rw [e1] at hn h2
  rw [hd]
  refine ⟨by omega, ((isCoeff_str _).take (str_ne_zero (by omega)) (by omega)).1, ?_⟩
  rw [List.length_take, hl]; omega

/-! ### Signals -/

/-- Signals by precedence. -/
def flags (a b c d e f : Bool) : List Sig :=
  (if a then [.overflow] else []) ++ (if b then [.underflow] else []) ++ (if c then [.subnormal] else []) ++
    (if d then [.inexact] else []) ++ (if e then [.rounded] else []) ++ (if f then [.clamped] else [])

theorem flags_sublist : ∀ a b c d e f : Bool, (flags a b c d e f).Sublist precedence := by decide

theorem mem_flags {a b c d e f : Bool} (g : Sig) : g ∈ flags a b c d e f ↔ match g with
    | .overflow => a = true
    | .underflow => b = true
    | .subnormal => c = true
    | .inexact => d = true
    | .rounded => e = true
    | .clamped => f = true
    | _ => False := by
  unfold flags
  cases g <;> simp

theorem raises_flags {a b c d e f : Bool} {p : Sig → Prop} (h : ∀ g, g ∈ flags a b c d e f ↔ p g) : Raises p (flags a b c d e f) :=
  ⟨flags_sublist a b c d e f, h⟩

/-- The part of `_fix` that rounds. -/
theorem fixRound_spec {c : Ctx} (hc : c.Ok) (s : Bool) {i : Digits} (h : IsCoeff i) (h0 : i ≠ [0]) {e q : ℤ} (he : e < q)
    (hq : q = max (e + i.length - 1 - c.prec + 1) (c.emin - c.prec + 1)) (hadj : e + i.length - 1 ≤ c.emax) {b : Bool}
    (hb : b = decide (e + i.length - 1 < c.emin)) : IsRounding c s ((number i : K) * 10 ^ e) e (fixRound c s i e q b) := by
  intro adj ha1 ha2
  obtain ⟨hM1, hM2⟩ := h.adj (K := K) h0 e
  have hadj' := adj_unique ha1 ha2 hM1 hM2
  subst hadj'
  generalize hMM : (number i : K) * 10 ^ e = M at *
  have hp := hc.prec
  rw [← hq]
  obtain ⟨c1, c2, c3, c4⟩ := cut_spec c.rounding s h h0 he (x := M / 10 ^ q) (by rw [hMM])
  have hsub : b = true ↔ M < 10 ^ c.emin := by
    rw [hb, decide_eq_true_eq]
    constructor
    · exact fun h1 => lt_of_lt_of_le hM2 (ten_le.2 (by omega))
    · exact fun h1 => ten_lt.1 (lt_of_le_of_lt hM1 h1)
  have hMpos : 0 < M := lt_of_lt_of_le (ten_pos _) hM1
  have hx0 : 0 < M / 10 ^ q := div_pos hMpos (ten_pos q)
  have hM10 : M = M / 10 ^ q * 10 ^ q := by rw [div_mul_cancel₀ _ (ten_pos q).ne']
  unfold fixRound
  generalize cut c.rounding s i e q = r at *
  obtain ⟨changed, coeff⟩ := r
  simp only at c1 c2 c3 c4 ⊢
  generalize ht : number coeff = t at *
  have htp : t < 10 ^ c.prec := by
    have h1 : (t : K) < ((10 ^ c.prec : ℕ) : K) := by
      refine lt_of_le_of_lt c2 ?_
      rw [← ten_nat, div_lt_iff₀ (ten_pos q), ← ten_add]
      exact lt_of_lt_of_le hM2 (ten_le.2 (by omega))
    exact_mod_cast h1
  have hqtop : q ≤ c.etop := by unfold Ctx.etop; have := hc.emin; have := hc.emax; omega
  generalize roundAbs c.rounding s (M / 10 ^ q) = n at *
  -- the digits, when they are kept as they are
  have keep : changed ≤ 0 → n = t → ((n : K) * 10 ^ q = M ↔ changed = 0) → 
      ((10 : K) ^ (c.emax + 1) ≤ n * 10 ^ q →
        (fixFinish c s changed coeff q b).2 = tooLarge c s ∧ Raises (fun g => g = .overflow ∨ g = .inexact ∨ g = .rounded) (fixFinish c s changed coeff q b).1) ∧
      (n * 10 ^ q < (10 : K) ^ (c.emax + 1) →
        ∃ cf x, (fixFinish c s changed coeff q b).2 = .fin s cf x ∧ Fits c cf x ∧ (number cf : K) * 10 ^ x = n * 10 ^ q ∧
          x = (if e < q then (if n = 10 ^ c.prec then q + 1 else q) else if c.clamp then min e (c.emax - c.prec + 1) else e) ∧
          Raises (fun g => match g with
            | .subnormal => M < 10 ^ c.emin
            | .inexact => (n : K) * 10 ^ q ≠ M
            | .underflow => M < 10 ^ c.emin ∧ (n : K) * 10 ^ q ≠ M
            | .rounded => e < q
            | .clamped => n = 0 ∨ (q ≤ e ∧ c.clamp = true ∧ c.emax - c.prec + 1 < e)
            | _ => False) (fixFinish c s changed coeff q b).1) := by
    intro hch hn hex
    have hfin : fixFinish c s changed coeff q b =
        (flags false (decide (changed ≠ 0) && b) b (decide (changed ≠ 0)) true (coeff == [0]), .fin s coeff q) := by
      unfold fixFinish flags
      have h1 : ¬ changed > 0 := by omega
      have h2 : ¬ q > c.etop := by omega
      simp only [decide_eq_false h1, Bool.false_and, Bool.false_eq_true, if_false, if_neg h1, if_neg h2, isZero]
      simp
    have hlen : coeff ≠ [0] → coeff.length ≤ c.prec := fun h1 => (c1.length_le h1).2 (by rw [ht]; exact htp)
    rw [hfin]
    constructor
    · intro h1
      exfalso
      rw [hn] at h1
      have h2 : (t : K) * 10 ^ q < 10 ^ (c.emax + 1) := by
        have h3 : (t : K) < 10 ^ (c.prec : ℤ) := by rw [ten_nat]; exact_mod_cast htp
        refine lt_of_lt_of_le (mul_lt_mul_of_pos_right h3 (ten_pos q)) ?_
        rw [← ten_add]
        exact ten_le.2 (by unfold Ctx.etop at hqtop; omega)
      push_cast at h1
      linarith
    · intro _
      refine ⟨coeff, q, rfl, ⟨c1, ?_, by omega, fun h1 => ?_, fun _ => by unfold Ctx.etop at hqtop; omega⟩, by rw [ht, hn]; push_cast; rfl, ?_, ?_⟩
      · by_cases h1 : coeff = [0]
        · rw [h1]; exact hp
        · exact hlen h1
      · have := hlen h1
        unfold Ctx.etop at hqtop; omega
      · rw [if_pos he, if_neg]
        rw [hn]; intro h1
        have : t = 10 ^ c.prec := by exact_mod_cast h1
        omega
      · refine raises_flags fun g => ?_
        rw [mem_flags]
        cases g <;> simp only [Bool.and_eq_true, decide_eq_true_eq, hsub, ne_eq, hex, beq_iff_eq, Bool.false_eq_true]
        · rw [← c1.eq_zero, ht, hn]
          constructor
          · intro h1; left; exact_mod_cast h1
          · rintro (h1 | ⟨h1, _⟩)
            · exact_mod_cast h1
            · omega
        · simp only [he]
        · tauto
  rcases c4 with ⟨c4, c5, c6⟩ | ⟨c4, c5, c6⟩ | ⟨c4, c5, c6⟩
  · refine keep (by omega) c6 ?_
    rw [c6, hM10]; push_cast
    simp only [c5]
    rw [← c4, ← hM10]; simp
  · -- one more
    obtain ⟨b1, b2⟩ := bump_spec hp htp
    have hinex : (n : K) * 10 ^ q ≠ M := by
      intro h1
      rw [c6] at h1
      push_cast at h1
      rw [hM10] at h1
      have := mul_right_cancel₀ (ten_pos q).ne' h1
      linarith
    have hn0 : n ≠ 0 := by omega
    by_cases hcarry : t + 1 = 10 ^ c.prec
    · obtain ⟨d1, d2, d3⟩ := b2 hcarry
      have hnp : n = 10 ^ c.prec := by rw [c6]; exact_mod_cast hcarry
      have hval : (n : K) * 10 ^ q = 10 ^ (c.prec + q) := by rw [hnp, ten_add, ten_nat]; push_cast; rfl
      have hdz : ((str (t + 1)).dropLast == [0]) = false := by
        rw [beq_eq_false_iff_ne]
        intro h1
        rw [h1] at d1
        have : 0 < 10 ^ (c.prec - 1) := Nat.pow_pos (by omega)
        change 0 = _ at d1
        omega
      by_cases hover : q + 1 > c.etop
      · have hfin : fixFinish c s changed coeff q b = (flags true b b true true false, tooLarge c s) := by
          unfold fixFinish flags
          rw [toInt_eq, ht, c5]
          simp only [show (1 : ℤ) > 0 from by omega, decide_true, Bool.true_and, decide_eq_true (b1.2 hcarry), if_true, hover,
            handleOverflow_eq, not_isZero_tooLarge hc]
          simp
        have hb0 : b = false := by
          rw [hb, decide_eq_false_iff_not]
          unfold Ctx.etop at hover hqtop
          have := hc.emin; have := hc.emax
          by_contra h1
          have hq2 : q = c.emin - c.prec + 1 := by omega
          have : c.emax = c.emin := by omega
          -- the magnitude is below the smallest normal number, so that rounding does not carry
          have h2 : M / 10 ^ q < 10 ^ ((c.prec : ℤ) - 1) := by
            rw [div_lt_iff₀ (ten_pos q), ← ten_add]
            exact lt_of_lt_of_le hM2 (ten_le.2 (by omega))
          have h3 : (t : K) < 10 ^ ((c.prec : ℤ) - 1) := lt_of_le_of_lt c2 h2
          rw [show (c.prec : ℤ) - 1 = ((c.prec - 1 : ℕ) : ℤ) by omega, ten_nat] at h3
          have h4 : t < 10 ^ (c.prec - 1) := by exact_mod_cast h3
          have h5 : 10 ^ c.prec = 10 * 10 ^ (c.prec - 1) := by rw [Nat.mul_comm, ← Nat.pow_succ]; congr 1; omega
          omega
        rw [hfin, hb0]
        constructor
        · intro _
          refine ⟨rfl, raises_flags fun g => ?_⟩
          rw [mem_flags]
          cases g <;> simp
        · intro h1
          exfalso
          rw [hval, ten_lt] at h1
          unfold Ctx.etop at hover; omega
      · have hfin : fixFinish c s changed coeff q b = (flags false b b true true false, .fin s (str (t + 1)).dropLast (q + 1)) := by
          unfold fixFinish flags
          rw [toInt_eq, ht, c5]
          simp only [show (1 : ℤ) > 0 from by omega, decide_true, Bool.true_and, decide_eq_true (b1.2 hcarry), if_true, hover, if_false,
            isZero, hdz]
          simp
        rw [hfin]
        constructor
        · intro h1
          exfalso
          rw [hval, ten_le] at h1
          unfold Ctx.etop at hover; omega
        · intro _
          refine ⟨_, _, rfl, ⟨d2, by omega, by omega, fun _ => ?_, fun _ => ?_⟩, ?_, ?_, ?_⟩
          · unfold Ctx.etop at hover; omega
          · unfold Ctx.etop at hover; omega
          · rw [hval, d1, ← ten_nat, ← ten_add]; congr 1; omega
          · rw [if_pos he, if_pos hnp]
          · refine raises_flags fun g => ?_
            rw [mem_flags]
            cases g <;> simp only [hsub, ne_eq, hinex, Bool.false_eq_true, not_false_eq_true, and_true, he, hn0, false_or, false_iff]
            omega
    · have hnlt : t + 1 < 10 ^ c.prec := by omega
      have hlen := (length_str_le (k := c.prec) (n := t + 1) (by omega)).2 hnlt
      have hfin : fixFinish c s changed coeff q b = (flags false b b true true false, .fin s (str (t + 1)) q) := by
        unfold fixFinish flags
        have h2 : ¬ q > c.etop := by omega
        rw [toInt_eq, ht, c5]
        simp only [show (1 : ℤ) > 0 from by omega, decide_true, Bool.true_and, decide_eq_false (mt b1.1 hcarry), if_true, h2,
          isZero, beq_eq_false_iff_ne.2 (str_ne_zero (Nat.succ_ne_zero t)), Bool.false_eq_true, if_false]
        simp
      rw [hfin]
      constructor
      · intro h1
        exfalso
        rw [c6] at h1
        have h2 : ((t + 1 : ℕ) : K) * 10 ^ q < 10 ^ (c.emax + 1) := by
          have h3 : ((t + 1 : ℕ) : K) < 10 ^ (c.prec : ℤ) := by rw [ten_nat]; exact_mod_cast hnlt
          refine lt_of_lt_of_le (mul_lt_mul_of_pos_right h3 (ten_pos q)) ?_
          rw [← ten_add]
          exact ten_le.2 (by unfold Ctx.etop at hqtop; omega)
        push_cast at h1 h2
        linarith
      · intro _
        refine ⟨_, _, rfl, ⟨isCoeff_str _, hlen, by omega, fun _ => ?_, fun _ => ?_⟩, ?_, ?_, ?_⟩
        · unfold Ctx.etop at hqtop; omega
        · unfold Ctx.etop at hqtop; omega
        · rw [number_str, c6]; push_cast; rfl
        · rw [if_pos he, if_neg]
          rw [c6]; intro h1
          exact hcarry (by exact_mod_cast h1)
        · refine raises_flags fun g => ?_
          rw [mem_flags]
          cases g <;> simp only [hsub, ne_eq, hinex, Bool.false_eq_true, not_false_eq_true, and_true, he, hn0, false_or, false_iff]
          omega
  · refine keep (by omega) c6 ?_
    constructor
    · intro h1
      rw [c6, hM10] at h1
      exact absurd (mul_right_cancel₀ (ten_pos q).ne' h1).symm (by push_cast; exact c4)
    · omega

/-- `_fix` rounds as the specification says. -/
theorem fixFin_spec {c : Ctx} (hc : c.Ok) (s : Bool) {i : Digits} (h : IsCoeff i) (h0 : i ≠ [0]) (e : ℤ) :
    IsRounding c s ((number i : K) * 10 ^ e) e (fixFin c s i e) := by
  have hp := hc.prec
  have hmin := hc.emin
  have hmax := hc.emax
  unfold fixFin
  rw [if_neg (by simpa using h0)]
  dsimp only
  by_cases hover : (i.length : ℤ) + e - c.prec > c.etop
  · rw [if_pos hover]
    intro adj ha1 ha2
    obtain ⟨hM1, hM2⟩ := h.adj (K := K) h0 e
    have hadj' := adj_unique ha1 ha2 hM1 hM2
    subst hadj'
    unfold Ctx.etop at hover
    rw [max_eq_left (by omega)]
    generalize (number i : K) * 10 ^ e = M at *
    dsimp only
    have hbig : (10 : K) ^ (c.emax + 1) ≤ (roundAbs c.rounding s (M / 10 ^ (e + i.length - 1 - c.prec + 1)) : K) * 10 ^ (e + i.length - 1 - c.prec + 1 : ℤ) := by
      generalize hqq : e + (i.length : ℤ) - 1 - c.prec + 1 = q at *
      have h1 : ((10 ^ (c.prec - 1) : ℕ) : ℤ) ≤ ⌊M / 10 ^ q⌋ := by
        rw [Int.le_floor, Int.cast_natCast, ← ten_nat, le_div_iff₀ (ten_pos q), ← ten_add]
        exact le_trans (ten_le.2 (by omega)) hM1
      have h2 := le_trans h1 (roundAbs_ge c.rounding s _)
      have h3 : ((10 ^ (c.prec - 1) : ℕ) : K) ≤ (roundAbs c.rounding s (M / 10 ^ q) : K) := by exact_mod_cast h2
      refine le_trans ?_ (mul_le_mul_of_nonneg_right h3 (ten_pos q).le)
      rw [← ten_nat, ← ten_add, ten_le]
      omega
    refine ⟨fun _ => ⟨handleOverflow_eq c s, ?_⟩, fun h1 => absurd hbig (not_le.2 h1)⟩
    refine ⟨by decide, fun g => ?_⟩
    cases g <;> simp
  · rw [if_neg hover]
    unfold Ctx.etop at hover
    have hq : (if decide ((i.length : ℤ) + e - c.prec < c.etiny) = true then c.etiny else (i.length : ℤ) + e - c.prec) =
        max (e + i.length - 1 - c.prec + 1) (c.emin - c.prec + 1) := by
      unfold Ctx.etiny
      by_cases h1 : (i.length : ℤ) + e - c.prec < c.emin - c.prec + 1
      · rw [if_pos (by simpa using h1), max_eq_right (by omega)]
      · rw [if_neg (by simpa using h1), max_eq_left (by omega)]; omega
    rw [hq]
    generalize hqq : max (e + (i.length : ℤ) - 1 - c.prec + 1) (c.emin - c.prec + 1) = q at *
    have hb : decide ((i.length : ℤ) + e - c.prec < c.etiny) = decide (e + (i.length : ℤ) - 1 < c.emin) := by
      unfold Ctx.etiny
      rw [decide_eq_decide]; omega
    rw [hb]
    by_cases he : e < q
    · rw [if_pos he]
      exact fixRound_spec hc s h h0 he hqq.symm (by omega) rfl
    · rw [if_neg he]
      intro adj ha1 ha2
      obtain ⟨hM1, hM2⟩ := h.adj (K := K) h0 e
      have hadj' := adj_unique ha1 ha2 hM1 hM2
      subst hadj'
      rw [hqq]
      dsimp only
      have hx : (number i : K) * 10 ^ e / 10 ^ q = (((number i * 10 ^ (e - q).toNat : ℕ) : ℤ) : K) := by
        rw [mul_div_assoc, ← ten_sub, ten_toNat (by omega)]; push_cast; rfl
      have hM10 : (number i : K) * 10 ^ e = (number i : K) * 10 ^ e / 10 ^ q * 10 ^ q := by rw [div_mul_cancel₀ _ (ten_pos q).ne']
      have hn : (roundAbs c.rounding s ((number i : K) * 10 ^ e / 10 ^ q) : K) * 10 ^ q = (number i : K) * 10 ^ e := by
        conv_rhs => rw [hM10]
        rw [hx, roundAbs_int]
      have hn0 : roundAbs c.rounding s ((number i : K) * 10 ^ e / 10 ^ q) ≠ 0 := by
        intro h1
        rw [h1] at hn
        have := h.pos h0
        have : (0 : K) < (number i : K) * 10 ^ e := mul_pos (by exact_mod_cast this) (ten_pos e)
        simp at hn
        rcases hn with h2 | h2
        · rw [h2] at this; simp at this
        · exact absurd h2.symm (ten_pos e).ne
      have hsub : e + (i.length : ℤ) - 1 < c.emin ↔ (number i : K) * 10 ^ e < 10 ^ c.emin := by
        constructor
        · exact fun h1 => lt_of_lt_of_le hM2 (ten_le.2 (by omega))
        · exact fun h1 => ten_lt.1 (lt_of_le_of_lt hM1 h1)
      refine ⟨fun h1 => ?_, fun _ => ?_⟩
      · exfalso
        rw [hn] at h1
        have := lt_of_le_of_lt h1 hM2
        rw [ten_lt] at this
        omega
      · simp only [if_neg he, hn]
        by_cases hfold : c.clamp = true ∧ e > c.emax - c.prec + 1
        · have hcond : (c.clamp && decide (e > c.etop)) = true := by
            unfold Ctx.etop
            rw [hfold.1]; simpa using hfold.2
          rw [if_pos hcond, hfold.1]
          refine ⟨_, _, rfl, ⟨h.pad h0 _, ?_, by unfold Ctx.etop; omega, fun _ => ?_, fun _ => le_refl _⟩, ?_, ?_, ?_⟩
          · rw [length_pad]; unfold Ctx.etop; omega
          · rw [length_pad]; unfold Ctx.etop; omega
          · rw [number_pad]; push_cast
            have : (10 : K) ^ e = 10 ^ (e - c.etop) * 10 ^ c.etop := by rw [← ten_add]; congr 1; omega
            rw [this, ten_toNat (a := e - c.etop) (by unfold Ctx.etop; omega)]
            push_cast; ring
          · rw [if_pos rfl, min_eq_right (by omega)]; rfl
          · have hl : (if decide (e + (i.length : ℤ) - 1 < c.emin) = true then [Sig.subnormal] else []) ++ [.clamped] =
                flags false false (decide (e + (i.length : ℤ) - 1 < c.emin)) false false true := by
              unfold flags; simp
            rw [hl]
            refine raises_flags fun g => ?_
            rw [mem_flags]
            cases g <;> simp only [decide_eq_true_eq, hsub, Bool.false_eq_true, ne_eq, not_true, and_false, he]
            simp only [true_iff]
            exact .inr ⟨by omega, trivial, hfold.2⟩
        · have hcond : ¬ (c.clamp && decide (e > c.etop)) = true := by
            unfold Ctx.etop
            rw [Bool.and_eq_true, decide_eq_true_eq]
            exact hfold
          rw [if_neg hcond]
          refine ⟨_, _, rfl, ⟨h, by omega, by omega, fun _ => by omega, fun h1 => ?_⟩, rfl, ?_, ?_⟩
          · by_contra h2
            exact hfold ⟨h1, by omega⟩
          · by_cases h1 : c.clamp = true
            · rw [if_pos h1, min_eq_left]
              by_contra h2
              exact hfold ⟨h1, by omega⟩
            · rw [if_neg h1]
          · have hl : (if decide (e + (i.length : ℤ) - 1 < c.emin) = true then [Sig.subnormal] else []) =
                flags false false (decide (e + (i.length : ℤ) - 1 < c.emin)) false false false := by
              unfold flags; simp
            rw [hl]
            refine raises_flags fun g => ?_
            rw [mem_flags]
            cases g <;> simp only [decide_eq_true_eq, hsub, Bool.false_eq_true, ne_eq, not_true, and_false, he]
            simp only [false_iff]
            rintro (h1 | ⟨_, h1, h2⟩)
            · exact hn0 h1
            · exact hfold ⟨h1, h2⟩

/-- `_fix` of a zero. -/
theorem fixFin_zero (c : Ctx) (s : Bool) (e : ℤ) : IsZeroResult c s e (fixFin c s [0] e) := by
  unfold fixFin IsZeroResult Ctx.etiny Ctx.etop
  simp only [beq_self_eq_true, if_true]
  generalize min (max e (c.emin - c.prec + 1)) (if c.clamp = true then c.emax - c.prec + 1 else c.emax) = x
  by_cases h : x = e
  · rw [if_neg (by simpa using h), if_pos h, h]; exact ⟨rfl, rfl⟩
  · rw [if_pos h, if_neg h]; exact ⟨rfl, rfl⟩

/-! ### Values that round alike -/

/-- The result depends on the ideal exponent only if that is not below the unit. -/
theorem IsRounding.of_lt {c : Ctx} {s : Bool} {M : K} {e e' : ℤ} {o : Out Dec} (h : IsRounding c s M e o)
    {a : ℤ} (ha1 : 10 ^ a ≤ M) (ha2 : M < 10 ^ (a + 1)) (he : e < a - c.prec + 1) (he' : e' < a - c.prec + 1) : IsRounding c s M e' o := by
  intro adj h1 h2
  have hadj := adj_unique h1 h2 ha1 ha2
  subst hadj
  have := h adj h1 h2
  have e1 : e < max (adj - c.prec + 1) (c.emin - c.prec + 1) := lt_of_lt_of_le he (le_max_left _ _)
  have e2 : e' < max (adj - c.prec + 1) (c.emin - c.prec + 1) := lt_of_lt_of_le he' (le_max_left _ _)
  have e3 := e1.not_ge
  have e4 := e2.not_ge
  simp only [e1, e3, if_true, false_and, or_false] at this
  simp only [e2, e4, if_true, false_and, or_false]
  exact this

/-- Magnitudes strictly between the same multiples of half a unit round alike. -/
theorem roundAbs_cell (m : Mode) (s : Bool) {x y : K} {j : ℤ} {L : ℕ} (hL : 0 < L) (hx1 : (j : K) / (2 * L) < x) (hx2 : x < (j + 1) / (2 * L))
    (hy1 : (j : K) / (2 * L) < y) (hy2 : y < (j + 1) / (2 * L)) :
    roundAbs m s x = roundAbs m s y ∧ (roundAbs m s x : K) ≠ x := by
  have hL2 : (0 : K) < 2 * L := by positivity
  -- the integral part, and where the half is
  have key : ∀ z : K, (j : K) / (2 * L) < z → z < (j + 1) / (2 * L) →
      (∀ n : ℤ, (n : K) < z ↔ n * (2 * L) ≤ j) ∧ (∀ n : ℤ, (n : K) + 1 / 2 < z ↔ n * (2 * L) + L ≤ j) ∧
      (∀ n : ℤ, z < n ↔ j + 1 ≤ n * (2 * L)) ∧ (∀ n : ℤ, z < (n : K) + 1 / 2 ↔ j + 1 ≤ n * (2 * L) + L) := by
    intro z h1 h2
    rw [div_lt_iff₀ hL2] at h1
    rw [lt_div_iff₀ hL2] at h2
    refine ⟨fun n => ?_, fun n => ?_, fun n => ?_, fun n => ?_⟩
    · constructor
      · intro h3
        have h4 : (n : K) * (2 * L) < j + 1 := lt_trans (mul_lt_mul_of_pos_right h3 hL2) h2
        have : n * (2 * L) < j + 1 := by exact_mod_cast h4
        omega
      · intro h3
        have h4 : (n : K) * (2 * L) ≤ j := by exact_mod_cast h3
        exact lt_of_mul_lt_mul_right (lt_of_le_of_lt h4 h1) hL2.le
    · have e1 : ((n : K) + 1 / 2) * (2 * L) = n * (2 * L) + L := by ring
      constructor
      · intro h3
        have h4 : ((n : K) + 1 / 2) * (2 * L) < j + 1 := lt_trans (mul_lt_mul_of_pos_right h3 hL2) h2
        rw [e1] at h4
        have : n * (2 * L) + L < j + 1 := by exact_mod_cast h4
        omega
      · intro h3
        have h4 : (n : K) * (2 * L) + L ≤ j := by exact_mod_cast h3
        rw [← e1] at h4
        exact lt_of_mul_lt_mul_right (lt_of_le_of_lt h4 h1) hL2.le
    · constructor
      · intro h3
        have h4 : (j : K) < n * (2 * L) := lt_trans h1 (mul_lt_mul_of_pos_right h3 hL2)
        have : j < n * (2 * L) := by exact_mod_cast h4
        omega
      · intro h3
        have h4 : (j : K) + 1 ≤ n * (2 * L) := by exact_mod_cast h3
        exact lt_of_mul_lt_mul_right (lt_of_lt_of_le h2 h4) hL2.le
    · have e1 : ((n : K) + 1 / 2) * (2 * L) = n * (2 * L) + L := by ring
      constructor
      · intro h3
        have h4 : (j : K) < ((n : K) + 1 / 2) * (2 * L) := lt_trans h1 (mul_lt_mul_of_pos_right h3 hL2)
        rw [e1] at h4
        have : j < n * (2 * L) + L := by exact_mod_cast h4
        omega
      · intro h3
        have h4 : (j : K) + 1 ≤ n * (2 * L) + L := by exact_mod_cast h3
        rw [← e1] at h4
        exact lt_of_mul_lt_mul_right (lt_of_lt_of_le h2 h4) hL2.le
  obtain ⟨x1, x2, x3, x4⟩ := key x hx1 hx2
  obtain ⟨y1, y2, y3, y4⟩ := key y hy1 hy2
  -- no integer is in the cell
  have xni : ∀ n : ℤ, (n : K) ≠ x := by
    intro n hn
    have h1 := mt (x1 n).2 (by rw [hn]; exact lt_irrefl _)
    have h2 := mt (x3 n).2 (by rw [hn]; exact lt_irrefl _)
    omega
  have hfl : ⌊x⌋ = ⌊y⌋ := by
    have f1 : (⌊x⌋ : K) < x := lt_of_le_of_ne (Int.floor_le x) (xni _)
    have f2 : x < ((⌊x⌋ + 1 : ℤ) : K) := by push_cast; exact Int.lt_floor_add_one x
    rw [x1, ← y1] at f1
    rw [x3, ← y3] at f2
    exact (Int.floor_eq_iff.2 ⟨f1.le, by push_cast at f2; exact f2⟩).symm
  have hfx : (⌊x⌋ : K) < x := lt_of_le_of_ne (Int.floor_le x) (xni _)
  have hfy : (⌊x⌋ : K) < y := by rw [x1, ← y1] at hfx; exact hfx
  have hgx := Int.lt_floor_add_one x
  have hgy := Int.lt_floor_add_one y
  rw [← hfl] at hgy
  have a1 : x - ⌊x⌋ < 1 / 2 ↔ y - ⌊x⌋ < 1 / 2 := by
    rw [sub_lt_iff_lt_add', sub_lt_iff_lt_add', x4, y4]
  have a2 : 1 / 2 < x - ⌊x⌋ ↔ 1 / 2 < y - ⌊x⌋ := by
    rw [lt_sub_iff_add_lt', lt_sub_iff_add_lt', x2, y2]
  have hc := away_congr (m := m) (s := s) (t := ⌊x⌋) a1 a2
  have ex : (⌊x⌋ : K) + (x - ⌊x⌋) = x := by ring
  have ey : (⌊x⌋ : K) + (y - ⌊x⌋) = y := by ring
  refine ⟨?_, xni _⟩
  rcases Classical.em (Away m s ⌊x⌋ (x - ⌊x⌋)) with h | h
  · have h1 := roundAbs_away (by linarith) (by linarith) h
    have h2 := roundAbs_away (by linarith) (by linarith) (hc.1 h)
    rw [ex] at h1; rw [ey] at h2
    rw [h1, h2]
  · have h1 := roundAbs_toward (by linarith) (by linarith) h
    have h2 := roundAbs_toward (by linarith) (by linarith) (mt hc.2 h)
    rw [ex] at h1; rw [ey] at h2
    rw [h1, h2]

/-- Magnitudes in one cell of width `5 * 10^g`, where `g` is below the unit, have the same result. -/
theorem IsRounding.of_cell {c : Ctx} {s : Bool} {M M' : K} {e e' g j a : ℤ} {o : Out Dec} (h : IsRounding c s M' e' o)
    (hM1 : j * (5 * 10 ^ g) < M) (hM2 : M < (j + 1) * (5 * 10 ^ g)) (hM1' : j * (5 * 10 ^ g) < M') (hM2' : M' < (j + 1) * (5 * 10 ^ g))
    (ha1 : (10 : K) ^ a ≤ M') (ha2 : M' < 10 ^ (a + 1)) (hg : g < a - c.prec + 1) (hp : 1 ≤ c.prec)
    (he : e < a - c.prec + 1) (he' : e' < a - c.prec + 1) : IsRounding c s M e o := by
  -- powers of ten from the cell on are its bounds
  have hpow : ∀ b : ℤ, g < b → ∃ L : ℕ, 0 < L ∧ (10 : K) ^ b = (2 * L) * (5 * 10 ^ g) := by
    intro b hb
    refine ⟨10 ^ (b - g - 1).toNat, Nat.pow_pos (by omega), ?_⟩
    have : b = (b - g - 1) + 1 + g := by omega
    rw [this, ten_add, ten_add, ten_toNat (a := b - g - 1) (by omega)]
    have : (b - g - 1 + 1 + g - g - 1).toNat = (b - g - 1).toNat := by congr 1; omega
    rw [this]; norm_num; ring
  have hG : (0 : K) < 5 * 10 ^ g := mul_pos (by norm_num) (ten_pos g)
  have hle : ∀ b : ℤ, g < b → ((10 : K) ^ b ≤ M ↔ (10 : K) ^ b ≤ M') := by
    intro b hb
    obtain ⟨L, _, hL⟩ := hpow b hb
    rw [hL]
    have hcast : ((2 * L : ℕ) : K) = 2 * (L : K) := by push_cast; rfl
    constructor
    · intro h1
      have h2 : ((2 * L : ℕ) : K) < j + 1 := by rw [hcast]; exact lt_of_mul_lt_mul_right (lt_of_le_of_lt h1 hM2) hG.le
      have h3 : ((2 * L : ℕ) : ℤ) < j + 1 := by exact_mod_cast h2
      have h4 : ((2 * L : ℕ) : K) ≤ j := by exact_mod_cast (by omega : ((2 * L : ℕ) : ℤ) ≤ j)
      rw [hcast] at h4
      exact (lt_of_le_of_lt (mul_le_mul_of_nonneg_right h4 hG.le) hM1').le
    · intro h1
      have h2 : ((2 * L : ℕ) : K) < j + 1 := by rw [hcast]; exact lt_of_mul_lt_mul_right (lt_of_le_of_lt h1 hM2') hG.le
      have h3 : ((2 * L : ℕ) : ℤ) < j + 1 := by exact_mod_cast h2
      have h4 : ((2 * L : ℕ) : K) ≤ j := by exact_mod_cast (by omega : ((2 * L : ℕ) : ℤ) ≤ j)
      rw [hcast] at h4
      exact (lt_of_le_of_lt (mul_le_mul_of_nonneg_right h4 hG.le) hM1).le
  intro adj h1 h2
  have hadj := adj_unique h1 h2 ((hle a (by omega)).2 ha1) (not_le.1 (mt (hle (a + 1) (by omega)).1 (not_le.2 ha2)))
  subst hadj
  have h1' := ha1
  have h2' := ha2
  have := h adj h1' h2'
  have e1 : e < max (adj - c.prec + 1) (c.emin - c.prec + 1) := lt_of_lt_of_le he (le_max_left _ _)
  have e2 : e' < max (adj - c.prec + 1) (c.emin - c.prec + 1) := lt_of_lt_of_le he' (le_max_left _ _)
  have e3 := e1.not_ge
  have e4 := e2.not_ge
  have hgq : g < max (adj - c.prec + 1) (c.emin - c.prec + 1) := lt_of_lt_of_le hg (le_max_left _ _)
  have hqle : c.emin - c.prec + 1 ≤ max (adj - c.prec + 1) (c.emin - c.prec + 1) := le_max_right _ _
  have hsub : M < 10 ^ c.emin ↔ M' < 10 ^ c.emin := by
    constructor
    · intro h3
      have := ten_lt.1 (lt_of_le_of_lt h1 h3)
      exact lt_of_lt_of_le h2' (ten_le.2 (by omega))
    · intro h3
      have := ten_lt.1 (lt_of_le_of_lt h1' h3)
      exact lt_of_lt_of_le h2 (ten_le.2 (by omega))
  generalize max (adj - (c.prec : ℤ) + 1) (c.emin - c.prec + 1) = q at *
  obtain ⟨L, hL0, hL⟩ := hpow q hgq
  have hL2 : (0 : K) < 2 * L := by positivity
  have hcell := roundAbs_cell c.rounding s (x := M / 10 ^ q) (y := M' / 10 ^ q) (j := j) hL0
  have conv1 : ∀ z : K, (j : K) * (5 * 10 ^ g) < z → (j : K) / (2 * L) < z / 10 ^ q := by
    intro z hz
    rw [div_lt_div_iff₀ hL2 (ten_pos q), hL]
    nlinarith
  have conv2 : ∀ z : K, z < ((j : K) + 1) * (5 * 10 ^ g) → z / 10 ^ q < ((j : K) + 1) / (2 * L) := by
    intro z hz
    rw [div_lt_div_iff₀ (ten_pos q) hL2, hL]
    nlinarith
  obtain ⟨r1, r2⟩ := hcell (conv1 _ hM1) (conv2 _ hM2) (conv1 _ hM1') (conv2 _ hM2')
  have r3 : (roundAbs c.rounding s (M' / 10 ^ q) : K) ≠ M' / 10 ^ q :=
    (roundAbs_cell c.rounding s (j := j) hL0 (conv1 _ hM1') (conv2 _ hM2') (conv1 _ hM1) (conv2 _ hM2)).2
  have i1 : (roundAbs c.rounding s (M' / 10 ^ q) : K) * 10 ^ q ≠ M := by
    rw [← r1]; intro h3
    exact r2 (by rw [eq_div_iff (ten_pos q).ne']; exact h3)
  have i2 : (roundAbs c.rounding s (M' / 10 ^ q) : K) * 10 ^ q ≠ M' := by
    intro h3
    exact r3 (by rw [eq_div_iff (ten_pos q).ne']; exact h3)
  simp only [e2, e4, if_true, ne_eq, i2, not_false_eq_true, false_and, or_false] at this
  simp only [e1, e3, if_true, false_and, or_false, r1, hsub, ne_eq, i1, not_false_eq_true]
  exact this

end

end Verif.Decimal
