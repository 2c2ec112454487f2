/- Rounding in one direction, and the neighbours of a number. -/
import Verif.DecimalMore.Total
import Verif.Decimal.Props

namespace Verif.DecimalMore
open Verif.Decimal

/-- A magnitude that can be held. -/
def HoldsMag (c : Ctx) (W : ℚ) : Prop := ∃ i x, Fits c i x ∧ W = number i * 10 ^ x

theorem HoldsMag.nonneg {c : Ctx} {W : ℚ} (h : HoldsMag c W) : 0 ≤ W := by
  obtain ⟨i, x, _, rfl⟩ := h
  exact mul_nonneg (Nat.cast_nonneg _) (ten_pos x).le

theorem multiple {i : Digits} {x q : ℤ} (h : q ≤ x) : ∃ k : ℤ, (number i : ℚ) * 10 ^ x = k * 10 ^ q := by
  refine ⟨number i * 10 ^ (x - q).toNat, ?_⟩
  have : x = ((x - q).toNat : ℤ) + q := by omega
  rw [this, ten_add, ten_nat]
  push_cast
  have h2 : (((x - q).toNat : ℤ) + q - q).toNat = (x - q).toNat := by omega
  rw [h2]; ring

/-- Everything held is a multiple of the smallest unit. -/
theorem HoldsMag.tiny {c : Ctx} {W : ℚ} (h : HoldsMag c W) : ∃ k : ℤ, W = k * 10 ^ (c.emin - c.prec + 1) := by
  obtain ⟨i, x, h1, rfl⟩ := h
  exact multiple h1.least

/-- Large held magnitudes are multiples of a larger unit. -/
theorem HoldsMag.unit {c : Ctx} {W : ℚ} (h : HoldsMag c W) {adj : ℤ} (ha : (10 : ℚ) ^ adj ≤ W) :
    ∃ k : ℤ, W = k * 10 ^ (max (adj - c.prec + 1) (c.emin - c.prec + 1)) := by
  obtain ⟨i, x, h1, rfl⟩ := h
  apply multiple
  have h2 : (number i : ℚ) * 10 ^ x < 10 ^ (x + c.prec) := by
    have h3 : (number i : ℚ) < 10 ^ (c.prec : ℤ) := by
      rw [ten_nat]
      exact_mod_cast lt_of_lt_of_le h1.wellFormed.lt (Nat.pow_le_pow_right (by norm_num) h1.length)
    rw [add_comm, ten_add]
    exact mul_lt_mul_of_pos_right h3 (ten_pos x)
  have h4 := ten_lt.1 (lt_of_le_of_lt ha h2)
  have := h1.least
  omega

theorem number_nines (n : ℕ) : number (List.replicate n 9) + 1 = 10 ^ n := by
  induction n with
  | zero => rfl
  | succ n ih => rw [List.replicate_succ, number, List.length_replicate, Nat.pow_succ]; omega

theorem nines_coeff {n : ℕ} (h : 1 ≤ n) : IsCoeff (List.replicate n 9) := by
  cases n with
  | zero => omega
  | succ n =>
    right
    refine ⟨9, List.replicate n 9, List.replicate_succ .., by norm_num, ?_⟩
    intro x hx
    rw [← List.replicate_succ] at hx
    rw [List.eq_of_mem_replicate hx]; norm_num

/-- The largest number can be held. -/
theorem fits_largest {c : Ctx} (hc : c.Ok) : Fits c (List.replicate c.prec 9) (c.emax - c.prec + 1) := by
  have := hc.emin; have := hc.emax
  exact ⟨nines_coeff hc.prec, by simp, by omega, fun _ => by rw [List.length_replicate]; omega, fun _ => le_refl _⟩

theorem largest_value (c : Ctx) : (number (List.replicate c.prec 9) : ℚ) * 10 ^ (c.emax - c.prec + 1) = 10 ^ (c.emax + 1) - 10 ^ (c.emax - c.prec + 1) := by
  have h1 : (number (List.replicate c.prec 9) : ℚ) = 10 ^ (c.prec : ℤ) - 1 := by
    have h2 := number_nines c.prec
    have h3 : (number (List.replicate c.prec 9) : ℚ) + 1 = ((10 ^ c.prec : ℕ) : ℚ) := by exact_mod_cast h2
    rw [ten_nat]; linarith
  rw [h1, sub_mul, one_mul, ← ten_add]
  congr 2; omega

/-- and it is the largest one. -/
theorem HoldsMag.le_largest {c : Ctx} {W : ℚ} (h : HoldsMag c W) :
    W ≤ number (List.replicate c.prec 9) * 10 ^ (c.emax - c.prec + 1) := by
  rw [largest_value]
  obtain ⟨i, x, h1, rfl⟩ := h
  by_cases h0 : i = [0]
  · subst h0
    simp only [number, List.length_nil, pow_zero, mul_one, Nat.cast_zero, zero_mul, add_zero]
    have := ten_le (K := ℚ).2 (show c.emax - c.prec + 1 ≤ c.emax + 1 by omega)
    linarith
  · have h2 := h1.most h0
    have h3 : (number i : ℚ) + 1 ≤ 10 ^ (i.length : ℤ) := by
      rw [ten_nat]; exact_mod_cast h1.wellFormed.lt
    have h4 : ((number i : ℚ) + 1) * 10 ^ x ≤ 10 ^ (i.length : ℤ) * 10 ^ x := mul_le_mul_of_nonneg_right h3 (ten_pos x).le
    rw [← ten_add] at h4
    by_cases h5 : c.emax - c.prec + 1 ≤ x
    · have h6 := ten_le (K := ℚ).2 h5
      have h7 := ten_le (K := ℚ).2 (show (i.length : ℤ) + x ≤ c.emax + 1 by omega)
      linarith
    · -- the number is below a power of ten that is smaller
      have h8 : (i.length : ℤ) + x ≤ c.emax := by have := h1.length; omega
      have h9 := ten_le (K := ℚ).2 h8
      have h10 : (10 : ℚ) ^ (c.emax + 1) = 10 * 10 ^ c.emax := by rw [add_comm, ten_add, zpow_one]
      have h11 : (10 : ℚ) ^ (c.emax - c.prec + 1) ≤ 10 * 10 ^ c.emax := by
        rw [← h10]; exact ten_le.2 (by omega)
      by_cases h12 : 1 ≤ c.prec
      · have h13 := ten_le (K := ℚ).2 (show c.emax - c.prec + 1 ≤ c.emax by omega)
        have := ten_pos (K := ℚ) x
        have := ten_pos (K := ℚ) c.emax
        linarith
      · have := h1.length
        have := h1.wellFormed.length_pos
        omega

theorem HoldsMag.lt {c : Ctx} {W : ℚ} (h : HoldsMag c W) : W < 10 ^ (c.emax + 1) := by
  have h1 := h.le_largest
  rw [largest_value] at h1
  have := ten_pos (K := ℚ) (c.emax - c.prec + 1)
  linarith

/-- Rounding away from zero gives the least held magnitude that is not smaller. -/
theorem rounding_away {c : Ctx} {s : Bool} {M : ℚ} (hM : 0 < M) {e : ℤ} {o : Out Dec} (h : IsRounding c s M e o)
    (hr : ∀ x : ℚ, roundAbs c.rounding s x = ⌈x⌉) (ht : tooLarge c s = .inf s) :
    (o.2 = .inf s ∧ ∀ W, HoldsMag c W → W < M) ∨
    ∃ i x, o.2 = .fin s i x ∧ Fits c i x ∧ M ≤ number i * 10 ^ x ∧ ∀ W, HoldsMag c W → M ≤ W → (number i : ℚ) * 10 ^ x ≤ W := by
  obtain ⟨adj, h1, h2⟩ := exists_adj hM
  obtain ⟨hbig, hsmall⟩ := h adj h1 h2
  rw [hr] at hbig hsmall
  generalize hq : max (adj - (c.prec : ℤ) + 1) (c.emin - c.prec + 1) = q at hbig hsmall
  have hp := ten_pos (K := ℚ) q
  have above : ∀ W, HoldsMag c W → M ≤ W → (⌈M / 10 ^ q⌉ : ℚ) * 10 ^ q ≤ W := by
    intro W hW hMW
    obtain ⟨k, rfl⟩ := hW.unit (le_trans h1 hMW)
    rw [hq] at hMW ⊢
    apply mul_le_mul_of_nonneg_right _ hp.le
    have : ⌈M / 10 ^ q⌉ ≤ k := Int.ceil_le.2 ((div_le_iff₀ hp).2 hMW)
    exact_mod_cast this
  have hMn : M ≤ (⌈M / 10 ^ q⌉ : ℚ) * 10 ^ q := (div_le_iff₀ hp).1 (Int.le_ceil _)
  by_cases hb : (10 : ℚ) ^ (c.emax + 1) ≤ ⌈M / 10 ^ q⌉ * 10 ^ q
  · left
    refine ⟨(hbig hb).1.trans ht, fun W hW => ?_⟩
    by_contra hc'
    have := above W hW (not_lt.1 hc')
    exact absurd hW.lt (not_lt.2 (le_trans hb this))
  · right
    obtain ⟨i, x, h3, h4, h5, -⟩ := hsmall (not_le.1 hb)
    exact ⟨i, x, h3, h4, h5 ▸ hMn, fun W hW hMW => h5 ▸ above W hW hMW⟩

/-- Rounding towards zero gives the greatest held magnitude that is not larger. -/
theorem rounding_toward {c : Ctx} (hc : c.Ok) {s : Bool} {M : ℚ} (hM : 0 < M) {e : ℤ} {o : Out Dec} (h : IsRounding c s M e o)
    (hr : ∀ x : ℚ, roundAbs c.rounding s x = ⌊x⌋) (ht : tooLarge c s = .fin s (List.replicate c.prec 9) (c.emax - c.prec + 1)) :
    ∃ i x, o.2 = .fin s i x ∧ Fits c i x ∧ (number i : ℚ) * 10 ^ x ≤ M ∧ ∀ W, HoldsMag c W → W ≤ M → W ≤ (number i : ℚ) * 10 ^ x := by
  obtain ⟨adj, h1, h2⟩ := exists_adj hM
  obtain ⟨hbig, hsmall⟩ := h adj h1 h2
  rw [hr] at hbig hsmall
  generalize hq : max (adj - (c.prec : ℤ) + 1) (c.emin - c.prec + 1) = q at hbig hsmall
  have hp := ten_pos (K := ℚ) q
  have hMn : (⌊M / 10 ^ q⌋ : ℚ) * 10 ^ q ≤ M := (le_div_iff₀ hp).1 (Int.floor_le _)
  have unit : ∀ k : ℤ, (k : ℚ) * 10 ^ q ≤ M → (k : ℚ) * 10 ^ q ≤ (⌊M / 10 ^ q⌋ : ℚ) * 10 ^ q := by
    intro k hk
    apply mul_le_mul_of_nonneg_right _ hp.le
    have : k ≤ ⌊M / 10 ^ q⌋ := Int.le_floor.2 ((le_div_iff₀ hp).2 hk)
    exact_mod_cast this
  have below : ∀ W, HoldsMag c W → W ≤ M → W ≤ (⌊M / 10 ^ q⌋ : ℚ) * 10 ^ q := by
    intro W hW hMW
    by_cases h3 : (10 : ℚ) ^ adj ≤ W
    · obtain ⟨k, rfl⟩ := hW.unit h3
      rw [hq] at hMW ⊢
      exact unit k hMW
    · by_cases h4 : q = c.emin - c.prec + 1
      · obtain ⟨k, rfl⟩ := hW.tiny
        rw [← h4] at hMW ⊢
        exact unit k hMW
      · have h5 : q ≤ adj := by have := hc.prec; omega
        have h6 : (10 : ℚ) ^ adj = ((10 ^ (adj - q).toNat : ℤ) : ℚ) * 10 ^ q := by
          have h7 : adj = ((adj - q).toNat : ℤ) + q := by omega
          conv_lhs => rw [h7, ten_add, ten_nat]
          push_cast; ring
        have := unit _ (h6 ▸ h1)
        rw [← h6] at this
        exact le_trans (not_le.1 h3).le this
  by_cases hb : (10 : ℚ) ^ (c.emax + 1) ≤ ⌊M / 10 ^ q⌋ * 10 ^ q
  · refine ⟨_, _, (hbig hb).1.trans ht, fits_largest hc, ?_, fun W hW _ => hW.le_largest⟩
    rw [largest_value]
    have := ten_pos (K := ℚ) (c.emax - c.prec + 1)
    linarith
  · obtain ⟨i, x, h3, h4, h5, -⟩ := hsmall (not_le.1 hb)
    exact ⟨i, x, h3, h4, h5 ▸ hMn, fun W hW hMW => h5 ▸ below W hW hMW⟩

theorem holds_iff {c : Ctx} {w : ℚ} : Holds c w ↔ HoldsMag c w ∨ HoldsMag c (-w) := by
  constructor
  · rintro ⟨s, i, e, h, rfl⟩
    cases s
    · exact .inl ⟨i, e, h, by simp [value, finValue]⟩
    · exact .inr ⟨i, e, h, by simp [value, finValue]⟩
  · rintro (⟨i, e, h, rfl⟩ | ⟨i, e, h, h1⟩)
    · exact ⟨false, i, e, h, by simp [value, finValue]⟩
    · refine ⟨true, i, e, h, ?_⟩
      have : w = -(-w) := by ring
      rw [this, h1]; simp [value, finValue]

theorem zero_fits {c : Ctx} (hc : c.Ok) (e : ℤ) :
    Fits c [0] (min (max e (c.emin - c.prec + 1)) (if c.clamp then c.emax - c.prec + 1 else c.emax)) := by
  have := hc.emin; have := hc.emax; have := hc.prec
  refine ⟨.inl rfl, by simpa using hc.prec, ?_, fun h => absurd rfl h, fun h => ?_⟩
  · split <;> omega
  · rw [h, if_pos rfl]; omega

/-- Rounding upwards gives the least held number that is not smaller. -/
theorem ceiling_least {c : Ctx} (hc : c.Ok) (hr : c.rounding = .ceiling) {v : ℚ} {z : Bool} {e : ℤ} {o : Out Dec} (h : IsResult c v z e o) :
    (o.2 = .inf false ∧ ∀ w, Holds c w → w < v) ∨
    ∃ s i x, o.2 = .fin s i x ∧ Fits c i x ∧ v ≤ value s i x ∧ ∀ w, Holds c w → v ≤ w → value s i x ≤ w := by
  rcases lt_trichotomy v 0 with hv | hv | hv
  · right
    obtain ⟨i, x, h1, h2, h3, h4⟩ := rounding_toward hc (by linarith) (h.negative hv) (fun x => by rw [hr]; rfl) (by unfold tooLarge; rw [hr])
    refine ⟨true, i, x, h1, h2, by simp [value, finValue]; linarith, fun w hw hvw => ?_⟩
    simp only [value, finValue, if_true, neg_mul, one_mul]
    rcases holds_iff.1 hw with h5 | h5
    · have := h5.nonneg
      have : (0 : ℚ) ≤ number i * 10 ^ x := mul_nonneg (Nat.cast_nonneg _) (ten_pos x).le
      linarith
    · have := h4 _ h5 (by linarith)
      linarith
  · right
    have h1 := h.zero hv
    refine ⟨z, [0], _, h1.1, zero_fits hc e, ?_, ?_⟩
    · rw [value, finValue_zero, hv]
    · intro w _ hw
      rw [value, finValue_zero, ← hv]; exact hw
  · rcases rounding_away hv (h.positive hv) (fun x => by rw [hr]; rfl) (by unfold tooLarge; rw [hr]) with ⟨h1, h2⟩ | ⟨i, x, h1, h2, h3, h4⟩
    · left
      refine ⟨h1, fun w hw => ?_⟩
      rcases holds_iff.1 hw with h5 | h5
      · exact h2 _ h5
      · have := h5.nonneg; linarith
    · right
      refine ⟨false, i, x, h1, h2, by simpa [value, finValue] using h3, fun w hw hvw => ?_⟩
      simp only [value, finValue, Bool.false_eq_true, if_false, one_mul]
      rcases holds_iff.1 hw with h5 | h5
      · exact h4 _ h5 hvw
      · have := h5.nonneg; linarith

/-- Rounding downwards gives the greatest held number that is not larger. -/
theorem floor_greatest {c : Ctx} (hc : c.Ok) (hr : c.rounding = .floor) {v : ℚ} {z : Bool} {e : ℤ} {o : Out Dec} (h : IsResult c v z e o) :
    (o.2 = .inf true ∧ ∀ w, Holds c w → v < w) ∨
    ∃ s i x, o.2 = .fin s i x ∧ Fits c i x ∧ value s i x ≤ v ∧ ∀ w, Holds c w → w ≤ v → w ≤ value s i x := by
  rcases lt_trichotomy v 0 with hv | hv | hv
  · rcases rounding_away (by linarith) (h.negative hv) (fun x => by rw [hr]; rfl) (by unfold tooLarge; rw [hr]) with ⟨h1, h2⟩ | ⟨i, x, h1, h2, h3, h4⟩
    · left
      refine ⟨h1, fun w hw => ?_⟩
      rcases holds_iff.1 hw with h5 | h5
      · have := h5.nonneg; linarith
      · have := h2 _ h5; linarith
    · right
      refine ⟨true, i, x, h1, h2, by simp [value, finValue]; linarith, fun w hw hvw => ?_⟩
      simp only [value, finValue, if_true, neg_mul, one_mul]
      rcases holds_iff.1 hw with h5 | h5
      · have := h5.nonneg; linarith
      · have := h4 _ h5 (by linarith); linarith
  · right
    have h1 := h.zero hv
    refine ⟨z, [0], _, h1.1, zero_fits hc e, ?_, ?_⟩
    · rw [value, finValue_zero, hv]
    · intro w _ hw
      rw [value, finValue_zero, ← hv]; exact hw
  · right
    obtain ⟨i, x, h1, h2, h3, h4⟩ := rounding_toward hc hv (h.positive hv) (fun x => by rw [hr]; rfl) (by unfold tooLarge; rw [hr])
    refine ⟨false, i, x, h1, h2, by simpa [value, finValue] using h3, fun w hw hvw => ?_⟩
    simp only [value, finValue, Bool.false_eq_true, if_false, one_mul]
    rcases holds_iff.1 hw with h5 | h5
    · exact h4 _ h5 hvw
    · have := h5.nonneg
      have : (0 : ℚ) ≤ number i * 10 ^ x := mul_nonneg (Nat.cast_nonneg _) (ten_pos x).le
      linarith

theorem holds_tiny {c : Ctx} {w : ℚ} (h : Holds c w) : ∃ k : ℤ, w = k * 10 ^ (c.emin - c.prec + 1) := by
  rcases holds_iff.1 h with h | h
  · exact h.tiny
  · obtain ⟨k, hk⟩ := h.tiny
    exact ⟨-k, by push_cast; linarith⟩

/-- Different held numbers are at least the smallest unit apart. -/
theorem holds_apart {c : Ctx} {v w : ℚ} (hv : Holds c v) (hw : Holds c w) (h : v < w) : v + 10 ^ (c.emin - c.prec + 1) ≤ w := by
  obtain ⟨k, rfl⟩ := holds_tiny hv
  obtain ⟨l, rfl⟩ := holds_tiny hw
  have hp := ten_pos (K := ℚ) (c.emin - c.prec + 1)
  have h1 : (k : ℚ) < l := lt_of_mul_lt_mul_right h hp.le
  have h2 : k + 1 ≤ l := by exact_mod_cast h1
  have h3 : (k : ℚ) + 1 ≤ l := by exact_mod_cast h2
  have := mul_le_mul_of_nonneg_right h3 hp.le
  linarith

theorem fits_mode {c : Ctx} {m : Mode} {i : Digits} {x : ℤ} (h : Fits { c with rounding := m } i x) : Fits c i x :=
  ⟨h.wellFormed, h.length, h.least, h.most, h.clamped⟩

theorem holds_mode {c : Ctx} {m : Mode} {w : ℚ} : Holds { c with rounding := m } w ↔ Holds c w :=
  ⟨fun ⟨s, i, e, h, hw⟩ => ⟨s, i, e, ⟨h.wellFormed, h.length, h.least, h.most, h.clamped⟩, hw⟩,
    fun ⟨s, i, e, h, hw⟩ => ⟨s, i, e, ⟨h.wellFormed, h.length, h.least, h.most, h.clamped⟩, hw⟩⟩

theorem eq_fin {c : Ctx} {s1 s2 : Bool} {i1 i2 : Digits} (h1 : IsCoeff i1) (h2 : IsCoeff i2) (e1 e2 : ℤ) :
    (eq c (.fin s1 i1 e1) (.fin s2 i2 e2)).2 = true ↔ value s1 i1 e1 = value s2 i2 e2 :=
  (comparisons c (a := .fin s1 i1 e1) (b := .fin s2 i2 e2) h1 h2 (by rintro ⟨_, _, _, h⟩; cases h) (by rintro ⟨_, _, _, h⟩; cases h)).2.2.2.2.2.2.2.2.2

theorem tiny_value (c : Ctx) : (finValue false [1] (c.etiny - 1) : ℚ) = 10 ^ (c.emin - c.prec + 1 - 1) := by
  simp [finValue, number, Ctx.etiny]

theorem nextPlus_spec {c : Ctx} (hc : c.Ok) (s : Bool) {i : Digits} (hi : IsCoeff i) (e : ℤ) :
    ((nextPlus c (.fin s i e)).2 = .inf false ∧ ∀ w, Holds c w → w ≤ value s i e) ∨
    ∃ s' i' e', (nextPlus c (.fin s i e)).2 = .fin s' i' e' ∧ Fits c i' e' ∧ value s i e < value s' i' e' ∧
      ∀ w, Holds c w → value s i e < w → value s' i' e' ≤ w := by
  have hc' : Ctx.Ok { c with rounding := .ceiling } := ⟨hc.prec, hc.emin, hc.emax⟩
  have hn : nextPlus c (.fin s i e) =
      if !(eq { c with rounding := .ceiling } (fixFin { c with rounding := .ceiling } s i e).2 (.fin s i e)).2 then fixFin { c with rounding := .ceiling } s i e
      else ((fixFin { c with rounding := .ceiling } s i e).1 ++ (add { c with rounding := .ceiling } (.fin s i e) (.fin false [1] (c.etiny - 1))).1,
        (add { c with rounding := .ceiling } (.fin s i e) (.fin false [1] (c.etiny - 1))).2) := rfl
  rw [hn]
  have hfix := ceiling_least hc' rfl (fix_result (K := ℚ) hc' s hi e)
  have hadd := ceiling_least hc' rfl (addition hc' (s1 := s) (s2 := false) hi (show IsCoeff [1] from .inr ⟨1, [], rfl, by simp⟩) e (c.etiny - 1))
  rw [tiny_value] at hadd
  simp only [holds_mode] at hfix hadd
  change (_ ∧ ∀ w, _ → w < value s i e) ∨ ∃ s' i' x', _ ∧ _ ∧ value s i e ≤ _ ∧ ∀ w, _ → value s i e ≤ w → _ at hfix
  change (_ ∧ ∀ w, _ → w < value s i e + _) ∨ ∃ s' i' x', _ ∧ _ ∧ value s i e + _ ≤ _ ∧ ∀ w, _ → value s i e + _ ≤ w → _ at hadd
  rcases hfix with ⟨f1, f2⟩ | ⟨s', i', x', f1, f2, f3, f4⟩
  · left
    rw [f1, if_pos (by cases s <;> rfl)]
    exact ⟨f1, fun w hw => (f2 w hw).le⟩
  · rw [f1]
    by_cases he : value s' i' x' = value s i e
    · rw [if_neg (by simp [eq_fin f2.wellFormed hi, he])]
      have hv : Holds c (value s i e) := ⟨s', i', x', fits_mode f2, he.symm⟩
      have t1 : (10 : ℚ) ^ (c.emin - c.prec + 1 - 1) ≤ 10 ^ (c.emin - c.prec + 1) := ten_le.2 (by omega)
      have t2 := ten_pos (K := ℚ) (c.emin - c.prec + 1 - 1)
      rcases hadd with ⟨a1, a2⟩ | ⟨s2, i2, x2, a1, a2, a3, a4⟩
      · left
        refine ⟨a1, fun w hw => ?_⟩
        by_contra hlt
        have := holds_apart hv hw (not_le.1 hlt)
        have := a2 w hw
        linarith
      · right
        refine ⟨s2, i2, x2, a1, fits_mode a2, by linarith, fun w hw hlt => a4 w hw ?_⟩
        have := holds_apart hv hw hlt
        linarith
    · right
      rw [if_pos (by
        have := (eq_fin (c := { c with rounding := .ceiling }) (s1 := s') (s2 := s) f2.wellFormed hi x' e).not.2 he
        simpa using this)]
      exact ⟨s', i', x', f1, fits_mode f2, lt_of_le_of_ne f3 (Ne.symm he), fun w hw hlt => f4 w hw hlt.le⟩

theorem nextMinus_spec {c : Ctx} (hc : c.Ok) (s : Bool) {i : Digits} (hi : IsCoeff i) (e : ℤ) :
    ((nextMinus c (.fin s i e)).2 = .inf true ∧ ∀ w, Holds c w → value s i e ≤ w) ∨
    ∃ s' i' e', (nextMinus c (.fin s i e)).2 = .fin s' i' e' ∧ Fits c i' e' ∧ value s' i' e' < value s i e ∧
      ∀ w, Holds c w → w < value s i e → w ≤ value s' i' e' := by
  have hc' : Ctx.Ok { c with rounding := .floor } := ⟨hc.prec, hc.emin, hc.emax⟩
  have hn : nextMinus c (.fin s i e) =
      if !(eq { c with rounding := .floor } (fixFin { c with rounding := .floor } s i e).2 (.fin s i e)).2 then fixFin { c with rounding := .floor } s i e
      else ((fixFin { c with rounding := .floor } s i e).1 ++ (sub { c with rounding := .floor } (.fin s i e) (.fin false [1] (c.etiny - 1))).1,
        (sub { c with rounding := .floor } (.fin s i e) (.fin false [1] (c.etiny - 1))).2) := rfl
  rw [hn]
  have hfix := floor_greatest hc' rfl (fix_result (K := ℚ) hc' s hi e)
  have hadd := floor_greatest hc' rfl (subtraction hc' (s1 := s) (s2 := false) hi (show IsCoeff [1] from .inr ⟨1, [], rfl, by simp⟩) e (c.etiny - 1))
  rw [tiny_value] at hadd
  simp only [holds_mode] at hfix hadd
  change (_ ∧ ∀ w, _ → value s i e < w) ∨ ∃ s' i' x', _ ∧ _ ∧ _ ≤ value s i e ∧ ∀ w, _ → w ≤ value s i e → _ at hfix
  change (_ ∧ ∀ w, _ → value s i e - _ < w) ∨ ∃ s' i' x', _ ∧ _ ∧ _ ≤ value s i e - _ ∧ ∀ w, _ → w ≤ value s i e - _ → _ at hadd
  rcases hfix with ⟨f1, f2⟩ | ⟨s', i', x', f1, f2, f3, f4⟩
  · left
    rw [f1, if_pos (by cases s <;> rfl)]
    exact ⟨f1, fun w hw => (f2 w hw).le⟩
  · rw [f1]
    by_cases he : value s' i' x' = value s i e
    · rw [if_neg (by simp [eq_fin f2.wellFormed hi, he])]
      have hv : Holds c (value s i e) := ⟨s', i', x', fits_mode f2, he.symm⟩
      have t1 : (10 : ℚ) ^ (c.emin - c.prec + 1 - 1) ≤ 10 ^ (c.emin - c.prec + 1) := ten_le.2 (by omega)
      have t2 := ten_pos (K := ℚ) (c.emin - c.prec + 1 - 1)
      rcases hadd with ⟨a1, a2⟩ | ⟨s2, i2, x2, a1, a2, a3, a4⟩
      · left
        refine ⟨a1, fun w hw => ?_⟩
        by_contra hlt
        have := holds_apart hw hv (not_le.1 hlt)
        have := a2 w hw
        linarith
      · right
        refine ⟨s2, i2, x2, a1, fits_mode a2, by linarith, fun w hw hlt => a4 w hw ?_⟩
        have := holds_apart hw hv hlt
        linarith
    · right
      rw [if_pos (by
        have := (eq_fin (c := { c with rounding := .floor }) (s1 := s') (s2 := s) f2.wellFormed hi x' e).not.2 he
        simpa using this)]
      exact ⟨s', i', x', f1, fits_mode f2, lt_of_le_of_ne f3 he, fun w hw hlt => f4 w hw hlt.le⟩

end Verif.DecimalMore
