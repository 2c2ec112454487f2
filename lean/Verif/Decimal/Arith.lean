/- Addition, multiplication and division give the rounded exact value. -/
import Verif.Decimal.Fix
import Mathlib.Algebra.Order.Archimedean.Basic

namespace Verif.Decimal

set_option linter.unusedSectionVars false

section
variable {K : Type} [Field K] [LinearOrder K] [IsStrictOrderedRing K] [FloorRing K]

theorem finValue_false (i : Digits) (e : ℤ) : (finValue false i e : K) = number i * 10 ^ e := by simp [finValue]
theorem finValue_true (i : Digits) (e : ℤ) : (finValue true i e : K) = -(number i * 10 ^ e) := by simp [finValue]

theorem finValue_zero (s : Bool) (e : ℤ) : (finValue s [0] e : K) = 0 := by simp [finValue, number]

theorem mag_pos {i : Digits} (h : IsCoeff i) (h0 : i ≠ [0]) (e : ℤ) : (0 : K) < number i * 10 ^ e :=
  mul_pos (by exact_mod_cast h.pos h0) (ten_pos e)

theorem finValue_ne_zero {i : Digits} (h : IsCoeff i) (h0 : i ≠ [0]) (s : Bool) (e : ℤ) : (finValue s i e : K) ≠ 0 := by
  have := mag_pos (K := K) h h0 e
  cases s
  · rw [finValue_false]; exact this.ne'
  · rw [finValue_true]; exact (neg_neg_of_pos this).ne

theorem finValue_eq_zero {i : Digits} (h : IsCoeff i) (s : Bool) (e : ℤ) : (finValue s i e : K) = 0 ↔ i = [0] := by
  constructor
  · intro h1
    by_contra h2
    exact finValue_ne_zero h h2 s e h1
  · rintro rfl; exact finValue_zero s e

/-- A result for a magnitude and a sign. -/
theorem IsResult.of_sign {c : Ctx} {v M : K} {z s : Bool} {e : ℤ} {o : Out Dec} (hM : 0 < M) (hv : v = (if s then -1 else 1) * M)
    (h : IsRounding c s M e o) : IsResult c v z e o := by
  cases s
  · simp only [Bool.false_eq_true, if_false, one_mul] at hv
    subst hv
    exact ⟨fun h1 => absurd h1 hM.ne', fun h1 => absurd h1 hM.le.not_gt, fun _ => h⟩
  · simp only [if_true, neg_mul, one_mul] at hv
    subst hv
    refine ⟨fun h1 => ?_, fun _ => ?_, fun h1 => ?_⟩
    · have : M = 0 := by linarith
      exact absurd this hM.ne'
    · rw [neg_neg]; exact h
    · linarith

/-- `_fix` of a finite number. -/
theorem fix_result {c : Ctx} (hc : c.Ok) (s : Bool) {i : Digits} (h : IsCoeff i) (e : ℤ) :
    IsResult c (finValue s i e : K) s e (fixFin c s i e) := by
  by_cases h0 : i = [0]
  · subst h0
    rw [finValue_zero]
    exact ⟨fun _ => fixFin_zero c s e, fun h1 => absurd h1 (lt_irrefl _), fun h1 => absurd h1 (lt_irrefl _)⟩
  · exact .of_sign (mag_pos h h0 e) rfl (fixFin_spec hc s h h0 e)

/-- The sign of the zero does not matter for other numbers. -/
theorem IsResult.sign {c : Ctx} {v : K} {z z' : Bool} {e : ℤ} {o : Out Dec} (h : IsResult c v z e o) (hv : v = 0 → z = z') : IsResult c v z' e o :=
  ⟨fun h1 => hv h1 ▸ h.zero h1, h.negative, h.positive⟩

/-! ### The specification determines the result -/

theorem Raises.unique {p : Sig → Prop} {l l' : List Sig} (h : Raises p l) (h' : Raises p l') : l = l' := by
  have hnd : precedence.Nodup := by decide
  have key : ∀ (P a b : List Sig), P.Nodup → a.Sublist P → b.Sublist P → (∀ g, g ∈ a ↔ g ∈ b) → a = b := by
    intro P
    induction P with
    | nil =>
      intro a b _ ha hb _
      rw [List.sublist_nil.1 ha, List.sublist_nil.1 hb]
    | cons x P ih =>
      intro a b hn ha hb hab
      rw [List.nodup_cons] at hn
      cases ha with
      | cons _ ha => cases hb with
        | cons _ hb => exact ih a b hn.2 ha hb hab
        | cons_cons _ hb =>
          have := (hab x).2 List.mem_cons_self
          exact absurd (ha.subset this) hn.1
      | cons_cons _ ha =>
        rename_i a
        cases hb with
        | cons _ hb =>
          have := (hab x).1 List.mem_cons_self
          exact absurd (hb.subset this) hn.1
        | cons_cons _ hb =>
          rename_i b
          rw [ih a b hn.2 ha hb]
          intro g
          have := hab g
          rw [List.mem_cons, List.mem_cons] at this
          constructor
          · intro h1
            rcases this.1 (.inr h1) with h2 | h2
            · exact absurd (h2 ▸ ha.subset h1) hn.1
            · exact h2
          · intro h1
            rcases this.2 (.inr h1) with h2 | h2
            · exact absurd (h2 ▸ hb.subset h1) hn.1
            · exact h2
  exact key precedence l l' hnd h.1 h'.1 fun g => by rw [h.2, h'.2]

theorem exists_adj {M : K} (h : 0 < M) : ∃ a : ℤ, (10 : K) ^ a ≤ M ∧ M < 10 ^ (a + 1) := by
  have : Archimedean K := FloorRing.archimedean K
  obtain ⟨a, h1, h2⟩ := exists_mem_Ico_zpow h (show (1 : K) < 10 by norm_num)
  exact ⟨a, h1, h2⟩

theorem IsRounding.unique {c : Ctx} {s : Bool} {M : K} (hM : 0 < M) {e : ℤ} {o o' : Out Dec} (h : IsRounding c s M e o) (h' : IsRounding c s M e o') :
    o = o' := by
  obtain ⟨a, h1, h2⟩ := exists_adj hM
  obtain ⟨h3, h4⟩ := h a h1 h2
  obtain ⟨h3', h4'⟩ := h' a h1 h2
  rcases lt_or_ge ((roundAbs c.rounding s (M / 10 ^ max (a - (c.prec : ℤ) + 1) (c.emin - c.prec + 1)) : K) *
    10 ^ max (a - (c.prec : ℤ) + 1) (c.emin - c.prec + 1)) (10 ^ (c.emax + 1)) with h5 | h5
  · obtain ⟨cf, x, a1, a2, a3, a4, a5⟩ := h4 h5
    obtain ⟨cf', x', b1, b2, b3, b4, b5⟩ := h4' h5
    have hx : x = x' := a4.trans b4.symm
    subst hx
    have hn : number cf = number cf' := by
      have := mul_right_cancel₀ (ten_pos x).ne' (a3.trans b3.symm)
      exact_mod_cast this
    rw [a2.wellFormed.inj b2.wellFormed hn] at a1
    exact Prod.ext (a5.unique b5) (a1.trans b1.symm)
  · obtain ⟨a1, a2⟩ := h3 h5
    obtain ⟨b1, b2⟩ := h3' h5
    exact Prod.ext (a2.unique b2) (a1.trans b1.symm)

theorem IsResult.unique {c : Ctx} {v : K} {z : Bool} {e : ℤ} {o o' : Out Dec} (h : IsResult c v z e o) (h' : IsResult c v z e o') : o = o' := by
  rcases lt_trichotomy v 0 with h1 | h1 | h1
  · exact (h.negative h1).unique (by linarith) (h'.negative h1)
  · obtain ⟨a1, a2⟩ := h.zero h1
    obtain ⟨b1, b2⟩ := h'.zero h1
    exact Prod.ext (a2.trans b2.symm) (a1.trans b1.symm)
  · exact (h.positive h1).unique h1 (h'.positive h1)

/-! ### Rescaling -/

theorem rescale_pad (m : Mode) (s : Bool) {i : Digits} (h : IsCoeff i) {e x : ℤ} (he : x ≤ e) :
    ∃ i', rescale m s i e x = .fin s i' x ∧ IsCoeff i' ∧ (number i' : K) * 10 ^ x = number i * 10 ^ e ∧ (i' = [0] ↔ i = [0]) := by
  unfold rescale
  by_cases h0 : i = [0]
  · subst h0
    exact ⟨[0], rfl, .inl rfl, by simp [number], by simp⟩
  · rw [if_neg (by simpa using h0), if_pos he]
    refine ⟨_, rfl, h.pad h0 _, ?_, ?_⟩
    · rw [number_pad]
      have : (10 : K) ^ e = 10 ^ (e - x) * 10 ^ x := by rw [← ten_add]; congr 1; omega
      rw [this, ten_toNat (a := e - x) (by omega)]
      push_cast; ring
    · constructor
      · intro h1
        have := number_pad i (e - x)
        rw [h1] at this
        have h2 := h.pos h0
        have : 0 = number i * 10 ^ (e - x).toNat := this
        have h3 : 0 < number i * 10 ^ (e - x).toNat := Nat.mul_pos h2 (Nat.pow_pos (by omega))
        omega
      · exact fun h1 => absurd h1 h0

/-! ### Addition -/

/-- A sign as an integer. -/
def sg (s : Bool) : ℤ := if s then -1 else 1

/-- The sum of two numbers with one exponent. -/
theorem addWork_eq (c : Ctx) (op1 op2 : Work) (exp : ℤ) (nz : Bool) {t o : Work}
    (h : normalize op1 op2 c.prec = (t, o) ∨ normalize op1 op2 c.prec = (o, t)) (ht : t.exp = o.exp) {w : ℤ}
    (hw : w = sg t.sign * t.int + sg o.sign * o.int) (h1 : 0 < t.int) (h2 : 0 < o.int) :
    addWork c op1 op2 exp nz = if w = 0 then fixFin c nz [0] exp else fixFin c (decide (w < 0)) (str w.natAbs) t.exp := by
  obtain ⟨ts, tn, te⟩ := t
  obtain ⟨os, on, oe⟩ := o
  simp only at ht hw h1 h2 ⊢
  subst ht
  unfold addWork
  have key : ∀ (x y : ℕ) (sx sy : Bool), 0 < x → 0 < y → ∀ w : ℤ, w = sg sx * x + sg sy * y →
      (if sx ≠ sy then
        if x = y then fixFin c nz [0] exp
        else
          let p := if x < y then ((⟨sy, y, te⟩ : Work), (⟨sx, x, te⟩ : Work)) else (⟨sx, x, te⟩, ⟨sy, y, te⟩)
          fixFin c p.1.sign (str (p.1.int - p.2.int)) p.1.exp
      else fixFin c sx (str (x + y)) te) =
      if w = 0 then fixFin c nz [0] exp else fixFin c (decide (w < 0)) (str w.natAbs) te := by
    intro x y sx sy hx hy w hw
    cases sx <;> cases sy <;> simp only [sg, if_true, Bool.false_eq_true, if_false, one_mul, neg_mul] at hw
    · rw [if_neg (by simp), if_neg (show ¬ w = 0 by omega), decide_eq_false (show ¬ w < 0 by omega)]
      congr 2; omega
    · rw [if_pos (by simp)]
      by_cases h3 : x = y
      · rw [if_pos h3, if_pos (show w = 0 by omega)]
      · rw [if_neg h3, if_neg (show ¬ w = 0 by omega)]
        by_cases h4 : x < y
        · simp only [if_pos h4]
          rw [decide_eq_true (show w < 0 by omega)]; congr 2; omega
        · simp only [if_neg h4]
          rw [decide_eq_false (show ¬ w < 0 by omega)]; congr 2; omega
    · rw [if_pos (by simp)]
      by_cases h3 : x = y
      · rw [if_pos h3, if_pos (show w = 0 by omega)]
      · rw [if_neg h3, if_neg (show ¬ w = 0 by omega)]
        by_cases h4 : x < y
        · simp only [if_pos h4]
          rw [decide_eq_false (show ¬ w < 0 by omega)]; congr 2; omega
        · simp only [if_neg h4]
          rw [decide_eq_true (show w < 0 by omega)]; congr 2; omega
    · rw [if_neg (by simp), if_neg (show ¬ w = 0 by omega), decide_eq_true (show w < 0 by omega)]
      congr 2; omega
  rcases h with h | h <;> rw [h]
  · exact key tn on ts os h1 h2 w hw
  · exact key on tn os ts h2 h1 w (by rw [hw]; ring)

/-- The value of a number being worked on. -/
def Work.value (w : Work) : K := (sg w.sign : K) * (w.int * 10 ^ w.exp)

/-- A result from an integral coefficient with its sign. -/
theorem result_int {c : Ctx} (hc : c.Ok) {w : ℤ} (hw : w ≠ 0) (e : ℤ) (z : Bool) :
    IsResult c ((w : K) * 10 ^ e) z e (fixFin c (decide (w < 0)) (str w.natAbs) e) := by
  have hn : w.natAbs ≠ 0 := by omega
  have hM : (0 : K) < number (str w.natAbs) * 10 ^ e := mag_pos (isCoeff_str _) (str_ne_zero hn) e
  refine .of_sign hM ?_ (fixFin_spec hc _ (isCoeff_str _) (str_ne_zero hn) e)
  rw [number_str, ← mul_assoc]
  congr 1
  obtain ⟨n, hwn⟩ : ∃ n : ℕ, n = w.natAbs := ⟨_, rfl⟩
  rw [← hwn]
  by_cases h : w < 0
  · rw [if_pos (by simpa using h), show (w : K) = ((-(n : ℤ) : ℤ) : K) by congr 1; omega]; push_cast; ring
  · rw [if_neg (by simpa using h), show (w : K) = ((n : ℤ) : K) by congr 1; omega]; push_cast; ring

/-- The sum of two numbers that are not zero; the exponent of the first is not smaller. -/
theorem addWork_ge {c : Ctx} (hc : c.Ok) {tmp other : Work} (h1 : 0 < tmp.int) (h2 : 0 < other.int) (he : other.exp ≤ tmp.exp)
    {op1 op2 : Work} (hop : normalize op1 op2 c.prec = normalizeWith tmp other c.prec ∨
      normalize op1 op2 c.prec = ((normalizeWith tmp other c.prec).2, (normalizeWith tmp other c.prec).1)) {nz : Bool} :
    IsResult c (tmp.value + other.value : K) nz other.exp (addWork c op1 op2 other.exp nz) := by
  have hp := hc.prec
  obtain ⟨ts, tn, te⟩ := tmp
  obtain ⟨os, on, oe⟩ := other
  simp only at h1 h2 he
  unfold normalizeWith at hop
  dsimp only at hop
  by_cases hsmall : ((str on).length : ℤ) + oe - 1 < te + min (-1) (((str tn).length : ℤ) - c.prec - 2)
  · -- the smaller number is replaced
    simp only [if_pos hsmall] at hop
    generalize hg : te + min (-1) (((str tn).length : ℤ) - c.prec - 2) = g at *
    have hg1 : g ≤ te - 1 := by omega
    have hg2 : g + c.prec + 2 ≤ te + (str tn).length := by omega
    have hol := (isCoeff_str on).length_pos
    have hog : oe < g := by omega
    obtain ⟨T, hT⟩ : ∃ T : ℕ, T = tn * 10 ^ (te - g - 1).toNat := ⟨_, rfl⟩
    have hT10 : tn * 10 ^ (te - g).toNat = T * 10 := by
      rw [hT, Nat.mul_assoc, ← Nat.pow_succ]; congr 2; omega
    have hTbig : 10 ^ c.prec ≤ T := by
      have h3 := (isCoeff_str tn).ge (str_ne_zero (by omega))
      rw [number_str] at h3
      have h4 : 10 ^ ((str tn).length - 1) * 10 ^ (te - g - 1).toNat ≤ T := by rw [hT]; exact Nat.mul_le_mul_right _ h3
      rw [← Nat.pow_add] at h4
      have hlp := (isCoeff_str tn).length_pos
      exact le_trans (Nat.pow_le_pow_right (by omega) (by omega)) h4
    have h10 : 1 ≤ 10 ^ c.prec := Nat.one_le_pow _ _ (by omega)
    rw [hT10] at hop
    have hadd := addWork_eq c op1 op2 oe nz (t := ⟨ts, T * 10, g⟩) (o := ⟨os, 1, g⟩) hop rfl rfl (by simp; omega) (by simp)
    simp only at hadd
    have hw : sg ts * ((T * 10 : ℕ) : ℤ) + sg os * ((1 : ℕ) : ℤ) ≠ 0 := by
      cases ts <;> cases os <;> simp [sg] <;> omega
    rw [if_neg hw] at hadd
    rw [hadd]
    -- magnitudes
    have hδ0 : (0 : K) < on * 10 ^ oe := mul_pos (by exact_mod_cast h2) (ten_pos _)
    have hδ1 : (on : K) * 10 ^ oe < 10 ^ g := by
      have := (isCoeff_str on).adj (K := K) (str_ne_zero (by omega)) oe
      rw [number_str] at this
      exact lt_of_lt_of_le this.2 (ten_le.2 (by omega))
    have hTv : (tn : K) * 10 ^ te = (T * 10 : K) * 10 ^ g := by
      have h3 : (10 : K) ^ te = 10 ^ (te - g) * 10 ^ g := by rw [← ten_add]; congr 1; omega
      rw [h3, ten_toNat (a := te - g) (by omega), ← mul_assoc]
      congr 1
      exact_mod_cast hT10
    have hG := ten_pos (K := K) g
    -- the exact sum, with the sign of the larger number
    have cell : ∀ (sgn : Bool) (j : ℤ) (M M' : K) (N : ℕ), 10 ^ c.prec ≤ N → M' = (N : K) * 10 ^ g → 
        j * (5 * 10 ^ g) < M → M < (j + 1) * (5 * 10 ^ g) → j * (5 * 10 ^ g) < M' → M' < (j + 1) * (5 * 10 ^ g) →
        IsRounding c sgn M oe (fixFin c sgn (str N) g) := by
      intro sgn j M M' N hN hM' a1 a2 a3 a4
      have hN0 : N ≠ 0 := by omega
      have hr := fixFin_spec (K := K) hc sgn (isCoeff_str N) (str_ne_zero hN0) g
      have had := (isCoeff_str N).adj (K := K) (str_ne_zero hN0) g
      rw [number_str, ← hM'] at hr had
      have hlen : c.prec < (str N).length := by
        rw [← Nat.not_le, length_str_le hN0]; omega
      exact hr.of_cell a1 a2 a3 a4 had.1 had.2 (by omega) hp (by omega) (by omega)
    cases ts <;> cases os <;> simp only [sg, Work.value, if_true, Bool.false_eq_true, if_false, Int.cast_one, Int.cast_neg, one_mul, neg_mul, hTv]
    · rw [decide_eq_false (by omega)]
      refine .of_sign (M := (T * 10 : K) * 10 ^ g + on * 10 ^ oe) (s := false) (by positivity) (by simp) ?_
      have e1 : ((T * 10 : ℕ) + ((1 : ℕ) : ℤ)).natAbs = T * 10 + 1 := by omega
      rw [e1]
      refine cell false (2 * T) _ _ (T * 10 + 1) (by omega) rfl ?_ ?_ ?_ ?_ <;> push_cast <;> nlinarith
    · rw [decide_eq_false (by omega)]
      refine .of_sign (M := (T * 10 : K) * 10 ^ g - on * 10 ^ oe) (s := false) ?_ (by simp; ring) ?_
      · have : (1 : K) ≤ T := by exact_mod_cast (by omega : 1 ≤ T)
        nlinarith
      have e1 : ((T * 10 : ℕ) + -((1 : ℕ) : ℤ)).natAbs = T * 10 - 1 := by omega
      rw [e1]
      have e2 : ((T * 10 - 1 : ℕ) : K) = T * 10 - 1 := by rw [Nat.cast_sub (by omega)]; push_cast; rfl
      refine cell false (2 * T - 1) _ _ (T * 10 - 1) (by omega) rfl ?_ ?_ ?_ ?_ <;> (try rw [e2]) <;> push_cast <;> nlinarith
    · rw [decide_eq_true (by omega)]
      refine .of_sign (M := (T * 10 : K) * 10 ^ g - on * 10 ^ oe) (s := true) ?_ (by simp; ring) ?_
      · have : (1 : K) ≤ T := by exact_mod_cast (by omega : 1 ≤ T)
        nlinarith
      have e1 : (-((T * 10 : ℕ) : ℤ) + ((1 : ℕ) : ℤ)).natAbs = T * 10 - 1 := by omega
      rw [e1]
      have e2 : ((T * 10 - 1 : ℕ) : K) = T * 10 - 1 := by rw [Nat.cast_sub (by omega)]; push_cast; rfl
      refine cell true (2 * T - 1) _ _ (T * 10 - 1) (by omega) rfl ?_ ?_ ?_ ?_ <;> (try rw [e2]) <;> push_cast <;> nlinarith
    · rw [decide_eq_true (by omega)]
      refine .of_sign (M := (T * 10 : K) * 10 ^ g + on * 10 ^ oe) (s := true) (by positivity) (by simp; ring) ?_
      have e1 : (-((T * 10 : ℕ) : ℤ) + -((1 : ℕ) : ℤ)).natAbs = T * 10 + 1 := by omega
      rw [e1]
      refine cell true (2 * T) _ _ (T * 10 + 1) (by omega) rfl ?_ ?_ ?_ ?_ <;> push_cast <;> nlinarith
  · -- the exact sum
    simp only [if_neg hsmall] at hop
    obtain ⟨N, hN⟩ : ∃ N : ℕ, N = tn * 10 ^ (te - oe).toNat := ⟨_, rfl⟩
    have hN0 : 0 < N := by rw [hN]; exact Nat.mul_pos h1 (Nat.pow_pos (by omega))
    rw [← hN] at hop
    have hadd := addWork_eq c op1 op2 oe nz (t := ⟨ts, N, oe⟩) (o := ⟨os, on, oe⟩) hop rfl rfl hN0 h2
    simp only at hadd
    rw [hadd]
    have hval : (Work.value ⟨ts, tn, te⟩ + Work.value ⟨os, on, oe⟩ : K) = ((sg ts * N + sg os * on : ℤ) : K) * 10 ^ oe := by
      simp only [Work.value]
      have h3 : (10 : K) ^ te = 10 ^ (te - oe) * 10 ^ oe := by rw [← ten_add]; congr 1; omega
      have h4 : (N : K) = tn * 10 ^ (te - oe) := by rw [ten_toNat (by omega), hN]; push_cast; rfl
      rw [h3]; push_cast; rw [h4]; ring
    rw [hval]
    generalize sg ts * (N : ℤ) + sg os * on = w
    by_cases hw : w = 0
    · rw [if_pos hw, hw]
      refine ⟨fun _ => fixFin_zero c nz oe, fun h3 => ?_, fun h3 => ?_⟩ <;> simp at h3
    · rw [if_neg hw]
      exact result_int hc hw oe nz

theorem addWork_spec {c : Ctx} (hc : c.Ok) {op1 op2 : Work} (h1 : 0 < op1.int) (h2 : 0 < op2.int) {nz : Bool} :
    IsResult c (op1.value + op2.value : K) nz (min op1.exp op2.exp) (addWork c op1 op2 (min op1.exp op2.exp) nz) := by
  by_cases h : op1.exp < op2.exp
  · have hn : normalize op1 op2 c.prec = ((normalizeWith op2 op1 c.prec).2, (normalizeWith op2 op1 c.prec).1) := by
      unfold normalize; rw [if_pos h]
    rw [min_eq_left h.le, add_comm]
    exact addWork_ge hc h2 h1 h.le (.inr hn)
  · have hn : normalize op1 op2 c.prec = normalizeWith op1 op2 c.prec := by unfold normalize; rw [if_neg h]
    rw [min_eq_right (by omega)]
    exact addWork_ge hc h1 h2 (by omega) (.inl hn)

/-- Adding a zero. -/
theorem fixRescale_spec {c : Ctx} (hc : c.Ok) (s : Bool) {i : Digits} (h : IsCoeff i) (h0 : i ≠ [0]) (e e0 : ℤ) (z : Bool) :
    IsResult c (finValue s i e : K) z (min e0 e) (fixRescale c s i e (max (min e0 e) (e - c.prec - 1))) := by
  obtain ⟨i', h1, h2, h3, h4⟩ := rescale_pad (K := K) c.rounding s h (e := e) (x := max (min e0 e) (e - c.prec - 1)) (by omega)
  unfold fixRescale
  rw [h1]
  have h0' : i' ≠ [0] := mt h4.1 h0
  change IsResult c _ _ _ (fixFin c s i' _)
  have hr := fixFin_spec (K := K) hc s h2 h0' (max (min e0 e) (e - c.prec - 1))
  rw [h3] at hr
  refine .of_sign (mag_pos h h0 e) rfl ?_
  by_cases hm : max (min e0 e) (e - c.prec - 1) = min e0 e
  · rw [hm] at hr ⊢; exact hr
  · have had := h.adj (K := K) h0 e
    have := h.length_pos
    exact hr.of_lt had.1 had.2 (by omega) (by omega)

theorem addFin_spec {c : Ctx} (hc : c.Ok) {s1 s2 : Bool} {i1 i2 : Digits} (h1 : IsCoeff i1) (h2 : IsCoeff i2) (e1 e2 : ℤ) :
    IsResult c (finValue s1 i1 e1 + finValue s2 i2 e2 : K) (sumZero c s1 s2) (min e1 e2) (addFin c s1 i1 e1 s2 i2 e2) := by
  unfold addFin
  dsimp only
  by_cases z1 : i1 = [0]
  · by_cases z2 : i2 = [0]
    · subst z1 z2
      rw [if_pos (by rfl), finValue_zero, finValue_zero, add_zero]
      refine ⟨fun _ => ?_, fun h => absurd h (lt_irrefl _), fun h => absurd h (lt_irrefl _)⟩
      have : (if (decide (c.rounding = Mode.floor) && decide (s1 ≠ s2)) = true then true else s1 && s2) = sumZero c s1 s2 := by
        unfold sumZero
        cases s1 <;> cases s2 <;> simp
      rw [this]
      exact fixFin_zero c _ _
    · rw [if_neg (by simp [z2]), if_pos (by simpa using z1)]
      subst z1
      rw [finValue_zero, zero_add]
      exact fixRescale_spec hc s2 h2 z2 e2 e1 _
  · rw [if_neg (by simp [z1]), if_neg (by simpa using z1)]
    by_cases z2 : i2 = [0]
    · rw [if_pos (by simpa using z2)]
      subst z2
      rw [finValue_zero, add_zero, min_comm]
      exact fixRescale_spec hc s1 h1 z1 e1 e2 _
    · rw [if_neg (by simpa using z2)]
      have hv : ∀ (s : Bool) (i : Digits) (e : ℤ), (finValue s i e : K) = Work.value ⟨s, toInt i, e⟩ := by
        intro s i e
        rw [Work.value, finValue, toInt_eq]
        cases s <;> simp [sg]
      rw [hv, hv]
      have p1 := h1.pos z1
      have p2 := h2.pos z2
      refine (addWork_spec hc (op1 := ⟨s1, toInt i1, e1⟩) (op2 := ⟨s2, toInt i2, e2⟩) (by rw [toInt_eq]; exact p1) (by rw [toInt_eq]; exact p2)).sign ?_
      intro hz
      unfold sumZero
      have hs : s1 ≠ s2 := by
        rintro rfl
        rw [← hv, ← hv] at hz
        have q1 := mag_pos (K := K) h1 z1 e1
        have q2 := mag_pos (K := K) h2 z2 e2
        cases s1
        · rw [finValue_false, finValue_false] at hz; linarith
        · rw [finValue_true, finValue_true] at hz; linarith
      rw [if_neg hs]; simp [hs]

/-! ### Multiplication -/

theorem finValue_mul (s1 s2 : Bool) (i1 i2 : Digits) (e1 e2 : ℤ) :
    (finValue s1 i1 e1 * finValue s2 i2 e2 : K) = (if s1 ^^ s2 then -1 else 1) * ((number i1 * number i2 : ℕ) * 10 ^ (e1 + e2)) := by
  rw [finValue, finValue, ten_add]
  cases s1 <;> cases s2 <;> simp <;> ring

theorem mulFin_spec {c : Ctx} (hc : c.Ok) {s1 s2 : Bool} {i1 i2 : Digits} (h1 : IsCoeff i1) (h2 : IsCoeff i2) (e1 e2 : ℤ) :
    IsResult c (finValue s1 i1 e1 * finValue s2 i2 e2 : K) (s1 ^^ s2) (e1 + e2) (mulFin c s1 i1 e1 s2 i2 e2) := by
  have key : ∀ i : Digits, IsCoeff i → number i = number i1 * number i2 →
      IsResult c (finValue s1 i1 e1 * finValue s2 i2 e2 : K) (s1 ^^ s2) (e1 + e2) (fixFin c (s1 ^^ s2) i (e1 + e2)) := by
    intro i hi hn
    rw [finValue_mul, ← hn]
    exact fix_result hc (s1 ^^ s2) hi (e1 + e2)
  unfold mulFin
  dsimp only
  by_cases z : i1 = [0] ∨ i2 = [0]
  · rw [if_pos (by simpa using z)]
    refine key [0] (.inl rfl) ?_
    rcases z with rfl | rfl <;> simp [number]
  · rw [if_neg (by simpa using z)]
    by_cases o1 : i1 = [1]
    · rw [if_pos (by simpa using o1)]
      exact key _ h2 (by rw [o1]; simp [number])
    · rw [if_neg (by simpa using o1)]
      by_cases o2 : i2 = [1]
      · rw [if_pos (by simpa using o2)]
        exact key _ h1 (by rw [o2]; simp [number])
      · rw [if_neg (by simpa using o2)]
        exact key _ (isCoeff_str _) (by rw [number_str, toInt_eq, toInt_eq])

end

end Verif.Decimal
