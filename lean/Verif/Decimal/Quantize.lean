/- Quantizing. -/
import Verif.Decimal.Compare

namespace Verif.Decimal

set_option linter.unusedSectionVars false

section
variable {K : Type} [Field K] [LinearOrder K] [IsStrictOrderedRing K] [FloorRing K]

/-- `_fix` of a number that fits except perhaps for its exponent. -/
theorem fixFin_fits {c : Ctx} (hc : c.Ok) (s : Bool) {i : Digits} (h : IsCoeff i) (h0 : i ≠ [0]) {e : ℤ} (h1 : i.length ≤ c.prec)
    (h2 : c.emin - c.prec + 1 ≤ e) (h3 : e + i.length - 1 ≤ c.emax) :
    ∃ i' x, (fixFin c s i e).2 = .fin s i' x ∧ Fits c i' x ∧ (number i' : K) * 10 ^ x = number i * 10 ^ e ∧
      x = (if c.clamp then min e (c.emax - c.prec + 1) else e) ∧
      ∀ g, g ∈ (fixFin c s i e).1 ↔ (g = .subnormal ∧ e + i.length - 1 < c.emin) ∨ (g = .clamped ∧ c.clamp = true ∧ c.emax - c.prec + 1 < e) := by
  unfold fixFin Ctx.etop Ctx.etiny
  have hmin := hc.emin
  have hmax := hc.emax
  have hif : (if decide ((i.length : ℤ) + e - c.prec < c.emin - c.prec + 1) = true then c.emin - c.prec + 1 else (i.length : ℤ) + e - c.prec) ≤ e := by
    split <;> omega
  rw [if_neg (by simpa using h0)]
  dsimp only
  rw [if_neg (show ¬ (i.length : ℤ) + e - c.prec > c.emax - c.prec + 1 by omega), if_neg (not_lt.2 hif)]
  by_cases hf : c.clamp = true ∧ c.emax - c.prec + 1 < e
  · rw [if_pos (by rw [Bool.and_eq_true]; simpa using hf)]
    refine ⟨_, _, rfl, ⟨h.pad h0 _, ?_, by omega, fun _ => ?_, fun _ => le_refl _⟩, ?_, ?_, ?_⟩
    · rw [length_pad]; omega
    · rw [length_pad]; omega
    · rw [number_pad]; push_cast
      have : (10 : K) ^ e = 10 ^ (e - (c.emax - c.prec + 1)) * 10 ^ (c.emax - c.prec + 1 : ℤ) := by rw [← ten_add]; congr 1; omega
      rw [this, ten_toNat (a := e - (c.emax - c.prec + 1)) (by omega)]
      push_cast; ring
    · rw [if_pos hf.1, min_eq_right (by omega)]
    · intro g
      by_cases hs : (i.length : ℤ) + e - c.prec < c.emin - c.prec + 1
      · rw [if_pos (by simpa using hs)]
        have hs' : e + (i.length : ℤ) - 1 < c.emin := by omega
        simp [hs', hf]
      · rw [if_neg (by simpa using hs)]
        have hs' : ¬ e + (i.length : ℤ) - 1 < c.emin := by omega
        simp [hs', hf]
  · rw [if_neg (by rw [Bool.and_eq_true]; simpa using hf)]
    refine ⟨_, _, rfl, ⟨h, h1, h2, fun _ => h3, fun hcl => ?_⟩, rfl, ?_, ?_⟩
    · by_contra h4; exact hf ⟨hcl, by omega⟩
    · by_cases hcl : c.clamp = true
      · rw [if_pos hcl, min_eq_left]
        by_contra h4; exact hf ⟨hcl, by omega⟩
      · rw [if_neg hcl]
    · intro g
      by_cases hs : (i.length : ℤ) + e - c.prec < c.emin - c.prec + 1
      · rw [if_pos (by simpa using hs)]
        have hs' : e + (i.length : ℤ) - 1 < c.emin := by omega
        simp only [hs', List.mem_singleton, and_true]
        exact ⟨.inl, fun h5 => h5.elim id fun h5 => absurd h5.2 hf⟩
      · rw [if_neg (by simpa using hs)]
        have hs' : ¬ e + (i.length : ℤ) - 1 < c.emin := by omega
        simp only [hs', List.not_mem_nil, and_false, false_or, false_iff]
        exact fun h5 => hf h5.2

theorem quantizeFin_spec {c : Ctx} (hc : c.Ok) (m : Mode) (s : Bool) {i : Digits} (h : IsCoeff i) (e x : ℤ) {n : ℤ}
    (hn : n = roundAbs m s ((number i : K) * 10 ^ e / 10 ^ x)) :
    (¬ (c.emin - c.prec + 1 ≤ x ∧ x ≤ c.emax ∧ n < 10 ^ c.prec ∧ (n : K) * 10 ^ x < 10 ^ (c.emax + 1)) →
      quantizeFin c m s i e x = ([.invalidOperation], .NaN)) ∧
    (c.emin - c.prec + 1 ≤ x ∧ x ≤ c.emax ∧ n < 10 ^ c.prec ∧ (n : K) * 10 ^ x < 10 ^ (c.emax + 1) →
      ∃ i' y, (quantizeFin c m s i e x).2 = .fin s i' y ∧ Fits c i' y ∧ (number i' : K) * 10 ^ y = n * 10 ^ x ∧
        y = (if c.clamp then min x (c.emax - c.prec + 1) else x) ∧
        ∀ g, g ∈ (quantizeFin c m s i e x).1 ↔ match g with
          | .inexact => (n : K) * 10 ^ x ≠ number i * 10 ^ e
          | .rounded => i ≠ [0] ∧ e < x
          | .subnormal => 0 < n ∧ (n : K) * 10 ^ x < 10 ^ c.emin
          | .clamped => c.clamp = true ∧ c.emax - c.prec + 1 < x
          | _ => False) := by
  have hp := hc.prec
  have hmin := hc.emin
  have hmax := hc.emax
  have hpow : (1 : ℤ) ≤ 10 ^ c.prec := by exact_mod_cast Nat.one_le_pow c.prec 10 (by omega)
  unfold quantizeFin
  by_cases hr : c.etiny ≤ x ∧ x ≤ c.emax
  · rw [if_neg (not_not.2 hr)]
    unfold Ctx.etiny at hr
    by_cases h0 : i = [0]
    · rw [if_pos (show (i == [0]) = true by simpa using h0)]
      subst h0
      have hn0 : n = 0 := by
        rw [hn]
        have := roundAbs_int (K := K) m s 0
        simpa [number] using this
      subst hn0
      obtain ⟨z1, z2⟩ := fixFin_zero c s x
      constructor
      · intro h1
        exact absurd ⟨hr.1, hr.2, by omega, by simpa using ten_pos (K := K) (c.emax + 1)⟩ h1
      · intro _
        rw [z1, z2]
        refine ⟨[0], _, rfl, ⟨.inl rfl, hp, by split <;> omega, fun h2 => absurd rfl h2, fun h2 => ?_⟩, by simp [number], ?_, ?_⟩
        · rw [if_pos h2]; omega
        · by_cases hcl : c.clamp = true
          · rw [if_pos hcl, if_pos hcl]; omega
          · rw [if_neg hcl, if_neg hcl]; omega
        · intro g
          by_cases hcl : c.clamp = true
          · rw [if_pos hcl]
            by_cases hx : c.emax - c.prec + 1 < x
            · rw [if_neg (by omega)]
              cases g <;> simp [number, hcl, hx]
            · rw [if_pos (by omega)]
              cases g <;> simp [number, hcl, hx]
          · rw [if_neg hcl, if_pos (by omega)]
            cases g <;> simp [number, hcl]
    · rw [if_neg (show ¬ (i == [0]) = true by simpa using h0)]
      dsimp only
      have had := h.adj (K := K) h0 e
      have hfl := roundAbs_ge (K := K) m s ((number i : K) * 10 ^ e / 10 ^ x)
      rw [← hn] at hfl
      have lower : ∀ k : ℕ, (k : ℤ) ≤ e + i.length - 1 - x → (10 : ℤ) ^ k ≤ n := by
        intro k hk
        refine le_trans (Int.le_floor.2 ?_) hfl
        rw [le_div_iff₀ (ten_pos x)]
        push_cast
        rw [← zpow_natCast, ← ten_add]
        exact le_trans (ten_le.2 (by omega)) had.1
      by_cases hb1 : e + (i.length : ℤ) - 1 > c.emax
      · rw [if_pos hb1]
        refine ⟨fun _ => rfl, fun h1 => ?_⟩
        exfalso
        have h2 := lower (c.emax + 1 - x).toNat (by omega)
        have h3 : ((10 : ℤ) ^ (c.emax + 1 - x).toNat : ℤ) * (10 : K) ^ x ≤ n * 10 ^ x :=
          mul_le_mul_of_nonneg_right (by exact_mod_cast h2) (ten_pos x).le
        have h4 : (((10 : ℤ) ^ (c.emax + 1 - x).toNat : ℤ) : K) * (10 : K) ^ x = 10 ^ (c.emax + 1) := by
          push_cast
          rw [← zpow_natCast, ← ten_add]; congr 1; omega
        rw [h4] at h3
        exact absurd h1.2.2.2 (not_lt.2 h3)
      · rw [if_neg hb1]
        by_cases hb2 : e + (i.length : ℤ) - 1 - x + 1 > c.prec
        · rw [if_pos hb2]
          refine ⟨fun _ => rfl, fun h1 => ?_⟩
          have h2 := lower c.prec (by omega)
          omega
        · rw [if_neg hb2]
          obtain ⟨i', r1, r2, r3⟩ := rescale_spec (K := K) m s h e x
          rw [← hn] at r3
          rw [r1]
          rw [show adjusted (.fin s i' x) = x + (i'.length : ℤ) - 1 from rfl]
          rw [show isZero (.fin s i' x) = (i' == [0]) from rfl, show fix c (.fin s i' x) = fixFin c s i' x from rfl]
          dsimp only
          have hnv : (n : K) * 10 ^ x = number i' * 10 ^ x := by rw [← r3]; push_cast; rfl
          by_cases hb3 : x + (i'.length : ℤ) - 1 > c.emax
          · rw [if_pos hb3]
            refine ⟨fun _ => rfl, fun h1 => ?_⟩
            exfalso
            have z' : i' ≠ [0] := by rintro rfl; simp at hb3; omega
            have := (r2.adj (K := K) z' x).1
            rw [← hnv] at this
            have h4 := lt_of_le_of_lt this h1.2.2.2
            rw [ten_lt] at h4
            omega
          · rw [if_neg hb3]
            by_cases hb4 : (i'.length : ℤ) > c.prec
            · rw [if_pos hb4]
              refine ⟨fun _ => rfl, fun h1 => ?_⟩
              exfalso
              have z' : i' ≠ [0] := by rintro rfl; simp at hb4; omega
              have h2 : ¬ number i' < 10 ^ c.prec := fun h2 => by
                have := (r2.length_le z').2 h2; omega
              have h3 : (number i' : ℤ) < 10 ^ c.prec := by rw [r3]; exact h1.2.2.1
              exact h2 (by exact_mod_cast h3)
            · rw [if_neg hb4]
              have hok : c.emin - c.prec + 1 ≤ x ∧ x ≤ c.emax ∧ n < 10 ^ c.prec ∧ (n : K) * 10 ^ x < 10 ^ (c.emax + 1) := by
                refine ⟨hr.1, hr.2, ?_, ?_⟩
                · rw [← r3]
                  exact_mod_cast lt_of_lt_of_le r2.lt (Nat.pow_le_pow_right (by omega) (by omega))
                · rw [hnv]
                  by_cases z' : i' = [0]
                  · rw [z']; simpa [number] using ten_pos (K := K) (c.emax + 1)
                  · exact lt_of_lt_of_le (r2.adj (K := K) z' x).2 (ten_le.2 (by omega))
              refine ⟨fun h1 => absurd hok h1, fun _ => ?_⟩
              -- signals before `_fix`
              have hcmp := cmpFin_spec (K := K) r2 h s s x e
              have hcz : cmp (.fin s i' x) (.fin s i e) ≠ 0 ↔ (n : K) * 10 ^ x ≠ number i * 10 ^ e := by
                rw [hnv]
                have hsv : (finValue s i' x : K) = finValue s i e ↔ (number i' : K) * 10 ^ x = number i * 10 ^ e := by
                  cases s
                  · rw [finValue_false, finValue_false]
                  · rw [finValue_true, finValue_true, neg_inj]
                rw [← not_iff_not, not_not, not_not, ← hsv]
                show cmpFin s i' x s i e = 0 ↔ _
                constructor
                · intro h5
                  rcases lt_trichotomy (finValue s i' x : K) (finValue s i e) with h6 | h6 | h6
                  · rw [hcmp.1 h6] at h5; omega
                  · exact h6
                  · rw [hcmp.2.2 h6] at h5; omega
                · exact hcmp.2.1
              have hexact : ¬ x > e → (n : K) * 10 ^ x = number i * 10 ^ e := by
                intro h5
                obtain ⟨i'', q1, q2, q3, _⟩ := rescale_pad (K := K) m s h (e := e) (x := x) (by omega)
                rw [r1] at q1
                injection q1 with _ q1 _
                rw [hnv, q1, q3]
              -- `_fix`
              by_cases z' : i' = [0]
              · subst z'
                have hn0 : n = 0 := by rw [← r3]; rfl
                subst hn0
                obtain ⟨z1, z2⟩ := fixFin_zero c s x
                rw [z1, z2]
                refine ⟨[0], _, rfl, ⟨.inl rfl, hp, by split <;> omega, fun h2 => absurd rfl h2, fun h2 => ?_⟩, by simp [number], ?_, ?_⟩
                · rw [if_pos h2]; omega
                · by_cases hcl : c.clamp = true
                  · rw [if_pos hcl, if_pos hcl]; omega
                  · rw [if_neg hcl, if_neg hcl]; omega
                · intro g
                  rw [List.mem_append, List.mem_append]
                  have f1 : g ∈ (if min (max x (c.emin - c.prec + 1)) (if c.clamp = true then c.emax - c.prec + 1 else c.emax) = x then [] else [Sig.clamped]) ↔
                      g = .clamped ∧ c.clamp = true ∧ c.emax - c.prec + 1 < x := by
                    by_cases hcl : c.clamp = true
                    · rw [if_pos hcl]
                      by_cases hx : c.emax - c.prec + 1 < x
                      · rw [if_neg (by omega)]; simp [hcl, hx]
                      · rw [if_pos (by omega)]; simp [hx]
                    · rw [if_neg hcl, if_pos (by omega)]; simp [hcl]
                  rw [f1]
                  have f2 : g ∈ (if x > e then (if cmp (.fin s [0] x) (.fin s i e) ≠ 0 then [Sig.inexact] else []) ++ [.rounded] else []) ↔
                      (g = .inexact ∧ ((0 : ℤ) : K) * 10 ^ x ≠ number i * 10 ^ e) ∨ (g = .rounded ∧ e < x) := by
                    by_cases hx : x > e
                    · rw [if_pos hx]
                      by_cases hc2 : cmp (.fin s [0] x) (.fin s i e) ≠ 0
                      · rw [if_pos hc2]
                        have := hcz.1 hc2
                        simp only [List.cons_append, List.nil_append, List.mem_cons, List.not_mem_nil, or_false, this, ne_eq, not_false_eq_true, and_true,
                          hx.lt]
                      · rw [if_neg hc2]
                        have := mt hcz.2 hc2
                        simp only [List.nil_append, List.mem_singleton, this, and_false, false_or, hx.lt, and_true]
                    · rw [if_neg hx]
                      have h6 : ¬ e < x := by omega
                      simp only [List.not_mem_nil, hexact hx, ne_eq, not_true, and_false, h6, or_self]
                  rw [f2]
                  have f3 : g ∈ (if (!([0] : Digits) == [0] && decide (x + (([0] : Digits).length : ℤ) - 1 < c.emin)) = true then [Sig.subnormal] else []) ↔ False := by
                    simp
                  rw [f3]
                  generalize (((0 : ℤ) : K) * 10 ^ x ≠ number i * 10 ^ e) = P1
                  generalize (e < x) = P2
                  generalize (c.clamp = true ∧ c.emax - (c.prec : ℤ) + 1 < x) = P3
                  cases g <;> simp [h0]
              · obtain ⟨j, y, f1, f2, f3, f4, f5⟩ := fixFin_fits (K := K) hc s r2 z' (e := x) (by omega) hr.1 (by omega)
                refine ⟨j, y, f1, f2, by rw [f3, hnv], f4, ?_⟩
                intro g
                rw [List.mem_append, List.mem_append, f5]
                have hnpos : 0 < n := by rw [← r3]; exact_mod_cast r2.pos z'
                have hsub : x + (i'.length : ℤ) - 1 < c.emin ↔ (n : K) * 10 ^ x < 10 ^ c.emin := by
                  have := r2.adj (K := K) z' x
                  rw [← hnv] at this
                  constructor
                  · exact fun h5 => lt_of_lt_of_le this.2 (ten_le.2 (by omega))
                  · exact fun h5 => ten_lt.1 (lt_of_le_of_lt this.1 h5)
                have g1 : g ∈ (if (!i' == [0] && decide (x + (i'.length : ℤ) - 1 < c.emin)) = true then [Sig.subnormal] else []) ↔
                    g = .subnormal ∧ (n : K) * 10 ^ x < 10 ^ c.emin := by
                  rw [← hsub]
                  have : (i' == [0]) = false := by simpa using z'
                  rw [this]
                  by_cases h6 : x + (i'.length : ℤ) - 1 < c.emin
                  · rw [if_pos (by simpa using h6)]; simp [h6]
                  · rw [if_neg (by simpa using h6)]; simp [h6]
                have g2 : g ∈ (if x > e then (if cmp (.fin s i' x) (.fin s i e) ≠ 0 then [Sig.inexact] else []) ++ [.rounded] else []) ↔
                    (g = .inexact ∧ (n : K) * 10 ^ x ≠ number i * 10 ^ e) ∨ (g = .rounded ∧ e < x) := by
                  by_cases hx : x > e
                  · rw [if_pos hx]
                    by_cases hc2 : cmp (.fin s i' x) (.fin s i e) ≠ 0
                    · rw [if_pos hc2]
                      have := hcz.1 hc2
                      simp only [List.cons_append, List.nil_append, List.mem_cons, List.not_mem_nil, or_false, this, ne_eq, not_false_eq_true, and_true,
                        hx.lt]
                    · rw [if_neg hc2]
                      have := mt hcz.2 hc2
                      simp only [List.nil_append, List.mem_singleton, this, and_false, false_or, hx.lt, and_true]
                  · rw [if_neg hx]
                    have h6 : ¬ e < x := by omega
                    simp only [List.not_mem_nil, hexact hx, ne_eq, not_true, and_false, h6, or_self]
                rw [g1, g2, hsub]
                generalize ((n : K) * 10 ^ x ≠ number i * 10 ^ e) = P1
                generalize (e < x) = P2
                generalize (c.clamp = true ∧ c.emax - (c.prec : ℤ) + 1 < x) = P3
                generalize ((n : K) * 10 ^ x < 10 ^ c.emin) = P4
                cases g <;> simp [h0, hnpos]
  · rw [if_pos hr]
    unfold Ctx.etiny at hr
    exact ⟨fun _ => rfl, fun h1 => absurd ⟨h1.1, h1.2.1⟩ hr⟩

end

end Verif.Decimal
