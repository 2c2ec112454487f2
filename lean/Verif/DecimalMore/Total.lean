/- The total order. -/
import Verif.DecimalMore.Lemmas

namespace Verif.DecimalMore
open Verif.Decimal

theorem IsPayload.coeff {p : Digits} (h : IsPayload p) (h0 : p ≠ []) : IsCoeff p ∧ p ≠ [0] := by
  obtain ⟨h1, h2⟩ := h
  cases p with
  | nil => exact absurd rfl h0
  | cons x p =>
    simp only [List.head?_cons, ne_eq, Option.some.injEq] at h1
    exact ⟨.inr ⟨x, p, rfl, h1, h2⟩, by simp [h1]⟩

theorem IsPayload.inj {p q : Digits} (hp : IsPayload p) (hq : IsPayload q) (h : number p = number q) : p = q := by
  by_cases h1 : p = []
  · by_cases h2 : q = []
    · rw [h1, h2]
    · have := (hq.coeff h2).1.pos (hq.coeff h2).2
      subst h1; simp [number] at h; omega
  · by_cases h2 : q = []
    · have := (hp.coeff h1).1.pos (hp.coeff h1).2
      subst h2; simp [number] at h; omega
    · exact (hp.coeff h1).1.inj (hq.coeff h2).1 h

theorem keyLt_iff {p q : Digits} (hp : IsPayload p) (hq : IsPayload q) : keyLt p q = true ↔ number p < number q := by
  have longer : ∀ {p q : Digits}, IsPayload p → IsPayload q → p.length < q.length → number p < number q := by
    intro p q hp hq hl
    have h2 : q ≠ [] := by rintro rfl; simp at hl
    have h3 := (hq.coeff h2).1.ge (hq.coeff h2).2
    refine lt_of_lt_of_le (number_lt hp.2) (le_trans (Nat.pow_le_pow_right (by omega) (by omega)) h3)
  unfold keyLt
  rw [Bool.or_eq_true, Bool.and_eq_true, decide_eq_true_eq, beq_iff_eq]
  constructor
  · rintro (h | ⟨h1, h2⟩)
    · exact longer hp hq h
    · exact (strLt_iff h1 hp.2 hq.2).1 h2
  · intro h
    rcases Nat.lt_trichotomy p.length q.length with h1 | h1 | h1
    · exact .inl h1
    · exact .inr ⟨h1, (strLt_iff h1 hp.2 hq.2).2 h⟩
    · exact absurd (longer hq hp h1) (by omega)

theorem value_same {i1 i2 : Digits} (h1 : IsCoeff i1) (h2 : IsCoeff i2) {e : ℤ} (h : value false i1 e = value false i2 e) : i1 = i2 := by
  unfold value at h
  rw [finValue_false, finValue_false] at h
  have := mul_right_cancel₀ (ten_pos (K := ℚ) e).ne' h
  exact h1.inj h2 (by exact_mod_cast this)

theorem value_lt_signed (s : Bool) (i1 i2 : Digits) (e1 e2 : ℤ) :
    (finValue s i1 e1 : ℚ) < finValue s i2 e2 ↔ if s then value false i2 e2 < value false i1 e1 else value false i1 e1 < value false i2 e2 := by
  unfold value
  cases s
  · simp
  · simp only [finValue_true, finValue_false, if_true]; exact neg_lt_neg_iff

/-- The order is irreflexive and transitive. -/
theorem magnitudeBelow_irrefl (a : Dec) : ¬ MagnitudeBelow a a := by
  rintro (h | h)
  · omega
  · cases a with
    | fin s i e => rcases h with h | ⟨_, h⟩ <;> simp at h
    | inf s => exact h
    | nan s p g => simp at h

theorem magnitudeBelow_trans {a b c : Dec} (h1 : MagnitudeBelow a b) (h2 : MagnitudeBelow b c) : MagnitudeBelow a c := by
  rcases h1 with h1 | h1
  · have hbc : layer b ≤ layer c := by
      rcases h2 with h2 | h2
      · omega
      · cases b with
        | fin s i e => cases c with
          | fin => exact le_refl _
          | inf => exact h2.elim
          | nan => exact h2.elim
        | inf s => exact h2.elim
        | nan s p g => cases c with
          | fin => exact h2.elim
          | inf => exact h2.elim
          | nan s' p' g' =>
            obtain ⟨rfl, _⟩ := h2
            cases g <;> exact le_refl _
    exact .inl (by omega)
  · cases a with
    | fin s i e => cases b with
      | fin s' i' e' =>
        rcases h2 with h2 | h2
        · exact .inl h2
        · cases c with
          | fin s'' i'' e'' =>
            refine .inr ?_
            rcases h1 with h1 | ⟨h1, h1'⟩
            · rcases h2 with h2 | ⟨h2, _⟩
              · exact .inl (lt_trans h1 h2)
              · exact .inl (h2 ▸ h1)
            · rcases h2 with h2 | ⟨h2, h2'⟩
              · exact .inl (h1 ▸ h2)
              · exact .inr ⟨h1.trans h2, by omega⟩
          | inf => exact h2.elim
          | nan => exact h2.elim
      | inf => exact h1.elim
      | nan => exact h1.elim
    | inf s => exact h1.elim
    | nan s p g => cases b with
      | fin => exact h1.elim
      | inf => exact h1.elim
      | nan s' p' g' =>
        obtain ⟨rfl, h1⟩ := h1
        rcases h2 with h2 | h2
        · refine .inl ?_
          cases g <;> exact h2
        · cases c with
          | fin => exact h2.elim
          | inf => exact h2.elim
          | nan s'' p'' g'' =>
            obtain ⟨rfl, h2⟩ := h2
            exact .inr ⟨rfl, by omega⟩

/-- What `compare_total` gives for operands of the same sign. -/
theorem compareTotal_same {a b : Dec} (ha : Proper a) (hb : Proper b) (s : Bool) (hsa : negative a = s) (hsb : negative b = s) :
    (MagnitudeBelow a b → compareTotal a b = if s then 1 else -1) ∧ (MagnitudeBelow b a → compareTotal a b = if s then -1 else 1) ∧
    (a = b → compareTotal a b = 0) ∧ (MagnitudeBelow a b ∨ a = b ∨ MagnitudeBelow b a) := by
  cases a with
  | fin s1 i1 e1 =>
    obtain rfl : s1 = s := hsa
    cases b with
    | fin s2 i2 e2 =>
      obtain rfl : s2 = s1 := hsb
      have hcmp := cmpFin_spec (K := ℚ) ha hb s2 s2 e1 e2
      rw [value_lt_signed, value_lt_signed] at hcmp
      have hct : compareTotal (.fin s2 i1 e1) (.fin s2 i2 e2) = (if Decimal.cmp (.fin s2 i1 e1) (.fin s2 i2 e2) < 0 then -1
          else if Decimal.cmp (.fin s2 i1 e1) (.fin s2 i2 e2) > 0 then 1 else if e1 < e2 then (if s2 then 1 else -1) else if e2 < e1 then (if s2 then -1 else 1) else 0) := by
        unfold compareTotal
        simp only [signOf, nanKind, lt, gt, compareCheckNans, expLt, decide_eq_true_eq]
        cases s2 <;> simp
      rw [hct, show Decimal.cmp (.fin s2 i1 e1) (.fin s2 i2 e2) = cmpFin s2 i1 e1 s2 i2 e2 from rfl]
      have heq : value false i1 e1 = value false i2 e2 → cmpFin s2 i1 e1 s2 i2 e2 = 0 := by
        intro h
        apply hcmp.2.1
        unfold value at h
        rw [finValue_false, finValue_false] at h
        simp [finValue, h]
      refine ⟨?_, ?_, ?_, ?_⟩
      · rintro (h | h)
        · exact absurd h (by simp [layer])
        · rcases h with h | ⟨h, h'⟩
          · cases s2
            · rw [hcmp.1 h]; rfl
            · rw [hcmp.2.2 h]; rfl
          · rw [heq h]; simp [h']
      · rintro (h | h)
        · exact absurd h (by simp [layer])
        · rcases h with h | ⟨h, h'⟩
          · cases s2
            · rw [hcmp.2.2 h]; rfl
            · rw [hcmp.1 h]; rfl
          · rw [heq h.symm]
            have : ¬ e1 < e2 := by omega
            simp [this, h']
      · intro h
        injection h with _ h1 h2
        subst h1 h2
        rw [heq rfl]; simp
      · rcases lt_trichotomy (value false i1 e1) (value false i2 e2) with h | h | h
        · exact .inl (.inr (.inl h))
        · rcases lt_trichotomy e1 e2 with h' | h' | h'
          · exact .inl (.inr (.inr ⟨h, h'⟩))
          · subst h'
            rw [value_same ha hb h]
            exact .inr (.inl rfl)
          · exact .inr (.inr (.inr (.inr ⟨h.symm, h'⟩)))
        · exact .inr (.inr (.inr (.inl h)))
    | inf s2 =>
      obtain rfl : s2 = s1 := hsb
      cases s2 <;> simp [MagnitudeBelow, layer, compareTotal, signOf, nanKind, lt, gt, compareCheckNans, Decimal.cmp, infinity, minusOne]
    | nan s2 p2 g2 =>
      obtain rfl : s2 = s1 := hsb
      cases s2 <;> cases g2 <;> simp [MagnitudeBelow, layer, compareTotal, signOf, nanKind]
  | inf s1 =>
    obtain rfl : s1 = s := hsa
    cases b with
    | fin s2 i2 e2 =>
      obtain rfl : s2 = s1 := hsb
      cases s2 <;> simp [MagnitudeBelow, layer, compareTotal, signOf, nanKind, lt, gt, compareCheckNans, Decimal.cmp, infinity, minusOne]
    | inf s2 =>
      obtain rfl : s2 = s1 := hsb
      cases s2 <;> simp [MagnitudeBelow, layer, compareTotal, signOf, nanKind, lt, gt, compareCheckNans, Decimal.cmp, infinity, minusOne, expLt]
    | nan s2 p2 g2 =>
      obtain rfl : s2 = s1 := hsb
      cases s2 <;> cases g2 <;> simp [MagnitudeBelow, layer, compareTotal, signOf, nanKind]
  | nan s1 p1 g1 =>
    obtain rfl : s1 = s := hsa
    cases b with
    | fin s2 i2 e2 =>
      obtain rfl : s2 = s1 := hsb
      cases s2 <;> cases g1 <;> simp [MagnitudeBelow, layer, compareTotal, signOf, nanKind]
    | inf s2 =>
      obtain rfl : s2 = s1 := hsb
      cases s2 <;> cases g1 <;> simp [MagnitudeBelow, layer, compareTotal, signOf, nanKind]
    | nan s2 p2 g2 =>
      obtain rfl : s2 = s1 := hsb
      by_cases hg : g1 = g2
      · subst hg
        have k1 := keyLt_iff ha hb
        have k2 := keyLt_iff hb ha
        have hct : compareTotal (.nan s2 p1 g1) (.nan s2 p2 g1) = (if keyLt p1 p2 then (if s2 then 1 else -1)
            else if keyLt p2 p1 then (if s2 then -1 else 1) else 0) := by
          unfold compareTotal
          simp only [signOf, nanKind, payloadOf]
          cases s2 <;> cases g1 <;> simp
        rw [hct]
        have hl : ∀ p q : Digits, MagnitudeBelow (.nan s2 p g1) (.nan s2 q g1) ↔ number p < number q := by
          intro p q
          unfold MagnitudeBelow
          cases g1 <;> simp [layer]
        rw [hl, hl]
        refine ⟨fun h => by rw [if_pos (k1.2 h)], fun h => ?_, fun h => ?_, ?_⟩
        · rw [if_neg (by rw [k1]; omega), if_pos (k2.2 h)]
        · injection h with _ h1 _
          subst h1
          rw [if_neg (by rw [k1]; omega), if_neg (by rw [k1]; omega)]
        · rcases Nat.lt_trichotomy (number p1) (number p2) with h | h | h
          · exact .inl h
          · rw [ha.inj hb h]; exact .inr (.inl rfl)
          · exact .inr (.inr h)
      · cases g1 <;> cases g2 <;> first | exact absurd rfl hg | (cases s2 <;> simp [MagnitudeBelow, layer, compareTotal, signOf, nanKind])

end Verif.DecimalMore
