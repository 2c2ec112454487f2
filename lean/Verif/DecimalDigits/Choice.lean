/- Comparisons, for the choices between decimals. -/
import Verif.DecimalDigits.Lemmas
import Verif.DecimalMore.Props

namespace Verif.DecimalDigits
open Verif.Decimal Verif.DecimalMore

theorem ok_of_proper {a : Dec} (h : Proper a) : a.Ok := by
  rcases a with ⟨s, i, e⟩ | s | ⟨s, p, g⟩
  · exact h
  · trivial
  · trivial

theorem orTotal_spec {a b : Dec} (ha : Proper a) (hb : Proper b) (na : ¬ IsNaN a) (nb : ¬ IsNaN b) :
    (orTotal (Decimal.cmp a b) a b = -1 ↔ Before a b) ∧ (orTotal (Decimal.cmp a b) a b = 1 ↔ Before b a) ∧ (Before a b ∨ a = b ∨ Before b a) := by
  obtain ⟨h1, h2, h3, h4⟩ := cmp_spec (ok_of_proper ha) (ok_of_proper hb) na nb
  obtain ⟨t1, t2, t3, t4⟩ := total_order ha hb
  obtain ⟨g1, g2, g3, g4⟩ := cmp_spec (ok_of_proper hb) (ok_of_proper ha) nb na
  have same : Same ℚ b a ↔ Same ℚ a b := by
    constructor
    · intro h
      rcases h4 with h' | h' | h'
      · have := g3 h'; rw [g2 h] at this; exact absurd this (by decide)
      · exact h'
      · have := g1 h'; rw [g2 h] at this; exact absurd this (by decide)
    · intro h
      rcases g4 with h' | h' | h'
      · have := h3 h'; rw [h2 h] at this; exact absurd this (by decide)
      · exact h'
      · have := h1 h'; rw [h2 h] at this; exact absurd this (by decide)
  unfold Before orTotal
  rcases h4 with h | h | h
  · have e := h1 h
    rw [e]
    have nl : ¬ Less ℚ b a := fun h' => by have := h3 h'; rw [e] at this; exact absurd this (by decide)
    have ns : ¬ Same ℚ a b := fun h' => by have := h2 h'; rw [e] at this; exact absurd this (by decide)
    simp [h, nl, same, ns]
  · have e := h2 h
    rw [e, if_pos rfl]
    have nl1 : ¬ Less ℚ a b := fun h' => by have := h1 h'; rw [e] at this; exact absurd this (by decide)
    have nl2 : ¬ Less ℚ b a := fun h' => by have := h3 h'; rw [e] at this; exact absurd this (by decide)
    simp only [nl1, nl2, same, h, true_and, false_or]
    rcases t4 with t | t | t
    · have e' := t1 t
      have nt : ¬ TotalBelow b a := fun h' => by have := t2 h'; rw [e'] at this; exact absurd this (by decide)
      simp [e', t, nt]
    · have e' := t3 t
      have nt1 : ¬ TotalBelow a b := fun h' => by have := t1 h'; rw [e'] at this; exact absurd this (by decide)
      have nt2 : ¬ TotalBelow b a := fun h' => by have := t2 h'; rw [e'] at this; exact absurd this (by decide)
      rw [e']
      exact ⟨⟨fun h => absurd h (by decide), fun h => absurd h nt1⟩, ⟨fun h => absurd h (by decide), fun h => absurd h nt2⟩, .inr (.inl t)⟩
    · have e' := t2 t
      have nt : ¬ TotalBelow a b := fun h' => by have := t1 h'; rw [e'] at this; exact absurd this (by decide)
      simp [e', t, nt]
  · have e := h3 h
    rw [e]
    have nl : ¬ Less ℚ a b := fun h' => by have := h1 h'; rw [e] at this; exact absurd this (by decide)
    have ns : ¬ Same ℚ a b := fun h' => by have := h2 h'; rw [e] at this; exact absurd this (by decide)
    simp [h, nl, same, ns]

theorem value_false (s : Bool) (i : Digits) (e : ℤ) : value false i e = |value s i e| := by
  rw [value_abs]; unfold value; rw [finValue_false]

theorem orTotalMag_spec {a b : Dec} (ha : Proper a) (hb : Proper b) (na : ¬ IsNaN a) (nb : ¬ IsNaN b) :
    (orTotal (Decimal.cmp (copyAbs a) (copyAbs b)) a b = -1 ↔ BeforeMag a b) ∧
    (orTotal (Decimal.cmp (copyAbs a) (copyAbs b)) a b = 1 ↔ BeforeMag b a) ∧ (BeforeMag a b ∨ a = b ∨ BeforeMag b a) := by
  have tot : ∀ {a b : Dec}, Proper a → Proper b → Decimal.cmp (copyAbs a) (copyAbs b) = 0 →
      (orTotal (Decimal.cmp (copyAbs a) (copyAbs b)) a b = -1 ↔ TotalBelow a b) ∧
      (orTotal (Decimal.cmp (copyAbs a) (copyAbs b)) a b = 1 ↔ TotalBelow b a) ∧ (TotalBelow a b ∨ a = b ∨ TotalBelow b a) := by
    intro a b ha hb h0
    obtain ⟨t1, t2, t3, t4⟩ := total_order ha hb
    unfold orTotal
    rw [h0, if_pos rfl]
    refine ⟨⟨fun h => ?_, t1⟩, ⟨fun h => ?_, t2⟩, t4⟩
    · rcases t4 with t | t | t
      · exact t
      · rw [t3 t] at h; exact absurd h (by decide)
      · rw [t2 t] at h; exact absurd h (by decide)
    · rcases t4 with t | t | t
      · rw [t1 t] at h; exact absurd h (by decide)
      · rw [t3 t] at h; exact absurd h (by decide)
      · exact t
  rcases a with ⟨s1, i1, e1⟩ | s1 | ⟨s1, p1, g1⟩
  · rcases b with ⟨s2, i2, e2⟩ | s2 | ⟨s2, p2, g2⟩
    · obtain ⟨h1, h2, h3⟩ := cmpFin_spec (K := ℚ) (i1 := i1) (i2 := i2) ha hb false false e1 e2
      have hc : Decimal.cmp (copyAbs (.fin s1 i1 e1)) (copyAbs (.fin s2 i2 e2)) = cmpFin false i1 e1 false i2 e2 := rfl
      have v1 : (finValue false i1 e1 : ℚ) = |value s1 i1 e1| := value_false s1 i1 e1
      have v2 : (finValue false i2 e2 : ℚ) = |value s2 i2 e2| := value_false s2 i2 e2
      rw [v1, v2] at h1 h2 h3
      unfold BeforeMag
      dsimp only
      rcases lt_trichotomy |value s1 i1 e1| |value s2 i2 e2| with h | h | h
      · have nl := not_lt.2 h.le
        simp only [orTotal, hc, h1 h, h, nl, h.ne, h.ne', true_or, false_and, or_false, iff_true]
        simp
      · obtain ⟨t1, t2, t3⟩ := tot ha hb (hc.trans (h2 h))
        simp only [h, lt_irrefl, true_and, false_or]
        exact ⟨t1, t2, t3⟩
      · have nl := not_lt.2 h.le
        simp only [orTotal, hc, h3 h, h, nl, h.ne, h.ne', false_and, or_false, or_true, iff_true]
        simp
    · have hc : Decimal.cmp (copyAbs (.fin s1 i1 e1)) (copyAbs (.inf s2)) = -1 := rfl
      unfold orTotal; rw [hc]; simp [BeforeMag]
    · exact absurd ⟨_, _, _, rfl⟩ nb
  · rcases b with ⟨s2, i2, e2⟩ | s2 | ⟨s2, p2, g2⟩
    · have hc : Decimal.cmp (copyAbs (.inf s1)) (copyAbs (.fin s2 i2 e2)) = 1 := rfl
      unfold orTotal; rw [hc]; simp [BeforeMag]
    · cases s1 <;> cases s2 <;> simp [BeforeMag] <;> decide
    · exact absurd ⟨_, _, _, rfl⟩ nb
  · exact absurd ⟨_, _, _, rfl⟩ na

theorem chooseNans_none (c : Ctx) {a b : Dec} (na : ¬ IsNaN a) (nb : ¬ IsNaN b) : chooseNans c a b = none := by
  have : ∀ {d : Dec}, ¬ IsNaN d → nanKind d = 0 := by
    intro d hd
    rcases d with ⟨s, i, e⟩ | s | ⟨s, p, g⟩
    · rfl
    · rfl
    · exact absurd ⟨_, _, _, rfl⟩ hd
  unfold chooseNans
  rw [if_pos ⟨this na, this nb⟩]

theorem fix_rounded {c : Ctx} (hc : c.Ok) {d : Dec} (hd : d.Ok) (nd : ¬ IsNaN d) : IsRounded c d (fix c d) := by
  rcases d with ⟨s, i, e⟩ | s | ⟨s, p, g⟩
  · exact fix_result (K := ℚ) hc s hd e
  · rfl
  · exact absurd ⟨_, _, _, rfl⟩ nd

end Verif.DecimalDigits
