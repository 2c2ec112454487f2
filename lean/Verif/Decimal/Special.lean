/- NaNs and infinities. -/
import Verif.Decimal.Digits

namespace Verif.Decimal

theorem lstrip_spec (ds : Digits) (h : ∀ x ∈ ds, x < 10) :
    (lstrip ds).length ≤ ds.length ∧ number (lstrip ds) = number ds ∧ (lstrip ds).head? ≠ some 0 := by
  induction ds with
  | nil => simp [lstrip]
  | cons x ds ih =>
    obtain ⟨h1, h2, h3⟩ := ih fun y hy => h y (List.mem_cons_of_mem _ hy)
    cases x with
    | zero =>
      rw [lstrip]
      exact ⟨by simp; omega, by simp [number, h2], h3⟩
    | succ x => simp [lstrip]

theorem fixNan_spec (c : Ctx) (s : Bool) {p : Digits} (h : ∀ x ∈ p, x < 10) : IsQuieted c s p (fixNan c s p false) := by
  unfold IsQuieted fixNan
  have hroom : c.prec - (if c.clamp then 1 else 0) = if c.clamp then c.prec - 1 else c.prec := by split <;> rfl
  dsimp only
  rw [hroom]
  generalize (if c.clamp = true then c.prec - 1 else c.prec) = room
  by_cases hl : p.length > room
  · rw [if_pos hl]
    obtain ⟨h1, h2, h3⟩ := lstrip_spec (p.drop (p.length - room)) fun x hx => h x (List.mem_of_mem_drop hx)
    refine ⟨_, rfl, by rw [List.length_drop] at h1; omega, ?_, fun h4 => by omega, fun _ => h3⟩
    rw [h2]
    have h4 := number_append (p.take (p.length - room)) (p.drop (p.length - room))
    rw [List.take_append_drop, List.length_drop, show p.length - (p.length - room) = room by omega] at h4
    have h5 : number (p.drop (p.length - room)) < 10 ^ room := by
      have := number_lt (ds := p.drop (p.length - room)) fun x hx => h x (List.mem_of_mem_drop hx)
      rwa [List.length_drop, show p.length - (p.length - room) = room by omega] at this
    rw [h4, Nat.mul_add_mod_self_right, Nat.mod_eq_of_lt h5]
  · rw [if_neg hl]
    refine ⟨p, rfl, by omega, ?_, fun _ => rfl, fun h4 => by omega⟩
    rw [Nat.mod_eq_of_lt]
    exact lt_of_lt_of_le (number_lt h) (Nat.pow_le_pow_right (by omega) (by omega))

/-- `_check_nans`. -/
theorem checkNans_spec (c : Ctx) {a b : Dec} {s : Bool} {p : Digits} {g : Bool} (h : decisive [a, b] = some (.nan s p g)) (hp : ∀ x ∈ p, x < 10) :
    ∃ r, checkNans c a b = some (if g then [.invalidOperation] else [], r) ∧ IsQuieted c s p r := by
  rcases a with ⟨s1, i1, e1⟩ | s1 | ⟨s1, p1, _ | _⟩ <;> rcases b with ⟨s2, i2, e2⟩ | s2 | ⟨s2, p2, _ | _⟩ <;>
    simp [decisive] at h <;> obtain ⟨rfl, rfl, rfl⟩ := h <;> exact ⟨_, rfl, fixNan_spec c _ hp⟩

theorem checkNans_none (c : Ctx) {a b : Dec} (ha : ¬ IsNaN a) (hb : ¬ IsNaN b) : checkNans c a b = none := by
  rcases a with ⟨s1, i1, e1⟩ | s1 | ⟨s1, p1, g1⟩
  · rcases b with ⟨s2, i2, e2⟩ | s2 | ⟨s2, p2, g2⟩
    · rfl
    · rfl
    · exact absurd ⟨_, _, _, rfl⟩ hb
  · rcases b with ⟨s2, i2, e2⟩ | s2 | ⟨s2, p2, g2⟩
    · rfl
    · rfl
    · exact absurd ⟨_, _, _, rfl⟩ hb
  · exact absurd ⟨_, _, _, rfl⟩ ha

end Verif.Decimal
