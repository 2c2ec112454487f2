/- Normalizing. -/
import Verif.DecimalMore.Next

namespace Verif.DecimalMore
open Verif.Decimal

theorem adj_pos {i : Digits} (h : IsCoeff i) (h0 : i ≠ [0]) : 0 < number i := by
  rcases h with rfl | ⟨d, rest, rfl, hd, _⟩
  · exact absurd rfl h0
  · rw [number]
    have : 0 < d * 10 ^ rest.length := Nat.mul_pos (Nat.pos_of_ne_zero hd) (Nat.pow_pos (by norm_num))
    omega

/-- Results fit the context, unless they are infinite. -/
theorem result_fits {c : Ctx} (hc : c.Ok) {v : ℚ} {z : Bool} {e : ℤ} {o : Out Dec} (h : IsResult c v z e o) :
    (∃ s, o.2 = .inf s) ∨ ∃ s i x, o.2 = .fin s i x ∧ Fits c i x := by
  have rounding : ∀ {s : Bool} {M : ℚ}, 0 < M → IsRounding c s M e o → (∃ s, o.2 = .inf s) ∨ ∃ s i x, o.2 = .fin s i x ∧ Fits c i x := by
    intro s M hM h
    obtain ⟨adj, h1, h2⟩ := exists_adj hM
    obtain ⟨hbig, hsmall⟩ := h adj h1 h2
    by_cases hb : (10 : ℚ) ^ (c.emax + 1) ≤ roundAbs c.rounding s (M / 10 ^ max (adj - (c.prec : ℤ) + 1) (c.emin - c.prec + 1)) * 10 ^ max (adj - (c.prec : ℤ) + 1) (c.emin - c.prec + 1)
    · rw [(hbig hb).1]
      unfold tooLarge
      split
      all_goals first | exact .inl ⟨_, rfl⟩ | exact .inr ⟨_, _, _, rfl, fits_largest hc⟩
    · obtain ⟨i, x, h3, h4, -⟩ := hsmall (not_le.1 hb)
      exact .inr ⟨_, _, _, h3, h4⟩
  rcases lt_trichotomy v 0 with hv | hv | hv
  · exact rounding (by linarith) (h.negative hv)
  · exact .inr ⟨_, _, _, (h.zero hv).1, zero_fits hc e⟩
  · exact rounding hv (h.positive hv)

/-- The largest exponent that can be stored. -/
def topExp (c : Ctx) : ℤ := if c.clamp then c.emax - c.prec + 1 else c.emax

theorem fits_top {c : Ctx} {i : Digits} {x : ℤ} (h : Fits c i x) (h0 : i ≠ [0]) : x ≤ topExp c := by
  unfold topExp
  have h1 := h.most h0
  have h2 := h.wellFormed.length_pos
  by_cases hc : c.clamp = true
  · rw [if_pos hc]; exact h.clamped hc
  · rw [if_neg hc]; omega

theorem normal_spec {c : Ctx} {i : Digits} {x : ℤ} (h : Fits c i x) (h0 : i ≠ [0]) {ds : Digits} {x' : ℤ}
    (hd : dropZeros (topExp c) i.reverse x = (ds, x')) :
    IsCoeff ds.reverse ∧ (number ds.reverse : ℚ) * 10 ^ x' = number i * 10 ^ x ∧ x' ≤ topExp c ∧ (ds.reverse.getLast? ≠ some 0 ∨ x' = topExp c) := by
  obtain ⟨k, h1, h2, h3, h4⟩ := dropZeros_spec (topExp c) i.reverse x
  rw [hd] at h1 h2 h3 h4
  dsimp only at h1 h2 h3 h4
  have htop := h4 (fits_top h h0)
  have hi : i = ds.reverse ++ List.replicate k 0 := by
    have := congrArg List.reverse h1
    rwa [List.reverse_reverse, List.reverse_append, List.reverse_replicate] at this
  have hn : number i = number ds.reverse * 10 ^ k := by
    rw [hi, number_append, number_zeros, List.length_replicate]; omega
  have hpos := adj_pos h.wellFormed h0
  refine ⟨?_, ?_, htop, ?_⟩
  · have hne : ds.reverse ≠ [] := by
      intro h5
      rw [hn, h5] at hpos
      simp [number] at hpos
    rcases h.wellFormed with h5 | ⟨d, rest, h5, h6, h7⟩
    · exact absurd h5 h0
    · rw [h5] at hi
      cases hr : ds.reverse with
      | nil => exact absurd hr hne
      | cons y l =>
        rw [hr] at hi
        injection hi with hi1 hi2
        right
        refine ⟨y, l, rfl, hi1 ▸ h6, fun z hz => h7 z ?_⟩
        rw [hi1, hi2]
        rcases List.mem_cons.1 hz with hz | hz
        · exact List.mem_cons.2 (.inl hz)
        · exact List.mem_cons.2 (.inr (List.mem_append.2 (.inl hz)))
  · rw [h2, hn, add_comm, ten_add, ten_nat]; push_cast; ring
  · rw [List.getLast?_reverse]
    rcases h3 with h3 | h3
    · exact .inl h3
    · exact .inr (le_antisymm htop h3)

/-- Two such representations of one number are the same. -/
theorem normal_unique {m : ℤ} {i j : Digits} {x y : ℤ} (hi : IsCoeff i) (hj : IsCoeff j) (h : (number i : ℚ) * 10 ^ x = number j * 10 ^ y)
    (hx : x ≤ m) (hy : y ≤ m) (lx : i.getLast? ≠ some 0 ∨ x = m) (ly : j.getLast? ≠ some 0 ∨ y = m) : i = j ∧ x = y := by
  have key : ∀ {i j : Digits} {x y : ℤ}, IsCoeff i → (number i : ℚ) * 10 ^ x = number j * 10 ^ y → y ≤ m → (i.getLast? ≠ some 0 ∨ x = m) → ¬ x < y := by
    intro i j x y hi h hy lx hlt
    have lx' : i.getLast? ≠ some 0 := by
      rcases lx with lx | lx
      · exact lx
      · omega
    have h1 : number i = number j * 10 ^ (y - x).toNat := by
      have h2 : y = ((y - x).toNat : ℤ) + x := by omega
      rw [h2, ten_add, ← mul_assoc] at h
      have h3 := mul_right_cancel₀ (ten_pos x).ne' h
      rw [ten_nat] at h3
      have h5 : (((y - x).toNat : ℤ) + x - x).toNat = (y - x).toNat := by omega
      exact_mod_cast h3
    have hl := hi.length_pos
    obtain ⟨init, d, hid⟩ : ∃ init d, i = init ++ [d] := ⟨_, _, (List.dropLast_concat_getLast (by rintro rfl; simp at hl)).symm⟩
    rw [hid, List.getLast?_append] at lx'
    have hd : d < 10 := hi.digits d (by rw [hid]; simp)
    rw [hid, number_append] at h1
    obtain ⟨k, hk⟩ : ∃ k, (y - x).toNat = k + 1 := ⟨(y - x).toNat - 1, by omega⟩
    rw [hk, Nat.pow_succ, ← Nat.mul_assoc] at h1
    simp only [number, List.length_cons, List.length_nil, Nat.zero_add, Nat.pow_one, pow_zero, Nat.mul_one, Nat.add_zero] at h1
    have : d ≠ 0 := by rintro rfl; simp at lx'
    omega
  have hxy : x = y := by
    have := key hi h hy lx
    have := key hj h.symm hx ly
    omega
  subst hxy
  refine ⟨hi.inj hj ?_, rfl⟩
  have := mul_right_cancel₀ (ten_pos x).ne' h
  exact_mod_cast this

theorem normalize_fin (c : Ctx) (s : Bool) (i : Digits) (e : ℤ) : normalizeDec c (.fin s i e) =
    match fixFin c s i e with
    | (sigs, .fin s i e) =>
      if i == [0] then (sigs, .fin s [0] 0)
      else (sigs, .fin s (dropZeros (topExp c) i.reverse e).1.reverse (dropZeros (topExp c) i.reverse e).2)
    | o => o := rfl

end Verif.DecimalMore
