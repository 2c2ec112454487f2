/- Lemmas about strings of digits. -/
import Verif.Decimal.Spec
import Mathlib.Tactic.Ring
import Mathlib.Tactic.Linarith

namespace Verif.Decimal

theorem foldl_number (ds : Digits) (a : Nat) : ds.foldl (fun a d => a * 10 + d) a = a * 10 ^ ds.length + number ds := by
  induction ds generalizing a with
  | nil => simp [number]
  | cons d ds ih => rw [List.foldl_cons, ih, number, List.length_cons]; ring

theorem toInt_eq (ds : Digits) : toInt ds = number ds := by rw [toInt, foldl_number]; simp

theorem number_append (a b : Digits) : number (a ++ b) = number a * 10 ^ b.length + number b := by
  induction a with
  | nil => simp [number]
  | cons d a ih => rw [List.cons_append, number, ih, number, List.length_append]; ring

theorem number_lt {ds : Digits} (h : ∀ x ∈ ds, x < 10) : number ds < 10 ^ ds.length := by
  induction ds with
  | nil => simp [number]
  | cons d ds ih =>
    rw [number, List.length_cons, Nat.pow_succ]
    have h1 := ih fun x hx => h x (List.mem_cons_of_mem _ hx)
    have h2 := h d List.mem_cons_self
    have h3 : d * 10 ^ ds.length ≤ 9 * 10 ^ ds.length := Nat.mul_le_mul_right _ (by omega)
    omega

theorem number_zeros (n : Nat) : number (List.replicate n 0) = 0 := by
  induction n with
  | zero => rfl
  | succ n ih => rw [List.replicate_succ, number, ih]; simp

theorem number_eq_zero {ds : Digits} : number ds = 0 ↔ ds.all (· == 0) = true := by
  induction ds with
  | nil => simp [number]
  | cons d ds ih =>
    rw [number, List.all_cons, Bool.and_eq_true, ← ih]
    have : 0 < 10 ^ ds.length := Nat.pow_pos (by omega)
    constructor
    · intro h
      have h1 : d * 10 ^ ds.length = 0 := by omega
      refine ⟨?_, by omega⟩
      rcases Nat.mul_eq_zero.1 h1 with h2 | h2
      · simp [h2]
      · omega
    · rintro ⟨h1, h2⟩
      rw [h2, (by simpa using h1 : d = 0)]; simp

theorem number_pad (ds : Digits) (n : Int) : number (pad ds n) = number ds * 10 ^ n.toNat := by
  rw [pad, number_append, number_zeros, List.length_replicate]; omega

theorem length_pad (ds : Digits) (n : Int) : (pad ds n).length = ds.length + n.toNat := by
  rw [pad, List.length_append, List.length_replicate]

theorem IsCoeff.digits {ds : Digits} (h : IsCoeff ds) : ∀ x ∈ ds, x < 10 := by
  rcases h with rfl | ⟨d, rest, rfl, _, h⟩
  · simp
  · exact h

theorem IsCoeff.length_pos {ds : Digits} (h : IsCoeff ds) : 0 < ds.length := by
  rcases h with rfl | ⟨d, rest, rfl, _, h⟩ <;> simp

theorem IsCoeff.lt {ds : Digits} (h : IsCoeff ds) : number ds < 10 ^ ds.length := number_lt h.digits

theorem IsCoeff.ge {ds : Digits} (h : IsCoeff ds) (h0 : ds ≠ [0]) : 10 ^ (ds.length - 1) ≤ number ds := by
  rcases h with rfl | ⟨d, rest, rfl, hd, h⟩
  · exact absurd rfl h0
  · rw [number, List.length_cons, Nat.add_sub_cancel]
    have : 1 * 10 ^ rest.length ≤ d * 10 ^ rest.length := Nat.mul_le_mul_right _ (by omega)
    omega

theorem IsCoeff.pos {ds : Digits} (h : IsCoeff ds) (h0 : ds ≠ [0]) : 0 < number ds :=
  Nat.lt_of_lt_of_le (Nat.pow_pos (by omega)) (h.ge h0)

theorem IsCoeff.eq_zero {ds : Digits} (h : IsCoeff ds) : number ds = 0 ↔ ds = [0] := by
  constructor
  · intro h1
    rcases Decidable.em (ds = [0]) with h2 | h2
    · exact h2
    · have := h.pos h2; omega
  · rintro rfl; rfl

theorem IsCoeff.append {a b : Digits} (h : IsCoeff a) (h0 : a ≠ [0]) (hb : ∀ x ∈ b, x < 10) : IsCoeff (a ++ b) := by
  rcases h with rfl | ⟨d, rest, rfl, hd, h⟩
  · exact absurd rfl h0
  · refine .inr ⟨d, rest ++ b, rfl, hd, ?_⟩
    intro x hx
    rw [← List.cons_append, List.mem_append] at hx
    exact hx.elim (h x) (hb x)

theorem IsCoeff.pad {a : Digits} (h : IsCoeff a) (h0 : a ≠ [0]) (n : Int) : IsCoeff (pad a n) :=
  h.append h0 fun x hx => by rw [List.eq_of_mem_replicate hx]; omega

theorem IsCoeff.take {a : Digits} (h : IsCoeff a) (h0 : a ≠ [0]) {k : Nat} (hk : 0 < k) : IsCoeff (a.take k) ∧ a.take k ≠ [0] := by
  rcases h with rfl | ⟨d, rest, rfl, hd, h⟩
  · exact absurd rfl h0
  · obtain ⟨k, rfl⟩ : ∃ j, k = j + 1 := ⟨k - 1, by omega⟩
    rw [List.take_succ_cons]
    refine ⟨.inr ⟨d, _, rfl, hd, fun x hx => ?_⟩, ?_⟩
    · rcases List.mem_cons.1 hx with rfl | hx
      · exact h _ List.mem_cons_self
      · exact h x (List.mem_cons_of_mem _ (List.mem_of_mem_take hx))
    · intro h1; injection h1 with h1 _; exact hd h1

/-- Coefficients of one number are equal. -/
theorem number_inj {a b : Digits} (hl : a.length = b.length) (ha : ∀ x ∈ a, x < 10) (hb : ∀ x ∈ b, x < 10)
    (h : number a = number b) : a = b := by
  induction a generalizing b with
  | nil => cases b with
    | nil => rfl
    | cons => simp at hl
  | cons x a ih => cases b with
    | nil => simp at hl
    | cons y b =>
      rw [List.length_cons, List.length_cons] at hl
      have hl' : a.length = b.length := by omega
      rw [number, number, ← hl'] at h
      have h1 := number_lt fun z hz => ha z (List.mem_cons_of_mem _ hz)
      have h2 := number_lt fun z hz => hb z (List.mem_cons_of_mem _ hz)
      rw [← hl'] at h2
      have hxy : x = y := by
        have e1 : (x * 10 ^ a.length + number a) / 10 ^ a.length = x := by
          rw [Nat.add_comm, Nat.add_mul_div_right _ _ (Nat.pow_pos (by omega)), Nat.div_eq_of_lt h1]; omega
        have e2 : (y * 10 ^ a.length + number b) / 10 ^ a.length = y := by
          rw [Nat.add_comm, Nat.add_mul_div_right _ _ (Nat.pow_pos (by omega)), Nat.div_eq_of_lt h2]; omega
        rw [← e1, ← e2, h]
      subst hxy
      rw [ih hl' (fun z hz => ha z (List.mem_cons_of_mem _ hz)) (fun z hz => hb z (List.mem_cons_of_mem _ hz)) (by omega)]

theorem IsCoeff.length_le {a : Digits} (h : IsCoeff a) (h0 : a ≠ [0]) {k : Nat} : a.length ≤ k ↔ number a < 10 ^ k := by
  constructor
  · exact fun h1 => Nat.lt_of_lt_of_le h.lt (Nat.pow_le_pow_right (by omega) h1)
  · intro h1
    have h2 := Nat.lt_of_le_of_lt (h.ge h0) h1
    have h3 := (Nat.pow_lt_pow_iff_right (a := 10) (by omega)).1 h2
    omega

theorem IsCoeff.inj {a b : Digits} (ha : IsCoeff a) (hb : IsCoeff b) (h : number a = number b) : a = b := by
  rcases Decidable.em (a = [0]) with h1 | h1
  · subst h1
    exact (hb.eq_zero.1 h.symm).symm
  · have h2 : b ≠ [0] := by
      rintro rfl
      exact h1 (ha.eq_zero.1 h)
    refine number_inj (Nat.le_antisymm ?_ ?_) ha.digits hb.digits h
    · exact (ha.length_le h1).2 (h ▸ hb.lt)
    · exact (hb.length_le h2).2 (h ▸ ha.lt)

theorem strAux_spec (f n : Nat) (h : n ≤ f ∨ n < 10) : number (strAux f n) = n ∧ IsCoeff (strAux f n) := by
  induction f generalizing n with
  | zero =>
    rw [strAux]
    refine ⟨by simp [number], ?_⟩
    rcases Nat.eq_zero_or_pos n with rfl | h1
    · exact .inl rfl
    · exact .inr ⟨n, [], rfl, by omega, by simp; omega⟩
  | succ f ih =>
    rw [strAux]
    by_cases hn : n < 10
    · rw [if_pos hn]
      refine ⟨by simp [number], ?_⟩
      rcases Nat.eq_zero_or_pos n with rfl | h1
      · exact .inl rfl
      · exact .inr ⟨n, [], rfl, by omega, by simp; omega⟩
    · rw [if_neg hn]
      obtain ⟨h1, h2⟩ := ih (n / 10) (by omega)
      refine ⟨?_, h2.append (fun h3 => ?_) (by simp; omega)⟩
      · rw [number_append, h1]; simp [number]; omega
      · rw [h3] at h1; simp [number] at h1; omega

theorem number_str (n : Nat) : number (str n) = n := (strAux_spec n n (.inl (Nat.le_refl _))).1
theorem isCoeff_str (n : Nat) : IsCoeff (str n) := (strAux_spec n n (.inl (Nat.le_refl _))).2

theorem str_ne_zero {n : Nat} (h : n ≠ 0) : str n ≠ [0] := fun h1 => h (by rw [← number_str n, h1]; rfl)

theorem str_number {ds : Digits} (h : IsCoeff ds) : str (number ds) = ds := (isCoeff_str _).inj h (number_str _)

theorem length_str_le {n k : Nat} (h : n ≠ 0) : (str n).length ≤ k ↔ n < 10 ^ k := by
  rw [(isCoeff_str n).length_le (str_ne_zero h), number_str]

/-! ### Cutting -/

theorem number_take_drop (ds : Digits) (k : Nat) : number ds = number (ds.take k) * 10 ^ (ds.length - k) + number (ds.drop k) := by
  conv_lhs => rw [← List.take_append_drop k ds]
  rw [number_append, List.length_drop]

theorem number_drop_lt {ds : Digits} (h : ∀ x ∈ ds, x < 10) (k : Nat) : number (ds.drop k) < 10 ^ (ds.length - k) := by
  rw [← List.length_drop]
  exact number_lt fun x hx => h x (List.mem_of_mem_drop hx)

theorem allZeros_iff (ds : Digits) (k : Nat) : allZeros ds k = true ↔ number (ds.drop k) = 0 := by rw [allZeros, number_eq_zero]

theorem drop_cons {ds : Digits} {k : Nat} (hk : k < ds.length) : ds.drop k = ds.getD k 0 :: ds.drop (k + 1) := by
  rw [List.drop_eq_getElem_cons hk, List.getD_eq_getElem?_getD, List.getElem?_eq_getElem hk]; rfl

theorem exactHalf_iff {ds : Digits} (h : ∀ x ∈ ds, x < 10) {k : Nat} (hk : k < ds.length) :
    exactHalf ds k = true ↔ 2 * number (ds.drop k) = 10 ^ (ds.length - k) := by
  have hl : (ds.drop (k + 1)).length = ds.length - k - 1 := by rw [List.length_drop]; omega
  have h1 : number (ds.drop (k + 1)) < 10 ^ (ds.length - k - 1) := by
    rw [← hl]; exact number_lt fun x hx => h x (List.mem_of_mem_drop hx)
  have hp : 10 ^ (ds.length - k) = 10 * 10 ^ (ds.length - k - 1) := by
    rw [Nat.mul_comm, ← Nat.pow_succ]; congr 1; omega
  have hd : exactHalf ds k = true ↔ ds.getD k 0 = 5 ∧ (ds.drop (k + 1)).all (· == 0) = true := by
    rw [exactHalf, drop_cons hk]
    split
    · rename_i rest he
      injection he with h2 h3
      rw [h2, h3]; simp
    · rename_i hne
      constructor
      · intro h2; cases h2
      · rintro ⟨h2, _⟩
        exact absurd (by rw [h2]) (hne (ds.drop (k + 1)))
  rw [hd, drop_cons hk, number, hl, hp, ← number_eq_zero]
  generalize 10 ^ (ds.length - k - 1) = P at *
  generalize number (ds.drop (k + 1)) = r at *
  generalize ds.getD k 0 = d
  constructor
  · rintro ⟨rfl, rfl⟩; omega
  · intro h2
    have h3 : (5 - (d : ℤ)) * P = r := by push_cast [← Int.natCast_inj] at h2 ⊢; nlinarith
    have hd5 : d = 5 := by
      rcases Nat.lt_trichotomy d 5 with h4 | h4 | h4
      · nlinarith
      · exact h4
      · nlinarith
    subst hd5
    exact ⟨rfl, by omega⟩

theorem digit_ge_five {ds : Digits} (h : ∀ x ∈ ds, x < 10) {k : Nat} (hk : k < ds.length) :
    ds.getD k 0 ≥ 5 ↔ 10 ^ (ds.length - k) ≤ 2 * number (ds.drop k) := by
  have hl : (ds.drop (k + 1)).length = ds.length - k - 1 := by rw [List.length_drop]; omega
  have h1 : number (ds.drop (k + 1)) < 10 ^ (ds.length - k - 1) := by
    rw [← hl]; exact number_lt fun x hx => h x (List.mem_of_mem_drop hx)
  have hp : 10 ^ (ds.length - k) = 10 * 10 ^ (ds.length - k - 1) := by
    rw [Nat.mul_comm, ← Nat.pow_succ]; congr 1; omega
  rw [drop_cons hk, number, hl, hp]
  generalize 10 ^ (ds.length - k - 1) = P at *
  generalize number (ds.drop (k + 1)) = r at *
  generalize ds.getD k 0 = d
  constructor
  · intro h2; nlinarith
  · intro h2
    by_contra h3
    have : d ≤ 4 := by omega
    nlinarith

theorem take_last {ds : Digits} {k : Nat} (hk : 0 < k) (hl : k ≤ ds.length) :
    number (ds.take k) = number (ds.take (k - 1)) * 10 + ds.getD (k - 1) 0 := by
  obtain ⟨k, rfl⟩ : ∃ j, k = j + 1 := ⟨k - 1, by omega⟩
  rw [Nat.add_sub_cancel]
  have h1 : ds.take (k + 1) = ds.take k ++ [ds.getD k 0] := by
    rw [List.take_add_one, List.getD_eq_getElem?_getD, List.getElem?_eq_getElem (by omega)]; rfl
  rw [h1, number_append]; simp [number]

end Verif.Decimal
