import Verif.Floats.Lemmas
import Mathlib.Tactic.IntervalCases
import Mathlib.Data.List.Induction
/-
Lemmas about the texts of floats.
-/
namespace Verif.Floats

open Verif.Numeric (Fl Num Err nearest floatOfInt)

theorem digits_snoc (cs : List Char) (c : Char) : digits (cs ++ [c]) = 10 * digits cs + (c.toNat - 48) := by
  simp [digits, List.foldl_append]

theorem decimal_iff (cs : List Char) (n : Nat) : Decimal cs n ↔ cs.all isDigit = true ∧ n = digits cs := by
  constructor
  · intro h
    induction h with
    | nil => exact ⟨rfl, rfl⟩
    | snoc cs n c h hc ih =>
      refine ⟨?_, by rw [digits_snoc, ← ih.2]⟩
      rw [List.all_append, ih.1]
      simp [isDigit, hc]
  · rintro ⟨h, rfl⟩
    induction cs using List.reverseRecOn with
    | nil => exact .nil
    | append_singleton cs c ih =>
      rw [List.all_append, Bool.and_eq_true] at h
      rw [digits_snoc]
      refine .snoc cs _ c (ih h.1) ?_
      simpa [isDigit] using h.2

theorem split_digits (i t : List Char) (hi : i.all isDigit = true) (ht : ∀ c, t.head? = some c → isDigit c = false) :
    (i ++ t).takeWhile isDigit = i ∧ (i ++ t).dropWhile isDigit = t := by
  induction i with
  | nil =>
    cases t with
    | nil => exact ⟨rfl, rfl⟩
    | cons c t =>
      have := ht c rfl
      simp [this]
  | cons a i ih =>
    rw [List.all_cons, Bool.and_eq_true] at hi
    have := ih hi.2
    simp [hi.1, this]

theorem splitPoint_iff (r i : List Char) (f : Option (List Char)) :
    splitPoint r = some (i, f) ↔ i ≠ [] ∧ i.all isDigit = true ∧
      (f = none ∧ r = i ∨ ∃ fs, f = some fs ∧ fs.all isDigit = true ∧ r = i ++ '.' :: fs) := by
  have happ := List.takeWhile_append_dropWhile (p := isDigit) (l := r)
  have hall : (r.takeWhile isDigit).all isDigit = true := by
    clear happ
    induction r with
    | nil => rfl
    | cons a r ih =>
      rw [List.takeWhile_cons]
      split
      · rename_i h
        rw [List.all_cons, h, ih]
        rfl
      · rfl
  constructor
  · intro h
    unfold splitPoint at h
    simp only at h
    split at h
    · cases h
    · rename_i hne
      have hne' : r.takeWhile isDigit ≠ [] := by simpa using hne
      split at h
      · rename_i hd
        cases h
        rw [hd, List.append_nil] at happ
        exact ⟨hne', hall, .inl ⟨rfl, happ.symm⟩⟩
      · rename_i fs hd
        split at h
        · rename_i hfs
          cases h
          rw [hd] at happ
          exact ⟨hne', hall, .inr ⟨_, rfl, hfs, happ.symm⟩⟩
        · cases h
      · cases h
  · rintro ⟨hne, hi, ⟨rfl, rfl⟩ | ⟨fs, rfl, hfs, rfl⟩⟩
    · obtain ⟨h1, h2⟩ := split_digits r [] hi (fun c hc => by cases hc)
      rw [List.append_nil] at h1 h2
      unfold splitPoint
      simp only [h1, h2]
      rw [if_neg (by simpa using hne)]
    · obtain ⟨h1, h2⟩ := split_digits i ('.' :: fs) hi (fun c hc => by cases hc; decide)
      unfold splitPoint
      simp only [h1, h2, hfs, if_true]
      rw [if_neg (by simpa using hne)]

/-- The number of the parts of a text. -/
def value : Option Char × List Char × Option (List Char) → ℚ
  | (sign, i, f) =>
    let v : ℚ := digits i + (match f with | some fs => (digits fs : ℚ) / 10 ^ fs.length | none => 0)
    if sign = some '-' then -v else v

theorem splitSign_unsigned (s : List Char) (h : ∀ t, s ≠ '+' :: t ∧ s ≠ '-' :: t) : splitSign s = (none, s) := by
  cases s with
  | nil => rfl
  | cons c s =>
    have h1 : c ≠ '+' := fun e => (h s).1 (by rw [e])
    have h2 : c ≠ '-' := fun e => (h s).2 (by rw [e])
    unfold splitSign
    split
    · rename_i e; exact absurd (List.cons.inj e).1 h1
    · rename_i e; exact absurd (List.cons.inj e).1 h2
    · rfl

theorem digits_unsigned (i t : List Char) (hne : i ≠ []) (hi : i.all isDigit = true) (u : List Char) : i ++ t ≠ '+' :: u ∧ i ++ t ≠ '-' :: u := by
  cases i with
  | nil => exact absurd rfl hne
  | cons c i =>
    rw [List.all_cons, Bool.and_eq_true] at hi
    constructor
    · intro e
      rw [(List.cons.inj e).1] at hi
      exact absurd hi.1 (by decide)
    · intro e
      rw [(List.cons.inj e).1] at hi
      exact absurd hi.1 (by decide)

/-- The texts that are taken apart are the numbers without exponent, and the parts have their value. -/
theorem literal_iff (s : List Char) (q : ℚ) : Literal s q ↔ ∃ p, floatMatch s = some p ∧ value p = q := by
  have unsigned : ∀ s : List Char, ∀ q : ℚ, Literal s q → (∀ t, s ≠ '+' :: t ∧ s ≠ '-' :: t) →
      ∃ i f, splitPoint s = some (i, f) ∧ value (none, i, f) = q := by
    intro s q h hs
    cases h with
    | plain cs n h hne =>
      obtain ⟨h1, rfl⟩ := (decimal_iff _ _).1 h
      exact ⟨s, none, (splitPoint_iff _ _ _).2 ⟨hne, h1, .inl ⟨rfl, rfl⟩⟩, by simp [value]⟩
    | point cs ds n k h hne hd =>
      obtain ⟨h1, rfl⟩ := (decimal_iff _ _).1 h
      obtain ⟨h2, rfl⟩ := (decimal_iff _ _).1 hd
      exact ⟨cs, some ds, (splitPoint_iff _ _ _).2 ⟨hne, h1, .inr ⟨ds, rfl, h2, rfl⟩⟩, by simp [value]⟩
    | plus cs q h h1 => exact absurd rfl (hs cs).1
    | minus cs q h h1 => exact absurd rfl (hs cs).2
  have unsigned' : ∀ s : List Char, ∀ i f, splitPoint s = some (i, f) → Literal s (value (none, i, f)) ∧ ∀ t, s ≠ '+' :: t ∧ s ≠ '-' :: t := by
    intro s i f h
    obtain ⟨hne, hi, ⟨rfl, rfl⟩ | ⟨fs, rfl, hfs, rfl⟩⟩ := (splitPoint_iff _ _ _).1 h
    · refine ⟨?_, fun t => by have := digits_unsigned s [] hne hi t; rwa [List.append_nil] at this⟩
      have := Literal.plain s (digits s) ((decimal_iff _ _).2 ⟨hi, rfl⟩) hne
      simpa [value] using this
    · refine ⟨?_, digits_unsigned i _ hne hi⟩
      have := Literal.point i fs (digits i) (digits fs) ((decimal_iff _ _).2 ⟨hi, rfl⟩) hne ((decimal_iff _ _).2 ⟨hfs, rfl⟩)
      simpa [value] using this
  constructor
  · intro h
    by_cases hs : ∀ t, s ≠ '+' :: t ∧ s ≠ '-' :: t
    · obtain ⟨i, f, h1, h2⟩ := unsigned s q h hs
      refine ⟨(none, i, f), ?_, h2⟩
      rw [floatMatch, splitSign_unsigned s hs]
      simp only [h1, Option.map_some]
    · cases h with
      | plain cs n h hne =>
        exact absurd (fun t => by have := digits_unsigned s [] hne ((decimal_iff _ _).1 h).1 t; rwa [List.append_nil] at this) hs
      | point cs ds n k h hne hd => exact absurd (digits_unsigned cs _ hne ((decimal_iff _ _).1 h).1) hs
      | plus cs q h h1 =>
        obtain ⟨i, f, h2, h3⟩ := unsigned cs q h h1
        refine ⟨(some '+', i, f), ?_, ?_⟩
        · simp only [floatMatch, splitSign, h2, Option.map_some]
        · rw [← h3]; simp [value]
      | minus cs q h h1 =>
        obtain ⟨i, f, h2, h3⟩ := unsigned cs q h h1
        refine ⟨(some '-', i, f), ?_, ?_⟩
        · simp only [floatMatch, splitSign, h2, Option.map_some]
        · rw [← h3]; simp [value]
  · rintro ⟨p, hp, rfl⟩
    unfold floatMatch at hp
    obtain ⟨⟨i, f⟩, h1, rfl⟩ := Option.map_eq_some_iff.1 hp
    obtain ⟨h2, h3⟩ := unsigned' _ _ _ h1
    unfold splitSign at h1 h2 h3 ⊢
    split at h2 <;> simp only at h3 ⊢
    · have := Literal.plus _ _ h2 h3
      simpa [value] using this
    · have := Literal.minus _ _ h2 h3
      simpa [value] using this
    · exact h2

theorem floatOfInt_ten (k : Nat) (h : k ≤ 22) : floatOfInt (10 ^ k) = .ok (10 ^ k) := by
  interval_cases k <;> decide +kernel

theorem toDouble_double (d : ℚ) (h : IsDouble d) : toDouble d = .fin d := by
  have := toDouble_rounds d
  generalize toDouble d = f at this
  cases f with
  | nan => exact absurd this id
  | fin d' =>
    have h1 := this.2.2.1 d h
    rw [sub_self, abs_zero] at h1
    have := abs_eq_zero.1 (le_antisymm h1 (abs_nonneg _))
    rw [show d' = d by linarith]
  | inf s =>
    exfalso
    obtain ⟨m, e, rfl, h1, h2, h3⟩ := h
    have h4 := this.1
    obtain ⟨P, hP⟩ : ∃ P, P = (2 : ℚ) ^ 970 := ⟨_, rfl⟩
    have hP0 : 0 < P := by rw [hP]; exact pow_pos (by norm_num) 970
    rw [pow_1024, ← hP, abs_mul, abs_of_pos (two_zpow_pos e)] at h4
    have h5 : |(m : ℚ)| ≤ 2 ^ 53 - 1 := by
      rw [← Int.cast_abs]
      have : |m| ≤ 2 ^ 53 - 1 := by omega
      exact_mod_cast this
    have h6 : (2 : ℚ) ^ e ≤ 2 * P := by
      have : (2 : ℚ) ^ e ≤ (2 : ℚ) ^ (971 : Int) := zpow_le_zpow_right₀ (by norm_num) h3
      rw [show (2 : ℚ) ^ (971 : Int) = 2 ^ 971 from zpow_natCast 2 971, pow_971, ← hP] at this
      exact this
    have h7 : |(m : ℚ)| * (2 : ℚ) ^ e ≤ (2 ^ 53 - 1) * (2 * P) := mul_le_mul h5 h6 (two_zpow_pos e).le (by norm_num)
    linarith only [h4, h7, hP0]

end Verif.Floats
