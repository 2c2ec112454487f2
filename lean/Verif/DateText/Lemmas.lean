import Mathlib.Tactic.Ring
import Mathlib.Tactic.Linarith
import Verif.Dates.Deltas
import Verif.DateText.Model

/-! # Numerals, padding, `int()` -/

namespace Verif.DateText

open Verif.Dates

/-! ### The value of digits -/

theorem value_nil : value [] = 0 := rfl

theorem foldl_value (s : Str) (a : Int) :
    s.foldl (fun a c => a * 10 + ((c.toNat : Int) - 48)) a = a * 10 ^ s.length + value s := by
  induction s generalizing a with
  | nil => simp [value]
  | cons c s ih =>
    have e : value (c :: s) = (0 * 10 + ((c.toNat : Int) - 48)) * 10 ^ s.length + value s := by
      rw [← ih]
      rfl
    rw [List.foldl_cons, ih, e, List.length_cons, pow_succ]
    ring

theorem value_append (s t : Str) : value (s ++ t) = value s * 10 ^ t.length + value t := by
  unfold value
  rw [List.foldl_append, foldl_value]
  rfl

theorem value_cons (c : Char) (s : Str) : value (c :: s) = ((c.toNat : Int) - 48) * 10 ^ s.length + value s := by
  have h := value_append [c] s
  simp only [List.singleton_append] at h
  rw [h]
  simp [value]

theorem value_bounds {s : Str} (h : ∀ c ∈ s, IsDigit c) : 0 ≤ value s ∧ value s < 10 ^ s.length := by
  induction s with
  | nil => simp [value]
  | cons c s ih =>
    have hc := h c (by simp)
    obtain ⟨i1, i2⟩ := ih (fun c hc => h c (by simp [hc]))
    rw [value_cons, List.length_cons, pow_succ]
    unfold IsDigit at hc
    have p : (0 : Int) < 10 ^ s.length := by positivity
    have l1 : (0 : Int) ≤ (c.toNat : Int) - 48 := by omega
    have l2 : (c.toNat : Int) - 48 ≤ 9 := by omega
    constructor
    · have := mul_nonneg l1 p.le; omega
    · have := mul_le_mul_of_nonneg_right l2 p.le; omega

theorem char_ext {c d : Char} (h : c.toNat = d.toNat) : c = d := Char.toNat_inj.mp h

/-- The texts of numbers of equal width are ordered like the numbers. -/
theorem digits_order {s t : Str} (hs : ∀ c ∈ s, IsDigit c) (ht : ∀ c ∈ t, IsDigit c) (hl : s.length = t.length) :
    (s < t ↔ value s < value t) ∧ (s = t ↔ value s = value t) := by
  induction s generalizing t with
  | nil =>
    cases t with
    | nil => simp
    | cons c t => simp at hl
  | cons c s ih =>
    cases t with
    | nil => simp at hl
    | cons d t =>
      have hl' : s.length = t.length := by simpa using hl
      have hs' : ∀ c ∈ s, IsDigit c := fun c hc => hs c (by simp [hc])
      have ht' : ∀ c ∈ t, IsDigit c := fun c hc => ht c (by simp [hc])
      obtain ⟨i1, i2⟩ := ih hs' ht' hl'
      have b1 := value_bounds hs'
      have b2 := value_bounds ht'
      rw [← hl'] at b2
      rw [value_cons, value_cons, ← hl', List.cons_lt_cons_iff, i1]
      have p : (0 : Int) < 10 ^ s.length := by positivity
      generalize (10 : Int) ^ s.length = P at *
      have lt : c < d ↔ c.toNat < d.toNat := Iff.rfl
      have eq : c = d ↔ c.toNat = d.toNat := Char.toNat_inj.symm
      have key : ∀ x y : Int, x < y → x * P + P ≤ y * P := fun x y h => by
        have := mul_le_mul_of_nonneg_right (show x + 1 ≤ y by omega) p.le
        linarith
      rw [lt, eq, List.cons_eq_cons, i2, eq]
      rcases Nat.lt_trichotomy c.toNat d.toNat with h | h | h
      · have := key (c.toNat - 48) (d.toNat - 48) (by omega)
        constructor <;> constructor <;> intro <;> omega
      · rw [h]
        constructor <;> constructor <;> intro <;> omega
      · have := key (d.toNat - 48) (c.toNat - 48) (by omega)
        constructor <;> constructor <;> intro <;> omega

/-! ### Numerals -/

theorem numeral_bounds {w : Nat} {s : Str} {v : Int} (h : Numeral w s v) : 0 ≤ v ∧ v < 10 ^ w := by
  obtain ⟨h1, h2, h3⟩ := h
  rw [h3, ← h1]
  exact value_bounds h2

theorem numeral_value {w w' : Nat} {s : Str} {v v' : Int} (h : Numeral w s v) (h' : Numeral w' s v') : v = v' := by
  rw [h.2.2, h'.2.2]

theorem numeral_text {w : Nat} {s s' : Str} {v : Int} (h : Numeral w s v) (h' : Numeral w s' v) : s = s' :=
  (digits_order h.2.1 h'.2.1 (h.1.trans h'.1.symm)).2.mpr (h.2.2.symm.trans h'.2.2)

theorem numeral_lt {w : Nat} {s s' : Str} {v v' : Int} (h : Numeral w s v) (h' : Numeral w s' v') :
    s < s' ↔ v < v' := by
  rw [(digits_order h.2.1 h'.2.1 (h.1.trans h'.1.symm)).1, h.2.2, h'.2.2]

theorem isDigit_ofNat {n : Nat} (h : n < 10) :
    IsDigit (Char.ofNat (48 + n)) ∧ ((Char.ofNat (48 + n)).toNat : Int) - 48 = n := by
  have : ∀ n : Fin 10, IsDigit (Char.ofNat (48 + n.val)) ∧ ((Char.ofNat (48 + n.val)).toNat : Int) - 48 = n.val := by
    decide +kernel
  exact this ⟨n, h⟩

theorem decFuel_spec (f n : Nat) (h : n < f) :
    (∀ c ∈ decFuel f n, IsDigit c) ∧ value (decFuel f n) = n ∧ decFuel f n ≠ [] ∧
      ∀ w, n < 10 ^ (w + 1) → (decFuel f n).length ≤ w + 1 := by
  induction f generalizing n with
  | zero => omega
  | succ f ih =>
    unfold decFuel
    split
    · rename_i h10
      obtain ⟨a, b⟩ := isDigit_ofNat h10
      refine ⟨by simpa using a, ?_, by simp, by simp⟩
      rw [value_cons]
      simpa [value] using b
    · rename_i h10
      obtain ⟨a, b⟩ := isDigit_ofNat (Nat.mod_lt n (by norm_num : 10 > 0))
      obtain ⟨i1, i2, i3, i4⟩ := ih (n / 10) (by omega)
      refine ⟨?_, ?_, by simp, ?_⟩
      · intro c hc
        rcases List.mem_append.mp hc with hc | hc
        · exact i1 c hc
        · rw [List.mem_singleton] at hc
          rw [hc]; exact a
      · rw [value_append, i2, value_cons, b]
        simp only [List.length_nil, pow_zero, value_nil, List.length_singleton, pow_one]
        omega
      · intro w hw
        cases w with
        | zero => omega
        | succ w =>
          have := i4 w (by rw [pow_succ] at hw; omega)
          rw [List.length_append]
          simp only [List.length_singleton]
          omega

theorem dec_numeral (n : Nat) : ∃ w, w ≠ 0 ∧ Numeral w (dec n) n := by
  obtain ⟨a, b, c, _⟩ := decFuel_spec (n + 1) n (by omega)
  exact ⟨_, by simpa [dec] using c, rfl, a, b.symm⟩

theorem value_zeros (k : Nat) (s : Str) : value (List.replicate k '0' ++ s) = value s := by
  induction k with
  | zero => simp
  | succ k ih =>
    rw [List.replicate_succ, List.cons_append, value_cons, ih]
    simp

theorem pad_numeral {w : Nat} {n : Int} (hw : w ≠ 0) (h0 : 0 ≤ n) (h : n < 10 ^ w) : Numeral w (pad w n) n := by
  obtain ⟨a, b, c, d⟩ := decFuel_spec (n.natAbs + 1) n.natAbs (by omega)
  obtain ⟨v, rfl⟩ : ∃ v, w = v + 1 := ⟨w - 1, by omega⟩
  have hl := d v (by
    have : ((n.natAbs : Nat) : Int) < ((10 ^ (v + 1) : Nat) : Int) := by
      push_cast
      rw [abs_of_nonneg h0]
      exact h
    exact_mod_cast this)
  unfold pad
  rw [if_neg (by omega)]
  change (decFuel (n.natAbs + 1) n.natAbs).length ≤ v + 1 at hl
  unfold dec
  refine ⟨?_, ?_, ?_⟩
  · rw [List.length_append, List.length_replicate]
    omega
  · intro x hx
    rcases List.mem_append.mp hx with hx | hx
    · rw [List.eq_of_mem_replicate hx]
      decide
    · exact a x hx
  · rw [value_zeros, b]
    omega

/-! ### `int()` -/

theorem scanDigits_digits (s : Str) (hs : ∀ c ∈ s, IsDigit c) (acc : Int) (prev : Bool) (hp : prev = true ∨ s ≠ []) :
    scanDigits acc prev s = some (acc * 10 ^ s.length + value s) := by
  induction s generalizing acc prev with
  | nil =>
    rcases hp with rfl | hp
    · simp [scanDigits, value]
    · exact absurd rfl hp
  | cons c s ih =>
    have hc := hs c (by simp)
    unfold IsDigit at hc
    have hu : c ≠ '_' := by rintro rfl; revert hc; decide
    unfold scanDigits
    rw [if_neg hu, if_pos hc, ih (fun c hc => hs c (by simp [hc])) _ _ (Or.inl rfl), value_cons, List.length_cons,
      pow_succ]
    congr 1
    ring

theorem scanDigits_some {s : Str} (hs : ∀ c ∈ s, c ≠ '_') {acc v : Int} {prev : Bool} (h : scanDigits acc prev s = some v) :
    (∀ c ∈ s, IsDigit c) ∧ v = acc * 10 ^ s.length + value s ∧ (prev = true ∨ s ≠ []) := by
  induction s generalizing acc prev with
  | nil =>
    unfold scanDigits at h
    split at h
    · rename_i hp
      cases h
      simp [value, hp]
    · cases h
  | cons c s ih =>
    unfold scanDigits at h
    rw [if_neg (hs c (by simp))] at h
    split at h
    · rename_i hc
      obtain ⟨i1, i2, _⟩ := ih (fun c hc => hs c (by simp [hc])) h
      refine ⟨?_, ?_, Or.inr (by simp)⟩
      · intro x hx
        rcases List.mem_cons.mp hx with rfl | hx
        · exact hc
        · exact i1 x hx
      · rw [i2, value_cons, List.length_cons, pow_succ]
        ring
    · cases h

theorem strip_id {s : Str} (h : ∀ c ∈ s, isSpace c = false) :
    ((s.dropWhile isSpace).reverse.dropWhile isSpace).reverse = s := by
  have key : ∀ t : Str, (∀ c ∈ t, isSpace c = false) → t.dropWhile isSpace = t := by
    intro t ht
    cases t with
    | nil => rfl
    | cons c t => rw [List.dropWhile_cons_of_neg (by simp [ht c (by simp)])]
  rw [key s h, key s.reverse (fun c hc => h c (by simpa using hc)), List.reverse_reverse]

theorem digit_not_space {c : Char} (h : IsDigit c) : isSpace c = false := by
  unfold IsDigit at h
  unfold isSpace
  simp only [Bool.or_eq_false_iff, Bool.and_eq_false_iff, decide_eq_false_iff_not]
  omega

theorem pyInt_numeral {w : Nat} {s : Str} {v : Int} (h : Numeral w s v) (hw : w ≠ 0) : pyInt s = some v := by
  obtain ⟨h1, h2, h3⟩ := h
  unfold pyInt
  rw [strip_id (fun c hc => digit_not_space (h2 c hc))]
  have hne : s ≠ [] := by rintro rfl; simp at h1; omega
  simp only
  split
  · exact absurd (h2 '-' (by simp)) (by decide)
  · exact absurd (h2 '+' (by simp)) (by decide)
  · rw [scanDigits_digits s h2 0 false (Or.inr hne), h3]
    simp

theorem noPlus_not_space {c : Char} (h : NoPlusChar c) : isSpace c = false := by
  unfold NoPlusChar at h
  unfold isSpace
  simp only [Bool.or_eq_false_iff, Bool.and_eq_false_iff, decide_eq_false_iff_not]
  omega

theorem pyInt_noPlus {s : Str} (hs : ∀ c ∈ s, NoPlusChar c) {v : Int} (h : pyInt s = some v) :
    Numeral s.length s v ∧ s ≠ [] ∨ (v ≤ 0 ∧ '-' ∈ s) := by
  unfold pyInt at h
  rw [strip_id (fun c hc => noPlus_not_space (hs c hc))] at h
  simp only at h
  split at h
  · rename_i ds
    right
    cases hd : scanDigits 0 false ds with
    | none => rw [hd] at h; cases h
    | some u =>
      rw [hd] at h
      obtain ⟨a, b, _⟩ := scanDigits_some (fun c hc => (hs c (by simp [hc])).2.2.1) hd
      have := value_bounds a
      cases h
      constructor
      · show -u ≤ 0
        simp at b
        omega
      · simp
  · exact absurd rfl (hs '+' (by simp)).2.2.2
  · left
    obtain ⟨a, b, c⟩ := scanDigits_some (fun c hc => (hs c hc).2.2.1) h
    refine ⟨⟨rfl, a, by simpa using b⟩, ?_⟩
    rcases c with c | c
    · cases c
    · exact c

theorem plain_noPlus {c : Char} (h : PlainChar c) : NoPlusChar c := ⟨h.1, h.2.1, h.2.2.1, h.2.2.2.1⟩

theorem pyInt_plain {s : Str} (hs : ∀ c ∈ s, PlainChar c) {v : Int} (h : pyInt s = some v) :
    Numeral s.length s v ∧ s ≠ [] := by
  rcases pyInt_noPlus (fun c hc => plain_noPlus (hs c hc)) h with h | ⟨_, h⟩
  · exact h
  · exact absurd rfl (hs '-' h).2.2.2.2

theorem digit_plain {c : Char} (h : IsDigit c) : PlainChar c := by
  unfold IsDigit at h
  refine ⟨by omega, by omega, ?_, ?_, ?_⟩ <;> (rintro rfl; revert h; decide)

end Verif.DateText
