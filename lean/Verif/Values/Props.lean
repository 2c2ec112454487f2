import Verif.Values.Lemmas
import Verif.Floats.Text
import Mathlib.Data.Real.Basic
/-
Values of the solver as Python values: floats, reals and sequences.
-/
namespace Verif.Values

open Floats (IsDouble RoundsTo toDouble)

/-! ### Floats -/

/-- Each text that the solver writes for a float is read as exactly that float: with the signs of zeros, infinities, not-a-number, and the
subnormal ones. -/
theorem float_literal (d : Dbl) (t : List Char) (h : Printed d t) : parseLiteral t = .ok (some d) := by
  cases h with
  | plusZero => decide +kernel
  | minusZero => decide +kernel
  | plusInf => decide +kernel
  | minusInf => decide +kernel
  | nan => decide +kernel
  | number neg es fs e f he hel h1 hf hfl h0 => exact parse_printed neg es fs e f he hel h1 hf hfl h0

/-- `-0x1.8p+1` is `-3`. -/
example : parseLiteral "(fp #b1 #b10000000000 #x8000000000000)".toList = .ok (some (.fin true 3)) := by decide +kernel

/-- The floats that have a text are all the finite ones. -/
theorem float_literals_all (neg : Bool) (q : ℚ) (hq : 0 < q) : IsDouble q ↔ ∃ t, Printed (.fin neg q) t := by
  constructor
  · rintro ⟨m, x, hm, hm1, hx0, hx1⟩
    have hpos : 0 < m := by
      by_contra h
      have h1 : (m : ℚ) ≤ 0 := by exact_mod_cast (not_lt.mp h)
      have h2 : (0 : ℚ) < 2 ^ x := zpow_pos (by norm_num) x
      nlinarith
    rw [abs_of_pos hpos] at hm1
    obtain ⟨e, f, he, hf, h0, h1⟩ := fields_exist (x + 1074).toNat m.toNat (by omega) (by omega) (by omega)
    obtain ⟨es, hes, hel⟩ := binary_exists 11 e (by omega)
    obtain ⟨fs, hfs, hfl⟩ := hex_exists 13 f (by norm_num; omega)
    have hq' : magnitude e f = q := by
      rw [h1, hm, show (((x + 1074).toNat : Nat) : Int) - 1074 = x by omega]
      congr 1
      have : ((m.toNat : Nat) : Int) = m := by omega
      exact_mod_cast this
    rw [← hq']
    exact ⟨_, .number neg es fs e f hes hel (by omega) hfs hfl h0⟩
  · rintro ⟨t, ht⟩
    cases ht with
    | number neg es fs e f he hel h1 hf hfl h0 =>
      have b := (binary_read es e he).2.1
      have c := (hex_read fs f hf).2.1
      rw [hel] at b
      rw [hfl] at c
      exact magnitude_double e f (by omega) (by norm_num at c ⊢; omega)

example : ∃ t, Printed (.fin true (1 / 2)) t :=
  (float_literals_all true (1 / 2) (by norm_num)).1 ⟨1, -1, by norm_num, by norm_num, by norm_num, by norm_num⟩

/-! ### Reals -/

/-- A rational number of the solver becomes the nearest float; if it is too large for every float, there is an `OverflowError`. -/
theorem rational_nearest (q : ℚ) :
    (∀ d, realToPython (.rational q) = .ok d → RoundsTo q (.fin d)) ∧
    (realToPython (.rational q) = .error .overflow ↔ 2 ^ 1024 - 2 ^ 970 ≤ |q|) ∧
    ∀ e, realToPython (.rational q) = .error e → e = .overflow := by
  have h := Floats.toDouble_rounds q
  simp only [realToPython, fractionFloat]
  cases hd : toDouble q with
  | fin d =>
    rw [hd] at h
    simp only
    refine ⟨fun d' h' => ?_, ⟨fun h' => (by cases h'), fun h' => absurd h.1 (not_lt.mpr h')⟩, fun e h' => (by cases h')⟩
    cases h'; exact h
  | inf s =>
    rw [hd] at h
    simp only
    refine ⟨fun d' h' => (by cases h'), ⟨fun _ => h.1, fun _ => trivial⟩, fun e h' => ?_⟩
    cases h'; rfl
  | nan => rw [hd] at h; exact h.elim

example : realToPython (.rational (1 / 4)) = .ok (1 / 4) := by decide +kernel

/-- A number that is a float becomes that float. -/
theorem rational_exact_partial (q : ℚ) (h : IsDouble q) : realToPython (.rational q) = .ok q := by
  simp only [realToPython, fractionFloat, Floats.toDouble_double q h]

example : IsDouble (3 / 4) := ⟨3, -2, by norm_num, by norm_num, by norm_num, by norm_num⟩

/-- Disagreement: the constraints of the path are about the number itself, so that a number that is no float is not the value reported. -/
theorem real_rounded : realToPython (.rational (2 ^ 53 + 1)) = .ok (2 ^ 53) ∧ (2 ^ 53 : ℚ) ≠ 2 ^ 53 + 1 :=
  ⟨by decide +kernel, by norm_num⟩

/-- Disagreement: for a number above all floats, there is an `OverflowError` from CrossHair and not from the user's function. -/
theorem real_too_large : realToPython (.rational (10 ^ 400)) = .error .overflow := by decide +kernel

/-- For an irrational number, no float is nearer by more than two units of the twentieth decimal. -/
theorem irrational_near (x : ℝ) (approx : Nat → ℚ) (h : ∀ k, |(approx k : ℝ) - x| ≤ 1 / 10 ^ k) (d : ℚ)
    (hd : realToPython (.algebraic approx) = .ok d) (d' : ℚ) (hd' : IsDouble d') :
    |x - d| ≤ |x - d'| + 2 / 10 ^ 20 := by
  have h1 : RoundsTo (approx 20) (.fin d) := (rational_nearest (approx 20)).1 d hd
  have h2 := h1.2.2.1 d' hd'
  have h3 : |(approx 20 : ℝ) - d| ≤ |(approx 20 : ℝ) - d'| := by exact_mod_cast h2
  have h4 := h 20
  have h5 : |x - d| ≤ |x - (approx 20 : ℝ)| + |(approx 20 : ℝ) - d| := abs_sub_le _ _ _
  have h6 : |(approx 20 : ℝ) - d'| ≤ |(approx 20 : ℝ) - x| + |x - d'| := abs_sub_le _ _ _
  rw [abs_sub_comm x (approx 20 : ℝ)] at h5
  have h7 : (2 : ℝ) / 10 ^ 20 = 1 / 10 ^ 20 + 1 / 10 ^ 20 := by ring
  linarith

/-- There are such approximations. -/
example : (∀ k, |((fun _ => (1 / 4 : ℚ)) k : ℝ) - (1 / 4 : ℝ)| ≤ 1 / 10 ^ k) ∧ realToPython (.algebraic fun _ => 1 / 4) = .ok (1 / 4) :=
  ⟨fun k => by norm_num, by decide +kernel⟩

/-! ### Sequences -/

variable {α β : Type}

/-- The items of a sequence that is joined one by one from the right become the list of their values, in order. -/
theorem sequence_items_partial (f : α → Except Err β) (t : Term α) (ht : Chain t) (xs : List α) (hs : Stands t xs) (g : α → β)
    (hf : ∀ a ∈ xs, f a = .ok (g a)) : seqToPython f t = .ok (xs.map fun a => .elem (g a)) := by
  induction ht generalizing xs with
  | empty => cases hs; simp only [seqToPython, List.map_nil]
  | unit a =>
    cases hs
    simp only [seqToPython, hf a (by simp), bind, Except.bind, pure, Except.pure, List.map_cons, List.map_nil]
  | cons a t _ ih =>
    cases hs with
    | more _ _ xs1 ys h1 h2 =>
      cases h1
      cases h2 with
      | more _ _ zs ws h3 h4 =>
        cases h4
        have h5 := ih (zs ++ []) (by simpa using h3) (fun b hb => hf b (List.mem_append_right _ hb))
        simp only [seqToPython, firstToPython, hf a (by simp), bind, Except.bind, pure, Except.pure, h5, List.singleton_append, List.map_cons]

example : Chain (.concat [.unit 1, .concat [.unit 2, .unit 3]] : Term Nat) ∧
    Stands (.concat [.unit 1, .concat [.unit 2, .unit 3]] : Term Nat) [1, 2, 3] :=
  ⟨.cons 1 _ (.cons 2 _ (.unit 3)),
    .more _ _ [1] [2, 3] (.unit 1) (.more _ _ [2, 3] [] (.more _ _ [2] [3] (.unit 2) (.more _ _ [3] [] (.unit 3) .none)) .none)⟩

/-- Disagreement: a sequence that the solver gives as one join of three items becomes the empty list, and one that is joined from the left
becomes a list in a list. -/
theorem sequence_shape (f : Nat → Except Err Nat) (hf : ∀ a, f a = .ok a) :
    (Stands (.concat [.unit 1, .unit 2, .unit 3] : Term Nat) [1, 2, 3] ∧ seqToPython f (.concat [.unit 1, .unit 2, .unit 3]) = .ok []) ∧
    Stands (.concat [.concat [.unit 1, .unit 2], .unit 3] : Term Nat) [1, 2, 3] ∧
    seqToPython f (.concat [.concat [.unit 1, .unit 2], .unit 3]) = .ok [.list [.elem 1], .elem 3] := by
  refine ⟨⟨?_, ?_⟩, ?_, ?_⟩
  · exact .more _ _ [1] [2, 3] (.unit 1) (.more _ _ [2] [3] (.unit 2) (.more _ _ [3] [] (.unit 3) .none))
  · simp [seqToPython]
  · exact .more _ _ [1, 2] [3] (.more _ _ [1] [2] (.unit 1) (.more _ _ [2] [] (.unit 2) .none)) (.more _ _ [3] [] (.unit 3) .none)
  · simp only [seqToPython, firstToPython, hf, bind, Except.bind, pure, Except.pure]

/-- A value that cannot be converted is an error for the whole sequence: nothing is left out. -/
theorem sequence_error (f : α → Except Err β) (t : Term α) (ht : Chain t) (xs : List α) (hs : Stands t xs) (a : α) (ha : a ∈ xs) (e : Err)
    (hf : f a = .error e) : ∃ e', seqToPython f t = .error e' := by
  induction ht generalizing xs with
  | empty => cases hs; simp at ha
  | unit b =>
    cases hs
    rw [List.mem_singleton] at ha
    subst ha
    exact ⟨e, by simp only [seqToPython, hf, bind, Except.bind]⟩
  | cons b t _ ih =>
    cases hs with
    | more _ _ xs1 ys h1 h2 =>
      cases h1
      cases h2 with
      | more _ _ zs ws h3 h4 =>
        cases h4
        simp only [seqToPython, firstToPython, bind, Except.bind, pure, Except.pure]
        cases hb : f b with
        | error e1 => exact ⟨e1, rfl⟩
        | ok v =>
          have hz : a ∈ zs := by
            rcases List.mem_append.mp ha with h | h
            · rw [List.mem_singleton] at h; subst h; rw [hf] at hb; cases hb
            · simpa using h
          obtain ⟨e2, h5⟩ := ih zs h3 hz
          exact ⟨e2, by rw [h5]⟩

example : ∃ e', seqToPython (fun _ => (.error .valueError : Except Err Nat)) (.unit 1 : Term Nat) = .error e' :=
  sequence_error _ _ (.unit 1) [1] (.unit 1) 1 (by simp) .valueError rfl

end Verif.Values
