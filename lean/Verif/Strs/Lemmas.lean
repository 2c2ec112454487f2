import Verif.Strs.Model
import Mathlib.Tactic.Linarith
/-
Lemmas about searching and cutting strings.
-/
namespace Verif.Strs

theorem cut_eq (s : Str) (a b : Option Int) :
    pyCut s a b = (s.take (windowHi s.length b)).drop (windowLo s.length a) := by
  unfold pyCut windowHi windowLo
  cases a with
  | none => rfl
  | some i =>
    simp only [Option.map_some, Option.getD_some]
    unfold bound
    split
    · rfl
    · by_cases h : i ≤ s.length
      · congr 1; omega
      · rw [List.drop_of_length_le (by rw [List.length_take]; omega),
          List.drop_of_length_le (by rw [List.length_take]; omega)]

theorem windowHi_le (n : Nat) (b : Option Int) : windowHi n b ≤ n := by
  unfold windowHi
  cases b with
  | none => simp
  | some i => simp only [Option.map_some, Option.getD_some, bound]; split <;> omega

theorem cut_to (s : Str) (i : Nat) : pyCut s none (some (i : Int)) = s.take i := by
  rw [cut_eq]
  simp only [windowHi, windowLo, Option.map_some, Option.map_none, Option.getD_some,
    Option.getD_none, List.drop_zero, bound]
  rw [if_neg (by omega)]
  by_cases h : i ≤ s.length
  · congr 1; omega
  · rw [List.take_of_length_le (by omega), List.take_of_length_le (by omega)]

theorem cut_from (s : Str) (i : Nat) : pyCut s (some (i : Int)) none = s.drop i := by
  rw [cut_eq]
  simp only [windowHi, windowLo, Option.map_some, Option.map_none, Option.getD_some,
    Option.getD_none, List.take_length]
  rw [if_neg (by omega)]
  simp

theorem cut_mid (s : Str) (i j : Nat) : pyCut s (some (i : Int)) (some (j : Int)) = (s.take j).drop i := by
  rw [cut_eq]
  simp only [windowHi, windowLo, Option.map_some, Option.getD_some, bound]
  rw [if_neg (by omega), if_neg (by omega)]
  congr 1
  by_cases h : j ≤ s.length
  · congr 1; omega
  · rw [List.take_of_length_le (by omega), List.take_of_length_le (by omega)]

theorem allEq_iff : ∀ {xs ys : Str}, xs.length = ys.length → (allEq xs ys = true ↔ xs = ys) := by
  intro xs
  induction xs with
  | nil => intro ys h; cases ys <;> simp_all [allEq]
  | cons x xs ih =>
    intro ys h
    cases ys with
    | nil => simp at h
    | cons y ys =>
      have := ih (ys := ys) (by simpa using h)
      unfold allEq at *
      simp only [List.zip_cons_cons, List.all_cons, Bool.and_eq_true, decide_eq_true_eq, this,
        List.cons.injEq]

theorem occurs_iff (sub s : Str) (i : Nat) :
    OccursAt sub s i ↔ i + sub.length ≤ s.length ∧ (s.drop i).take sub.length = sub := by
  constructor
  · rintro ⟨pre, post, h, hl⟩
    subst hl
    rw [h]
    refine ⟨by simp, ?_⟩
    rw [List.append_assoc, List.drop_left, List.take_left]
  · rintro ⟨h1, h2⟩
    refine ⟨s.take i, (s.drop i).drop sub.length, ?_, by rw [List.length_take]; omega⟩
    conv_lhs => rw [← List.take_append_drop i s, ← List.take_append_drop sub.length (s.drop i)]
    rw [h2, List.append_assoc]

theorem occurs_split {sub s : Str} {i : Nat} (h : OccursAt sub s i) :
    s = s.take i ++ sub ++ s.drop (i + sub.length) := by
  obtain ⟨pre, post, h, hl⟩ := h
  subst hl
  have e1 : s.take pre.length = pre := by rw [h, List.append_assoc, List.take_left]
  have e2 : s.drop (pre.length + sub.length) = post := by
    rw [h, ← List.length_append, List.drop_left]
  rw [e1, e2]
  exact h

theorem matchAt_iff {s sub : Str} {i : Nat} (h : i + sub.length ≤ s.length) :
    matchAt s sub i = true ↔ OccursAt sub s i := by
  unfold matchAt
  have : ((i : Int) + (sub.length : Int)) = ((i + sub.length : Nat) : Int) := by omega
  rw [this, cut_mid, occurs_iff, List.drop_take]
  have e : i + sub.length - i = sub.length := by omega
  rw [e, allEq_iff (by simp; omega)]
  simp [h]

theorem find_range {p : Nat → Bool} : ∀ n, match (List.range n).find? p with
    | some i => i < n ∧ p i = true ∧ ∀ j, j < i → p j = false
    | none => ∀ j, j < n → p j = false := by
  intro n
  induction n with
  | zero => simp
  | succ n ih =>
    rw [List.range_succ, List.find?_append]
    cases hf : (List.range n).find? p with
    | some i =>
      rw [hf] at ih
      simp only [Option.some_or]
      exact ⟨by omega, ih.2⟩
    | none =>
      rw [hf] at ih
      simp only [Option.none_or, List.find?_cons, List.find?_nil]
      cases hp : p n with
      | true => exact ⟨by omega, hp, ih⟩
      | false =>
        intro j hj
        by_cases h : j = n
        · rw [h, hp]
        · exact ih j (by omega)

theorem find_range_reverse {p : Nat → Bool} : ∀ n, match (List.range n).reverse.find? p with
    | some i => i < n ∧ p i = true ∧ ∀ j, i < j → j < n → p j = false
    | none => ∀ j, j < n → p j = false := by
  intro n
  induction n with
  | zero => simp
  | succ n ih =>
    rw [List.range_succ, List.reverse_append, List.reverse_singleton, List.singleton_append,
      List.find?_cons]
    cases hp : p n with
    | true => exact ⟨by omega, hp, fun j h1 h2 => by omega⟩
    | false =>
      simp only
      cases hf : (List.range n).reverse.find? p with
      | some i =>
        rw [hf] at ih
        refine ⟨by omega, ih.2.1, fun j h1 h2 => ?_⟩
        by_cases h : j = n
        · rw [h, hp]
        · exact ih.2.2 j h1 (by omega)
      | none =>
        rw [hf] at ih
        intro j hj
        by_cases h : j = n
        · rw [h, hp]
        · exact ih j (by omega)

/-- What the search loop from the left finds. -/
theorem first_spec (s sub : Str) :
    match (positions s sub false).find? (matchAt s sub) with
    | some i => FirstAt sub s i
    | none => ¬ Contains s sub := by
  unfold positions
  simp only [Bool.false_eq_true, if_false]
  have h := find_range (p := matchAt s sub) ((s.length : Int) - sub.length + 1).toNat
  cases hf : (List.range ((s.length : Int) - sub.length + 1).toNat).find? (matchAt s sub) with
  | some i =>
    rw [hf] at h
    refine ⟨(matchAt_iff (by omega)).mp h.2.1, fun j hj ho => ?_⟩
    have := (matchAt_iff (by omega)).mpr ho
    rw [h.2.2 j hj] at this
    simp at this
  | none =>
    rw [hf] at h
    rintro ⟨j, ho⟩
    have hl := ((occurs_iff _ _ _).mp ho).1
    have := (matchAt_iff hl).mpr ho
    rw [h j (by omega)] at this
    simp at this

/-- What the search loop from the right finds. -/
theorem last_spec (s sub : Str) :
    match (positions s sub true).find? (matchAt s sub) with
    | some i => LastAt sub s i
    | none => ¬ Contains s sub := by
  unfold positions
  simp only [if_true]
  have h := find_range_reverse (p := matchAt s sub) ((s.length : Int) - sub.length + 1).toNat
  cases hf : (List.range ((s.length : Int) - sub.length + 1).toNat).reverse.find? (matchAt s sub) with
  | some i =>
    rw [hf] at h
    refine ⟨(matchAt_iff (by omega)).mp h.2.1, fun j hj ho => ?_⟩
    have hl := ((occurs_iff _ _ _).mp ho).1
    have := (matchAt_iff hl).mpr ho
    rw [h.2.2 j hj (by omega)] at this
    simp at this
  | none =>
    rw [hf] at h
    rintro ⟨j, ho⟩
    have hl := ((occurs_iff _ _ _).mp ho).1
    have := (matchAt_iff hl).mpr ho
    rw [h j (by omega)] at this
    simp at this

/-- Occurrences in a part of a string. -/
theorem occurs_cut {sub s : Str} {a b i : Nat} (hb : b ≤ s.length) (h : sub ≠ [] ∨ a ≤ b) :
    OccursAt sub ((s.take b).drop a) i ↔ a + i + sub.length ≤ b ∧ OccursAt sub s (a + i) := by
  have e : ((s.take b).drop a).drop i = (s.drop (a + i)).take (b - (a + i)) := by
    rw [List.drop_drop, List.drop_take]
  rw [occurs_iff, occurs_iff, e, List.take_take]
  simp only [List.length_drop, List.length_take]
  have hs : sub.length = 0 → a ≤ b := by
    intro h0
    rcases h with h | h
    · exact absurd (List.length_eq_zero_iff.mp h0) h
    · exact h
  constructor
  · rintro ⟨h1, h2⟩
    have : a + i + sub.length ≤ b := by
      by_cases h0 : sub.length = 0
      · have := hs h0; omega
      · omega
    refine ⟨this, by omega, ?_⟩
    rw [show min sub.length (b - (a + i)) = sub.length by omega] at h2
    exact h2
  · rintro ⟨h1, h2, h3⟩
    refine ⟨by omega, ?_⟩
    rw [show min sub.length (b - (a + i)) = sub.length by omega]
    exact h3

/-- The bounds that `_find` works with, when they are within reach. -/
theorem find_bounds (n : Nat) (a b : Option Int) (ha : ∀ i, a = some i → -(n : Int) ≤ i)
    (hb : ∀ i, b = some i → -(n : Int) ≤ i) :
    (a.map fun (a : Int) => if a < 0 then a + n else a).getD 0 = (windowLo n a : Int) ∧
    ∃ B : Nat, (b.map fun (b : Int) => if b < 0 then b + n else b).getD n = (B : Int) ∧
      windowHi n b = min B n := by
  constructor
  · cases a with
    | none => rfl
    | some i =>
      have := ha i rfl
      simp only [windowLo, Option.map_some, Option.getD_some]
      split <;> omega
  · cases b with
    | none => exact ⟨n, rfl, by simp [windowHi]⟩
    | some i =>
      have := hb i rfl
      refine ⟨(if i < 0 then i + n else i).toNat, ?_, ?_⟩
      · simp only [Option.map_some, Option.getD_some]; split <;> omega
      · simp only [windowHi, Option.map_some, Option.getD_some, bound]
        split <;> omega

theorem find_core (s sub : Str) (A B : Nat) (r : Bool)
    (f : Int) (hf : f = (if sub.length = 0 then
      (if ((if (A : Int) ≠ 0 ∨ (B : Int) ≠ s.length then pyCut s (some (A : Int)) (some (B : Int)) else s).length = 0 ∧
        (A : Int) > min (s.length : Int) (max B 0)) then -1
      else if r then max (min (B : Int) s.length) 0 else max (A : Int) 0)
      else match (positions (if (A : Int) ≠ 0 ∨ (B : Int) ≠ s.length then pyCut s (some (A : Int)) (some (B : Int)) else s) sub r).find?
        (matchAt (if (A : Int) ≠ 0 ∨ (B : Int) ≠ s.length then pyCut s (some (A : Int)) (some (B : Int)) else s) sub) with
        | some i => (A : Int) + i
        | none => -1)) :
    (∃ i : Nat, f = i ∧ (A ≤ i ∧ i + sub.length ≤ min B s.length ∧ OccursAt sub s i) ∧
      ∀ j, (A ≤ j ∧ j + sub.length ≤ min B s.length ∧ OccursAt sub s j) → if r then j ≤ i else i ≤ j) ∨
    (f = -1 ∧ ∀ j, ¬ (A ≤ j ∧ j + sub.length ≤ min B s.length ∧ OccursAt sub s j)) := by
  have hm : (if (A : Int) ≠ 0 ∨ (B : Int) ≠ s.length then pyCut s (some (A : Int)) (some (B : Int)) else s) =
      (s.take (min B s.length)).drop A := by
    split
    · rw [cut_mid]
      congr 1
      by_cases h : B ≤ s.length
      · congr 1; omega
      · rw [List.take_of_length_le (by omega), List.take_of_length_le (by omega)]
    · rename_i h
      have h1 : A = 0 := by omega
      have h2 : B = s.length := by omega
      rw [h1, h2]
      simp
  rw [hm] at hf
  have hlen : ((s.take (min B s.length)).drop A).length = min B s.length - A := by
    rw [List.length_drop, List.length_take]; omega
  by_cases h0 : sub.length = 0
  · have hnil : sub = [] := List.length_eq_zero_iff.mp h0
    rw [if_pos h0, hlen] at hf
    have hocc : ∀ i, i ≤ s.length → OccursAt sub s i := by
      intro i hi
      rw [occurs_iff, hnil]
      exact ⟨by simpa using hi, by simp⟩
    by_cases hAB : A ≤ min B s.length
    · left
      rw [if_neg (by omega)] at hf
      cases r with
      | true =>
        refine ⟨min B s.length, by rw [hf]; simp, ⟨hAB, by omega, hocc _ (by omega)⟩, ?_⟩
        rintro j ⟨_, h2, _⟩
        simp; omega
      | false =>
        refine ⟨A, by rw [hf]; simp, ⟨Nat.le_refl _, by omega, hocc _ (by omega)⟩, ?_⟩
        rintro j ⟨h1, _, _⟩
        simpa using h1
    · right
      rw [if_pos (by omega)] at hf
      exact ⟨hf, fun j ⟨h1, h2, _⟩ => by omega⟩
  · have hne : sub ≠ [] := fun h => h0 (by rw [h]; rfl)
    rw [if_neg h0] at hf
    have hoc := fun i => occurs_cut (sub := sub) (s := s) (a := A) (b := min B s.length) (i := i)
      (by omega) (Or.inl hne)
    cases r with
    | false =>
      have := first_spec ((s.take (min B s.length)).drop A) sub
      split at hf
      · rename_i i hi
        rw [hi] at this
        obtain ⟨h1, h2⟩ := this
        have h1' := (hoc i).mp h1
        left
        refine ⟨A + i, by rw [hf]; omega, ⟨by omega, by omega, h1'.2⟩, ?_⟩
        rintro j ⟨g1, g2, g3⟩
        simp only [Bool.false_eq_true, if_false]
        by_contra hlt
        exact h2 (j - A) (by omega) ((hoc _).mpr ⟨by omega, by rw [show A + (j - A) = j by omega]; exact g3⟩)
      · rename_i hi
        rw [hi] at this
        right
        refine ⟨hf, ?_⟩
        rintro j ⟨g1, g2, g3⟩
        exact this ⟨j - A, (hoc _).mpr ⟨by omega, by rw [show A + (j - A) = j by omega]; exact g3⟩⟩
    | true =>
      have := last_spec ((s.take (min B s.length)).drop A) sub
      split at hf
      · rename_i i hi
        rw [hi] at this
        obtain ⟨h1, h2⟩ := this
        have h1' := (hoc i).mp h1
        left
        refine ⟨A + i, by rw [hf]; omega, ⟨by omega, by omega, h1'.2⟩, ?_⟩
        rintro j ⟨g1, g2, g3⟩
        simp only [if_true]
        by_contra hlt
        exact h2 (j - A) (by omega) ((hoc _).mpr ⟨by omega, by rw [show A + (j - A) = j by omega]; exact g3⟩)
      · rename_i hi
        rw [hi] at this
        right
        refine ⟨hf, ?_⟩
        rintro j ⟨g1, g2, g3⟩
        exact this ⟨j - A, (hoc _).mpr ⟨by omega, by rw [show A + (j - A) = j by omega]; exact g3⟩⟩

theorem find_spec (s sub : Str) (a b : Option Int) (r : Bool)
    (ha : ∀ i, a = some i → -(s.length : Int) ≤ i) (hb : ∀ i, b = some i → -(s.length : Int) ≤ i) :
    (∃ i : Nat, find s sub a b r = i ∧ InWindow s sub a b i ∧
      ∀ j, InWindow s sub a b j → if r then j ≤ i else i ≤ j) ∨
    (find s sub a b r = -1 ∧ ∀ j, ¬ InWindow s sub a b j) := by
  obtain ⟨h1, B, h2, h3⟩ := find_bounds s.length a b ha hb
  have hf : find s sub a b r = find s sub a b r := rfl
  conv_rhs at hf => unfold find
  simp only [h1, h2] at hf
  have := find_core s sub (windowLo s.length a) B r _ hf
  unfold InWindow
  rw [h3]
  exact this

/-- Searching the whole string from the left. -/
theorem find_whole (s sub : Str) :
    (∃ i : Nat, find s sub none none false = i ∧ FirstAt sub s i) ∨
    (find s sub none none false = -1 ∧ ¬ Contains s sub) := by
  have hw : ∀ i, InWindow s sub none none i ↔ OccursAt sub s i := by
    intro i
    unfold InWindow windowLo windowHi
    simp only [Option.map_none, Option.getD_none, Nat.zero_le, true_and]
    exact ⟨fun h => h.2, fun h => ⟨((occurs_iff _ _ _).mp h).1, h⟩⟩
  rcases find_spec s sub none none false (by simp) (by simp) with ⟨i, h1, h2, h3⟩ | ⟨h1, h2⟩
  · left
    refine ⟨i, h1, (hw i).mp h2, fun j hj ho => ?_⟩
    have := h3 j ((hw j).mpr ho)
    simp at this
    omega
  · exact Or.inr ⟨h1, fun ⟨i, hi⟩ => h2 i ((hw i).mpr hi)⟩

theorem rfind_whole (s sub : Str) :
    (∃ i : Nat, find s sub none none true = i ∧ LastAt sub s i) ∨
    (find s sub none none true = -1 ∧ ¬ Contains s sub) := by
  have hw : ∀ i, InWindow s sub none none i ↔ OccursAt sub s i := by
    intro i
    unfold InWindow windowLo windowHi
    simp only [Option.map_none, Option.getD_none, Nat.zero_le, true_and]
    exact ⟨fun h => h.2, fun h => ⟨((occurs_iff _ _ _).mp h).1, h⟩⟩
  rcases find_spec s sub none none true (by simp) (by simp) with ⟨i, h1, h2, h3⟩ | ⟨h1, h2⟩
  · left
    refine ⟨i, h1, (hw i).mp h2, fun j hj ho => ?_⟩
    have := h3 j ((hw j).mpr ho)
    simp at this
    omega
  · exact Or.inr ⟨h1, fun ⟨i, hi⟩ => h2 i ((hw i).mpr hi)⟩

end Verif.Strs
