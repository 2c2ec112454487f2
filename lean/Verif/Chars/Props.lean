import Verif.Chars.Lemmas
/-
Theorems about the lazily created characters of symbolic strings (property C58).

The string has `len` characters; character `k` is the variable numbered `k`, so the string denotes
the list `List.range len` of variables, and Python's indexing and slicing of that list is what every
access should give.
-/
namespace Verif.Chars

open Seq (Slice PyErr pyGet pySlice)

/-- After **any** history of accesses, a position within the string is the variable of that
number. -/
theorem char_fixed (len : Nat) (os : List Op) {i : Int} (h0 : 0 ≤ i) (h1 : i < len) :
    (index len (after len os) i).1 = .ok i.toNat := by
  have hg := after_good len os
  unfold index
  simp only
  rw [if_pos ⟨h0, by omega⟩]
  have h := createUpTo_good hg (i.toNat + 1)
  have hl := (createUpTo_length (after len os) (i.toNat + 1)).1
  rw [good_created h, pyGet_range _ h0 (by omega)]

example : (index 3 (after 3 [.eq 5, .index (-1), .slice ⟨some 0, some 2, none⟩]) 2).1 = .ok 2 :=
  char_fixed 3 _ (by decide) (by decide)

/-- After any history, iterating gives all characters in order. -/
theorem iterate_fixed (len : Nat) (os : List Op) :
    (iterFrom (after len os) 0 len).1 = .ok (List.range len) := by
  have := (iterFrom_spec len 0 (after_good len os)).1
  simpa using this

/-- After any history, a comparison with `n` elements uses the first `n` variables. -/
theorem compare_fixed (len : Nat) (os : List Op) (n : Nat) :
    (componentPrefix (after len os) n).1 = List.range n :=
  (componentPrefix_spec (after_good len os) n).1

/-- After any history, the realized string has exactly the characters of the string. -/
theorem realize_fixed (len : Nat) (os : List Op) :
    (realize len (after len os)).1 = List.range len :=
  (realize_spec (after_good len os)).1

/-- What a sliced result denotes. -/
def Sliced.denotes (len : Nat) : Sliced → List Nat
  | .vars xs => xs
  | .suffix start => (List.range len).drop start
  | .whole => List.range len

/-- Full Python indexing, with negative and out-of-range positions, provided the string was never
compared with a longer one.  Missing for the full property: histories with such comparisons, where
it is false (`longer_comparison_breaks_index`). -/
theorem index_python_partial (len : Nat) (os : List Op) (ho : ∀ n, Op.eq n ∈ os → n ≤ len)
    (i : Int) : (index len (after len os) i).1 = pyGet (List.range len) i := by
  have hg := after_good len os
  have hs : Short len (after len os) := history_short os (by simp [Short]) ho
  by_cases hi : 0 ≤ i ∧ i < len
  · rw [char_fixed len os hi.1 hi.2, pyGet_range _ hi.1 hi.2]
  · unfold index
    simp only
    rw [if_neg (by omega)]
    have h := createUpTo_good hg len
    have hl := createUpTo_length (after len os) len
    have : (createUpTo (after len os) len).created.length = len :=
      hl.2.2.1 (by unfold Short at hs; omega)
    rw [good_created h, this]

example : (index 3 (after 3 [.eq 2, .iterate]) (-1)).1 = .ok 2 ∧
    (index 3 (after 3 [.eq 2, .iterate]) 3).1 = .error .indexError := by
  rw [index_python_partial 3 _ (by simp), index_python_partial 3 _ (by simp)]
  exact ⟨rfl, rfl⟩

/-- Full Python slicing, provided the string was never compared with a longer one and the step is
not negative when both bounds count from the front.  Both conditions are needed:
`longer_comparison_breaks_slice`, `backward_slice_wrong`. -/
theorem slice_python_partial (len : Nat) (os : List Op) (ho : ∀ n, Op.eq n ∈ os → n ≤ len)
    (s : Slice) (hs : s.stop.any (fun t => decide (t > 0)) = true →
      s.start.all (fun t => decide (0 ≤ t)) = true → s.step.all (fun t => decide (t > 0)) = true) :
    ((slice len (after len os) s).1.map (Sliced.denotes len)) =
      (pySlice (List.range len) s).mapError Failure.python := by
  have hg := after_good len os
  have hsh : Short len (after len os) := history_short os (by simp [Short]) ho
  have hfull : pySlice (List.range len) ⟨none, none, none⟩ = .ok (List.range len) := by
    have := Seq.pySlice_drop (List.range len) (Int.le_refl 0)
    have e : pySlice (List.range len) ⟨none, none, none⟩ =
        pySlice (List.range len) ⟨some 0, none, none⟩ := by
      rw [Seq.pySlice_eq_up _ rfl, Seq.pySlice_eq_up _ rfl]
      simp
    rw [e, this]
    simp
  unfold slice
  split
  · rename_i h; rw [h, hfull]; rfl
  · split
    · rename_i h
      have hst := hs h.1 h.2.1
      have hc := createUpTo_good hg (s.stop.getD 0).toNat
      have hl := (createUpTo_length (after len os) (s.stop.getD 0).toNat)
      have hle : (createUpTo (after len os) (s.stop.getD 0).toNat).created.length ≤ len := by
        have := createUpTo_short hsh (n := (s.stop.getD 0).toNat) (by omega)
        unfold Short at this
        omega
      unfold createdSlice
      rw [good_created hc, pySlice_prefix hle s ?_ h.2.1 hst]
      · cases pySlice (List.range len) s <;> rfl
      · cases hstop : s.stop with
        | none => rw [hstop] at h; simp at h
        | some t =>
          rw [hstop] at h hl
          simp at h hl ⊢
          omega
    · split
      · rename_i h
        obtain ⟨start, stop, step⟩ := s
        obtain ⟨h1, h2, h3⟩ := h
        simp only at h1 h2 h3
        subst h1 h2
        cases start with
        | none => rename_i hne _; exact absurd rfl hne
        | some a =>
          simp at h3
          rw [Seq.pySlice_drop _ h3.1]
          rfl
      · have h := createUpTo_good hg len
        have hl := createUpTo_length (after len os) len
        have hlen : (createUpTo (after len os) len).created.length = len :=
          hl.2.2.1 (by unfold Short at hsh; omega)
        simp only
        rw [if_neg (by omega)]
        unfold createdSlice
        rw [good_created h, hlen]
        cases pySlice (List.range len) s <;> rfl

example : ((slice 5 (after 5 [.index 2]) ⟨some (-1), none, some (-2)⟩).1.map (Sliced.denotes 5)) =
    .ok [4, 2, 0] := by
  rw [slice_python_partial 5 _ (by simp) _ (by simp)]
  simp [pySlice, Seq.pyIndices, Seq.elems, Range.Rng.iter, Range.iterDown, Seq.lookup, Except.mapError]

/-- **Disagreement.** A string of two characters, compared with a string of five and then indexed at
zero: afterwards position `-1` is variable 3, beyond the end, and position 2 is no error. -/
theorem longer_comparison_breaks_index :
    (index 2 (after 2 [.index 1, .eq 5, .index 0]) (-1)).1 = .ok 3 ∧
    pyGet (List.range 2) (-1) = .ok 1 ∧
    (index 2 (after 2 [.index 1, .eq 5, .index 0]) 2).1 = .ok 2 ∧
    pyGet (List.range 2) 2 = .error .indexError := by decide +kernel

/-- **Disagreement.** After the same history a slice that needs the length ends in an internal
error. -/
theorem longer_comparison_breaks_slice :
    (slice 2 (after 2 [.index 1, .eq 5, .index 0]) ⟨some (-1), none, none⟩).1 =
      .error .internal := by decide +kernel

/-- **Disagreement.** Slicing backwards with bounds from the front: `s[5:2:-1]` of a six-character
string is empty, instead of its characters 5, 4, 3; and `s[:2:-1]` likewise. -/
theorem backward_slice_wrong :
    (slice 6 (after 6 []) ⟨some 5, some 2, some (-1)⟩).1 = .ok (.vars []) ∧
    pySlice (List.range 6) ⟨some 5, some 2, some (-1)⟩ = .ok [5, 4, 3] ∧
    (slice 6 (after 6 []) ⟨none, some 2, some (-1)⟩).1 = .ok (.vars []) ∧
    pySlice (List.range 6) ⟨none, some 2, some (-1)⟩ = .ok [5, 4, 3] := by decide +kernel

end Verif.Chars
