import Verif.Range.Lemmas
/-
Property theorems about ranges (C22).  Every one of them is about the list of numbers that
iterating the range yields, and that list is pinned down by Python's documentation (`IsRange`).
-/
namespace Verif.Range

/-- A range object can be created exactly with a non-zero step. -/
theorem range_created (a b c : Int) :
    (c = 0 → mk3 a b c = .error .valueError) ∧ (c ≠ 0 → mk3 a b c = .ok ⟨a, b, c⟩) := by
  unfold mk3
  exact ⟨fun h => by simp [h], fun h => by simp [h]⟩

/-- Iterating yields what the documentation says, and the documentation leaves no choice. -/
theorem range_iter (r : Rng) (h : r.step ≠ 0) :
    IsRange r.start r.stop r.step r.iter ∧
      ∀ xs, IsRange r.start r.stop r.step xs → xs = r.iter :=
  ⟨iter_isRange' r h, fun _ hx => isRange_unique hx (iter_isRange' r h)⟩

/-- The length is the number of elements. -/
theorem range_len (r : Rng) (h : r.step ≠ 0) : r.len = (r.iter.length : Int) := len_eq r h

/-- A range is true exactly when it has elements. -/
theorem range_bool (r : Rng) (h : r.step ≠ 0) : r.bool = true ↔ r.iter ≠ [] := by
  unfold Rng.bool
  rw [len_eq r h]
  cases r.iter <;> simp <;> omega

/-- Indexing is indexing of the list of elements, and fails exactly when that does. -/
theorem range_get (r : Rng) (h : r.step ≠ 0) (i : Int) :
    r.get i = (match pyGet r.iter i with | some v => .ok v | none => .error .indexError) := by
  have hr := iter_isRange' r h
  unfold Rng.get pyGet
  simp only [len_eq r h]
  by_cases hi : 0 ≤ i
  · rw [if_neg (show ¬ i < 0 by omega), if_pos hi]
    simp only [Int.zero_mul, Int.add_zero]
    split
    · have : r.iter[i.toNat]? = none := by rw [List.getElem?_eq_none_iff]; omega
      rw [this]
    · have : HasPos r.start r.stop r.step i.toNat := (hasPos_iff_lt r h _).2 (by omega)
      rw [(hr _).1 this]
      have e : ((i.toNat : Nat) : Int) = i := by omega
      simp only [e]
  · rw [if_pos (show i < 0 by omega), if_neg hi]
    simp only [Int.one_mul]
    split
    · have : ¬ (-i ≤ (r.iter.length : Int)) := by omega
      rw [if_neg this]
    · rw [if_pos (by omega)]
      have : HasPos r.start r.stop r.step ((r.iter.length : Int) + i).toNat :=
        (hasPos_iff_lt r h _).2 (by omega)
      rw [(hr _).1 this]
      have e : ((((r.iter.length : Int) + i).toNat : Nat) : Int) = i + r.iter.length := by omega
      simp only [e]

/-- Containment is membership in the list of elements; the elements are distinct, so the count is
zero or one. -/
theorem range_contains (r : Rng) (h : r.step ≠ 0) (v : Int) :
    (r.contains v = true ↔ v ∈ r.iter) ∧ r.count v = r.iter.count v := by
  have hm : r.contains v = true ↔ v ∈ r.iter := by rw [contains_iff r h, mem_iter r h]
  refine ⟨hm, ?_⟩
  have hr := iter_isRange' r h
  have hnd : r.iter.Nodup := by
    rw [List.nodup_iff_pairwise_ne, List.pairwise_iff_getElem]
    intro i j hi hj hij heq
    have h1 := (hr i).1 ((hasPos_iff_lt r h i).2 hi)
    have h2 := (hr j).1 ((hasPos_iff_lt r h j).2 hj)
    rw [List.getElem?_eq_getElem hi, Option.some.injEq] at h1
    rw [List.getElem?_eq_getElem hj, Option.some.injEq] at h2
    rw [h1, h2] at heq
    have : r.step * (i : Int) = r.step * (j : Int) := by omega
    have := Int.eq_of_mul_eq_mul_left h this
    omega
  unfold Rng.count
  by_cases hv : v ∈ r.iter
  · rw [hm.2 hv, hnd.count, if_pos hv]; rfl
  · have : r.contains v = false := by
      cases hc : r.contains v
      · rfl
      · exact absurd (hm.1 hc) hv
    rw [this, List.count_eq_zero_of_not_mem hv]; rfl

/-- `index` gives the position of the value, and fails exactly when it is absent. -/
theorem range_index (r : Rng) (h : r.step ≠ 0) (v : Int) :
    (v ∉ r.iter → r.index v = .error .valueError) ∧
    (v ∈ r.iter → ∃ i : Nat, r.index v = .ok (i : Int) ∧ r.iter[i]? = some v) := by
  have hm := (range_contains r h v).1
  unfold Rng.index
  constructor
  · intro hv
    rw [if_neg (fun hc => hv (hm.1 hc))]
  · intro hv
    rw [if_pos (hm.2 hv)]
    obtain ⟨i, hp, rfl⟩ := (mem_iter r h v).1 hv
    refine ⟨i, ?_, (iter_isRange' r h i).1 hp⟩
    have e : r.start + r.step * (i : Int) - r.start = r.step * i := by omega
    rw [e, Int.mul_fdiv_cancel_left _ h]

/-- Two ranges are equal exactly when they have the same elements in the same order. -/
theorem range_eq (r s : Rng) (hr : r.step ≠ 0) (hs : s.step ≠ 0) :
    r.eq s = true ↔ r.iter = s.iter := by
  unfold Rng.eq
  rw [len_eq r hr, len_eq s hs]
  split
  · rename_i hne
    constructor
    · intro h; cases h
    · intro h; exact absurd (by rw [h]) hne
  · rename_i hne
    exact eqLoop_iff _ _ (by omega)

/-- Iterating backwards yields the elements in reverse order. -/
theorem range_reversed (r : Rng) (h : r.step ≠ 0) : r.reversed = r.iter.reverse := by
  -- the reversed range, from its first element and the number of elements
  have key : ∀ (s : Rng), s.step = -r.step → s.iter.length = r.iter.length →
      s.start = r.start + r.step * ((r.iter.length : Int) - 1) → s.iter = r.iter.reverse := by
    intro s h1 h2 h3
    have hs : s.step ≠ 0 := by omega
    apply List.ext_getElem?
    intro i
    by_cases hi : i < r.iter.length
    · rw [List.getElem?_reverse hi,
        (iter_isRange' s hs i).1 ((hasPos_iff_lt s hs i).2 (by omega)),
        (iter_isRange' r h _).1 ((hasPos_iff_lt r h _).2 (by omega)), h1, h3]
      congr 1
      have e : ((r.iter.length - 1 - i : Nat) : Int) = (r.iter.length : Int) - 1 - i := by omega
      rw [e]; ring
    · rw [List.getElem?_eq_none_iff.2 (by omega), List.getElem?_eq_none_iff.2 (by simp; omega)]
  have hlen := len_eq r h
  unfold Rng.reversed
  split
  · rename_i h1
    simp only
    have hneg : r.step < 0 := by omega
    split
    · rename_i hw
      have : r.iter = [] := by
        unfold Rng.iter; rw [if_pos hneg, iterDown, if_neg (by omega)]
      simp [this]
    · rename_i hw
      have e1 : ((r.stop - r.start).natAbs : Int) = r.start - r.stop := by omega
      have e2 : (r.step.natAbs : Int) = -r.step := by omega
      have hl : r.len = (r.start - r.stop).fdiv (-r.step) + min 1 ((r.start - r.stop).fmod (-r.step)) := by
        unfold Rng.len
        rw [if_neg (by simp; omega)]
        simp only [e1, e2]
        rw [if_pos (by omega)]
      rw [← hl, hlen]
      obtain ⟨c1, c2, c3⟩ := ceil_spec (r.start - r.stop) (-r.step) (by omega) (by omega)
      rw [if_neg (by omega)] at c2
      rw [← hl, hlen] at c1 c2
      generalize hn : (r.iter.length : Int) = n at *
      have m1 : (n - 1) * -r.step = -(r.step * (n - 1)) := by ring
      have m2 : n * -r.step = -(r.step * n) := by ring
      have m3 : r.step * (n - 1) = r.step * n - r.step := by ring
      apply key
      · rfl
      · have : ((Rng.iter ⟨r.stop + (r.start - r.stop - (n - 1) * -r.step),
            r.start + (r.start - r.stop - (n - 1) * -r.step), -r.step⟩).length : Int) = n := by
          have hs : (-r.step) ≠ 0 := by omega
          refine isRange_length (iter_isRange' _ hs) n (by omega) ?_ ?_
          · intro i hi
            simp only [HasPos]
            rw [if_pos (by omega)]
            have : -r.step * (i : Int) ≤ -r.step * (n - 1) :=
              Int.mul_le_mul_of_nonneg_left (by omega) (by omega)
            have m4 : -r.step * (n - 1) = -(r.step * (n - 1)) := by ring
            omega
          · intro i hi
            simp only [HasPos]
            rw [if_pos (by omega)]
            have : -r.step * n ≤ -r.step * (i : Int) :=
              Int.mul_le_mul_of_nonneg_left (by omega) (by omega)
            have m4 : -r.step * n = -(r.step * n) := by ring
            omega
        omega
      · simp only
        omega
  · rename_i h1
    simp only
    split
    · rename_i hw
      have : r.iter = [] := by
        unfold Rng.iter; rw [if_neg (by omega), iterUp, if_neg (by omega)]
      simp [this]
    · rename_i hw
      have hl : r.len = (r.stop - r.start).fdiv r.step + min 1 ((r.stop - r.start).fmod r.step) := by
        have e1 : ((r.stop - r.start).natAbs : Int) = r.stop - r.start := by omega
        have e2 : (r.step.natAbs : Int) = r.step := by omega
        unfold Rng.len
        rw [if_neg (by simp; omega)]
        simp only [e1, e2]
        split
        · rfl
        · rename_i h2
          have h2 : r.step = 1 := by omega
          rw [h2, Int.fmod_eq_emod_of_nonneg _ (by omega), Int.fdiv_eq_ediv_of_nonneg _ (by omega)]
          omega
      rw [← hl, hlen]
      obtain ⟨c1, c2, c3⟩ := ceil_spec (r.stop - r.start) r.step (by omega) (by omega)
      rw [if_neg (by omega)] at c2
      rw [← hl, hlen] at c1 c2
      generalize hn : (r.iter.length : Int) = n at *
      have m1 : (n - 1) * r.step = r.step * (n - 1) := by ring
      have m2 : n * r.step = r.step * n := by ring
      have m3 : r.step * (n - 1) = r.step * n - r.step := by ring
      apply key
      · rfl
      · have : ((Rng.iter ⟨r.stop - (r.stop - r.start - (n - 1) * r.step),
            r.start - (r.stop - r.start - (n - 1) * r.step), -r.step⟩).length : Int) = n := by
          have hs : (-r.step) ≠ 0 := by omega
          refine isRange_length (iter_isRange' _ hs) n (by omega) ?_ ?_
          · intro i hi
            simp only [HasPos]
            rw [if_neg (by omega)]
            have : r.step * (i : Int) ≤ r.step * (n - 1) :=
              Int.mul_le_mul_of_nonneg_left (by omega) (by omega)
            have m4 : -r.step * (i : Int) = -(r.step * i) := by ring
            omega
          · intro i hi
            simp only [HasPos]
            rw [if_neg (by omega)]
            have : r.step * n ≤ r.step * (i : Int) :=
              Int.mul_le_mul_of_nonneg_left (by omega) (by omega)
            have m4 : -r.step * (i : Int) = -(r.step * i) := by ring
            omega
        omega
      · simp only
        omega

example : IsRange 10 1 (-4) [10, 6, 2] := by
  have := (range_iter ⟨10, 1, -4⟩ (by decide)).1
  simpa [Rng.iter, iterDown] using this
example : Rng.len ⟨10, 1, -4⟩ = 3 ∧ Rng.get ⟨10, 1, -4⟩ (-1) = .ok 2 ∧
    Rng.get ⟨10, 1, -4⟩ 3 = .error .indexError ∧ Rng.contains ⟨10, 1, -4⟩ 6 = true ∧
    Rng.index ⟨10, 1, -4⟩ 2 = .ok 2 := by decide
example : Rng.reversed ⟨10, 1, -4⟩ = [2, 6, 10] := by
  rw [range_reversed _ (by decide)]
  simp [Rng.iter, iterDown]

end Verif.Range
