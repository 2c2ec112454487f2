import Verif.Chars.Model
import Verif.Seq.Shell
/-
Lemmas about lazily created characters.
-/
namespace Verif.Chars

open Seq (Slice PyErr pyGet pySlice)

/-- The variables created and queued are numbered from zero. -/
def Good (c : Chars) : Prop := ∃ n, c.created ++ c.queue = List.range n

theorem good_length {c : Chars} (h : Good c) :
    c.created ++ c.queue = List.range (c.created.length + c.queue.length) := by
  obtain ⟨n, h⟩ := h
  have := congrArg List.length h
  simp at this
  rw [h, this]

theorem good_created {c : Chars} (h : Good c) : c.created = List.range c.created.length := by
  have h1 := good_length h
  have h2 := congrArg (List.take c.created.length) h1
  simpa [List.take_range] using h2

theorem queueUpTo_good {c : Chars} (h : Good c) (n : Nat) : Good (queueUpTo c n) := by
  refine ⟨c.created.length + c.queue.length + (n - (c.created.length + c.queue.length)), ?_⟩
  unfold queueUpTo
  simp only
  rw [← List.append_assoc, good_length h]
  conv_rhs => rw [List.range_add]

theorem queueUpTo_lengths (c : Chars) (n : Nat) :
    (queueUpTo c n).created = c.created ∧ (queueUpTo c n).queue.length =
      c.queue.length + (n - (c.created.length + c.queue.length)) := by
  simp [queueUpTo]

theorem split_append (xs : List Nat) (k : Int) : pyUpTo xs k ++ pyFrom xs k = xs :=
  List.take_append_drop _ _

theorem createUpTo_good {c : Chars} (h : Good c) (n : Nat) : Good (createUpTo c n) := by
  unfold createUpTo
  simp only
  split
  · obtain ⟨m, hm⟩ := queueUpTo_good h n
    exact ⟨m, by simp only [List.append_assoc, split_append]; exact hm⟩
  · obtain ⟨m, hm⟩ := h
    exact ⟨m, by simp only [List.append_assoc, split_append]; exact hm⟩

/-- How many variables `_create_up_to` leaves created. -/
theorem createUpTo_length (c : Chars) (n : Nat) :
    n ≤ (createUpTo c n).created.length ∧ c.created.length ≤ (createUpTo c n).created.length ∧
    (c.created.length ≤ n → (createUpTo c n).created.length = n) ∧
    (createUpTo c n).created.length ≤ max n (c.created.length + c.queue.length) ∧
    (createUpTo c n).created.length + (createUpTo c n).queue.length =
      max n (c.created.length + c.queue.length) := by
  have hq := queueUpTo_lengths c n
  unfold createUpTo
  simp only
  split
  · rename_i hlt
    rw [hq.1]
    have e : (if (n : Int) - c.created.length < 0 then
        (n : Int) - c.created.length + (queueUpTo c n).queue.length else (n : Int) - c.created.length).toNat
        = n - c.created.length := by split <;> omega
    unfold pyUpTo pyFrom
    rw [e]
    simp only [List.length_append, List.length_take, List.length_drop, hq.2]
    omega
  · rename_i hlt
    unfold pyUpTo pyFrom
    simp only [List.length_append, List.length_take, List.length_drop]
    split <;> omega

theorem pyGet_range (m : Nat) {i : Int} (h0 : 0 ≤ i) (h1 : i < m) :
    pyGet (List.range m) i = .ok i.toNat := by
  rw [Seq.pyGet_nonneg _ h0]
  unfold Seq.lookup
  rw [if_pos h0, List.getElem?_range (by omega)]

theorem index_good {len : Nat} {c : Chars} (h : Good c) (i : Int) : Good (index len c i).2 := by
  unfold index
  simp only
  split <;> exact createUpTo_good h _

theorem slice_good {len : Nat} {c : Chars} (h : Good c) (s : Slice) : Good (slice len c s).2 := by
  unfold slice
  split
  · exact h
  · split
    · exact createUpTo_good h _
    · split
      · exact h
      · simp only
        split
        · exact createUpTo_good h _
        · exact createUpTo_good h _

theorem iterFrom_spec : ∀ (fuel idx : Nat) {c : Chars}, Good c →
    (iterFrom c idx fuel).1 = .ok ((List.range fuel).map (idx + ·)) ∧ Good (iterFrom c idx fuel).2 := by
  intro fuel
  induction fuel with
  | zero => intro idx c h; exact ⟨rfl, h⟩
  | succ fuel ih =>
    intro idx c h
    have hg := createUpTo_good h (idx + 1)
    have hl := (createUpTo_length c (idx + 1)).1
    have hv : pyGet (createUpTo c (idx + 1)).created (idx : Int) = .ok idx := by
      rw [good_created hg, pyGet_range _ (by omega) (by omega)]
      simp
    obtain ⟨h1, h2⟩ := ih (idx + 1) hg
    simp only [iterFrom, hv]
    rw [List.range_succ_eq_map, List.map_cons, List.map_map]
    generalize iterFrom (createUpTo c (idx + 1)) (idx + 1) fuel = r at *
    obtain ⟨r1, r2⟩ := r
    simp only at h1 h2
    subst h1
    refine ⟨?_, h2⟩
    simp only [Nat.add_zero]
    congr 2
    apply List.map_congr_left
    intro a _
    simp
    omega

theorem componentPrefix_spec {c : Chars} (h : Good c) (n : Nat) :
    (componentPrefix c n).1 = List.range n ∧ Good (componentPrefix c n).2 := by
  unfold componentPrefix
  split
  · rename_i hlt
    refine ⟨?_, h⟩
    simp only
    rw [good_created h, List.take_range]
    congr 1
    omega
  · rename_i hge
    have hg := queueUpTo_good h n
    refine ⟨?_, hg⟩
    have hq := queueUpTo_lengths c n
    have h1 := good_length hg
    have h2 := congrArg (List.take n) h1
    simp only
    rw [List.take_range, List.take_append, List.take_of_length_le (by rw [hq.1]; omega)] at h2
    rw [h2]
    congr 1
    rw [hq.1, hq.2]
    omega

theorem realize_spec {len : Nat} {c : Chars} (h : Good c) :
    (realize len c).1 = List.range len ∧ Good (realize len c).2 := by
  unfold realize
  have hg := createUpTo_good h len
  refine ⟨?_, hg⟩
  simp only
  rw [good_created hg, List.take_range]
  congr 1
  have := (createUpTo_length c len).1
  omega

theorem step_good {len : Nat} {c : Chars} (h : Good c) (o : Op) : Good (step len c o).2 := by
  cases o with
  | index i => exact index_good h i
  | slice s => exact slice_good h s
  | iterate => exact (iterFrom_spec len 0 h).2
  | eq n => exact (componentPrefix_spec h n).2
  | realize => exact (realize_spec h).2

theorem history_good {len : Nat} : ∀ (os : List Op) {c : Chars}, Good c →
    Good (Seq.history (step len) c os).2 := by
  intro os
  induction os with
  | nil => intro c h; exact h
  | cons o os ih => intro c h; exact ih (step_good h o)

theorem after_good (len : Nat) (os : List Op) : Good (after len os) :=
  history_good os ⟨0, rfl⟩

/-- No more variables than the string has characters. -/
def Short (len : Nat) (c : Chars) : Prop := c.created.length + c.queue.length ≤ len

theorem createUpTo_short {len : Nat} {c : Chars} (h : Short len c) {n : Nat} (hn : n ≤ len) :
    Short len (createUpTo c n) := by
  unfold Short at *
  have := createUpTo_length c n
  omega

theorem iterFrom_short {len : Nat} : ∀ (fuel idx : Nat) {c : Chars}, Short len c →
    idx + fuel ≤ len → Short len (iterFrom c idx fuel).2 := by
  intro fuel
  induction fuel with
  | zero => intro idx c h _; exact h
  | succ fuel ih =>
    intro idx c h hle
    have hs := createUpTo_short h (n := idx + 1) (by omega)
    simp only [iterFrom]
    split
    · exact hs
    · have := ih (idx + 1) hs (by omega)
      split <;> rename_i hh <;> rw [hh] at this <;> exact this

theorem step_short {len : Nat} {c : Chars} (h : Short len c) (o : Op)
    (ho : ∀ n, o = .eq n → n ≤ len) : Short len (step len c o).2 := by
  cases o with
  | index i =>
    simp only [step, index]
    split
    · exact createUpTo_short h (by omega)
    · exact createUpTo_short h (Nat.le_refl _)
  | slice s =>
    simp only [step, slice]
    split
    · exact h
    · split
      · exact createUpTo_short h (by omega)
      · split
        · exact h
        · split
          · exact createUpTo_short h (Nat.le_refl _)
          · exact createUpTo_short h (Nat.le_refl _)
  | iterate => exact iterFrom_short len 0 h (by omega)
  | eq n =>
    have hn := ho n rfl
    simp only [step, componentPrefix]
    split
    · exact h
    · have := queueUpTo_lengths c n
      unfold Short at *
      simp only
      rw [this.1, this.2]
      omega
  | realize => exact createUpTo_short h (Nat.le_refl _)

theorem history_short {len : Nat} : ∀ (os : List Op) {c : Chars}, Short len c →
    (∀ n, Op.eq n ∈ os → n ≤ len) → Short len (Seq.history (step len) c os).2 := by
  intro os
  induction os with
  | nil => intro c h _; exact h
  | cons o os ih =>
    intro c h ho
    exact ih (step_short h o (fun n e => ho n (by simp [e]))) (fun n hn => ho n (by simp [hn]))

/-- Cutting off a list does not change a forward slice that stops before. -/
theorem pySlice_prefix {m len : Nat} (hm : m ≤ len) (s : Slice)
    (h1 : s.stop.any (fun t => decide (0 ≤ t ∧ t ≤ (m : Int))) = true)
    (h2 : s.start.all (fun t => decide (t ≥ 0)) = true)
    (h3 : s.step.all (fun t => decide (t > 0)) = true) :
    pySlice (List.range m) s = pySlice (List.range len) s := by
  have : List.range len = List.range m ++ (List.range (len - m)).map (m + ·) := by
    rw [← List.range_add]
    congr 1
    omega
  rw [this]
  exact (Seq.fast_first _ _ s h3 (by simpa using h1) h2).symm

end Verif.Chars
