import Verif.Buffers.Model
import Verif.Seq.Refine
/-
How list operations commute with mapping, and what they put into a list.
-/
set_option linter.unusedSectionVars false
namespace Verif.Buffers
open Verif.Seq

variable {α β : Type}

theorem lookup_map (f : α → β) (xs : List α) (i : Int) :
    lookup (xs.map f) i = (lookup xs i).map f := by
  unfold lookup; split <;> simp

theorem pyGet_map (f : α → β) (xs : List α) (i : Int) :
    pyGet (xs.map f) i = (match pyGet xs i with | .ok v => .ok (f v) | .error e => .error e) := by
  unfold pyGet; rw [lookup_map, List.length_map]
  cases lookup xs (if i < 0 then i + xs.length else i) <;> rfl

/-- Map the value of a successful operation. -/
def emap {ε : Type} (f : α → β) : Except ε α → Except ε β
  | .ok v => .ok (f v)
  | .error e => .error e

theorem pySet_map (f : α → β) (xs : List α) (i : Int) (v : α) :
    pySet (xs.map f) i (f v) = emap (List.map f) (pySet xs i v) := by
  unfold pySet; simp only [List.length_map]
  generalize (if i < 0 then i + (xs.length : Int) else i) = j
  by_cases h : 0 ≤ j ∧ j < xs.length
  · rw [if_pos h, if_pos h, ← List.map_set]; rfl
  · rw [if_neg h, if_neg h]; rfl

theorem map_eraseIdx' (f : α → β) : ∀ (xs : List α) (k : Nat),
    (xs.map f).eraseIdx k = (xs.eraseIdx k).map f
  | [], _ => rfl
  | _ :: _, 0 => rfl
  | x :: xs, k + 1 => by
    show f x :: (xs.map f).eraseIdx k = f x :: (xs.eraseIdx k).map f
    rw [map_eraseIdx' f xs k]

theorem pyDel_map (f : α → β) (xs : List α) (i : Int) :
    pyDel (xs.map f) i = emap (List.map f) (pyDel xs i) := by
  unfold pyDel; simp only [List.length_map]
  generalize (if i < 0 then i + (xs.length : Int) else i) = j
  by_cases h : 0 ≤ j ∧ j < xs.length
  · rw [if_pos h, if_pos h, map_eraseIdx']; rfl
  · rw [if_neg h, if_neg h]; rfl

theorem setMany_map (f : α → β) : ∀ (ps : List Int) (xs vs : List α),
    setMany (xs.map f) ps (vs.map f) = (setMany xs ps vs).map f
  | [], xs, vs => by cases vs <;> rfl
  | _ :: _, _, [] => rfl
  | p :: ps, xs, v :: vs => by
    show setMany ((xs.map f).set p.toNat (f v)) ps (vs.map f) = _
    rw [← List.map_set]; exact setMany_map f ps _ _

theorem pySetSlice_map (f : α → β) (xs : List α) (s : Slice) (vs : List α) :
    pySetSlice (xs.map f) s (vs.map f) = emap (List.map f) (pySetSlice xs s vs) := by
  unfold pySetSlice; rw [List.length_map]
  cases pyIndices s xs.length with
  | error e => rfl
  | ok p =>
    obtain ⟨a, b, c⟩ := p
    simp only [List.length_map]
    split
    · simp [emap, List.map_take, List.map_drop]
    · split
      · simp [emap, setMany_map]
      · rfl

theorem pyDelSlice_map (f : α → β) (xs : List α) (s : Slice) :
    pyDelSlice (xs.map f) s = emap (List.map f) (pyDelSlice xs s) := by
  unfold pyDelSlice; rw [List.length_map]
  cases pyIndices s xs.length with
  | error e => rfl
  | ok p =>
    obtain ⟨a, b, c⟩ := p
    simp only [emap, List.zipIdx_map, List.filter_map, List.map_map]
    rfl

theorem pyInsert_map (f : α → β) (xs : List α) (i : Int) (v : α) :
    pyInsert (xs.map f) i (f v) = (pyInsert xs i v).map f := by
  unfold pyInsert; simp [List.map_take, List.map_drop]

theorem elems_map (f : α → β) (xs : List α) (a b c : Int) :
    elems (xs.map f) a b c = (elems xs a b c).map f := by
  unfold elems
  rw [List.map_filterMap]
  congr 1; funext i; exact lookup_map f xs i

theorem pySlice_map (f : α → β) (xs : List α) (s : Slice) :
    pySlice (xs.map f) s = emap (List.map f) (pySlice xs s) := by
  unfold pySlice; rw [List.length_map]
  cases pyIndices s xs.length with
  | error e => rfl
  | ok p => obtain ⟨a, b, c⟩ := p; simp [emap, elems_map]

/-! What is in the result. -/

theorem mem_pySet {xs ys : List α} {i : Int} {v : α} (h : pySet xs i v = .ok ys) :
    ∀ c ∈ ys, c ∈ xs ∨ c = v := by
  unfold pySet at h
  simp only at h
  generalize (if i < 0 then i + (xs.length : Int) else i) = j at h
  split at h
  · injection h with h; subst h; intro c hc; exact List.mem_or_eq_of_mem_set hc
  · cases h

theorem mem_pyDel {xs ys : List α} {i : Int} (h : pyDel xs i = .ok ys) : ∀ c ∈ ys, c ∈ xs := by
  unfold pyDel at h
  simp only at h
  generalize (if i < 0 then i + (xs.length : Int) else i) = j at h
  split at h
  · injection h with h; subst h; intro c hc; exact List.mem_of_mem_eraseIdx hc
  · cases h

theorem mem_setMany : ∀ (ps : List Int) (xs vs : List α), ∀ c ∈ setMany xs ps vs, c ∈ xs ∨ c ∈ vs
  | [], xs, vs, c, h => .inl (by cases vs <;> exact h)
  | _ :: _, _, [], c, h => .inl h
  | p :: ps, xs, v :: vs, c, h => by
    rcases mem_setMany ps _ vs c h with h | h
    · rcases List.mem_or_eq_of_mem_set h with h | h
      · exact .inl h
      · exact .inr (by simp [h])
    · exact .inr (List.mem_cons_of_mem _ h)

theorem mem_pySetSlice {xs ys : List α} {s : Slice} {vs : List α} (h : pySetSlice xs s vs = .ok ys) :
    ∀ c ∈ ys, c ∈ xs ∨ c ∈ vs := by
  unfold pySetSlice at h
  cases hp : pyIndices s xs.length with
  | error e => rw [hp] at h; cases h
  | ok p =>
    obtain ⟨a, b, c⟩ := p
    rw [hp] at h
    simp only at h
    split at h
    · injection h with h; subst h
      intro c hc
      rcases List.mem_append.1 hc with hc | hc
      · rcases List.mem_append.1 hc with hc | hc
        · exact .inl (List.mem_of_mem_take hc)
        · exact .inr hc
      · exact .inl (List.mem_of_mem_drop hc)
    · split at h
      · injection h with h; subst h; exact mem_setMany _ _ _
      · cases h

theorem mem_pyDelSlice {xs ys : List α} {s : Slice} (h : pyDelSlice xs s = .ok ys) :
    ∀ c ∈ ys, c ∈ xs := by
  unfold pyDelSlice at h
  cases hp : pyIndices s xs.length with
  | error e => rw [hp] at h; cases h
  | ok p =>
    obtain ⟨a, b, c⟩ := p
    rw [hp] at h
    simp only at h
    injection h with h; subst h
    intro c hc
    obtain ⟨q, hq, rfl⟩ := List.mem_map.1 hc
    have := (List.mem_filter.1 hq).1
    exact List.fst_mem_of_mem_zipIdx this

theorem mem_pyInsert {xs : List α} {i : Int} {v : α} : ∀ c ∈ pyInsert xs i v, c ∈ xs ∨ c = v := by
  intro c hc
  unfold pyInsert at hc
  simp only [List.append_assoc, List.mem_append, List.mem_singleton] at hc
  rcases hc with hc | hc | hc
  · exact .inl (List.mem_of_mem_take hc)
  · exact .inr hc
  · exact .inl (List.mem_of_mem_drop hc)

end Verif.Buffers
