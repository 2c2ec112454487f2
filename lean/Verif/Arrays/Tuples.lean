import Verif.Arrays.Model
import Verif.Seq.Refine
import Verif.Seq.Props
/-
Symbolic tuples against lists.
-/
namespace Verif.Arrays

open Verif.Seq (PyErr Slice pyGet pySlice pyIndices lookup elems elems_one)

variable {A : Type}

theorem iterLoop_length (t : Tup A) (n idx : Nat) (h : (idx + n : Int) = t.len) :
    (t.iterLoop n idx).length = n := by
  induction n generalizing idx with
  | zero => rfl
  | succ n ih =>
    rw [Tup.iterLoop, if_pos (by omega), List.length_cons, ih (idx + 1) (by push_cast at h ⊢; omega)]

theorem iterLoop_get (t : Tup A) (n idx i : Nat) (h : (idx + n : Int) = t.len) (hi : i < n) :
    (t.iterLoop n idx)[i]? = some (t.arr (idx + i)) := by
  induction n generalizing idx i with
  | zero => omega
  | succ n ih =>
    rw [Tup.iterLoop, if_pos (by omega)]
    cases i with
    | zero => simp
    | succ i =>
      rw [List.getElem?_cons_succ, ih (idx + 1) i (by push_cast at h ⊢; omega) (by omega)]
      congr 2
      push_cast
      omega

theorem iter_length {t : Tup A} (h : t.Init) : (t.iter.length : Int) = t.len := by
  unfold Tup.Init at h
  rw [Tup.iter, iterLoop_length t _ 0 (by omega)]
  omega

theorem iter_get {t : Tup A} (h : t.Init) {i : Nat} (hi : (i : Int) < t.len) : t.iter[i]? = some (t.arr i) := by
  unfold Tup.Init at h
  rw [Tup.iter, iterLoop_get t _ 0 i (by omega) (by omega)]
  simp

theorem lookup_iter {t : Tup A} (h : t.Init) (i : Int) :
    lookup t.iter i = if 0 ≤ i ∧ i < t.len then some (t.arr i) else none := by
  unfold lookup
  by_cases h0 : 0 ≤ i
  · rw [if_pos h0]
    by_cases h1 : i < t.len
    · rw [if_pos ⟨h0, h1⟩, iter_get h (by omega)]
      congr 2
      omega
    · rw [if_neg (by omega)]
      have := iter_length h
      exact List.getElem?_eq_none (by omega)
  · rw [if_neg h0, if_neg (by omega)]

theorem get_py {t : Tup A} (h : t.Init) (i : Int) : t.get i = pyGet t.iter i := by
  have hl := iter_length h
  unfold Tup.Init at h
  rw [pyGet, lookup_iter h, Tup.get, flipIndex]
  by_cases hin : i ≥ t.len ∨ i < -t.len
  · have h1 : (decide (i ≥ t.len) || decide (i < -t.len)) = true := by simpa using hin
    have h2 : ¬ (0 ≤ (if i < 0 then i + (t.iter.length : Int) else i) ∧
        (if i < 0 then i + (t.iter.length : Int) else i) < t.len) := by
      by_cases h0 : i < 0
      · rw [if_pos h0]; omega
      · rw [if_neg h0]; omega
    rw [if_pos h1, if_neg h2]
    rfl
  · have h1 : ¬ (decide (i ≥ t.len) || decide (i < -t.len)) = true := by simpa using hin
    have h2 : (0 ≤ (if i < 0 then i + (t.iter.length : Int) else i) ∧
        (if i < 0 then i + (t.iter.length : Int) else i) < t.len) := by
      by_cases h0 : i < 0
      · rw [if_pos h0]; omega
      · rw [if_neg h0]; omega
    rw [if_neg h1, if_pos h2]
    simp only [Except.map]
    congr 2
    rw [normalize]
    by_cases h0 : i < 0
    · rw [if_pos h0, if_neg (by omega)]; omega
    · rw [if_neg h0, if_pos (by omega)]

theorem get_in {t : Tup A} {i : Int} (h0 : 0 ≤ i) (h1 : i < t.len) : t.get i = .ok (t.arr i) := by
  rw [Tup.get, flipIndex, normalize, if_neg (by simp; omega), if_pos h0]
  rfl

theorem viewLoop_eq {t : Tup A} (h : t.Init) (n : Nat) (a : Int) (h0 : 0 ≤ a) (h1 : a + n ≤ t.len) :
    viewLoop t n a = .ok ((t.iter.drop a.toNat).take n) := by
  induction n generalizing a with
  | zero => simp [viewLoop]
  | succ n ih =>
    have hg := iter_get h (i := a.toNat) (by omega)
    have hlt : a.toNat < t.iter.length := (List.getElem?_eq_some_iff.1 hg).1
    rw [viewLoop, get_in h0 (by omega)]
    simp only
    rw [ih (a + 1) (by omega) (by push_cast at h1 ⊢; omega), List.drop_eq_getElem_cons hlt]
    have hv : t.iter[a.toNat] = t.arr a := by
      have h2 := (List.getElem?_eq_some_iff.1 hg).2
      rw [h2]
      congr 1
      omega
    rw [hv, List.take_succ_cons, show (a + 1).toNat = a.toNat + 1 by omega]
    rfl

theorem slice_py {t : Tup A} (h : t.Init) (s : Slice) (hs : s.step = none ∨ s.step = some 1) :
    t.slice s = pySlice t.iter s := by
  have hl := iter_length h
  have hlen : 0 ≤ t.len := h
  have hst : s.step.getD 1 = 1 := by rcases hs with h | h <;> rw [h] <;> rfl
  -- the positions
  have hpos : ∃ a b : Int, pyIndices s t.iter.length = .ok (a, b, 1) ∧ 0 ≤ a ∧ a ≤ t.len ∧ 0 ≤ b ∧ b ≤ t.len ∧
      clip (flipSlice t.len s).1 (flipSlice t.len s).2 t.len = (a, b) := by
    obtain ⟨st, sp, step⟩ := s
    simp only at hst
    unfold pyIndices
    simp only [hst]
    rw [if_neg (by omega)]
    refine ⟨_, _, rfl, ?_⟩
    simp only [hl, flipSlice, clip, normalize]
    cases st <;> cases sp <;> simp only [Prod.mk.injEq] <;> refine ⟨?_, ?_, ?_, ?_, ?_, ?_⟩ <;>
      (repeat' split) <;> omega
  obtain ⟨a, b, h1, h2, h3, h4, h5, h6⟩ := hpos
  rw [pySlice, h1]
  simp only
  have hview : (match viewBounds a b t.len with
      | none => Except.ok t.iter
      | some (a, b) => viewLoop t (b - a).toNat a) = .ok (elems t.iter a b 1) := by
    unfold viewBounds
    by_cases ha : a ≤ 0
    · have ha0 : a = 0 := by omega
      subst ha0
      by_cases hb : b ≥ t.len
      · have hb0 : b = t.len := by omega
        subst hb0
        simp only [Int.le_refl, decide_true, Bool.and_self, if_true, ge_iff_le]
        rw [elems_one _ (by omega) 0 (by omega) (by omega)]
        congr 1
        rw [List.take_of_length_le (by omega)]
        simp
      · have hb' : ¬ t.len ≤ b := by omega
        simp only [Int.le_refl, decide_true, Bool.true_and, ge_iff_le, hb', decide_false,
          if_true, Bool.false_eq_true, if_false]
        rw [elems_one _ (by omega) 0 (by omega) (by omega)]
        by_cases hb0 : b ≤ 0
        · rw [if_pos hb0]
          have : b = 0 := by omega
          subst this
          simp [viewLoop]
        · rw [if_neg hb0, viewLoop_eq h _ 0 (by omega) (by omega)]
          simp
    · simp only [ha, decide_false, Bool.false_and, Bool.false_eq_true, if_false]
      have hbb : (if decide (b ≥ t.len) = true then t.len else b) = b := by
        by_cases hb : b ≥ t.len
        · simp only [hb, decide_true, if_true]; omega
        · simp [hb]
      rw [hbb]
      by_cases hba : b ≤ a
      · simp only [hba, if_true]
        rw [show (a - a).toNat = 0 by omega, Seq.elems_empty_up _ (by omega) hba]
        rfl
      · simp only [hba, if_false]
        rw [viewLoop_eq h _ a (by omega) (by omega), elems_one _ (by omega) a (by omega) (by omega)]
        congr 1
        rw [List.take_drop]
        congr 2
        omega
  unfold Tup.slice
  simp only [h6]
  by_cases hnone : (s.start.isNone && s.stop.isNone && s.step.isNone) = true
  · rw [if_pos hnone]
    rw [← hview]
    have : a = 0 ∧ b = t.len := by
      simp only [Bool.and_eq_true, Option.isNone_iff_eq_none] at hnone
      have h7 := h6
      rw [flipSlice, hnone.1.1, hnone.1.2] at h7
      simp only [clip, Prod.mk.injEq] at h7
      have hx : ¬ t.len < 0 := by omega
      simp [hx] at h7
      omega
    rw [this.1, this.2]
    simp [viewBounds]
  · rw [if_neg hnone]
    exact hview

/-! ### Equality and order -/

theorem eqLoop_py [DecidableEq A] {t : Tup A} (h : t.Init) (other : List A) (i : Nat)
    (hl : (i + other.length : Int) = t.len) : t.eqLoop i other = .ok (decide (t.iter.drop i = other)) := by
  induction other generalizing i with
  | nil =>
    have := iter_length h
    rw [Tup.eqLoop, List.drop_of_length_le (by simp at hl; omega)]
    simp
  | cons v rest ih =>
    simp only [List.length_cons] at hl
    have hg := iter_get h (i := i) (by push_cast at hl; omega)
    have hlt : i < t.iter.length := (List.getElem?_eq_some_iff.1 hg).1
    have hv := (List.getElem?_eq_some_iff.1 hg).2
    rw [Tup.eqLoop, get_in (by omega) (by push_cast at hl; omega)]
    simp only
    rw [ih (i + 1) (by push_cast at hl ⊢; omega), List.drop_eq_getElem_cons hlt, hv]
    by_cases e : t.arr i = v
    · simp [e]
    · simp [e]

theorem eq_py [DecidableEq A] {t : Tup A} (h : t.Init) (other : List A) :
    t.eq other = .ok (decide (t.iter = other)) := by
  have hl := iter_length h
  rw [Tup.eq]
  by_cases e : t.len = other.length
  · rw [if_neg (by simpa using e), eqLoop_py h other 0 (by simp [e])]
    simp
  · rw [if_pos e]
    congr 1
    symm
    rw [decide_eq_false_iff_not]
    rintro rfl
    omega

theorem iter_ext {t u : Tup A} (ht : t.Init) (hu : u.Init) :
    t.iter = u.iter ↔ t.len = u.len ∧ ∀ i : Int, 0 ≤ i → i < t.len → t.arr i = u.arr i := by
  have h1 := iter_length ht
  have h2 := iter_length hu
  constructor
  · intro e
    have hl : t.len = u.len := by rw [← h1, ← h2, e]
    refine ⟨hl, fun i h3 h4 => ?_⟩
    have h5 := iter_get ht (i := i.toNat) (by omega)
    have h6 := iter_get hu (i := i.toNat) (by omega)
    rw [e, h6, Int.toNat_of_nonneg h3] at h5
    exact (Option.some.inj h5).symm
  · rintro ⟨hl, ha⟩
    apply List.ext_getElem?
    intro i
    by_cases hi : (i : Int) < t.len
    · rw [iter_get ht hi, iter_get hu (by omega), ha i (by omega) hi]
    · rw [List.getElem?_eq_none (by omega), List.getElem?_eq_none (by omega)]

theorem lexLoop_eq [DecidableEq A] (d : A → A → Bool) (p : Nat → Nat → Bool) (n m : Nat) (xs ys : List A) :
    lexLoop d (p n m) xs ys = Seq.lexCompare d p n m xs ys := by
  induction xs generalizing ys with
  | nil => cases ys <;> rfl
  | cons a xs ih =>
    cases ys with
    | nil => rfl
    | cons b ys => simp only [lexLoop, Seq.lexCompare, ih]

theorem contains_py {t : Tup A} (h : t.Init) (v : A) : t.Contains v ↔ v ∈ t.iter := by
  have hl := iter_length h
  rw [Tup.Contains, List.mem_iff_getElem?]
  constructor
  · rintro ⟨i, h0, h1, rfl⟩
    refine ⟨i.toNat, ?_⟩
    rw [iter_get h (by omega), Int.toNat_of_nonneg h0]
  · rintro ⟨i, hi⟩
    obtain ⟨hlt, -⟩ := List.getElem?_eq_some_iff.1 hi
    rw [iter_get h (by omega)] at hi
    exact ⟨i, by omega, by omega, Option.some.inj hi⟩

/-- The loop finds the first place. -/
theorem indexLoop_eq [DecidableEq A] {t : Tup A} (v : A) (n : Nat) (i : Int) (h0 : 0 ≤ i) (h1 : i + n ≤ t.len) :
    (∃ j, t.indexLoop v n i = .ok j ∧ i ≤ j ∧ j < i + n ∧ t.arr j = v ∧ ∀ m, i ≤ m → m < j → t.arr m ≠ v) ∨
      (t.indexLoop v n i = .error .valueError ∧ ∀ m, i ≤ m → m < i + n → t.arr m ≠ v) := by
  induction n generalizing i with
  | zero => exact Or.inr ⟨rfl, fun m h2 h3 => by simp at h3; omega⟩
  | succ n ih =>
    rw [Tup.indexLoop, get_in h0 (by push_cast at h1; omega)]
    simp only
    by_cases e : t.arr i = v
    · rw [if_pos e]
      exact Or.inl ⟨i, rfl, by omega, by push_cast; omega, e, fun m h2 h3 => by omega⟩
    · rw [if_neg e]
      rcases ih (i + 1) (by omega) (by push_cast at h1 ⊢; omega) with ⟨j, h2, h3, h4, h5, h6⟩ | ⟨h2, h3⟩
      · refine Or.inl ⟨j, h2, by omega, by push_cast; omega, h5, fun m h7 h8 => ?_⟩
        by_cases hm : m = i
        · rw [hm]; exact e
        · exact h6 m (by omega) h8
      · refine Or.inr ⟨h2, fun m h7 h8 => ?_⟩
        by_cases hm : m = i
        · rw [hm]; exact e
        · exact h3 m (by omega) (by push_cast at h8; omega)

theorem mul_foldl (l : List A) (n : Nat) : (List.range n).foldl (fun ret _ => l ++ ret) l =
    (List.replicate (n + 1) l).flatten := by
  induction n with
  | zero => simp
  | succ n ih =>
    rw [List.range_succ, List.foldl_append, ih]
    rfl

end Verif.Arrays
