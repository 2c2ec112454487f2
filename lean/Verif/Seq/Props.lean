import Verif.Seq.Shell
import Verif.Seq.Order
/-
Theorems about lazy sequences, the mutable shell and ordering (properties C20, C21, C25).
-/
namespace Verif.Seq

variable {α : Type}

/-! ### C20: lazy sequences behave like the list they denote -/

/-- The length of a lazy sequence. -/
theorem lazy_len {q : Sq α} (h : q.WF) : q.len = (q.toList.length : Int) := len_toList h

/-- A nested example: a view of a concatenation, and of it a concatenation again. -/
def nested : Sq Nat := .cat (.view (.cat (.lst [1, 2, 3]) (.tup [4, 5])) 1 4) (.lst [6, 7])

theorem nested_wf : nested.WF := by simp [nested, Sq.WF, Sq.toList]

example : nested.toList = [2, 3, 4, 6, 7] := rfl

/-- Indexing a lazy sequence gives the element or error of indexing the list. -/
theorem lazy_get {q : Sq α} (h : q.WF) (i : Int) : q.get i = pyGet q.toList i := get_toList h i

example : nested.get (-4) = .ok 3 ∧ nested.get 5 = .error .indexError := by
  rw [lazy_get nested_wf, lazy_get nested_wf]; exact ⟨rfl, rfl⟩

/-- Iterating over a lazy sequence gives the elements of the list, without an error. -/
theorem lazy_iter {q : Sq α} (h : q.WF) : q.iter = .ok q.toList := iter_toList h

/-- Slicing a lazy sequence fails exactly as slicing the list fails, and otherwise gives a
sequence that denotes the sliced list (and so again behaves like it). -/
theorem lazy_slice {q : Sq α} (h : q.WF) (s : Slice) :
    match pySlice q.toList s with
    | .error e => q.getSlice s = .error e
    | .ok ys => ∃ q', q.getSlice s = .ok q' ∧ q'.WF ∧ q'.toList = ys := getSlice_means h s

/-- Reading off the elements of a slice. -/
theorem lazy_slice_elements {q : Sq α} (h : q.WF) (s : Slice) :
    (q.getSlice s).bind Sq.iter = pySlice q.toList s := by
  have := getSlice_means h s
  cases hp : pySlice q.toList s with
  | error e => rw [hp] at this; rw [show q.getSlice s = .error e from this]; rfl
  | ok ys =>
    rw [hp] at this
    obtain ⟨q', e, w, t⟩ := means_ok this
    rw [e, Except.bind, iter_toList w, t]

example : (nested.getSlice ⟨some (-1), none, some (-2)⟩).bind Sq.iter = .ok [7, 4, 2] := by
  rw [lazy_slice_elements nested_wf]
  simp [nested, Sq.toList, pySlice, pyIndices, elems, Range.Rng.iter, Range.iterDown, lookup]

example : (nested.getSlice ⟨some 1, none, some 0⟩).bind Sq.iter = .error .valueError := by
  rw [lazy_slice_elements nested_wf]; rfl

/-- Concatenation. -/
theorem lazy_concat {a b : Sq α} (ha : a.WF) (hb : b.WF) :
    (concat a b).WF ∧ (concat a b).toList = a.toList ++ b.toList :=
  ⟨concat_WF ha hb, concat_toList a b⟩

/-- Making a view, with any bounds. -/
theorem lazy_view {q : Sq α} (h : q.WF) (start stop : Int) :
    (sliceView q start stop).WF ∧
      (sliceView q start stop).toList = (q.toList.take stop.toNat).drop start.toNat :=
  sliceView_means h start stop

example : (sliceView nested 4 2).toList = [] ∧ (sliceView nested (-3) 2).toList = [2, 3] := by
  rw [(lazy_view nested_wf _ _).2, (lazy_view nested_wf _ _).2]; exact ⟨rfl, rfl⟩

/-- Equality with a list. -/
theorem lazy_eq [DecidableEq α] {q : Sq α} (h : q.WF) (ys : List α) :
    q.eq ys = .ok (decide (q.toList = ys)) := eq_means h ys

/-- Membership. -/
theorem lazy_contains [DecidableEq α] {q : Sq α} (h : q.WF) (v : α) :
    q.contains v = .ok (decide (v ∈ q.toList)) := contains_means h v

/-- Repetition. -/
theorem lazy_mul {q : Sq α} (h : q.WF) (n : Int) :
    ∃ q', q.mul n = .ok q' ∧ q'.WF ∧ q'.toList = pyMul q.toList n := mul_means h n

example : ∃ q', nested.mul 2 = .ok q' ∧ q'.WF ∧ q'.toList = [2, 3, 4, 6, 7, 2, 3, 4, 6, 7] :=
  lazy_mul nested_wf 2

/-! ### C21: the mutable shell refines Python's list -/

/-- Shells and the lists they stand for. -/
def Rel (st : Nat → Sq α) (ls : Nat → List α) : Prop := ∀ i, (st i).WF ∧ (st i).toList = ls i

theorem rel_upd {st : Nat → Sq α} {ls : Nat → List α} (h : Rel st ls) (i : Nat) {q : Sq α}
    {ys : List α} (hq : q.WF ∧ q.toList = ys) : Rel (upd st i q) (upd ls i ys) := by
  intro j
  unfold upd
  split
  · exact hq
  · exact h j

theorem rel_assign {st : Nat → Sq α} {ls : Nat → List α} (h : Rel st ls) (i : Nat)
    {r : Except PyErr (Sq α)} {p : Except PyErr (List α)} (hm : Means r p) :
    (assign (α := α) st i r).1 = (assign ls i p).1 ∧ Rel (assign (α := α) st i r).2 (assign (α := α) ls i p).2 := by
  cases p with
  | error e => rw [show r = .error e from hm]; exact ⟨rfl, h⟩
  | ok ys =>
    obtain ⟨q, e, w, t⟩ := means_ok hm
    rw [e]
    exact ⟨rfl, rel_upd h i ⟨w, t⟩⟩

theorem src_eval {st : Nat → Sq α} {ls : Nat → List α} (h : Rel st ls) (src : Src α) :
    (src.eval st).WF ∧ (src.eval st).toList = src.contents ls := by
  cases src with
  | list xs => exact ⟨trivial, rfl⟩
  | tuple xs => exact ⟨trivial, rfl⟩
  | var j => exact h j

theorem step_refines [DecidableEq α] {st : Nat → Sq α} {ls : Nat → List α} (h : Rel st ls)
    (o : Op α) : (shStep st o).1 = (pyStep ls o).1 ∧ Rel (shStep st o).2 (pyStep ls o).2 := by
  cases o with
  | len i => simp only [shStep, pyStep]; rw [len_toList (h i).1, (h i).2]; exact ⟨rfl, h⟩
  | get i k => simp only [shStep, pyStep]; rw [get_toList (h i).1, (h i).2]; exact ⟨rfl, h⟩
  | elements i => simp only [shStep, pyStep]; rw [iter_toList (h i).1, (h i).2]; exact ⟨rfl, h⟩
  | contains i v =>
    simp only [shStep, pyStep]; rw [contains_means (h i).1]
    refine ⟨?_, h⟩
    have := (h i).2
    simp only [this]; rfl
  | index i v => simp only [shStep, pyStep]; rw [index_means (h i).1, (h i).2]; exact ⟨rfl, h⟩
  | eq i j =>
    simp only [shStep, pyStep]
    rw [iter_toList (h j).1, (h j).2]
    simp only
    rw [eq_means (h i).1]
    refine ⟨?_, h⟩
    have := (h i).2
    simp only [this]; rfl
  | set i k v => exact rel_assign h i (by rw [← (h i).2]; exact setIdx_means (h i).1 k v)
  | setSlice i s src =>
    have := src_eval h src
    exact rel_assign h i (by rw [← (h i).2, ← this.2]; exact setSlice_means (h i).1 this.1 s)
  | del i k => exact rel_assign h i (by rw [← (h i).2]; exact delIdx_means (h i).1 k)
  | delSlice i s => exact rel_assign h i (by rw [← (h i).2]; exact delSlice_means (h i).1 s)
  | append i v => exact rel_assign h i (by rw [← (h i).2]; exact ⟨_, rfl, append_means (h i).1 v⟩)
  | extend i src =>
    have := src_eval h src
    exact rel_assign h i (by rw [← (h i).2, ← this.2]; exact ⟨_, rfl, extend_means (h i).1 this.1⟩)
  | insert i k v => exact rel_assign h i (by rw [← (h i).2]; exact insert_means (h i).1 k v)
  | reverse i => exact rel_assign h i (by rw [← (h i).2]; exact reverse_means (h i).1)
  | pop i k =>
    simp only [shStep, pyStep]
    have := pop_means (h i).1 k
    rw [(h i).2] at this
    cases hg : pyGet (ls i) k with
    | error e => rw [hg] at this; simp only at this ⊢; rw [this]; exact ⟨rfl, h⟩
    | ok v =>
      cases hd : pyDel (ls i) k with
      | error e => rw [hg, hd] at this; simp only at this ⊢; rw [this]; exact ⟨rfl, h⟩
      | ok ys =>
        rw [hg, hd] at this
        obtain ⟨q, e, w⟩ := this
        simp only
        rw [e]
        exact ⟨rfl, rel_upd h i w⟩
  | remove i v =>
    refine rel_assign h i ?_
    have := remove_means (h i).1 v
    simp only [(h i).2] at this
    exact this
  | clear i =>
    refine rel_assign h i ?_
    exact clear_means _ (h i).1 (by rw [len_toList (h i).1]; omega)
  | slice j i s => exact rel_assign h j (by rw [← (h i).2]; exact getSlice_means (h i).1 s)
  | plus j i src =>
    have := src_eval h src
    exact rel_assign h j (by rw [← (h i).2, ← this.2]; exact ⟨_, rfl, lazy_concat (h i).1 this.1⟩)
  | times j i n => exact rel_assign h j (by rw [← (h i).2]; exact mul_means (h i).1 n)

theorem history_refines [DecidableEq α] {st : Nat → Sq α} {ls : Nat → List α} (h : Rel st ls)
    (os : List (Op α)) : (history shStep st os).1 = (history pyStep ls os).1 ∧
      Rel (history shStep st os).2 (history pyStep ls os).2 := by
  induction os generalizing st ls with
  | nil => exact ⟨rfl, h⟩
  | cons o os ih =>
    have h1 := step_refines h o
    have h2 := ih h1.2
    exact ⟨by simp only [history]; rw [h1.1, h2.1], h2.2⟩

/-- **Every history** of operations on shells that wrap given lists returns, step by step, what the
same history returns on Python lists, errors included, and at its end every shell holds what its
list holds.  Shells share structure (copies, slices and extensions reuse parts of each other), yet a
change to one is never seen through another, because the lists of `pyStep` are separate. -/
theorem shell_history [DecidableEq α] (start : Nat → List α) (os : List (Op α)) :
    (history shStep (fun i => Sq.lst (start i)) os).1 = (history pyStep start os).1 ∧
    ∀ i, ((history shStep (fun i => Sq.lst (start i)) os).2 i).iter =
      .ok ((history pyStep start os).2 i) := by
  have h0 : Rel (fun i => Sq.lst (start i)) start := fun i => ⟨trivial, rfl⟩
  have h := history_refines h0 os
  exact ⟨h.1, fun i => by rw [iter_toList (h.2 i).1, (h.2 i).2]⟩

/-- A copy is unaffected by what happens to the original, and the other way round. -/
example : (history pyStep (fun _ => [1, 2, 3]) [.slice 1 0 ⟨none, none, none⟩, .append 0 4,
    .set 1 0 9, .delSlice 0 ⟨some (-2), none, none⟩, .elements 0, .elements 1]).1 =
    [.ok .none, .ok .none, .ok .none, .ok .none, .ok (.list [1, 2]), .ok (.list [9, 2, 3])] := by
  simp [history, pyStep, assign, upd, pySlice, pyIndices, elems, Range.Rng.iter, Range.iterUp,
    lookup, pySet, pyDelSlice]

/-- The same for shells over any well-formed lazy sequences. -/
theorem shell_history_lazy [DecidableEq α] (start : Nat → Sq α) (hw : ∀ i, (start i).WF)
    (os : List (Op α)) :
    (history shStep start os).1 = (history pyStep (fun i => (start i).toList) os).1 ∧
    ∀ i, ((history shStep start os).2 i).iter =
      .ok ((history pyStep (fun i => (start i).toList) os).2 i) := by
  have h0 : Rel start (fun i => (start i).toList) := fun i => ⟨hw i, rfl⟩
  have h := history_refines h0 os
  exact ⟨h.1, fun i => by rw [iter_toList (h.2 i).1, (h.2 i).2]⟩

/-! ### C25: ordering -/

/-- `operator.lt` on sequences is the lexicographic order, on elements of any type with an
irreflexive order. -/
theorem seqLt_iff [DecidableEq α] {lt : α → α → Bool} (hir : ∀ a, lt a a = false) (xs ys : List α) :
    seqLt lt xs ys = true ↔ LexLt lt xs ys := by
  unfold seqLt
  rw [lexLt_iff hir]
  simpa using lexCompare_lt lt xs ys 0

/-- `<=` is `<` or `==`. -/
theorem seqLe_iff [DecidableEq α] {lt : α → α → Bool} (hir : ∀ a, lt a a = false) (xs ys : List α) :
    seqLe lt xs ys = true ↔ LexLt lt xs ys ∨ xs = ys := by
  unfold seqLe
  rw [lexLt_iff hir]
  simpa using lexCompare_le lt xs ys 0

/-- `>` is `<` the other way round. -/
theorem seqGt_iff [DecidableEq α] {lt : α → α → Bool} (hir : ∀ a, lt a a = false) (xs ys : List α) :
    seqGt lt xs ys = true ↔ LexLt lt ys xs := by
  rw [seqGt_swap, seqLt_iff hir]

/-- `>=` is `<=` the other way round. -/
theorem seqGe_iff [DecidableEq α] {lt : α → α → Bool} (hir : ∀ a, lt a a = false) (xs ys : List α) :
    seqGe lt xs ys = true ↔ LexLt lt ys xs ∨ ys = xs := by
  rw [seqGe_swap, seqLe_iff hir]

example : seqLt (fun (a b : Nat) => decide (a < b)) [1, 2] [1, 2, 0] = true ∧
    seqLt (fun (a b : Nat) => decide (a < b)) [1, 3] [1, 2, 9] = false ∧
    seqLe (fun (a b : Nat) => decide (a < b)) [1, 2] [1, 2] = true := by decide

/-- The order is a strict total order when the order of the elements is one. -/
theorem seqLt_strict_total [DecidableEq α] {lt : α → α → Bool} (hir : ∀ a, lt a a = false)
    (htr : ∀ a b c, lt a b = true → lt b c = true → lt a c = true)
    (htot : ∀ a b, lt a b = true ∨ a = b ∨ lt b a = true) :
    (∀ xs, seqLt lt xs xs = false) ∧
    (∀ xs ys zs, seqLt lt xs ys = true → seqLt lt ys zs = true → seqLt lt xs zs = true) ∧
    (∀ xs ys, seqLt lt xs ys = true ∨ xs = ys ∨ seqLt lt ys xs = true) := by
  refine ⟨fun xs => ?_, fun xs ys zs h1 h2 => ?_, fun xs ys => ?_⟩
  · cases h : seqLt lt xs xs with
    | false => rfl
    | true =>
      rw [seqLt_iff hir, lexLt_iff hir] at h
      exact absurd h (lexB_irrefl hir xs)
  · rw [seqLt_iff hir, lexLt_iff hir] at *
    exact lexB_trans hir htr xs ys zs h1 h2
  · rw [seqLt_iff hir, seqLt_iff hir, lexLt_iff hir, lexLt_iff hir]
    exact lexB_total htot xs ys

/-- The hypotheses hold of integers. -/
example : (∀ a : Int, decide (a < a) = false) ∧
    (∀ a b c : Int, decide (a < b) = true → decide (b < c) = true → decide (a < c) = true) ∧
    (∀ a b : Int, decide (a < b) = true ∨ a = b ∨ decide (b < a) = true) := by
  refine ⟨by simp, ?_, ?_⟩
  · intro a b c; simp; omega
  · intro a b; simp; omega

/-- Comparison of symbolic strings by code points: each operator gives the lexicographic order, and
the final `assert False` is never reached. -/
theorem strCmp_spec (xs ys : List Nat) :
    (strCmp .lt xs ys = some true ↔ LexLt (fun a b => decide (a < b)) xs ys) ∧
    (strCmp .le xs ys = some true ↔ LexLt (fun a b => decide (a < b)) xs ys ∨ xs = ys) ∧
    (strCmp .gt xs ys = some true ↔ LexLt (fun a b => decide (a < b)) ys xs) ∧
    (strCmp .ge xs ys = some true ↔ LexLt (fun a b => decide (a < b)) ys xs ∨ xs = ys) ∧
    (∀ op, strCmp op xs ys ≠ none) := by
  have hir : ∀ a : Nat, decide (a < a) = false := by simp
  have htot : ∀ a b : Nat, decide (a < b) = true ∨ a = b ∨ decide (b < a) = true := by
    intro a b; simp; omega
  rw [lexLt_iff hir, lexLt_iff hir]
  unfold strCmp
  by_cases he : xs = ys
  · subst he
    have := lexB_irrefl (lt := fun (a b : Nat) => decide (a < b)) hir xs
    refine ⟨?_, ?_, ?_, ?_, ?_⟩
    · simp [this]
    · simp
    · simp [this]
    · simp
    · intro op; cases op <;> simp
  · simp only [if_neg he, he, or_false]
    obtain ⟨b, hb, hlt, hgt⟩ := strLoop_spec xs ys he
    refine ⟨?_, ?_, ?_, ?_, ?_⟩
    · rw [hb]; simp [hlt]
    · rw [hb]; simp [hlt]
    · rw [hb]; simp [hgt]
    · rw [hb]; simp [hgt]
    · intro op; rw [hb]; simp

example : strCmp .lt [97, 98] [97, 98, 99] = some true ∧ strCmp .ge [98] [97, 122] = some true := by
  decide

end Verif.Seq
