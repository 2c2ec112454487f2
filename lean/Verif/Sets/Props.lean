import Verif.Sets.Lemmas
/-
Properties of sets (C24).
-/
namespace Verif.Sets

variable {A : Type} [DecidableEq A]

/-- Whatever a program does with its sets, what it sees is what Python's sets show: each operation has its
mathematical meaning, no element is listed twice, and changing one set never changes another.  Left out
are `a - b` on two mutable sets and the methods without arguments; see below. -/
theorem set_history_partial (ops : List (Op A)) (hp : ∀ op ∈ ops, op.Plain) :
    SetRuns [] ops (history ([] : Store A) ops) := by
  have : ∀ (ops : List (Op A)) (σ : Store A), (∀ e ∈ σ, Good e) → (∀ op ∈ ops, op.Plain) →
      SetRuns (σ.map sem) ops (history σ ops) := by
    intro ops
    induction ops with
    | nil => intro σ _ _; exact SetRuns.nil _
    | cons op ops ih =>
      intro σ hσ hp
      obtain ⟨h1, h2⟩ := step_spec σ hσ op (hp op (by simp))
      exact SetRuns.cons h1 (ih _ h2 fun o ho => hp o (by simp [ho]))
  exact this ops [] (by simp) hp

example : history ([] : Store Nat)
    [.new [1, 2, 2, 3], .copy 0, .add 0 4, .discard 1 2, .binary .xor 0 1, .iter 2, .len 0, .remove 0 9,
     .inplace .sub 0 0, .truth 0, .pop 1, .iter 1, .update 0 [[5, 6], [6, 7]], .method .and 0 [[6, 7], [7, 8]],
     .iter 3, .rsub 3 [7, 8], .iter 4, .lt 3 0, .eq 0 0, .isdisjoint 0 [1, 2], .symmetricUpdate 0 [7, 8],
     .iter 0, .ge 0 3, .len 9] =
    [.set 0, .set 1, .done, .done, .set 2, .elems [2, 4], .num 4, .keyError,
     .done, .bool false, .elem 1, .elems [3], .done, .set 3,
     .elems [7], .set 4, .elems [8], .bool true, .bool true, .bool true, .done,
     .elems [5, 6, 8], .bool false, .noSuchSet] := by decide +kernel

/-- Every tree of combinations over lists of distinct items is a set: membership is the mathematical one,
and iteration lists each element once. -/
theorem tree_is_set (σ : Store A) (e : SetE A) (h : Good e) :
    (∀ x, ∃ b, contains σ e x = some b ∧ (b = true ↔ sem e x)) ∧
    ∃ l, iter σ e = some l ∧ Lists (sem e) l ∧ len σ e = some l.length := by
  refine ⟨fun x => ⟨_, contains_good σ h x, Iff.rfl⟩, ?_⟩
  obtain ⟨l, h1, h2⟩ := iter_good σ h
  exact ⟨l, h1, h2, by rw [len, h1]; rfl⟩

/-- The elements of a tree: those of its leaves, combined elementwise. -/
theorem tree_elements (l : List A) (op : BinOp) (a b : SetE A) :
    sem (.linear l) = ofList l ∧ sem (.comb op.lazy a b) = combine op (sem a) (sem b) ∧
    sem (.comb .rsub a b) = combine .sub (sem b) (sem a) :=
  ⟨sem_linear l, sem_comb op a b, sem_comb_rsub a b⟩

example : iter ([] : Store Nat) (.comb .xor (.comb .or (.linear [1, 2]) (.linear [2, 3])) (.linear [3, 4])) =
    some [1, 2, 4] := by decide +kernel

/-- `a - b` keeps a reference to `b`: adding to `b` afterwards removes the element from the difference.
In Python `len(c)` stays 2. -/
theorem difference_aliases :
    history ([] : Store Nat) [.new [1, 2], .new [], .binary .sub 0 1, .len 2, .add 1 2, .len 2, .iter 2] =
      [.set 0, .set 1, .set 2, .num 2, .done, .num 1, .elems [1]] := by decide +kernel

/-- So the specification fails for that history. -/
theorem difference_not_python :
    ¬ SetRuns [] [.new [1, 2], .new [], .binary .sub 0 1, .add 1 2, .contains 2 2]
      (history ([] : Store Nat) [.new [1, 2], .new [], .binary .sub 0 1, .add 1 2, .contains 2 2]) := by
  rw [show history ([] : Store Nat) [.new [1, 2], .new [], .binary .sub 0 1, .add 1 2, .contains 2 2] =
    [.set 0, .set 1, .set 2, .done, .bool false] by decide +kernel]
  intro h
  cases h with | cons h0 h =>
  cases h with | cons h1 h =>
  cases h with | cons h2 h =>
  cases h with | cons h3 h =>
  cases h with | cons h4 h =>
  rw [SetStep, if_pos (by simp [Op.uses])] at h0
  obtain ⟨rfl, _⟩ := h0
  rw [SetStep, if_pos (by simp [Op.uses])] at h1
  obtain ⟨rfl, _⟩ := h1
  rw [SetStep, if_pos (by simp [Op.uses])] at h2
  obtain ⟨rfl, _⟩ := h2
  rw [SetStep, if_pos (by simp [Op.uses])] at h3
  obtain ⟨rfl, _⟩ := h3
  rw [SetStep, if_pos (by simp [Op.uses])] at h4
  obtain ⟨_, b, hb, hb'⟩ := h4
  simp only [Obs.bool.injEq] at hb
  subst hb
  simp [combine, BinOp.Means, ofList] at hb'

/-- `a |= (b - a)`: the set refers to itself, and looking at it exhausts the stack. -/
theorem self_reference :
    history ([] : Store Nat) [.new [1], .new [2], .binary .sub 1 0, .inplace .or 0 2, .contains 0 2] =
      [.set 0, .set 1, .set 2, .done, .recursionError] := by decide +kernel

/-- `s.union()` without arguments is `s` itself, not a copy: adding to the result adds to `s`. -/
theorem union_aliases :
    history ([] : Store Nat) [.new [1], .method .or 0 [], .add 0 2, .len 0] = [.set 0, .set 0, .done, .num 2] := by
  decide +kernel

/-- With an immutable right operand `-` is right as well (it is among the histories above). -/
example : history ([] : Store Nat) [.new [1, 2], .frozen .sub 0 [2, 2, 3], .add 0 5, .iter 1] =
    [.set 0, .set 1, .done, .elems [1]] := by decide +kernel

end Verif.Sets
