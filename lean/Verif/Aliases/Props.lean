import Verif.Aliases.Model
import Mathlib.Tactic.Push
/-
Variables that refer to the same symbolic list.
-/
namespace Verif.Aliases

open Verif.Sources (Source Kind)

variable {α : Type}

theorem replicate_front (xs : List α) (n : Nat) : (List.replicate (n + 1) xs).flatten = xs ++ (List.replicate n xs).flatten := rfl

theorem mulLoop_times (xs : List α) (n k : Nat) :
    mulLoop xs n (List.replicate k xs).flatten = (List.replicate (n + k) xs).flatten := by
  induction n generalizing k with
  | zero => rw [mulLoop, Nat.zero_add]
  | succ n ih => rw [mulLoop, ← replicate_front, ih, Nat.add_assoc, Nat.add_comm 1 k]

theorem mul_times (xs : List α) (n : Int) : mul xs n = times xs n := by
  unfold mul times
  by_cases h : n ≤ 0
  · rw [if_pos h, show n.toNat = 0 by omega]; rfl
  · rw [if_neg h]
    have h1 := mulLoop_times xs (n.toNat - 1) 1
    rw [show n.toNat - 1 + 1 = n.toNat by omega] at h1
    rw [← h1]
    simp

/-- Two worlds in which variables refer to the same lists, of the same items. -/
structure Alike (p c : World α) : Prop where
  items : ∀ x, p.items (p.var x) = c.items (c.var x)
  alias_ : ∀ x y, p.var x = p.var y ↔ c.var x = c.var y
  oldP : ∀ x, p.var x < p.next
  oldC : ∀ x, c.var x < c.next

theorem alike_new (p c : World α) (h : Alike p c) (x : Nat) (xs : List α) : Alike (p.assign x xs) (spawn c x xs) := by
  have hp : ∀ y, p.var y ≠ p.next := fun y => Nat.ne_of_lt (h.oldP y)
  have hc : ∀ y, c.var y ≠ c.next := fun y => Nat.ne_of_lt (h.oldC y)
  refine ⟨fun y => ?_, fun y z => ?_, fun y => ?_, fun y => ?_⟩
  · unfold World.assign spawn
    by_cases hy : y = x
    · subst hy; simp
    · simp [hy, Function.update_of_ne, hp y, hc y, h.items y]
  · unfold World.assign spawn
    by_cases hy : y = x <;> by_cases hz : z = x
    · subst hy; subst hz; simp
    · subst hy; simp [hz, Function.update_of_ne, (hp z).symm, (hc z).symm]
    · subst hz; simp [hy, Function.update_of_ne, hp y, hc y]
    · simp [hy, hz, Function.update_of_ne, h.alias_ y z]
  · unfold World.assign
    by_cases hy : y = x
    · subst hy; simp
    · simp only [Function.update_of_ne hy]; have := h.oldP y; omega
  · unfold spawn
    by_cases hy : y = x
    · subst hy; simp
    · simp only [if_neg hy]; have := h.oldC y; omega

theorem alike_change (p c : World α) (h : Alike p c) (x : Nat) (xs : List α) : Alike (p.change x xs) (setInner c x xs) := by
  refine ⟨fun y => ?_, h.alias_, h.oldP, h.oldC⟩
  unfold World.change setInner
  by_cases hy : p.var y = p.var x
  · simp [hy, (h.alias_ y x).mp hy]
  · simp [Function.update_of_ne hy, mt (h.alias_ y x).mpr hy, h.items y]

/-- A list that is referred to by one variable may be changed or replaced. -/
theorem alike_replace (p c : World α) (h : Alike p c) (x : Nat) (xs : List α) (hx : ∀ y, p.var y = p.var x → y = x) :
    Alike (p.change x xs) (spawn c x xs) := by
  have hc : ∀ y, c.var y ≠ c.next := fun y => Nat.ne_of_lt (h.oldC y)
  refine ⟨fun y => ?_, fun y z => ?_, h.oldP, fun y => ?_⟩
  · unfold World.change spawn
    by_cases hy : y = x
    · subst hy; simp
    · simp [hy, Function.update_of_ne (mt (hx y) hy), hc y, h.items y]
  · show p.var y = p.var z ↔ _
    unfold spawn
    by_cases hy : y = x <;> by_cases hz : z = x
    · subst hy; subst hz; simp
    · subst hy
      simp only [if_true, if_neg hz]
      exact ⟨fun h1 => absurd (hx z h1.symm) hz, fun h1 => absurd h1.symm (hc z)⟩
    · subst hz
      simp only [if_true, if_neg hy]
      exact ⟨fun h1 => absurd (hx y h1) hy, fun h1 => absurd h1 (hc y)⟩
    · simp only [if_neg hy, if_neg hz]; exact h.alias_ y z
  · unfold spawn
    by_cases hy : y = x
    · subst hy; simp
    · simp only [if_neg hy]; have := h.oldC y; omega

theorem run_alike (p c : World α) (h : Alike p c) (ops : List (Op α)) (hp : Plain p ops) : run c ops = pythonRun p ops := by
  induction ops generalizing p c with
  | nil => rfl
  | cons op ops ih =>
    suffices H : Alike (python p op).1 (step c op).1 ∧ (step c op).2 = (python p op).2 by
      simp only [run, pythonRun]
      rw [ih _ _ H.1 hp.2, H.2]
    cases op with
    | alias_ x y =>
      refine ⟨⟨fun z => ?_, fun z u => ?_, fun z => ?_, fun z => ?_⟩, rfl⟩
      · simp only [python, step]
        by_cases hz : z = x
        · subst hz; simp [h.items y]
        · simp [hz, Function.update_of_ne, h.items z]
      · simp only [python, step]
        by_cases hz : z = x <;> by_cases hu : u = x
        · subst hz; subst hu; simp
        · subst hz; simp [hu, Function.update_of_ne, h.alias_ y u]
        · subst hu; simp [hz, Function.update_of_ne, h.alias_ z y]
        · simp [hz, hu, Function.update_of_ne, h.alias_ z u]
      · simp only [python]
        by_cases hz : z = x
        · subst hz; simp only [Function.update_self]; exact h.oldP y
        · simp only [Function.update_of_ne hz]; exact h.oldP z
      · simp only [step]
        by_cases hz : z = x
        · subst hz; simp only [if_true]; exact h.oldC y
        · simp only [if_neg hz]; exact h.oldC z
    | add x y s =>
      simp only [python, step]
      have hk := hp.1
      simp only at hk
      rcases hk with hk | hk | hk <;> rw [hk]
      · simp only [isSequence, if_true, ← h.items y]
        exact ⟨alike_new p c h x _, trivial⟩
      · exact ⟨h, rfl⟩
      · exact ⟨h, rfl⟩
    | mul x y n =>
      have hn : n ≠ 1 := hp.1
      simp only [python, step, if_neg hn, mul_times, ← h.items y]
      exact ⟨alike_new p c h x _, trivial⟩
    | copy x y =>
      simp only [python, step, ← h.items y]
      exact ⟨alike_new p c h x _, trivial⟩
    | iadd x s =>
      simp only [python, step, ← h.items x]
      exact ⟨alike_change p c h x _, trivial⟩
    | imul x n =>
      simp only [python, step, mul_times, ← h.items x]
      exact ⟨alike_replace p c h x _ hp.1, trivial⟩
    | append x v =>
      simp only [python, step, ← h.items x]
      exact ⟨alike_change p c h x _, trivial⟩
    | read x =>
      simp only [python, step, ← h.items x]
      exact ⟨h, trivial⟩
    | same x y =>
      simp only [python, step, h.alias_ x y]
      exact ⟨h, trivial⟩

/-- In each program that uses `+` with lists only, `*` not with 1, and `*=` only where no other variable refers to the same list, the items that each variable
shows and which variables are the same list are as in Python. -/
theorem aliases_partial (w : World α) (hw : ∀ x, w.var x < w.next) (ops : List (Op α)) (h : Plain w ops) : run w ops = pythonRun w ops :=
  run_alike w w ⟨fun _ => rfl, fun _ _ => Iff.rfl, hw, hw⟩ ops h

/-- Three variables for two lists. -/
def sample : World Nat := ⟨2, fun x => if x = 2 then 1 else 0, fun r => if r = 0 then [1] else [2, 3]⟩

example : Plain sample [.iadd 0 ⟨.tuple, [5]⟩, .read 1, .imul 2 2, .add 1 2 ⟨.list, [7]⟩, .same 0 1, .read 1] ∧
    run sample [.iadd 0 ⟨.tuple, [5]⟩, .read 1, .imul 2 2, .add 1 2 ⟨.list, [7]⟩, .same 0 1, .read 1] =
      [.done, .items [1, 5], .done, .done, .truth false, .items [2, 3, 2, 3, 7]] := by
  refine ⟨⟨trivial, trivial, ?_, Or.inl rfl, trivial, trivial, trivial⟩, by decide +kernel⟩
  intro y hy
  by_contra hne
  simp [python, World.change, sample, hne] at hy

/-- Disagreement: `*=` makes a new list, so that other variables do not see the change, and are no longer the same list. -/
theorem imul_new_list :
    run sample [.imul 0 2, .read 1, .same 0 1] = [.done, .items [1], .truth false] ∧
    pythonRun sample [.imul 0 2, .read 1, .same 0 1] = [.done, .items [1, 1], .truth true] := by decide +kernel

/-- Disagreement: `y * 1` is the list `y` itself, so that it changes with `y`. -/
theorem mul_one_alias :
    run sample [.mul 0 2 1, .append 2 4, .read 0, .same 0 2] = [.done, .done, .items [2, 3, 4], .truth true] ∧
    pythonRun sample [.mul 0 2 1, .append 2 4, .read 0, .same 0 2] = [.done, .done, .items [2, 3], .truth false] := by decide +kernel

/-- Disagreement: `+` with a tuple, a text or a range gives a list, and no `TypeError`. -/
theorem add_other_kinds :
    run sample [.add 0 0 ⟨.tuple, [9]⟩, .read 0] = [.done, .items [1, 9]] ∧
    pythonRun sample [.add 0 0 ⟨.tuple, [9]⟩, .read 0] = [.typeError, .items [1]] := by decide +kernel

end Verif.Aliases
