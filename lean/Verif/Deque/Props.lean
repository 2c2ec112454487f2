import Verif.Deque.Lemmas

/-! Theorems about the deque (C42). -/
namespace Verif.Deque

variable {α : Type} [DecidableEq α]

/-- C42.  Deques without a bound (all symbolic deques are created so, collectionslib.py 248): over every history
of operations on any number of deques, every result and exception, and the contents of every deque, are those
of independent double-ended queues.  In particular copies share nothing with their originals. -/
theorem unbounded_history (ops : List (Op α)) (hu : Unbounded ops) :
    (run World.empty ops).1 = (plainRun [] ops).1 ∧
      (run World.empty ops).2.view = (plainRun [] ops).2 :=
  run_agree ops sep_empty (by intro i xs m h; simp [World.empty, World.view] at h)
    (free_run ops (by intro i xs m h; simp [World.empty, World.view] at h) hu)

/-- A history with a copy: changes to the copy are not seen in the original. -/
def sample : List (Op Nat) :=
  [.new [1, 2, 3] none, .copy 0, .append 1 4, .rotate 1 1, .popleft 1, .extend 0 [2, 5], .pop 1, .remove 0 2,
   .index 0 2 (some 1) none, .insert 0 (-1) 9, .appendleft 0 7, .del 0 0, .set 0 (-1) 8, .get 1 5, .eq 0 1,
   .mul 1 2, .extendFrom 1 1, .len 1]

example : Unbounded sample ∧
    (run World.empty sample).1 = [.made 0, .made 1, .unit, .unit, .elem 4, .unit, .elem 3, .unit, .num 2,
      .unit, .unit, .unit, .unit, .raised .index, .bool false, .made 2, .unit, .num 4] ∧
    (run World.empty sample).2.view = [([1, 3, 2, 9, 8], none), ([1, 2, 1, 2], none), ([1, 2, 1, 2], none)] := by
  refine ⟨?_, by decide +kernel, by decide +kernel⟩
  intro xs m h
  simp [sample] at h
  exact h.2

/-- C42, bounded deques: the same for every history in which no operation other than `append` or `appendleft`
would exceed the bound of a deque, and in which these are not applied to deques with the bound zero. -/
theorem bounded_history_partial (ops : List (Op α)) (hr : RoomyRun [] ops) :
    (run World.empty ops).1 = (plainRun [] ops).1 ∧
      (run World.empty ops).2.view = (plainRun [] ops).2 :=
  run_agree ops sep_empty (by intro i xs m h; simp [World.empty, World.view] at h) hr

/-- A bounded deque through its limits. -/
def narrow : List (Op Nat) := [.new [1] (some 2), .append 0 2, .append 0 3, .appendleft 0 4, .rotate 0 (-3), .len 0]

example : RoomyRun [] narrow ∧ (run World.empty narrow).2.view = [([2, 4], some 2)] := by
  refine ⟨?_, by decide +kernel⟩
  refine ⟨rfl, ?_, ?_, ?_, trivial, trivial, trivial⟩ <;>
  · intro xs m h
    simp [plainStep, onPlain, fallLeft, fallRight] at h
    rw [← h.2]; simp

/-- `rotate` on its own: `n` single steps, whatever `n` is. -/
theorem rotate_steps (xs : List α) (n : Int) : (rotated xs n).getD xs = turn n xs := rotated_eq xs n

example : turn 1 [1, 2, 3] = [3, 1, 2] ∧ turn (-4) [1, 2, 3] = [2, 3, 1] ∧ turn 5 ([] : List Nat) = [] := by
  decide

/-! ## Bounds that are not respected -/

/-- Disagreement: `extend`, `extendleft`, `insert` and `*` do not look at `maxlen`.  A deque of at most two
elements can be made to hold three, where Python lets elements fall off, or raises `IndexError` on `insert`. -/
theorem maxlen_exceeded :
    (run World.empty [.new [1, 2] (some 2), .extend 0 [3]]).2.view = [([1, 2, 3], some 2)] ∧
    (run World.empty [.new [1, 2] (some 2), .extendleft 0 [3]]).2.view = [([3, 1, 2], some 2)] ∧
    (run World.empty [.new [1, 2] (some 2), .insert 0 0 3]).2.view = [([3, 1, 2], some 2)] ∧
    (run World.empty [.new [1, 2] (some 2), .mul 0 2]).2.view = [([1, 2], some 2), ([1, 2, 1, 2], some 2)] ∧
    (plainRun [] [.new [1, 2] (some 2), .extend 0 [3]]).2 = [([2, 3], some 2)] ∧
    (plainRun [] [.new [1, 2] (some 2), .insert 0 0 3]).1 = [.made 0, .raised .index] := by
  decide +kernel

/-- Disagreement: adding to a deque with `maxlen=0` raises `IndexError`, where Python discards the element. -/
theorem append_to_zero :
    (run World.empty [.new [] (some 0), .append 0 1]).1 = [.made 0, .raised .index] ∧
    (run World.empty [.new [] (some 0), .appendleft 0 1]).1 = [.made 0, .raised .index] ∧
    (plainRun [] [.new [] (some 0), .append 0 1]).1 = [.made 0, .unit] := by
  decide +kernel

end Verif.Deque
