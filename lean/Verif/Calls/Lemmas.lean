import Verif.Calls.Model
/-
Lemmas about the stack and about keyword arguments.
-/
namespace Verif.Calls

/-! ### Lemmas about the stack -/

theorem readAt_cons {α : Type} (x : Option α) (st : Stack α) (k : Nat) (h : 1 ≤ k) : readAt (x :: st) (k + 1) = readAt st k := by
  obtain ⟨j, rfl⟩ : ∃ j, k = j + 1 := ⟨k - 1, by omega⟩
  simp [readAt]

theorem writeAt_cons {α : Type} (x : Option α) (st : Stack α) (k : Nat) (h : 1 ≤ k) (v : α) :
    writeAt (x :: st) (k + 1) v = x :: writeAt st k v := by
  obtain ⟨j, rfl⟩ : ∃ j, k = j + 1 := ⟨k - 1, by omega⟩
  simp [writeAt]

theorem popArgs_read {α : Type} (n : Nat) (st : Stack α) (as : List α) (r : Stack α) (h : popArgs n st = some (as, r)) (k : Nat) (hk : 1 ≤ k) :
    readAt st (n + k) = readAt r k := by
  induction n generalizing st as with
  | zero =>
    cases h
    rw [Nat.zero_add]
  | succ n ih =>
    match st with
    | some a :: st =>
      rw [popArgs] at h
      obtain ⟨⟨as', r'⟩, h1, h2⟩ := Option.map_eq_some_iff.1 h
      cases h2
      rw [show n + 1 + k = (n + k) + 1 by omega, readAt_cons _ _ _ (by omega)]
      exact ih st as' h1

theorem popArgs_write {α : Type} (n : Nat) (st : Stack α) (as : List α) (r : Stack α) (h : popArgs n st = some (as, r)) (k : Nat) (hk : 1 ≤ k)
    (v : α) : popArgs n (writeAt st (n + k) v) = some (as, writeAt r k v) := by
  induction n generalizing st as with
  | zero =>
    cases h
    rw [Nat.zero_add]
    rfl
  | succ n ih =>
    match st with
    | some a :: st =>
      rw [popArgs] at h
      obtain ⟨⟨as', r'⟩, h1, h2⟩ := Option.map_eq_some_iff.1 h
      cases h2
      rw [show n + 1 + k = (n + k) + 1 by omega, writeAt_cons _ _ _ (by omega), popArgs, ih st as' h1]
      rfl

theorem put_new {β : Type} (acc : List (String × β)) (k : String) (v : β) (h : k ∉ acc.map (·.1)) : put acc k v = acc ++ [(k, v)] := by
  induction acc with
  | nil => rfl
  | cons p acc ih =>
    obtain ⟨k', v'⟩ := p
    simp only [List.map_cons, List.mem_cons, not_or] at h
    rw [put, if_neg (fun e => h.1 e.symm), ih h.2]
    rfl

theorem present_of {s : Obj} (h : s ≠ .none) : present (some s) = some s := by
  cases s <;> first | rfl | exact absurd rfl h

end Verif.Calls
