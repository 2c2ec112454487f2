import Verif.Depths.Model
import Mathlib.Data.List.Basic
/-
Helper lemmas about the cache of depths.
-/
namespace Verif.Depths

theorem getStacks_ok {α β : Type} [DecidableEq α] (f : α → β) (rnd : Nat) (cache : List (α × β)) (code : α)
    (h : ∀ e ∈ cache, e.2 = f e.1) (hl : cache.length ≤ 64) :
    (getStacks f rnd cache code).2 = f code ∧ (∀ e ∈ (getStacks f rnd cache code).1, e.2 = f e.1) ∧ (getStacks f rnd cache code).1.length ≤ 64 := by
  have fin : ∀ (cache : List (α × β)) (pos : Nat) (entry : α × β), (∀ e ∈ cache, e.2 = f e.1) → cache.length ≤ 64 → entry.1 = code →
      entry.2 = f code →
      let r : List (α × β) × β := (if 0 < pos then
        match cache[rnd % pos]? with
        | some other => (((cache.set pos other).set (rnd % pos) entry), entry.2)
        | none => (cache, entry.2)
      else (cache, entry.2))
      r.2 = f code ∧ (∀ e ∈ r.1, e.2 = f e.1) ∧ r.1.length ≤ 64 := by
    intro cache pos entry h hl h1 h2
    dsimp only
    split
    · split
      · rename_i other ho
        refine ⟨h2, ?_, by simpa using hl⟩
        intro e he
        rcases List.mem_or_eq_of_mem_set he with he | rfl
        · rcases List.mem_or_eq_of_mem_set he with he | rfl
          · exact h e he
          · exact h _ (List.mem_of_getElem? ho)
        · rw [h2, h1]
      · exact ⟨h2, h, hl⟩
    · exact ⟨h2, h, hl⟩
  unfold getStacks
  cases hf : cache.findIdx? (fun e => e.1 = code) with
  | some pos =>
    dsimp only
    obtain ⟨hp, he⟩ := List.findIdx?_eq_some_iff_getElem.1 hf
    rw [List.getElem?_eq_getElem hp]
    dsimp only
    have h1 : cache[pos].1 = code := by simpa using he.1
    exact fin cache pos cache[pos] h hl h1 (by rw [h _ (List.getElem_mem hp), h1])
  | none =>
    dsimp only
    refine fin _ _ (code, f code) ?_ ?_ rfl rfl
    · intro e he
      rw [List.mem_append] at he
      rcases he with he | he
      · split at he
        · exact h e (List.mem_of_mem_take he)
        · exact h e he
      · simp only [List.mem_singleton] at he; rw [he]
    · rw [List.length_append]
      split
      · simp; omega
      · simp; omega

end Verif.Depths
