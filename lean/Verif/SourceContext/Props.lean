import Verif.SourceContext.Model
/-
Verbose messages show the lines around the line of the message.
-/
namespace Verif.SourceContext

theorem getline_iff (file : List String) (hne : ∀ t ∈ file, t ≠ "") (i : Nat) :
    (getline file i = "" ∧ ¬ ∃ t, IsLine file i t) ∨ (getline file i ≠ "" ∧ IsLine file i (getline file i)) := by
  by_cases hi : i = 0
  · left
    refine ⟨by simp [getline, hi], ?_⟩
    rintro ⟨t, h1, _⟩
    omega
  · cases hl : file[i - 1]? with
    | none =>
      left
      refine ⟨by simp [getline, hi, hl], ?_⟩
      rintro ⟨t, _, h2⟩
      rw [hl] at h2
      cases h2
    | some t =>
      right
      have hg : getline file i = t := by simp [getline, hi, hl]
      rw [hg]
      exact ⟨hne t (List.mem_of_getElem? hl), by omega, hl⟩

theorem loop_correct (file : List String) (hne : ∀ t ∈ file, t ≠ "") (line : Nat) : ∀ is : List Nat, is.Pairwise (· < ·) →
    ∃ numbers : List Nat, numbers.Pairwise (· < ·) ∧ (∀ i, i ∈ numbers ↔ (∃ t, IsLine file i t) ∧ i ∈ is) ∧
      List.Forall₂ (fun i s => IsLine file i s.text ∧ (s.marked = true ↔ i = line)) numbers (loop file line is)
  | [], _ => ⟨[], .nil, by simp, .nil⟩
  | i :: rest, hp => by
    obtain ⟨ns, h1, h2, h3⟩ := loop_correct file hne line rest (List.pairwise_cons.mp hp).2
    rcases getline_iff file hne i with ⟨hg, hn⟩ | ⟨hg, hl⟩
    · refine ⟨ns, h1, fun j => ?_, ?_⟩
      · rw [h2 j, List.mem_cons]
        constructor
        · exact fun h => ⟨h.1, .inr h.2⟩
        · rintro ⟨ht, rfl | hj⟩
          · exact absurd ht hn
          · exact ⟨ht, hj⟩
      · simp only [loop, if_pos hg]
        exact h3
    · refine ⟨i :: ns, List.pairwise_cons.mpr ⟨fun j hj => (List.pairwise_cons.mp hp).1 j ((h2 j).mp hj).2, h1⟩, fun j => ?_, ?_⟩
      · rw [List.mem_cons, List.mem_cons, h2 j]
        constructor
        · rintro (rfl | h)
          · exact ⟨⟨_, hl⟩, .inl rfl⟩
          · exact ⟨h.1, .inr h.2⟩
        · rintro ⟨ht, rfl | hj⟩
          · exact .inl rfl
          · exact .inr ⟨ht, hj⟩
      · simp only [loop, if_neg hg]
        refine .cons ⟨hl, ?_⟩ h3
        simp [eq_comm]

/-- Verbose messages show, in order, the lines of the file that are at most 3 away from the line of the message, and mark that line only. (Lines are not empty: they end with a newline.) -/
theorem context_correct (file : List String) (hne : ∀ t ∈ file, t ≠ "") (line : Nat) : Correct file line (context file line) := by
  obtain ⟨ns, h1, h2, h3⟩ := loop_correct file hne line (List.range' (max 1 (line - 3)) (line + 3 + 1 - max 1 (line - 3))) List.pairwise_lt_range'
  refine ⟨ns, h1, fun i => ?_, h3⟩
  rw [h2 i, List.mem_range'_1]
  constructor
  · rintro ⟨ht, h⟩
    exact ⟨ht, by omega, by omega⟩
  · rintro ⟨⟨t, ht⟩, h, h'⟩
    have := ht.1
    exact ⟨⟨t, ht⟩, by omega, by omega⟩

example : context ["a\n", "b\n", "c\n", "d\n", "e\n", "f\n"] 2 = [⟨"a\n", false⟩, ⟨"b\n", true⟩, ⟨"c\n", false⟩, ⟨"d\n", false⟩, ⟨"e\n", false⟩] := by decide +kernel

/-- The line of the message is shown if and only if the file has it. -/
theorem marked_iff (file : List String) (hne : ∀ t ∈ file, t ≠ "") (line : Nat) :
    (∃ s ∈ context file line, s.marked = true) ↔ ∃ t, IsLine file line t := by
  obtain ⟨ns, _, h2, h3⟩ := context_correct file hne line
  have key : ∀ {ns : List Nat} {out : List Shown}, List.Forall₂ (fun i s => IsLine file i s.text ∧ (s.marked = true ↔ i = line)) ns out →
      ((∃ s ∈ out, s.marked = true) ↔ line ∈ ns) := by
    intro ns out h
    induction h with
    | nil => simp
    | @cons i s ns out hi _ ih =>
      have hi2 := hi.2
      simp only [List.mem_cons, exists_eq_or_imp, ih, hi2]
      constructor
      · rintro (h | h)
        · exact .inl h.symm
        · exact .inr h
      · rintro (h | h)
        · exact .inl h.symm
        · exact .inr h
  rw [key h3, h2 line]
  exact ⟨fun h => h.1, fun h => ⟨h, by omega, by omega⟩⟩

example : IsLine ["a\n", "b\n"] 2 "b\n" ∧ ⟨"b\n", true⟩ ∈ context ["a\n", "b\n"] 2 := ⟨⟨by decide, rfl⟩, by decide +kernel⟩

end Verif.SourceContext
