import Verif.Depths.Model
import Mathlib.Tactic.ByContra
/-
Helper lemmas about marking depths.
-/
namespace Verif.Depths

/-! ### Places -/

theorem at_le {code : List Instr} {k : Nat} {ins : Instr} (h : At code k ins) : k + ins.size ≤ total code := by
  induction h with
  | here => simp [total]
  | there _ _ _ _ _ ih => simp only [total]; omega

theorem at_order {code : List Instr} {k k' : Nat} {ins ins' : Instr} (h : At code k ins) (h' : At code k' ins') :
    (k' = k ∧ ins' = ins) ∨ k + ins.size ≤ k' ∨ k' + ins'.size ≤ k := by
  induction h generalizing k' ins' with
  | here =>
    cases h' with
    | here => left; exact ⟨rfl, rfl⟩
    | there => right; left; omega
  | there a r k ins h ih =>
    cases h' with
    | here => right; right; omega
    | there _ _ k' _ h' => rcases ih h' with ⟨rfl, rfl⟩ | h | h
                           · left; exact ⟨rfl, rfl⟩
                           · right; left; omega
                           · right; right; omega

theorem at_append (pre : List Instr) {rest : List Instr} {k : Nat} {ins : Instr} (h : At rest k ins) : At (pre ++ rest) (total pre + k) ins := by
  induction pre with
  | nil => simpa [total] using h
  | cons a r ih => have := At.there a _ _ _ ih; rw [← Nat.add_assoc] at this; exact this

theorem total_append (a b : List Instr) : total (a ++ b) = total a + total b := by
  induction a with
  | nil => simp [total]
  | cons x r ih => simp only [List.cons_append, total, ih]; omega

theorem size_pos (ins : Instr) : ins.ext < ins.size := by unfold Instr.size; omega

theorem not_inner {code : List Instr} {pc k : Nat} {ins : Instr} (h : At code pc ins) (hk : Start code k ∨ k = total code) :
    ¬ (pc < k ∧ k ≤ pc + ins.ext) := by
  rintro ⟨h1, h2⟩
  have hs := size_pos ins
  rcases hk with ⟨ins', hk⟩ | hk
  · rcases at_order h hk with ⟨h, _⟩ | h | h
    · omega
    · omega
    · have := size_pos ins'; omega
  · have := at_le h; omega

/-! ### One instruction -/

theorem effect_in (s : State) (ins : Instr) (i : Nat) (d : Int) (t : Bool) (hf : ins.kind = .jumpForward → ins.caches = 0)
    (j : Nat) (δ : Int) (h : (j, δ) ∈ succ ins i) :
    (effect s ins (i + ins.ext) (i + ins.ext + ins.caches + 1) d t).stacks j = some (d + δ) := by
  unfold succ Instr.size at h
  unfold effect
  cases hk : ins.kind with
  | popJump =>
    simp only [hk, List.mem_cons, List.not_mem_nil, or_false, Prod.mk.injEq] at h
    simp only [State.put, State.enable]
    rcases h with ⟨rfl, rfl⟩ | ⟨rfl, rfl⟩
    · rw [if_pos (by omega)]; rfl
    · split
      · rfl
      · rw [if_pos (by omega)]; rfl
  | send =>
    simp only [hk, List.mem_cons, List.not_mem_nil, or_false, Prod.mk.injEq] at h
    simp only [State.put, State.enable]
    rcases h with ⟨rfl, rfl⟩ | ⟨rfl, rfl⟩
    · rw [if_pos (by omega)]; simp
    · split
      · simp
      · rw [if_pos (by omega)]; simp
  | jumpForward =>
    have hc := hf hk
    simp only [hk, List.mem_cons, List.not_mem_nil, or_false, Prod.mk.injEq] at h
    simp only [State.put, State.enable]
    obtain ⟨rfl, rfl⟩ := h
    rw [if_pos (by omega)]; simp
  | jumpBackward =>
    simp only [hk, List.mem_cons, List.not_mem_nil, or_false, Prod.mk.injEq] at h
    obtain ⟨rfl, rfl⟩ := h
    simp only [State.put, State.enable]
    rw [if_pos (by omega)]; simp
  | forIter =>
    simp only [hk, List.mem_cons, List.not_mem_nil, or_false, Prod.mk.injEq] at h
    simp only [State.put, State.enable]
    rcases h with ⟨rfl, rfl⟩ | ⟨rfl, rfl⟩
    · split
      · rfl
      · rw [if_pos (by omega)]
    · rw [if_pos (by omega)]
  | stop => simp [hk] at h
  | other e =>
    simp only [hk, List.mem_cons, List.not_mem_nil, or_false, Prod.mk.injEq] at h
    obtain ⟨rfl, rfl⟩ := h
    simp only [State.put]
    rw [if_pos (by omega)]

theorem effect_out (s : State) (ins : Instr) (i : Nat) (d : Int) (t : Bool) (hf : ins.kind = .jumpForward → ins.caches = 0)
    (k : Nat) (h : ∀ δ, (k, δ) ∉ succ ins i) :
    (effect s ins (i + ins.ext) (i + ins.ext + ins.caches + 1) d t).stacks k = s.stacks k := by
  unfold succ Instr.size at h
  unfold effect
  cases hk : ins.kind with
  | popJump =>
    simp only [hk, List.mem_cons, List.not_mem_nil, or_false, Prod.mk.injEq] at h
    have := h (-1)
    simp only [and_true, not_or] at this
    simp only [State.put, State.enable]
    rw [if_neg (by omega), if_neg (by omega)]
  | send =>
    simp only [hk, List.mem_cons, List.not_mem_nil, or_false, Prod.mk.injEq] at h
    have := h 0
    simp only [and_true, not_or] at this
    simp only [State.put, State.enable]
    rw [if_neg (by omega), if_neg (by omega)]
  | jumpForward =>
    have hc := hf hk
    simp only [hk, List.mem_cons, List.not_mem_nil, or_false, Prod.mk.injEq] at h
    have := h 0
    simp only [and_true] at this
    simp only [State.put, State.enable]
    rw [if_neg (by omega)]
  | jumpBackward =>
    simp only [hk, List.mem_cons, List.not_mem_nil, or_false, Prod.mk.injEq] at h
    have := h 0
    simp only [and_true] at this
    simp only [State.put, State.enable]
    rw [if_neg (by omega)]
    split <;> rfl
  | forIter =>
    simp only [hk, List.mem_cons, List.not_mem_nil, or_false, Prod.mk.injEq] at h
    have := h 1
    simp only [and_true, not_or] at this
    simp only [State.put, State.enable]
    rw [if_neg (by omega), if_neg (by omega)]
  | stop => rfl
  | other e =>
    simp only [hk, List.mem_cons, List.not_mem_nil, or_false, Prod.mk.injEq] at h
    have := h e
    simp only [and_true] at this
    simp only [State.put]
    rw [if_neg (by omega)]

/-- Another round is asked for only when a place is marked for the first time. -/
theorem effect_todo (s : State) (ins : Instr) (i : Nat) (d : Int) (t : Bool)
    (h : (effect s ins (i + ins.ext) (i + ins.ext + ins.caches + 1) d t).todo = true) :
    s.todo = true ∨ ∃ j δ, (j, δ) ∈ succ ins i ∧ s.stacks j = none := by
  unfold effect at h
  cases hk : ins.kind with
  | jumpBackward =>
    simp only [hk, State.put, State.enable] at h
    split at h
    · rename_i hn
      right
      refine ⟨_, 0, ?_, hn.1⟩
      simp only [succ, hk, Instr.size, List.mem_cons, List.not_mem_nil, or_false, Prod.mk.injEq, and_true]
      omega
    · exact Or.inl h
  | _ => simp only [hk, State.put, State.enable] at h; exact Or.inl h

theorem effect_todo_mono (s : State) (ins : Instr) (p ni : Nat) (d : Int) (t : Bool) (h : s.todo = true) :
    (effect s ins p ni d t).todo = true := by
  unfold effect
  cases hk : ins.kind with
  | jumpBackward => simp only [State.put, State.enable]; split <;> simp [h]
  | _ => simpa only [State.put, State.enable] using h

/-- When a place before the instruction is marked for the first time, another round is asked for. -/
theorem effect_todo_back (s : State) (ins : Instr) (i : Nat) (d : Int) (t : Bool) (j : Nat) (δ : Int) (h : (j, δ) ∈ succ ins i) (hj : j < i)
    (hn : s.stacks j = none) : (effect s ins (i + ins.ext) (i + ins.ext + ins.caches + 1) d t).todo = true := by
  unfold succ Instr.size at h
  unfold effect
  cases hk : ins.kind with
  | jumpBackward =>
    simp only [hk, List.mem_cons, List.not_mem_nil, or_false, Prod.mk.injEq] at h
    obtain ⟨rfl, rfl⟩ := h
    have e : i + (ins.ext + 1 + ins.caches) - ins.arg = i + ins.ext + ins.caches + 1 - ins.arg := by omega
    rw [e] at hj hn
    simp only [State.put, State.enable]
    rw [if_pos ⟨hn, by omega⟩]
  | _ => simp only [hk, List.mem_cons, List.not_mem_nil, or_false, Prod.mk.injEq] at h <;> omega

theorem effect_enabled (s : State) (ins : Instr) (p ni : Nat) (d : Int) (t : Bool) (k : Nat) (h : s.enabled k = true) :
    (effect s ins p ni d t).enabled k = true := by
  unfold effect
  cases hk : ins.kind with
  | jumpBackward => simp only [State.put, State.enable]; split <;> split <;> simp [h]
  | other e => exact h
  | stop => exact h
  | _ => simp only [State.put, State.enable]; split <;> simp [h]

theorem effect_enables (s : State) (ins : Instr) (i : Nat) (d : Int) (hf : ins.kind = .jumpForward → ins.caches = 0)
    (j : Nat) (δ : Int) (h : (j, δ) ∈ succ ins i) :
    ((effect s ins (i + ins.ext) (i + ins.ext + ins.caches + 1) d true).enable (i + ins.ext + ins.caches + 1) true).enabled j = true := by
  unfold succ Instr.size at h
  unfold effect
  cases hk : ins.kind with
  | jumpForward =>
    have hc := hf hk
    simp only [hk, List.mem_cons, List.not_mem_nil, or_false, Prod.mk.injEq] at h
    obtain ⟨rfl, rfl⟩ := h
    simp only [State.put, State.enable]
    split
    · simp
    · rw [if_pos (by omega)]; simp
  | jumpBackward =>
    simp only [hk, List.mem_cons, List.not_mem_nil, or_false, Prod.mk.injEq] at h
    obtain ⟨rfl, rfl⟩ := h
    simp only [State.put, State.enable]
    split
    · simp
    · rw [if_pos (by omega)]; simp
  | stop => simp [hk] at h
  | other e =>
    simp only [hk, List.mem_cons, List.not_mem_nil, or_false, Prod.mk.injEq] at h
    obtain ⟨rfl, rfl⟩ := h
    simp only [State.put, State.enable]
    rw [if_pos (by omega)]; simp
  | _ =>
    simp only [hk, List.mem_cons, List.not_mem_nil, or_false, Prod.mk.injEq] at h
    simp only [State.put, State.enable]
    rcases h with ⟨rfl, rfl⟩ | ⟨rfl, rfl⟩
    · rw [if_pos (by omega)]; simp
    · split
      · simp
      · rw [if_pos (by omega)]; simp

/-! ### A round for one instruction -/

theorem visit_none (ins : Instr) (i : Nat) (s : State) (h : s.stacks i = none) :
    (∀ k, (visit ins i s).stacks k = if i < k ∧ k ≤ i + ins.ext then none else s.stacks k) ∧ (visit ins i s).todo = s.todo := by
  unfold visit
  simp only [h, State.fill, State.enable]
  exact ⟨fun _ => trivial, trivial⟩

theorem visit_in (ins : Instr) (i : Nat) (s : State) (d : Int) (h : s.stacks i = some d) (hf : ins.kind = .jumpForward → ins.caches = 0)
    (j : Nat) (δ : Int) (hj : (j, δ) ∈ succ ins i) : (visit ins i s).stacks j = some (d + δ) := by
  unfold visit
  simp only [h]
  exact effect_in _ ins i d _ hf j δ hj

theorem visit_out (ins : Instr) (i : Nat) (s : State) (d : Int) (h : s.stacks i = some d) (hf : ins.kind = .jumpForward → ins.caches = 0)
    (k : Nat) (hk : ∀ δ, (k, δ) ∉ succ ins i) :
    (visit ins i s).stacks k = if i < k ∧ k ≤ i + ins.ext then some d else s.stacks k := by
  unfold visit
  simp only [h]
  exact effect_out _ ins i d _ hf k hk

theorem visit_enabled (ins : Instr) (i : Nat) (s : State) (k : Nat) (h : s.enabled k = true) : (visit ins i s).enabled k = true := by
  have h1 : ∀ (s : State) j t, s.enabled k = true → (s.enable j t).enabled k = true := by
    intro s j t h; simp only [State.enable]; split <;> simp [h]
  unfold visit
  cases hs : s.stacks i with
  | none => exact h1 s i _ h
  | some d => exact h1 _ _ _ (effect_enabled _ ins _ _ d _ k (h1 s i _ h))

theorem visit_todo_mono (ins : Instr) (i : Nat) (s : State) (h : s.todo = true) : (visit ins i s).todo = true := by
  unfold visit
  cases hs : s.stacks i with
  | none => exact h
  | some d => exact effect_todo_mono _ ins _ _ d _ h

end Verif.Depths
