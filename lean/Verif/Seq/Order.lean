import Verif.Seq.Model
/-
Lemmas about the lexicographic order.
-/
namespace Verif.Seq

variable {α : Type}

/-- The lexicographic order by recursion, equal elements skipped first. -/
def lexB (lt : α → α → Bool) : List α → List α → Prop
  | _, [] => False
  | [], _ :: _ => True
  | a :: xs, b :: ys => (a = b ∧ lexB lt xs ys) ∨ (a ≠ b ∧ lt a b = true)

theorem lexLt_iff {lt : α → α → Bool} (hir : ∀ a, lt a a = false) : ∀ xs ys : List α,
    LexLt lt xs ys ↔ lexB lt xs ys := by
  intro xs
  induction xs with
  | nil =>
    intro ys
    cases ys with
    | nil => simp [LexLt, lexB]
    | cons b ys =>
      simp only [lexB, iff_true]
      exact ⟨[], Or.inl ⟨rfl, b, ys, rfl⟩⟩
  | cons a xs ih =>
    intro ys
    cases ys with
    | nil =>
      simp only [lexB, iff_false]
      rintro ⟨p, ⟨_, b, bs, h⟩ | ⟨_, _, b, bs, _, h, _⟩⟩ <;> simp at h
    | cons b ys =>
      simp only [lexB]
      constructor
      · rintro ⟨p, h⟩
        cases p with
        | nil =>
          rcases h with ⟨h, _⟩ | ⟨a', as, b', bs, h1, h2, h3⟩
          · simp at h
          · simp at h1 h2
            obtain ⟨rfl, rfl⟩ := h1
            obtain ⟨rfl, rfl⟩ := h2
            right
            refine ⟨fun e => ?_, h3⟩
            rw [e, hir] at h3
            simp at h3
        | cons c p =>
          left
          rcases h with ⟨h, b', bs, h2⟩ | ⟨a', as, b', bs, h1, h2, h3⟩
          · simp at h h2
            obtain ⟨rfl, rfl⟩ := h
            obtain ⟨rfl, rfl⟩ := h2
            exact ⟨rfl, (ih _).mp ⟨xs, Or.inl ⟨rfl, b', bs, rfl⟩⟩⟩
          · simp at h1 h2
            obtain ⟨rfl, rfl⟩ := h1
            obtain ⟨rfl, rfl⟩ := h2
            exact ⟨rfl, (ih _).mp ⟨p, Or.inr ⟨a', as, b', bs, rfl, rfl, h3⟩⟩⟩
      · rintro (⟨rfl, h⟩ | ⟨_, h⟩)
        · obtain ⟨p, h⟩ := (ih _).mpr h
          refine ⟨a :: p, ?_⟩
          rcases h with ⟨h, b', bs, h2⟩ | ⟨a', as, b', bs, h1, h2, h3⟩
          · exact Or.inl ⟨by rw [h], b', bs, by rw [h2]; rfl⟩
          · exact Or.inr ⟨a', as, b', bs, by rw [h1]; rfl, by rw [h2]; rfl, h3⟩
        · exact ⟨[], Or.inr ⟨a, xs, b, ys, rfl, rfl, h⟩⟩

theorem lexCompare_lt [DecidableEq α] (lt : α → α → Bool) : ∀ (xs ys : List α) (k : Nat),
    lexCompare lt (fun n m => decide (n < m)) (k + xs.length) (k + ys.length) xs ys = true ↔
      lexB lt xs ys := by
  intro xs
  induction xs with
  | nil => intro ys k; cases ys <;> simp [lexCompare, lexB]
  | cons a xs ih =>
    intro ys k
    cases ys with
    | nil => simp [lexCompare, lexB]
    | cons b ys =>
      simp only [lexCompare, lexB]
      have := ih ys (k + 1)
      rw [show k + 1 + xs.length = k + (a :: xs).length by simp; omega,
        show k + 1 + ys.length = k + (b :: ys).length by simp; omega] at this
      by_cases h : a = b
      · rw [if_pos h, this]; simp [h]
      · rw [if_neg h]; simp [h]

theorem lexCompare_le [DecidableEq α] (lt : α → α → Bool) : ∀ (xs ys : List α) (k : Nat),
    lexCompare lt (fun n m => decide (n ≤ m)) (k + xs.length) (k + ys.length) xs ys = true ↔
      lexB lt xs ys ∨ xs = ys := by
  intro xs
  induction xs with
  | nil => intro ys k; cases ys <;> simp [lexCompare, lexB]
  | cons a xs ih =>
    intro ys k
    cases ys with
    | nil => simp [lexCompare, lexB]
    | cons b ys =>
      simp only [lexCompare, lexB]
      have := ih ys (k + 1)
      rw [show k + 1 + xs.length = k + (a :: xs).length by simp; omega,
        show k + 1 + ys.length = k + (b :: ys).length by simp; omega] at this
      by_cases h : a = b
      · rw [if_pos h, this]; simp [h]
      · rw [if_neg h]; simp [h]

theorem lexCompare_swap [DecidableEq α] (f : α → α → Bool) (g : Nat → Nat → Bool) (n m : Nat) :
    ∀ xs ys : List α, lexCompare (fun a b => f b a) (fun n m => g m n) n m xs ys =
      lexCompare f g m n ys xs := by
  intro xs
  induction xs with
  | nil => intro ys; cases ys <;> rfl
  | cons a xs ih =>
    intro ys
    cases ys with
    | nil => rfl
    | cons b ys =>
      simp only [lexCompare, ih]
      by_cases h : a = b
      · rw [if_pos h, if_pos h.symm]
      · rw [if_neg h, if_neg (fun e => h e.symm)]

theorem seqGt_swap [DecidableEq α] (lt : α → α → Bool) (xs ys : List α) :
    seqGt lt xs ys = seqLt lt ys xs :=
  lexCompare_swap lt (fun n m => decide (n < m)) xs.length ys.length xs ys

theorem seqGe_swap [DecidableEq α] (lt : α → α → Bool) (xs ys : List α) :
    seqGe lt xs ys = seqLe lt ys xs :=
  lexCompare_swap lt (fun n m => decide (n ≤ m)) xs.length ys.length xs ys

theorem lexB_irrefl {lt : α → α → Bool} (hir : ∀ a, lt a a = false) (xs : List α) :
    ¬ lexB lt xs xs := by
  induction xs with
  | nil => simp [lexB]
  | cons a xs ih => simp [lexB, ih]

theorem lexB_trans {lt : α → α → Bool} (hir : ∀ a, lt a a = false)
    (htr : ∀ a b c, lt a b = true → lt b c = true → lt a c = true) :
    ∀ xs ys zs : List α, lexB lt xs ys → lexB lt ys zs → lexB lt xs zs := by
  intro xs
  induction xs with
  | nil =>
    intro ys zs h1 h2
    cases zs with
    | nil => cases ys <;> simp [lexB] at h2
    | cons c zs => trivial
  | cons a xs ih =>
    intro ys zs h1 h2
    cases ys with
    | nil => simp [lexB] at h1
    | cons b ys =>
      cases zs with
      | nil => simp [lexB] at h2
      | cons c zs =>
        simp only [lexB] at *
        rcases h1 with ⟨rfl, h1⟩ | ⟨n1, h1⟩
        · rcases h2 with ⟨rfl, h2⟩ | ⟨n2, h2⟩
          · exact Or.inl ⟨rfl, ih _ _ h1 h2⟩
          · exact Or.inr ⟨n2, h2⟩
        · rcases h2 with ⟨rfl, h2⟩ | ⟨n2, h2⟩
          · exact Or.inr ⟨n1, h1⟩
          · have h3 := htr _ _ _ h1 h2
            refine Or.inr ⟨fun e => ?_, h3⟩
            rw [e, hir] at h3
            simp at h3

theorem lexB_total {lt : α → α → Bool} (htot : ∀ a b, lt a b = true ∨ a = b ∨ lt b a = true) :
    ∀ xs ys : List α, lexB lt xs ys ∨ xs = ys ∨ lexB lt ys xs := by
  intro xs
  induction xs with
  | nil => intro ys; cases ys <;> simp [lexB]
  | cons a xs ih =>
    intro ys
    cases ys with
    | nil => simp [lexB]
    | cons b ys =>
      simp only [lexB]
      by_cases h : a = b
      · subst h
        rcases ih ys with h | h | h
        · exact Or.inl (Or.inl ⟨rfl, h⟩)
        · exact Or.inr (Or.inl (by rw [h]))
        · exact Or.inr (Or.inr (Or.inl ⟨rfl, h⟩))
      · rcases htot a b with h1 | h1 | h1
        · exact Or.inl (Or.inr ⟨h, h1⟩)
        · exact absurd h1 h
        · exact Or.inr (Or.inr (Or.inr ⟨fun e => h e.symm, h1⟩))

theorem strLoop_spec : ∀ xs ys : List Nat, xs ≠ ys → ∃ b, strLoop xs ys = some b ∧
    (b = true ↔ lexB (fun a b => decide (a < b)) xs ys) ∧
    (b = false ↔ lexB (fun a b => decide (a < b)) ys xs) := by
  intro xs
  induction xs with
  | nil =>
    intro ys h
    cases ys with
    | nil => simp at h
    | cons b ys => exact ⟨true, rfl, by simp [lexB], by simp [lexB]⟩
  | cons a xs ih =>
    intro ys h
    cases ys with
    | nil => exact ⟨false, rfl, by simp [lexB], by simp [lexB]⟩
    | cons b ys =>
      by_cases hab : a = b
      · subst hab
        obtain ⟨r, h1, h2, h3⟩ := ih ys (fun e => h (by rw [e]))
        exact ⟨r, by simp [strLoop, h1], by simp [lexB, h2], by simp [lexB, h3]⟩
      · refine ⟨decide (a < b), by simp [strLoop, hab], ?_, ?_⟩
        · simp [lexB, hab]
        · have : b ≠ a := fun e => hab e.symm
          simp [lexB, this]
          omega

end Verif.Seq
