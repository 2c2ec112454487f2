import Verif.Types.Spec
import Mathlib.Tactic.Ring
import Mathlib.Tactic.Linarith
import Mathlib.Tactic.FieldSimp
import Mathlib.Algebra.Order.Field.Rat

namespace Verif.Types

/-! ## The repository -/

/-- What a repository says is all that there is to say of the types it knows. -/
structure Good (w : World) (r : Repo) : Prop where
  nodup : r.known.Nodup
  rel : ∀ a ∈ r.known, ∀ b ∈ r.known, .rel a b (w.issub a b) ∈ r.facts
  distinct : ∀ a ∈ r.known, ∀ b ∈ r.known, a ≠ b → .distinct a b ∈ r.facts ∨ .distinct b a ∈ r.facts
  just : ∀ f ∈ r.facts, (∃ a ∈ r.known, ∃ b ∈ r.known, a ≠ b ∧ f = .distinct a b) ∨
    (∃ a ∈ r.known, ∃ b ∈ r.known, f = .rel a b (w.issub a b))

theorem good_empty (w : World) : Good w {} where
  nodup := List.nodup_nil
  rel := by simp
  distinct := by simp
  just := by simp

theorem good_getType {w : World} {r : Repo} (h : Good w r) (t : Nat) : Good w (getType w r t) := by
  unfold getType
  by_cases ht : t ∈ r.known
  · simp only [ht, if_true]; exact h
  · simp only [ht, if_false]
    refine ⟨?_, ?_, ?_, ?_⟩
    · simp only [List.nodup_append, List.nodup_cons, List.not_mem_nil, not_false_eq_true, List.nodup_nil, and_self, List.mem_singleton, true_and]
      exact ⟨h.nodup, fun a ha b hb => by rintro rfl; subst hb; exact ht ha⟩
    · intro a ha b hb
      simp only [List.mem_append, List.mem_singleton, List.mem_flatMap, pairFacts, List.mem_cons, List.not_mem_nil, or_false] at ha hb ⊢
      rcases ha with ha | rfl <;> rcases hb with hb | rfl
      · exact .inl (h.rel a ha b hb)
      · exact .inr (.inl ⟨a, ha, .inr (.inr rfl)⟩)
      · exact .inr (.inl ⟨b, hb, .inr (.inl rfl)⟩)
      · exact .inr (.inr rfl)
    · intro a ha b hb hab
      simp only [List.mem_append, List.mem_singleton, List.mem_flatMap, pairFacts, List.mem_cons, List.not_mem_nil, or_false] at ha hb ⊢
      rcases ha with ha | rfl <;> rcases hb with hb | rfl
      · rcases h.distinct a ha b hb hab with h | h
        · exact .inl (.inl h)
        · exact .inr (.inl h)
      · exact .inl (.inr (.inl ⟨a, ha, .inl rfl⟩))
      · exact .inr (.inr (.inl ⟨b, hb, .inl rfl⟩))
      · exact absurd rfl hab
    · intro f hf
      simp only [List.mem_append, List.mem_singleton, List.mem_flatMap, pairFacts, List.mem_cons, List.not_mem_nil, or_false] at hf
      rcases hf with hf | ⟨a, ha, rfl | rfl | rfl⟩ | rfl
      · rcases h.just f hf with ⟨a, ha, b, hb, hab, rfl⟩ | ⟨a, ha, b, hb, rfl⟩
        · exact .inl ⟨a, by simp [ha], b, by simp [hb], hab, rfl⟩
        · exact .inr ⟨a, by simp [ha], b, by simp [hb], rfl⟩
      · exact .inl ⟨a, by simp [ha], t, by simp, by rintro rfl; exact ht ha, rfl⟩
      · exact .inr ⟨t, by simp, a, by simp [ha], rfl⟩
      · exact .inr ⟨a, by simp [ha], t, by simp, rfl⟩
      · exact .inr ⟨t, by simp, t, by simp, rfl⟩

theorem mem_getType {w : World} {r : Repo} {t a : Nat} : a ∈ (getType w r t).known ↔ a ∈ r.known ∨ a = t := by
  unfold getType
  by_cases ht : t ∈ r.known
  · simp only [ht, if_true]
    constructor
    · exact .inl
    · rintro (h | rfl) <;> assumption
  · simp [ht]

theorem facts_getType {w : World} {r : Repo} {t : Nat} : ∀ f ∈ r.facts, f ∈ (getType w r t).facts := by
  intro f hf
  unfold getType
  split
  · exact hf
  · simp [hf]

theorem repoAfter_snoc (w : World) (hist : List Nat) (t : Nat) : repoAfter w (hist ++ [t]) = getType w (repoAfter w hist) t := by
  simp [repoAfter, List.foldl_append]

theorem foldl_good (w : World) (hist : List Nat) : ∀ r, Good w r → Good w (hist.foldl (getType w) r) := by
  induction hist with
  | nil => intro r h; exact h
  | cons t ts ih => intro r h; exact ih _ (good_getType h t)

theorem good_repoAfter (w : World) (hist : List Nat) : Good w (repoAfter w hist) := foldl_good w hist _ (good_empty w)

theorem foldl_known (w : World) (hist : List Nat) : ∀ (r : Repo) (a : Nat), a ∈ (hist.foldl (getType w) r).known ↔ a ∈ r.known ∨ a ∈ hist := by
  induction hist with
  | nil => simp
  | cons t ts ih =>
    intro r a
    rw [List.foldl_cons, ih, mem_getType, List.mem_cons, or_assoc]

theorem mem_repoAfter (w : World) (hist : List Nat) (a : Nat) : a ∈ (repoAfter w hist).known ↔ a ∈ hist := by
  rw [repoAfter, foldl_known]; simp

theorem good_exact {w : World} {r : Repo} {i : Interp} (h : Good w r) (hi : Believes i r) {a b : Nat} (ha : a ∈ r.known) (hb : b ∈ r.known) :
    (i.const a = i.const b ↔ a = b) ∧ i.fn (i.const a) (i.const b) = w.issub a b := by
  refine ⟨⟨fun he => ?_, fun he => by rw [he]⟩, hi _ (h.rel a ha b hb)⟩
  by_contra hab
  rcases h.distinct a ha b hb hab with hf | hf
  · exact hi _ hf he
  · exact hi _ hf he.symm

/-! ## Visiting subclasses -/

/-- The number of visits that begin at a class. -/
def visits (children : Nat → List Nat) (rank : Nat → Nat) (h : ∀ c, ∀ d ∈ children c, rank d < rank c) (c : Nat) : Nat :=
  1 + ((children c).attach.map fun d => visits children rank h d.1).sum
termination_by rank c
decreasing_by exact h c d.1 d.2

theorem visits_eq {children : Nat → List Nat} {rank : Nat → Nat} (h : ∀ c, ∀ d ∈ children c, rank d < rank c) (c : Nat) :
    visits children rank h c = 1 + ((children c).map (visits children rank h)).sum := by
  rw [visits]
  congr 2
  exact (by rw [← List.attach_map_subtype_val (children c), List.map_map]; simp [Function.comp_def])

theorem visit_ends {children : Nat → List Nat} {rank : Nat → Nat} (h : ∀ c, ∀ d ∈ children c, rank d < rank c) :
    ∀ (n : Nat) (q : List Nat), (q.map (visits children rank h)).sum < n → ∃ out, visit children n q = some out := by
  intro n
  induction n with
  | zero => intro q hq; omega
  | succ n ih =>
    intro q hq
    cases q with
    | nil => exact ⟨[], rfl⟩
    | cons c q =>
      have : ((q ++ children c).map (visits children rank h)).sum < n := by
        rw [List.map_append, List.sum_append]
        rw [List.map_cons, List.sum_cons, visits_eq] at hq
        omega
      obtain ⟨out, ho⟩ := ih _ this
      exact ⟨c :: out, by simp only [visit, ho, Option.map_some]⟩

theorem below_children {children : Nat → List Nat} {c x : Nat} :
    Below children c x ↔ x = c ∨ ∃ d ∈ children c, Below children d x := by
  constructor
  · intro h
    induction h with
    | refl => exact .inl rfl
    | step _ ht ih =>
      rcases ih with rfl | ⟨d, hd, hb⟩
      · exact .inr ⟨_, ht, .refl⟩
      · exact .inr ⟨d, hd, hb.step ht⟩
  · rintro (rfl | ⟨d, hd, hb⟩)
    · exact .refl
    · induction hb with
      | refl => exact .step .refl hd
      | step _ ht ih => exact ih.step ht

theorem mem_visit {children : Nat → List Nat} : ∀ (n : Nat) (q out : List Nat), visit children n q = some out →
    ∀ x, x ∈ out ↔ ∃ c ∈ q, Below children c x := by
  intro n
  induction n with
  | zero => intro q out h; simp [visit] at h
  | succ n ih =>
    intro q out h x
    cases q with
    | nil => simp only [visit, Option.some.injEq] at h; subst h; simp
    | cons c q =>
      simp only [visit] at h
      cases hv : visit children n (q ++ children c) with
      | none => rw [hv] at h; simp at h
      | some o =>
        rw [hv] at h
        simp only [Option.map_some, Option.some.injEq] at h
        subst h
        rw [List.mem_cons, ih _ _ hv]
        simp only [List.mem_append, List.mem_cons]
        constructor
        · rintro (rfl | ⟨d, hd | hd, hb⟩)
          · exact ⟨x, .inl rfl, .refl⟩
          · exact ⟨d, .inr hd, hb⟩
          · exact ⟨c, .inl rfl, below_children.2 (.inr ⟨d, hd, hb⟩)⟩
        · rintro ⟨d, rfl | hd, hb⟩
          · rcases below_children.1 hb with rfl | ⟨e, he, hb⟩
            · exact .inl rfl
            · exact .inr ⟨e, .inr he, hb⟩
          · exact .inr ⟨d, .inl hd, hb⟩

theorem visit_head {children : Nat → List Nat} {n c : Nat} {q out : List Nat} (h : visit children n (c :: q) = some out) :
    ∃ rest, out = c :: rest := by
  cases n with
  | zero => simp [visit] at h
  | succ n =>
    simp only [visit] at h
    cases hv : visit children n (q ++ children c) with
    | none => rw [hv] at h; simp at h
    | some o => rw [hv] at h; simp only [Option.map_some, Option.some.injEq] at h; exact ⟨o, h.symm⟩

/-! ## Probabilities -/

theorem map_fst_withProbabilities (n : Nat) (l : List Nat) : ∀ idx, (withProbabilities n idx l).map (·.1) = l := by
  induction l with
  | nil => intro; rfl
  | cons t ts ih => intro idx; simp [withProbabilities, ih]

theorem map_fst_bias (f : Nat) (l : List (Nat × ℚ)) : (bias f l).map (·.1) = l.map (·.1) := by
  cases l with
  | nil => rfl
  | cons p l => obtain ⟨t, p⟩ := p; simp only [bias]; split <;> rfl

theorem chances_from (n : Nat) (l : List Nat) : ∀ idx, idx + l.length = n →
    chances (withProbabilities n idx l) = List.replicate l.length (1 / (l.length : ℚ)) := by
  induction l with
  | nil => intro; intro; rfl
  | cons t ts ih =>
    intro idx hn
    rw [List.length_cons] at hn
    rw [withProbabilities, chances, ih (idx + 1) (by omega), List.map_replicate, List.length_cons, List.replicate_succ]
    have hc : (n : ℚ) - (idx : ℚ) = ((ts.length + 1 : Nat) : ℚ) := by
      rw [← hn]; push_cast; ring
    rw [hc]
    congr 1
    rcases Nat.eq_zero_or_pos ts.length with h | h
    · rw [h]; rfl
    · congr 1
      have h1 : (ts.length : ℚ) ≠ 0 := by exact_mod_cast h.ne'
      have h2 : ((ts.length : ℚ) + 1) ≠ 0 := by positivity
      push_cast
      field_simp
      ring

/-- All but the last type may be passed over, and the last one is taken. -/
inductive Proper : List (Nat × ℚ) → Prop where
  | last (t : Nat) : Proper [(t, 1)]
  | cons (t : Nat) {p : ℚ} {l : List (Nat × ℚ)} (hp : p ≠ 1) : Proper l → Proper ((t, p) :: l)

theorem proper_with (n : Nat) : ∀ (l : List Nat) (idx : Nat), idx + l.length = n → l ≠ [] → Proper (withProbabilities n idx l) := by
  intro l
  induction l with
  | nil => intro _ _ h; exact absurd rfl h
  | cons t ts ih =>
    intro idx hn _
    rw [List.length_cons] at hn
    have hc : (n : ℚ) - (idx : ℚ) = ((ts.length + 1 : Nat) : ℚ) := by
      rw [← hn]; push_cast; ring
    rw [withProbabilities, hc]
    cases ts with
    | nil =>
      simp only [withProbabilities, List.length_nil, Nat.zero_add, Nat.cast_one, div_one]
      exact .last t
    | cons u us =>
      refine .cons t ?_ (ih _ (by simp only [List.length_cons] at hn ⊢; omega) (by simp))
      simp only [List.length_cons]
      intro h
      have h2 : (((us.length + 1 + 1 : Nat)) : ℚ) ≠ 0 := by positivity
      rw [div_eq_one_iff_eq h2] at h
      have h3 : 1 = us.length + 1 + 1 := by exact_mod_cast h
      omega

theorem proper_bias (f : Nat) {l : List (Nat × ℚ)} (h : Proper l) : Proper (bias f l) := by
  cases h with
  | last t =>
    simp only [bias]
    split
    · have : ((1 : ℚ) + 3) / 4 = 1 := by norm_num
      rw [this]; exact .last t
    · exact .last t
  | cons t hp hl =>
    rename_i p l
    simp only [bias]
    split
    · refine .cons t ?_ hl
      intro h
      apply hp
      linarith
    · exact .cons t hp hl

theorem chooseLoop_mem : ∀ (l : List (Nat × ℚ)) (forks : List Bool) (t : Nat), chooseLoop l forks = .type t → t ∈ l.map (·.1) := by
  intro l
  induction l with
  | nil => intro forks t h; simp [chooseLoop] at h
  | cons p l ih =>
    obtain ⟨u, p⟩ := p
    intro forks t h
    rw [chooseLoop] at h
    by_cases hp : p = 1
    · rw [if_pos hp] at h; simp only [Choice.type.injEq] at h; simp [h]
    · rw [if_neg hp] at h
      by_cases hb : forks.headD true = true
      · rw [if_pos hb] at h; simp only [Choice.type.injEq] at h; simp [h]
      · rw [if_neg hb] at h; exact List.mem_cons_of_mem _ (ih _ _ h)

theorem chooseLoop_proper {l : List (Nat × ℚ)} (h : Proper l) : ∀ (forks : List Bool), ∃ t, chooseLoop l forks = .type t := by
  induction h with
  | last t => intro forks; exact ⟨t, by simp [chooseLoop]⟩
  | cons t hp hl ih =>
    intro forks
    rw [chooseLoop, if_neg hp]
    split
    · exact ⟨t, rfl⟩
    · exact ih _

theorem chooseLoop_any {l : List (Nat × ℚ)} (h : Proper l) : ∀ t ∈ l.map (·.1), ∃ forks : List Bool, chooseLoop l forks = .type t := by
  induction h with
  | last u =>
    intro t ht
    simp only [List.map_cons, List.map_nil, List.mem_singleton] at ht
    exact ⟨[], by simp [chooseLoop, ht]⟩
  | cons u hp hl ih =>
    intro t ht
    rcases List.mem_cons.1 ht with rfl | ht
    · exact ⟨[true], by simp [chooseLoop, hp]⟩
    · obtain ⟨forks, hc⟩ := ih t ht
      exact ⟨false :: forks, by simp [chooseLoop, hp, hc]⟩

end Verif.Types
