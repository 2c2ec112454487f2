import Verif.Pick.Model
import Mathlib.Tactic.Linarith
/-
Property theorems about the selection of examples (C49) and their optimisation (C70).
-/
namespace Verif.Pick

/-! ### C49: covering examples -/

theorem maxFirst_none {α : Type} (lt : α → α → Bool) (l : List α) : maxFirst lt l = none ↔ l = [] := by
  cases l with
  | nil => simp [maxFirst]
  | cons x xs =>
    rw [maxFirst]
    cases maxFirst lt xs with
    | none => simp
    | some e =>
      dsimp only
      split <;> simp

theorem maxFirst_perm {α : Type} (lt : α → α → Bool) (l : List α) : ∀ y rest, maxFirst lt l = some (y, rest) → (y :: rest).Perm l := by
  induction l with
  | nil => intro y rest h; simp [maxFirst] at h
  | cons x xs ih =>
    intro y rest h
    rw [maxFirst] at h
    cases hm : maxFirst lt xs with
    | none =>
      rw [hm] at h
      have := (maxFirst_none lt xs).mp hm
      injection h with h
      injection h with h1 h2
      subst h1 h2 this
      exact List.Perm.refl _
    | some e =>
      obtain ⟨z, r⟩ := e
      rw [hm] at h
      dsimp only at h
      split at h
      · injection h with h
        injection h with h1 h2
        subst h1 h2
        exact (List.Perm.swap x z r).trans (List.Perm.cons x (ih z r hm))
      · injection h with h
        injection h with h1 h2
        subst h1 h2
        exact List.Perm.refl _

/-- The element chosen by `max` is not less than any other, if keys are compared by rank. -/
theorem maxFirst_max {α : Type} (lt : α → α → Bool) (hirr : ∀ a, lt a a = false)
    (htrans : ∀ a b c, lt a b = false → lt b c = false → lt a c = false) (hasym : ∀ a b, lt a b = true → lt b a = false)
    (l : List α) : ∀ y rest, maxFirst lt l = some (y, rest) → ∀ x ∈ l, lt y x = false := by
  induction l with
  | nil => intro y rest h; simp [maxFirst] at h
  | cons x xs ih =>
    intro y rest h z hz
    rw [maxFirst] at h
    cases hm : maxFirst lt xs with
    | none =>
      rw [hm] at h
      have := (maxFirst_none lt xs).mp hm
      injection h with h
      injection h with h1 h2
      subst h1 this
      rw [List.mem_singleton] at hz
      subst hz
      exact hirr _
    | some e =>
      obtain ⟨w, r⟩ := e
      have hw := ih w r hm
      rw [hm] at h
      dsimp only at h
      split at h
      · rename_i hlt
        injection h with h
        injection h with h1 h2
        subst h1
        rcases List.mem_cons.mp hz with rfl | hz
        · exact hasym _ _ hlt
        · exact hw z hz
      · rename_i hlt
        injection h with h
        injection h with h1 h2
        subst h1
        rcases List.mem_cons.mp hz with rfl | hz
        · exact hirr _
        · exact htrans _ _ _ (by simpa using hlt) (hw z hz)

theorem gain_pos (found offsets : List Nat) : gain found offsets ≠ 0 ↔ ∃ o ∈ offsets, o ∉ found := by
  unfold gain
  rw [ne_eq, List.length_eq_zero_iff, List.filter_eq_nil_iff]
  constructor
  · intro h
    apply Classical.byContradiction
    intro hh
    apply h
    intro o ho hd
    exact hh ⟨o, ho, by simpa using hd⟩
  · rintro ⟨o, ho, hn⟩ h
    exact h o ho (by simpa using hn)

theorem coverLt_false (found : List Nat) (a b : Path) : coverLt found a b = false ↔
    gain found b.offsets < gain found a.offsets ∨ gain found a.offsets = gain found b.offsets ∧ a.size ≤ b.size := by
  unfold coverLt
  split
  · rw [decide_eq_false_iff_not]
    omega
  · rw [decide_eq_false_iff_not]
    omega

theorem coverLt_max (found : List Nat) (l : List Path) (y : Path) (rest : List Path) (h : maxFirst (coverLt found) l = some (y, rest)) :
    ∀ x ∈ l, gain found x.offsets < gain found y.offsets ∨ gain found y.offsets = gain found x.offsets ∧ y.size ≤ x.size := by
  intro x hx
  rw [← coverLt_false]
  refine maxFirst_max (coverLt found) ?_ ?_ ?_ l y rest h x hx
  · intro a
    rw [coverLt_false]
    omega
  · intro a b c h1 h2
    rw [coverLt_false] at *
    omega
  · intro a b h1
    rw [← Bool.not_eq_false, coverLt_false] at h1
    rw [coverLt_false]
    omega

/-- The offsets covered by chosen examples. -/
def covered (chosen : List Path) : List Nat := chosen.flatMap Path.offsets

theorem selectPaths_spec (fuel : Nat) : ∀ (paths : List Path) (found : List Nat), paths.length ≤ fuel →
    (∃ rest, (selectPaths true fuel paths found ++ rest).Perm paths) ∧
    (∀ p ∈ paths, ∀ o ∈ p.offsets, o ∈ found ∨ ∃ d ∈ selectPaths true fuel paths found, o ∈ d.offsets) ∧
    (∀ before x after, selectPaths true fuel paths found = before ++ x :: after →
      (∃ o ∈ x.offsets, o ∉ found ∧ ∀ d ∈ before, o ∉ d.offsets) ∧
      ∀ p ∈ paths, p ∉ before → gain (found ++ covered before) p.offsets < gain (found ++ covered before) x.offsets ∨
        gain (found ++ covered before) x.offsets = gain (found ++ covered before) p.offsets ∧ x.size ≤ p.size) := by
  induction fuel with
  | zero =>
    intro paths found h
    have : paths = [] := List.length_eq_zero_iff.mp (by omega)
    subst this
    refine ⟨⟨[], List.Perm.refl _⟩, by simp, ?_⟩
    intro before x after h
    simp [selectPaths] at h
  | succ fuel ih =>
    intro paths found h
    rw [selectPaths]
    cases hm : maxFirst (coverLt found) paths with
    | none =>
      have := (maxFirst_none _ _).mp hm
      subst this
      refine ⟨⟨[], List.Perm.refl _⟩, by simp, ?_⟩
      intro before x after h
      simp at h
    | some e =>
      obtain ⟨best, rest⟩ := e
      have hp := maxFirst_perm _ _ _ _ hm
      have hmax := coverLt_max found paths best rest hm
      dsimp only
      split
      · rename_i hz
        simp only [Bool.true_and, decide_eq_true_eq] at hz
        refine ⟨⟨paths, List.Perm.refl _⟩, ?_, ?_⟩
        · intro p hpm o ho
          left
          apply Classical.byContradiction
          intro hn
          have h1 := (gain_pos found p.offsets).mpr ⟨o, ho, hn⟩
          have := hmax p hpm
          omega
        · intro before x after h
          simp at h
      · rename_i hz
        simp only [Bool.true_and, decide_eq_true_eq] at hz
        have hlen : rest.length ≤ fuel := by
          have := hp.length_eq
          rw [List.length_cons] at this
          omega
        obtain ⟨⟨left, h1⟩, h2, h3⟩ := ih rest (found ++ best.offsets) hlen
        refine ⟨⟨left, ?_⟩, ?_, ?_⟩
        · rw [List.cons_append]
          exact (List.Perm.cons best h1).trans hp
        · intro p hpm o ho
          rcases List.mem_cons.mp (hp.mem_iff.mpr hpm) with rfl | hpr
          · exact Or.inr ⟨p, by simp, ho⟩
          · rcases h2 p hpr o ho with hh | ⟨d, hd, hod⟩
            · rcases List.mem_append.mp hh with hh | hh
              · exact Or.inl hh
              · exact Or.inr ⟨best, by simp, hh⟩
            · exact Or.inr ⟨d, by simp [hd], hod⟩
        · intro before x after hsel
          cases before with
          | nil =>
            rw [List.nil_append] at hsel
            injection hsel with hx _
            subst hx
            obtain ⟨o, ho, hn⟩ := (gain_pos found best.offsets).mp hz
            refine ⟨⟨o, ho, hn, by simp⟩, ?_⟩
            intro p hpm _
            simpa [covered] using hmax p hpm
          | cons b bs =>
            rw [List.cons_append] at hsel
            injection hsel with hb hbs
            subst hb
            obtain ⟨⟨o, ho, hn, hd⟩, hmx⟩ := h3 bs x after hbs
            refine ⟨⟨o, ho, fun hh => hn (by simp [hh]), ?_⟩, ?_⟩
            · intro d hdm
              rcases List.mem_cons.mp hdm with rfl | hdm
              · exact fun hh => hn (by simp [hh])
              · exact hd d hdm
            · intro p hpm hnb
              rw [List.mem_cons, not_or] at hnb
              rcases List.mem_cons.mp (hp.mem_iff.mpr hpm) with rfl | hpr
              · exact absurd rfl hnb.1
              · have := hmx p hpr hnb.2
                simpa [covered, List.append_assoc] using this

/-- C49: with opcode coverage, the examples shown are among those found, cover everything that any of them covers, and each
of them covers something new. -/
theorem cover_covers (paths : List Path) :
    (∃ rest, (pathCover true paths ++ rest).Perm paths) ∧ CoversAll Path.offsets (pathCover true paths) paths ∧
    EachNew Path.offsets (pathCover true paths) := by
  obtain ⟨h1, h2, h3⟩ := selectPaths_spec paths.length paths [] (Nat.le_refl _)
  refine ⟨h1, ?_, ?_⟩
  · intro c hc o ho
    rcases h2 c hc o ho with h | h
    · simp at h
    · exact h
  · intro before x after h
    obtain ⟨⟨o, ho, _, hd⟩, _⟩ := h3 before x after h
    exact ⟨o, ho, hd⟩

/-- C49: each example shown adds the most to those before it, and is the shortest that adds as much. -/
theorem cover_greedy (paths : List Path) (before : List Path) (x : Path) (after : List Path)
    (h : pathCover true paths = before ++ x :: after) (p : Path) (hp : p ∈ paths) (hn : p ∉ before) :
    gain (covered before) p.offsets < gain (covered before) x.offsets ∨
    gain (covered before) x.offsets = gain (covered before) p.offsets ∧ x.size ≤ p.size := by
  obtain ⟨_, _, h3⟩ := selectPaths_spec paths.length paths [] (Nat.le_refl _)
  have := (h3 before x after h).2 p hp hn
  simpa using this

/-- C49: with path coverage, all examples are shown, each once. -/
theorem cover_all_paths (paths : List Path) : (pathCover false paths).Perm paths := by
  have : ∀ (fuel : Nat) (paths : List Path) (found : List Nat), paths.length ≤ fuel → (selectPaths false fuel paths found).Perm paths := by
    intro fuel
    induction fuel with
    | zero =>
      intro paths found h
      have : paths = [] := List.length_eq_zero_iff.mp (by omega)
      subst this
      exact List.Perm.refl _
    | succ fuel ih =>
      intro paths found h
      rw [selectPaths]
      cases hm : maxFirst (coverLt found) paths with
      | none =>
        have := (maxFirst_none _ _).mp hm
        subst this
        exact List.Perm.refl _
      | some e =>
        obtain ⟨best, rest⟩ := e
        have hp := maxFirst_perm _ _ _ _ hm
        have hlen := hp.length_eq
        rw [List.length_cons] at hlen
        simp only [Bool.false_and, Bool.false_eq_true, if_false]
        exact (List.Perm.cons best (ih rest _ (by omega))).trans hp
  exact this _ _ _ (Nat.le_refl _)

example : (pathCover true [⟨0, [0, 2], 9⟩, ⟨1, [0, 2, 4], 9⟩, ⟨2, [0, 2, 4], 5⟩, ⟨3, [6], 20⟩, ⟨4, [4, 6], 7⟩]).map Path.id = [2, 4] ∧
    (pathCover false [⟨0, [0, 2], 9⟩, ⟨1, [0, 2, 4], 9⟩, ⟨2, [0, 2, 4], 5⟩]).map Path.id = [2, 0, 1] := by decide

/-! ### C49: differences -/

theorem diffLt_false (ops1 ops2 : List Nat) (a b : Diff) : diffLt ops1 ops2 a b = false ↔
    diffScore ops1 ops2 b < diffScore ops1 ops2 a ∨ diffScore ops1 ops2 a = diffScore ops1 ops2 b ∧ b.size ≤ a.size := by
  unfold diffLt
  split
  · rw [decide_eq_false_iff_not]
    omega
  · rw [decide_eq_false_iff_not]
    omega

theorem diffLt_max (ops1 ops2 : List Nat) (l : List Diff) (y : Diff) (rest : List Diff)
    (h : maxFirst (diffLt ops1 ops2) l = some (y, rest)) :
    ∀ x ∈ l, diffScore ops1 ops2 x < diffScore ops1 ops2 y ∨ diffScore ops1 ops2 y = diffScore ops1 ops2 x ∧ x.size ≤ y.size := by
  intro x hx
  rw [← diffLt_false]
  refine maxFirst_max (diffLt ops1 ops2) ?_ ?_ ?_ l y rest h x hx
  · intro a
    rw [diffLt_false]
    omega
  · intro a b c h1 h2
    rw [diffLt_false] at *
    omega
  · intro a b h1
    rw [← Bool.not_eq_false, diffLt_false] at h1
    rw [diffLt_false]
    omega

theorem diffScore_pos (ops1 ops2 : List Nat) (d : Diff) :
    diffScore ops1 ops2 d ≠ 0 ↔ (∃ o ∈ d.cover1, o ∈ ops1) ∨ (∃ o ∈ d.cover2, o ∈ ops2) := by
  have h : ∀ c ops : List Nat, (c.filter fun o => decide (o ∈ ops)).length ≠ 0 ↔ ∃ o ∈ c, o ∈ ops := by
    intro c ops
    rw [ne_eq, List.length_eq_zero_iff, List.filter_eq_nil_iff]
    constructor
    · intro h
      apply Classical.byContradiction
      intro hh
      apply h
      intro o ho hd
      exact hh ⟨o, ho, by simpa using hd⟩
    · rintro ⟨o, ho, hn⟩ h
      exact h o ho (by simpa using hn)
  rw [← h, ← h]
  unfold diffScore
  omega

theorem selectDiffs_spec (fuel : Nat) : ∀ (diffs : List Diff) (ops1 ops2 : List Nat), diffs.length ≤ fuel →
    (∃ rest, (selectDiffs fuel diffs ops1 ops2 ++ rest).Perm diffs) ∧
    (∀ p ∈ diffs, (∀ o ∈ p.cover1, o ∈ ops1 → ∃ d ∈ selectDiffs fuel diffs ops1 ops2, o ∈ d.cover1) ∧
      (∀ o ∈ p.cover2, o ∈ ops2 → ∃ d ∈ selectDiffs fuel diffs ops1 ops2, o ∈ d.cover2)) ∧
    (∀ before x after, selectDiffs fuel diffs ops1 ops2 = before ++ x :: after →
      (∃ o ∈ x.cover1, o ∈ ops1 ∧ ∀ d ∈ before, o ∉ d.cover1) ∨ (∃ o ∈ x.cover2, o ∈ ops2 ∧ ∀ d ∈ before, o ∉ d.cover2)) := by
  induction fuel with
  | zero =>
    intro diffs ops1 ops2 h
    have : diffs = [] := List.length_eq_zero_iff.mp (by omega)
    subst this
    refine ⟨⟨[], List.Perm.refl _⟩, by simp, ?_⟩
    intro before x after h
    simp [selectDiffs] at h
  | succ fuel ih =>
    intro diffs ops1 ops2 h
    rw [selectDiffs]
    cases hm : maxFirst (diffLt ops1 ops2) diffs with
    | none =>
      have := (maxFirst_none _ _).mp hm
      subst this
      refine ⟨⟨[], List.Perm.refl _⟩, by simp, ?_⟩
      intro before x after h
      simp at h
    | some e =>
      obtain ⟨best, rest⟩ := e
      have hp := maxFirst_perm _ _ _ _ hm
      have hmax := diffLt_max ops1 ops2 diffs best rest hm
      dsimp only
      split
      · rename_i hz
        refine ⟨⟨diffs, List.Perm.refl _⟩, ?_, ?_⟩
        · intro p hpm
          have h0 : diffScore ops1 ops2 p = 0 := by
            have := hmax p hpm
            omega
          have h1 := mt (diffScore_pos ops1 ops2 p).mpr (by simpa using h0)
          rw [not_or] at h1
          exact ⟨fun o ho hops => absurd ⟨o, ho, hops⟩ h1.1, fun o ho hops => absurd ⟨o, ho, hops⟩ h1.2⟩
        · intro before x after h
          simp at h
      · rename_i hz
        have hlen : rest.length ≤ fuel := by
          have := hp.length_eq
          rw [List.length_cons] at this
          omega
        obtain ⟨⟨left, h1⟩, h2, h3⟩ := ih rest (ops1.filter fun o => decide (o ∉ best.cover1))
          (ops2.filter fun o => decide (o ∉ best.cover2)) hlen
        refine ⟨⟨left, ?_⟩, ?_, ?_⟩
        · rw [List.cons_append]
          exact (List.Perm.cons best h1).trans hp
        · intro p hpm
          rcases List.mem_cons.mp (hp.mem_iff.mpr hpm) with rfl | hpr
          · exact ⟨fun o ho _ => ⟨p, by simp, ho⟩, fun o ho _ => ⟨p, by simp, ho⟩⟩
          · obtain ⟨g1, g2⟩ := h2 p hpr
            refine ⟨?_, ?_⟩
            · intro o ho hops
              by_cases hb : o ∈ best.cover1
              · exact ⟨best, List.mem_cons_self, hb⟩
              · obtain ⟨d, hd, hod⟩ := g1 o ho (List.mem_filter.mpr ⟨hops, by simpa using hb⟩)
                exact ⟨d, List.mem_cons_of_mem _ hd, hod⟩
            · intro o ho hops
              by_cases hb : o ∈ best.cover2
              · exact ⟨best, List.mem_cons_self, hb⟩
              · obtain ⟨d, hd, hod⟩ := g2 o ho (List.mem_filter.mpr ⟨hops, by simpa using hb⟩)
                exact ⟨d, List.mem_cons_of_mem _ hd, hod⟩
        · intro before x after hsel
          cases before with
          | nil =>
            rw [List.nil_append] at hsel
            injection hsel with hx _
            subst hx
            rcases (diffScore_pos ops1 ops2 best).mp hz with ⟨o, ho, hn⟩ | ⟨o, ho, hn⟩
            · exact Or.inl ⟨o, ho, hn, by simp⟩
            · exact Or.inr ⟨o, ho, hn, by simp⟩
          | cons b bs =>
            rw [List.cons_append] at hsel
            injection hsel with hb hbs
            subst hb
            rcases h3 bs x after hbs with ⟨o, ho, hn, hd⟩ | ⟨o, ho, hn, hd⟩
            · rw [List.mem_filter] at hn
              refine Or.inl ⟨o, ho, hn.1, ?_⟩
              intro d hdm
              rcases List.mem_cons.mp hdm with rfl | hdm
              · simpa using hn.2
              · exact hd d hdm
            · rw [List.mem_filter] at hn
              refine Or.inr ⟨o, ho, hn.1, ?_⟩
              intro d hdm
              rcases List.mem_cons.mp hdm with rfl | hdm
              · simpa using hn.2
              · exact hd d hdm

/-- C49: the differences reported are among those found, cover every instruction of either function that any of them covers,
and each covers an instruction that those before it do not. -/
theorem diff_covers (ops1 ops2 : List Nat) (found1 found2 : List Diff) :
    (∃ rest, (diffReport ops1 ops2 found1 found2 ++ rest).Perm (found1 ++ found2.map Diff.reverse)) ∧
    (∀ p ∈ found1 ++ found2.map Diff.reverse,
      (∀ o ∈ p.cover1, o ∈ ops1 → ∃ d ∈ diffReport ops1 ops2 found1 found2, o ∈ d.cover1) ∧
      (∀ o ∈ p.cover2, o ∈ ops2 → ∃ d ∈ diffReport ops1 ops2 found1 found2, o ∈ d.cover2)) ∧
    (∀ before x after, diffReport ops1 ops2 found1 found2 = before ++ x :: after →
      (∃ o ∈ x.cover1, o ∈ ops1 ∧ ∀ d ∈ before, o ∉ d.cover1) ∨ (∃ o ∈ x.cover2, o ∈ ops2 ∧ ∀ d ∈ before, o ∉ d.cover2)) :=
  selectDiffs_spec _ _ _ _ (Nat.le_refl _)

/-- C49: if a difference was found that executed an instruction, a difference is reported. -/
theorem diff_reported (ops1 ops2 : List Nat) (found1 found2 : List Diff) :
    diffReport ops1 ops2 found1 found2 ≠ [] ↔
      ∃ d ∈ found1 ++ found2.map Diff.reverse, (∃ o ∈ d.cover1, o ∈ ops1) ∨ (∃ o ∈ d.cover2, o ∈ ops2) := by
  obtain ⟨⟨rest, h1⟩, h2, h3⟩ := diff_covers ops1 ops2 found1 found2
  constructor
  · intro h
    cases hr : diffReport ops1 ops2 found1 found2 with
    | nil => exact absurd hr h
    | cons x xs =>
      refine ⟨x, h1.mem_iff.mp (by rw [hr]; simp), ?_⟩
      rcases h3 [] x xs (by rw [hr]; rfl) with ⟨o, ho, hn, _⟩ | ⟨o, ho, hn, _⟩
      · exact Or.inl ⟨o, ho, hn⟩
      · exact Or.inr ⟨o, ho, hn⟩
  · rintro ⟨d, hd, ⟨o, ho, hn⟩ | ⟨o, ho, hn⟩⟩ he
    · obtain ⟨x, hx, _⟩ := (h2 d hd).1 o ho hn
      rw [he] at hx
      simp at hx
    · obtain ⟨x, hx, _⟩ := (h2 d hd).2 o ho hn
      rw [he] at hx
      simp at hx

example : (diffReport [0, 2, 4] [0, 2] [⟨0, [0, 2], [0], 30⟩, ⟨1, [0, 2, 4], [0], 40⟩] [⟨2, [0, 2], [0], 35⟩]).map Diff.id = [1, 2] := by decide

/-- C49: a difference that executed no instruction of either function is not reported, and the functions count as the same. -/
theorem diff_without_coverage_ignored (ops1 ops2 : List Nat) (i n : Nat) : diffReport ops1 ops2 [⟨i, [], [], n⟩] [] = [] := by
  simp [diffReport, selectDiffs, maxFirst, diffScore]

/-- C49: among equally covering differences the longer one is reported, although the documentation of the scorer says ties are
broken on smaller examples. -/
theorem ties_prefer_longer (i j n m : Nat) (h : n < m) :
    diffReport [0] [] [⟨i, [0], [], n⟩, ⟨j, [0], [], m⟩] [] = [⟨j, [0], [], m⟩] := by
  simp [diffReport, selectDiffs, maxFirst, diffScore, diffLt, h]

/-! ### C70: optimising -/

/-- The solver is right about the possible scores of a path. -/
def Right (possible : Solver) (scores : Int → Prop) : Prop :=
  ∀ lo hi, possible lo hi = true ↔ ∃ s, scores s ∧ (∀ l, lo = some l → l ≤ s) ∧ (∀ h, hi = some h → s < h)

theorem capped_le (hi : Option Int) (t s : Int) : s < capped hi t ↔ s < t ∧ ∀ h, hi = some h → s < h := by
  cases hi with
  | none => simp [capped]
  | some h => simp [capped]; omega

/-- What holds in the loop: `m` is the least score within the constraints, and within the variables. -/
structure Good (scores : Int → Prop) (m : Int) (b : Bounds) : Prop where
  mem : scores m
  lo : b.lo ≤ m
  hi : ∀ h, b.hi = some h → m < h
  least : ∀ s, scores s → b.lo ≤ s → (∀ h, b.hi = some h → s < h) → m ≤ s
  kmin : b.knownMin ≤ m
  kmax : ∀ k, b.knownMax = some k → m ≤ k
  tests : 0 ≤ b.knownMin
  span : ∀ k, b.knownMax = some k → b.knownMin < b.test ∧ b.test ≤ k ∨ (b.test = Int.fdiv k 2 ∧ b.knownMin = 0 ∧ 0 ≤ k ∧ m < k)
  wide : b.knownMax = none → 1000 ≤ b.test

theorem fdiv_two (x : Int) : Int.fdiv x 2 = x / 2 := by
  rw [Int.fdiv_eq_ediv_of_nonneg _ (by omega)]

theorem minimise_step (possible : Solver) (scores : Int → Prop) (hr : Right possible scores) (m : Int) (b : Bounds) (hg : Good scores m b)
    (fuel : Nat) :
    minimise possible (fuel + 1) b = some m ∨
    ∃ b', Good scores m b' ∧ minimise possible (fuel + 1) b = minimise possible fuel b' ∧
      ((b.knownMax = none ∧ b'.knownMax = none ∧ b'.test = b.test * 100) ∨
       (b.knownMax = none ∧ b'.knownMax ≠ none) ∨
       (∃ k k', b.knownMax = some k ∧ b'.knownMax = some k' ∧
        (k' - b'.knownMin) * 2 + (if b'.test ≤ b'.knownMin then 1 else 0) < (k - b.knownMin) * 2 + (if b.test ≤ b.knownMin then 1 else 0))) := by
  obtain ⟨hmem, hlo, hhi, hleast, hkmin, hkmax, htests, hspan, hwide⟩ := hg
  rw [minimise]
  by_cases hp : possible (some b.lo) (some (capped b.hi b.test)) = true
  · -- the least score is below the test
    have hmt : m < b.test := by
      obtain ⟨s, hs, h1, h2⟩ := (hr _ _).mp hp
      have h2 := (capped_le b.hi b.test s).mp (h2 _ rfl)
      have := hleast s hs (h1 _ rfl) h2.2
      omega
    rw [if_pos hp]
    dsimp only
    by_cases he : b.knownMin = b.test - 1
    · rw [if_pos he]
      left
      congr 1
      omega
    · rw [if_neg he]
      right
      refine ⟨_, ?_, rfl, ?_⟩
      · refine ⟨hmem, hlo, ?_, ?_, hkmin, ?_, htests, ?_, ?_⟩
        · intro h hh
          injection hh with hh
          rw [← hh, capped_le]
          exact ⟨hmt, hhi⟩
        · intro s hs h1 h2
          have h2 := (capped_le b.hi b.test s).mp (h2 _ rfl)
          exact hleast s hs h1 h2.2
        · intro k hk
          injection hk with hk
          omega
        · intro k hk
          injection hk with hk
          left
          dsimp only
          rw [fdiv_two]
          omega
        · intro h; cases h
      · cases hk : b.knownMax with
        | none => exact Or.inr (Or.inl ⟨rfl, by simp⟩)
        | some k =>
          refine Or.inr (Or.inr ⟨k, b.test - 1, rfl, rfl, ?_⟩)
          dsimp only
          rw [fdiv_two]
          have h1 := hspan k hk
          rw [fdiv_two] at h1
          split <;> split <;> omega
  · rw [if_neg hp]
    have hmt : b.test ≤ m := by
      apply Classical.byContradiction
      intro hlt
      apply hp
      rw [hr]
      refine ⟨m, hmem, ?_, ?_⟩
      · intro l hl
        injection hl with hl
        omega
      · intro h hh
        injection hh with hh
        rw [← hh, capped_le]
        exact ⟨by omega, hhi⟩
    dsimp only
    cases hk : b.knownMax with
    | none =>
      dsimp only
      right
      refine ⟨_, ?_, rfl, Or.inl ⟨rfl, rfl, rfl⟩⟩
      have hw := hwide hk
      refine ⟨hmem, ?_, hhi, ?_, hmt, ?_, ?_, ?_, ?_⟩
      · dsimp only; omega
      · intro s hs h1 h2
        dsimp only at h1
        exact hleast s hs (by omega) h2
      · intro k hk'
        cases hk'
      · dsimp only; omega
      · intro k hk'
        cases hk'
      · intro _
        dsimp only
        omega
    | some k =>
      have h1 := hspan k hk
      rw [fdiv_two] at h1
      have h2 := hkmax k hk
      dsimp only
      by_cases he : b.test = k
      · rw [if_pos he]
        left
        congr 1
        omega
      · rw [if_neg he]
        right
        refine ⟨_, ?_, rfl, ?_⟩
        · refine ⟨hmem, ?_, hhi, ?_, hmt, ?_, ?_, ?_, ?_⟩
          · dsimp only; omega
          · intro s hs h1 h2
            dsimp only at h1
            exact hleast s hs (by omega) h2
          · intro k' hk'
            exact hkmax k' (hk.trans hk')
          · dsimp only; omega
          · intro k' hk'
            have : k = k' := by injection hk'
            subst this
            left
            dsimp only
            rw [fdiv_two]
            omega
          · intro h
            cases h
        · refine Or.inr (Or.inr ⟨k, k, rfl, rfl, ?_⟩)
          dsimp only
          rw [fdiv_two]
          split <;> split <;> omega

theorem minimise_bounded (possible : Solver) (scores : Int → Prop) (hr : Right possible scores) (m : Int) (n : Nat) :
    ∀ (b : Bounds) (k : Int), Good scores m b → b.knownMax = some k →
      (k - b.knownMin) * 2 + (if b.test ≤ b.knownMin then 1 else 0) ≤ n →
      ∀ fuel, n < fuel → minimise possible fuel b = some m := by
  induction n using Nat.strongRecOn with
  | _ n ih =>
    intro b k hg hk hn fuel hf
    obtain ⟨fuel, rfl⟩ : ∃ f, fuel = f + 1 := ⟨fuel - 1, by omega⟩
    rcases minimise_step possible scores hr m b hg fuel with h | ⟨b', hg', he, h⟩
    · exact h
    · rcases h with ⟨h, _⟩ | ⟨h, _⟩ | ⟨k1, k', h1, h2, h3⟩
      · rw [hk] at h; cases h
      · rw [hk] at h; cases h
      · rw [hk] at h1
        injection h1 with h1
        subst h1
        rw [he]
        have hpos : 0 ≤ k' - b'.knownMin := by
          have := hg'.kmin
          have := hg'.kmax k' h2
          omega
        obtain ⟨n', hn'⟩ : ∃ n' : Nat, (n' : Int) = (k' - b'.knownMin) * 2 + (if b'.test ≤ b'.knownMin then 1 else 0) := by
          refine ⟨((k' - b'.knownMin) * 2 + (if b'.test ≤ b'.knownMin then 1 else 0)).toNat, ?_⟩
          rw [Int.toNat_of_nonneg]
          split <;> omega
        exact ih n' (by omega) b' k' hg' h2 (by omega) fuel (by omega)

theorem minimise_finds (possible : Solver) (scores : Int → Prop) (hr : Right possible scores) (m : Int) (d : Nat) :
    ∀ b : Bounds, Good scores m b → m < b.test + d → ∃ N, ∀ fuel, N ≤ fuel → minimise possible fuel b = some m := by
  have bounded : ∀ (b : Bounds) (k : Int), Good scores m b → b.knownMax = some k →
      ∃ N, ∀ fuel, N ≤ fuel → minimise possible fuel b = some m := by
    intro b k hg hk
    refine ⟨((k - b.knownMin) * 2 + (if b.test ≤ b.knownMin then 1 else 0)).toNat + 1, ?_⟩
    intro fuel hf
    refine minimise_bounded possible scores hr m (((k - b.knownMin) * 2 + (if b.test ≤ b.knownMin then 1 else 0)).toNat) b k hg hk ?_ fuel ?_
    · exact Int.self_le_toNat _
    · exact hf
  induction d with
  | zero =>
    intro b hg hm
    cases hk : b.knownMax with
    | some k => exact bounded b k hg hk
    | none =>
      -- the test succeeds
      refine ⟨1 + (((b.test - 1) - b.knownMin) * 2 + 3).toNat, ?_⟩
      intro fuel hf
      obtain ⟨fuel, rfl⟩ : ∃ f, fuel = f + 1 := ⟨fuel - 1, by omega⟩
      rcases minimise_step possible scores hr m b hg fuel with h | ⟨b', hg', he, h⟩
      · exact h
      · rw [he]
        have hp : possible (some b.lo) (some (capped b.hi b.test)) = true := by
          rw [hr]
          refine ⟨m, hg.mem, ?_, ?_⟩
          · intro l hl
            injection hl with hl
            rw [← hl]
            exact hg.lo
          · intro h hh
            injection hh with hh
            rw [← hh, capped_le]
            exact ⟨by omega, hg.hi⟩
        have : minimise possible (fuel + 1) b = some m := by
          rw [minimise, if_pos hp]
          dsimp only
          split
          · rename_i hh
            congr 1
            have := hg.kmin
            omega
          · rename_i hh
            have hkm := hg.kmin
            refine minimise_bounded possible scores hr m (((b.test - 1) - b.knownMin) * 2 + 1).toNat _ (b.test - 1) ?_ rfl ?_ fuel (by omega)
            · refine ⟨hg.mem, hg.lo, ?_, ?_, hg.kmin, ?_, hg.tests, ?_, ?_⟩
              · intro h hh
                injection hh with hh
                rw [← hh, capped_le]
                exact ⟨by omega, hg.hi⟩
              · intro s hs h1 h2
                have h2 := (capped_le b.hi b.test s).mp (h2 _ rfl)
                exact hg.least s hs h1 h2.2
              · intro k hk
                injection hk with hk
                omega
              · intro k hk
                injection hk with hk
                left
                dsimp only
                rw [fdiv_two]
                have := hg.kmin
                omega
              · intro h; cases h
            · dsimp only
              split <;> omega
        rw [← he]
        exact this
  | succ d ih =>
    intro b hg hm
    by_cases hm' : m < b.test
    · -- as before, but through the induction hypothesis with a smaller distance
      exact ih b hg (by omega)
    · cases hk : b.knownMax with
      | some k => exact bounded b k hg hk
      | none =>
        have hw := hg.wide hk
        have hp : ¬ possible (some b.lo) (some (capped b.hi b.test)) = true := by
          rw [hr]
          rintro ⟨s, hs, h1, h2⟩
          have h2 := (capped_le b.hi b.test s).mp (h2 _ rfl)
          have := hg.least s hs (h1 _ rfl) h2.2
          omega
        obtain ⟨N, hN⟩ := ih { b with lo := max b.lo b.test, knownMin := b.test, test := b.test * 100 } (by
          refine ⟨hg.mem, ?_, hg.hi, ?_, by dsimp only; omega, ?_, by dsimp only; omega, ?_, ?_⟩
          · have := hg.lo
            dsimp only; omega
          · intro s hs h1 h2
            dsimp only at h1
            exact hg.least s hs (by omega) h2
          · intro k hk'
            rw [hk] at hk'
            cases hk'
          · intro k hk'
            rw [hk] at hk'
            cases hk'
          · intro _
            dsimp only
            omega) (by dsimp only; omega)
        refine ⟨N + 1, ?_⟩
        intro fuel hf
        obtain ⟨fuel, rfl⟩ : ∃ f, fuel = f + 1 := ⟨fuel - 1, by omega⟩
        rw [minimise, if_neg hp]
        simp only [hk] at hN ⊢
        exact hN fuel (by omega)

/-- C70: on each path, an example is found exactly if it can beat the best score so far, and it has the least score possible on the
path: the loop ends, and does not miss any score. -/
theorem score_least (possible : Solver) (scores : Int → Prop) (hr : Right possible scores) (best : Option Int) :
    (∃ m, IsLeast scores m ∧ (∀ b, best = some b → m < b) ∧ ∃ N, ∀ fuel, N ≤ fuel → scorePath fuel possible best = .found m) ∨
    ((∀ s, scores s → 0 ≤ s → ∃ b, best = some b ∧ b ≤ s) ∧ ∀ fuel, scorePath fuel possible best = .ignored) := by
  -- the least score that is not negative, if there is one
  have hex : (∃ s, scores s ∧ 0 ≤ s) → ∃ m, IsLeast scores m := by
    rintro ⟨s, hs, h0⟩
    obtain ⟨n, rfl⟩ : ∃ n : Nat, s = n := ⟨s.toNat, (Int.toNat_of_nonneg h0).symm⟩
    clear h0
    induction n using Nat.strongRecOn with
    | _ n ih =>
      by_cases h : ∃ k : Nat, k < n ∧ scores k
      · obtain ⟨k, hk, hsk⟩ := h
        exact ih k hk hsk
      · refine ⟨n, ⟨hs, by omega⟩, ?_⟩
        intro s hs' h0
        apply Classical.byContradiction
        intro hlt
        apply h
        refine ⟨s.toNat, by omega, ?_⟩
        rw [Int.toNat_of_nonneg h0]
        exact hs'
  by_cases hsome : ∃ s, scores s ∧ 0 ≤ s
  · obtain ⟨m, hm⟩ := hex hsome
    have hp0 : possible (some 0) none = true := by
      rw [hr]
      exact ⟨m, hm.1.1, fun l hl => by injection hl with hl; rw [← hl]; exact hm.1.2, fun h hh => by cases hh⟩
    cases best with
    | none =>
      left
      refine ⟨m, hm, by simp, ?_⟩
      obtain ⟨N, hN⟩ := minimise_finds possible scores hr m m.toNat ⟨0, none, 0, none, 1000⟩ (by
        refine ⟨hm.1.1, hm.1.2, by simp, ?_, hm.1.2, by simp, by simp, by simp, by simp⟩
        intro s hs h0 _
        exact hm.2 s hs h0) (by
        have := Int.self_le_toNat m
        dsimp only
        omega)
      refine ⟨N, ?_⟩
      intro fuel hf
      unfold scorePath
      simp [hp0, hN fuel hf]
    | some b =>
      by_cases hb : m < b
      · left
        refine ⟨m, hm, by simpa using hb, ?_⟩
        have hpb : possible (some 0) (some b) = true := by
          rw [hr]
          exact ⟨m, hm.1.1, fun l hl => by injection hl with hl; rw [← hl]; exact hm.1.2, fun h hh => by
            injection hh with hh; rw [← hh]; exact hb⟩
        obtain ⟨N, hN⟩ := minimise_finds possible scores hr m (m.toNat + 1) ⟨0, some b, 0, some b, Int.fdiv b 2⟩ (by
          have h0 := hm.1.2
          refine ⟨hm.1.1, hm.1.2, by simpa using hb, ?_, hm.1.2, ?_, by simp, ?_, by simp⟩
          · intro s hs h0 _
            exact hm.2 s hs h0
          · intro k hk
            injection hk with hk
            omega
          · intro k hk
            injection hk with hk
            subst hk
            right
            exact ⟨rfl, rfl, by omega, hb⟩) (by
          have := Int.self_le_toNat m
          have := hm.1.2
          dsimp only
          rw [fdiv_two]
          omega)
        refine ⟨N, ?_⟩
        intro fuel hf
        unfold scorePath
        simp [hp0, hpb, hN fuel hf]
      · right
        refine ⟨fun s hs h0 => ⟨b, rfl, by have := hm.2 s hs h0; omega⟩, ?_⟩
        intro fuel
        have hpb : possible (some 0) (some b) = false := by
          rw [← Bool.not_eq_true, hr]
          rintro ⟨s, hs, h1, h2⟩
          have := hm.2 s hs (h1 _ rfl)
          have := h2 _ rfl
          omega
        unfold scorePath
        simp [hp0, hpb]
  · right
    refine ⟨fun s hs h0 => absurd ⟨s, hs, h0⟩ hsome, ?_⟩
    intro fuel
    have hp0 : possible (some 0) none = false := by
      rw [← Bool.not_eq_true, hr]
      rintro ⟨s, hs, h1, _⟩
      exact hsome ⟨s, hs, h1 _ rfl⟩
    unfold scorePath
    simp [hp0]

/-- A solver that is right about a finite set of scores. -/
def listSolver (scores : List Int) : Solver := fun lo hi =>
  scores.any fun s => (match lo with | none => true | some l => decide (l ≤ s)) && (match hi with | none => true | some h => decide (s < h))

theorem listSolver_right (scores : List Int) : Right (listSolver scores) (· ∈ scores) := by
  intro lo hi
  unfold listSolver
  rw [List.any_eq_true]
  constructor
  · rintro ⟨s, hs, h⟩
    rw [Bool.and_eq_true] at h
    refine ⟨s, hs, ?_, ?_⟩
    · rintro l rfl
      simpa using h.1
    · rintro x rfl
      simpa using h.2
  · rintro ⟨s, hs, h1, h2⟩
    refine ⟨s, hs, ?_⟩
    rw [Bool.and_eq_true]
    refine ⟨?_, ?_⟩
    · cases lo with
      | none => rfl
      | some l => simpa using h1 l rfl
    · cases hi with
      | none => rfl
      | some h => simpa using h2 h rfl

example : scorePath 100 (listSolver [-5, 123456789, 2000]) none = .found 2000 ∧
    scorePath 100 (listSolver [7, 3, 12]) (some 8) = .found 3 ∧ scorePath 100 (listSolver [8, 12]) (some 8) = .ignored := by decide +kernel

/-- C70: along a whole search, the examples get better and better, and the last one has the least score of all the paths; if there
is none, no path has a score that is not negative.  The paths are given with their possible scores. -/
theorem search_least (paths : List (Option (Solver × (Int → Prop))))
    (hr : ∀ p s, some (p, s) ∈ paths → Right p s) :
    ∃ N, ∀ fuel, N ≤ fuel →
      (searchPaths fuel (paths.map (Option.map Prod.fst)) none).Pairwise (· > ·) ∧
      (∀ m, (searchPaths fuel (paths.map (Option.map Prod.fst)) none).getLast? = some m →
        IsLeast (fun x => ∃ p s, some (p, s) ∈ paths ∧ s x) m) ∧
      (searchPaths fuel (paths.map (Option.map Prod.fst)) none = [] → ∀ p s x, some (p, s) ∈ paths → s x → x < 0) := by
  have key : ∀ (paths : List (Option (Solver × (Int → Prop)))), (∀ p s, some (p, s) ∈ paths → Right p s) →
      ∀ best : Option Int, (∀ b, best = some b → 0 < b) → ∃ N, ∀ fuel, N ≤ fuel →
        (searchPaths fuel (paths.map (Option.map Prod.fst)) best).Pairwise (· > ·) ∧
        (∀ m ∈ searchPaths fuel (paths.map (Option.map Prod.fst)) best, ∀ b, best = some b → m < b) ∧
        (∀ m, (searchPaths fuel (paths.map (Option.map Prod.fst)) best).getLast? = some m →
          IsLeast (fun x => ∃ p s, some (p, s) ∈ paths ∧ s x) m) ∧
        (searchPaths fuel (paths.map (Option.map Prod.fst)) best = [] → ∀ p s x, some (p, s) ∈ paths → s x → 0 ≤ x →
          ∃ b, best = some b ∧ b ≤ x) := by
    intro paths
    induction paths with
    | nil =>
      intro _ best _
      refine ⟨0, fun fuel _ => ⟨by simp [searchPaths], by simp [searchPaths], by simp [searchPaths], by simp⟩⟩
    | cons path rest ih =>
      intro hr best hb
      have hr' : ∀ p s, some (p, s) ∈ rest → Right p s := fun p s h => hr p s (by simp [h])
      cases path with
      | none =>
        obtain ⟨N, hN⟩ := ih hr' best hb
        refine ⟨N, ?_⟩
        intro fuel hf
        obtain ⟨h1, h2, h3, h4⟩ := hN fuel hf
        simp only [List.map_cons, Option.map_none, searchPaths]
        refine ⟨h1, h2, ?_, ?_⟩
        · intro m hm
          have := h3 m hm
          simpa using this
        · intro he p s x hp
          rcases List.mem_cons.mp hp with hp | hp
          · cases hp
          · exact h4 he p s x hp
      | some ps =>
        obtain ⟨possible, scores⟩ := ps
        have hright := hr possible scores (by simp)
        rcases score_least possible scores hright best with ⟨m, hm, hmb, N1, hN1⟩ | ⟨hall, hign⟩
        · by_cases hz : m = 0
          · refine ⟨N1, ?_⟩
            intro fuel hf
            simp only [List.map_cons, Option.map_some, searchPaths, hN1 fuel hf, hz, if_true]
            refine ⟨by simp, ?_, ?_, by simp⟩
            · intro x hx b hbb
              simp only [List.mem_singleton] at hx
              have := hb b hbb
              omega
            · intro x hx
              simp only [List.getLast?_singleton, Option.some.injEq] at hx
              subst hx
              refine ⟨⟨⟨possible, scores, by simp, hz ▸ hm.1.1⟩, by omega⟩, ?_⟩
              intro s _ h0
              exact h0
          · have hpos : 0 < m := by have := hm.1.2; omega
            obtain ⟨N2, hN2⟩ := ih hr' (some m) (by intro b hb; injection hb with hb; omega)
            refine ⟨max N1 N2, ?_⟩
            intro fuel hf
            obtain ⟨h1, h2, h3, h4⟩ := hN2 fuel (by omega)
            simp only [List.map_cons, Option.map_some, searchPaths, hN1 fuel (by omega), hz, if_false]
            refine ⟨?_, ?_, ?_, by simp⟩
            · rw [List.pairwise_cons]
              exact ⟨fun x hx => h2 x hx m rfl, h1⟩
            · intro x hx b hbb
              rcases List.mem_cons.mp hx with rfl | hx
              · exact hmb b hbb
              · have := h2 x hx m rfl
                have := hmb b hbb
                omega
            · intro x hx
              cases hs : searchPaths fuel (rest.map (Option.map Prod.fst)) (some m) with
              | nil =>
                rw [hs] at hx
                simp only [List.getLast?_singleton, Option.some.injEq] at hx
                subst hx
                refine ⟨⟨⟨possible, scores, by simp, hm.1.1⟩, hm.1.2⟩, ?_⟩
                rintro s ⟨p, sc, hp, hsc⟩ h0
                rcases List.mem_cons.mp hp with hp | hp
                · injection hp with hp
                  injection hp with _ hp
                  subst hp
                  exact hm.2 s hsc h0
                · obtain ⟨b, hb1, hb2⟩ := h4 hs p sc s hp hsc h0
                  injection hb1 with hb1
                  omega
              | cons y ys =>
                rw [hs] at hx h3
                rw [List.getLast?_cons_cons] at hx
                have hl := h3 x hx
                obtain ⟨⟨⟨p, sc, hp, hsc⟩, h0⟩, hle⟩ := hl
                refine ⟨⟨⟨p, sc, by simp [hp], hsc⟩, h0⟩, ?_⟩
                rintro s ⟨p', sc', hp', hsc'⟩ h0'
                rcases List.mem_cons.mp hp' with hp' | hp'
                · injection hp' with hp'
                  injection hp' with _ hp'
                  subst hp'
                  have h5 := hm.2 s hsc' h0'
                  have h6 := h2 x (by rw [hs]; exact List.mem_of_getLast? hx) m rfl
                  omega
                · exact hle s ⟨p', sc', hp', hsc'⟩ h0'
        · obtain ⟨N, hN⟩ := ih hr' best hb
          refine ⟨N, ?_⟩
          intro fuel hf
          obtain ⟨h1, h2, h3, h4⟩ := hN fuel hf
          simp only [List.map_cons, Option.map_some, searchPaths, hign fuel]
          refine ⟨h1, h2, ?_, ?_⟩
          · intro m hm
            obtain ⟨⟨⟨p, sc, hp, hsc⟩, h0⟩, hle⟩ := h3 m hm
            refine ⟨⟨⟨p, sc, by simp [hp], hsc⟩, h0⟩, ?_⟩
            rintro s ⟨p', sc', hp', hsc'⟩ h0'
            rcases List.mem_cons.mp hp' with hp' | hp'
            · injection hp' with hp'
              injection hp' with _ hp'
              subst hp'
              obtain ⟨b, hb1, hb2⟩ := hall s hsc' h0'
              have := h2 m (List.mem_of_getLast? hm) b hb1
              omega
            · exact hle s ⟨p', sc', hp', hsc'⟩ h0'
          · intro he p s x hp hs h0
            rcases List.mem_cons.mp hp with hp | hp
            · injection hp with hp
              injection hp with _ hp
              subst hp
              exact hall x hs h0
            · exact h4 he p s x hp hs h0
  obtain ⟨N, hN⟩ := key paths hr none (by simp)
  refine ⟨N, ?_⟩
  intro fuel hf
  obtain ⟨h1, _, h3, h4⟩ := hN fuel hf
  refine ⟨h1, h3, ?_⟩
  intro he p s x hp hs
  apply Classical.byContradiction
  intro h0
  obtain ⟨b, hb, _⟩ := h4 he p s x hp hs (by omega)
  cases hb

example : searchPaths 100 [some (listSolver [5000, 70]), none, some (listSolver [-3]), some (listSolver [80, 90]), some (listSolver [12, 69])]
    none = [70, 12] := by decide +kernel

/-! ### C72: choosing branches -/

/-- C72: a branch asked for with certainty is taken whenever it is open, whatever the bias. -/
theorem certain_choices (keys : List Int) (isPositive : Bool) (e : Int) (rand : Nat) (h1 : 1 ≤ rand) (h2 : rand ≤ 999999) :
    decideProbability keys isPositive e (some 0) = some 0 ∧ decideProbability keys isPositive e (some 100) = some 100 ∧
    (∀ positiveOk, chooseBranch positiveOk true 0 rand = false) ∧ (∀ negativeOk, chooseBranch true negativeOk 100 rand = true) := by
  refine ⟨by simp [decideProbability], by simp [decideProbability], ?_, ?_⟩
  · intro p
    cases p <;> simp [chooseBranch]
  · intro n
    cases n
    · simp [chooseBranch]
    · simp [chooseBranch]
      omega

example : decideProbability [7, -9] true 7 (some 100) = some 100 ∧ chooseBranch true true 100 999999 = true := by decide

theorem tweak_range (keys : List Int) (hn : keys.Nodup) (hz : (0 : Int) ∉ keys) (e : Int) (he : 0 < e) :
    tweak keys e = (if e ∈ keys then 1 else 0) - (if -e ∈ keys then 1 else 0) := by
  have : ∀ (keys : List Int) (t : Int), keys.Nodup → (0 : Int) ∉ keys →
      keys.foldl (fun t k => if 0 ≤ k then (if k = e then t + 1 else t) else (if -k = e then t - 1 else t)) t =
        t + ((if e ∈ keys then 1 else 0) - (if -e ∈ keys then 1 else 0)) := by
    intro keys
    induction keys with
    | nil => intro t _ _; simp
    | cons k keys ih =>
      intro t hn hz
      rw [List.nodup_cons] at hn
      rw [List.mem_cons, not_or] at hz
      rw [List.foldl_cons, ih _ hn.2 hz.2]
      simp only [List.mem_cons]
      by_cases h0 : 0 ≤ k
      · by_cases hk : k = e
        · subst hk
          have h1 : -k ≠ k := by omega
          simp only [h0, if_true, hn.1, if_false, true_or, h1, false_or]
          omega
        · have h1 : e ≠ k := fun h => hk h.symm
          have h2 : -e ≠ k := by omega
          simp only [h0, if_true, hk, if_false, h1, false_or, h2]
      · by_cases hk : -k = e
        · have hk' : k = -e := by omega
          have h1 : e ≠ k := by omega
          rw [hk'] at hn
          simp only [h0, if_false, hk, if_true, h1, false_or, hk', hn.1, true_or]
          have h3 : ¬ e = -e := by omega
          simp only [h3, false_or]
          omega
        · have h1 : e ≠ k := by omega
          have h2 : -e ≠ k := by omega
          simp only [h0, if_false, hk, h1, false_or, h2]
  have h := this keys 0 hn hz
  unfold tweak
  rw [h]
  omega

/-- C72: without a request for certainty the bias never fails, and leaves both branches open: each is taken for some random value,
with a chance of a tenth at least. -/
theorem open_choices (keys : List Int) (hn : keys.Nodup) (hz : (0 : Int) ∉ keys) (isPositive : Bool) (e : Int) (he : 0 < e) :
    ∃ p, decideProbability keys isPositive e none = some p ∧ 10 ≤ p ∧ p ≤ 90 ∧
      (∀ rand, 1 ≤ rand → rand < 100000 → chooseBranch true true p rand = true) ∧
      (∀ rand, 900000 ≤ rand → rand ≤ 999999 → chooseBranch true true p rand = false) := by
  have hp : ∃ p, decideProbability keys isPositive e none = some p ∧ 10 ≤ p ∧ p ≤ 90 := by
    unfold decideProbability pathProbability
    rw [tweak_range keys hn hz e he]
    simp only [reduceCtorEq, or_self, if_false]
    cases (keys.any fun k => decide (k = e ∨ -k = e)) with
    | false => exact ⟨25, by simp, by omega, by omega⟩
    | true =>
      simp only [if_true]
      by_cases h1 : e ∈ keys <;> by_cases h2 : -e ∈ keys <;> cases isPositive <;>
        simp [h1, h2, deltaProbability]
  obtain ⟨p, h1, h2, h3⟩ := hp
  refine ⟨p, h1, h2, h3, ?_, ?_⟩
  · intro rand _ hr
    simp [chooseBranch]
    omega
  · intro rand hr _
    simp [chooseBranch]
    omega

example : decideProbability [7, -9, 11, -11] true 7 none = some 90 ∧ decideProbability [7, -9, 11, -11] true 9 none = some 10 ∧
    decideProbability [7, -9, 11, -11] false 9 none = some 90 ∧ decideProbability [7, -9, 11, -11] true 11 none = some 25 := by decide

end Verif.Pick
