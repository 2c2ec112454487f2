import Verif.Strs.Lemmas
/-
Lemmas about partitioning, splitting, replacing, affixes, stripping and lines.
-/
namespace Verif.Strs

theorem partition_spec (s : Str) {sep : Str} (h : sep ≠ []) :
    (∃ i, FirstAt sep s i ∧ partition s sep = some (s.take i, sep, s.drop (i + sep.length))) ∨
    (¬ Contains s sep ∧ partition s sep = some (s, [], [])) := by
  unfold partition
  rw [if_neg (by simpa using h)]
  have := first_spec s sep
  cases hf : (positions s sep false).find? (matchAt s sep) with
  | some i =>
    rw [hf] at this
    left
    refine ⟨i, this, ?_⟩
    simp only
    rw [cut_to, show (i : Int) + (sep.length : Int) = ((i + sep.length : Nat) : Int) by omega, cut_from]
  | none =>
    rw [hf] at this
    exact Or.inr ⟨this, rfl⟩

theorem rpartition_spec (s : Str) {sep : Str} (h : sep ≠ []) :
    (∃ i, LastAt sep s i ∧ rpartition s sep = some (s.take i, sep, s.drop (i + sep.length))) ∨
    (¬ Contains s sep ∧ rpartition s sep = some ([], [], s)) := by
  unfold rpartition
  rw [if_neg (by simpa using h)]
  have := last_spec s sep
  cases hf : (positions s sep true).find? (matchAt s sep) with
  | some i =>
    rw [hf] at this
    left
    refine ⟨i, this, ?_⟩
    simp only
    rw [cut_to, show (i : Int) + (sep.length : Int) = ((i + sep.length : Nat) : Int) by omega, cut_from]
  | none =>
    rw [hf] at this
    exact Or.inr ⟨this, rfl⟩

theorem occurs_bound {sub s : Str} {i : Nat} (h : OccursAt sub s i) : i + sub.length ≤ s.length :=
  ((occurs_iff _ _ _).mp h).1

theorem asLimit_step {n : Int} (h : n ≠ 0) (m : Int) (hm : m = (if n < 0 then -1 else n - 1) ∨ m = n - 1) :
    asLimit m = (asLimit n).map (· - 1) := by
  unfold asLimit
  by_cases hn : n < 0
  · rw [if_pos hn, if_pos (by rcases hm with hm | hm <;> (try rw [if_pos hn] at hm) <;> omega)]
    rfl
  · rw [if_neg hn, if_neg (by rcases hm with hm | hm <;> (try rw [if_neg hn] at hm) <;> omega)]
    simp only [Option.map_some, Option.some.injEq]
    rcases hm with hm | hm <;> (try rw [if_neg hn] at hm) <;> omega

theorem asLimit_ne {n : Int} (h : n ≠ 0) : asLimit n ≠ some 0 := by
  unfold asLimit
  split <;> simp <;> omega

theorem splitLoop_spec {sep : Str} (hsep : sep ≠ []) : ∀ (fuel : Nat) (s : Str) (n : Int),
    s.length < fuel → IsSplit sep (asLimit n) s (splitLoop sep fuel s n) := by
  have hpos : 0 < sep.length := List.length_pos_iff.mpr hsep
  intro fuel
  induction fuel with
  | zero => intro s n h; omega
  | succ fuel ih =>
    intro s n hlen
    unfold splitLoop
    by_cases hn : n = 0
    · subst hn; exact IsSplit.limit s
    · rw [if_neg hn]
      simp only
      rcases find_whole s sep with ⟨i, h1, h2⟩ | ⟨h1, h2⟩
      · rw [h1, if_neg (by omega), cut_to,
          show (i : Int) + (sep.length : Int) = ((i + sep.length : Nat) : Int) by omega, cut_from]
        have hb := occurs_bound h2.1
        have hs := occurs_split h2.1
        have := IsSplit.cut (sep := sep) (asLimit n) (s.take i) (s.drop (i + sep.length))
          (splitLoop sep fuel (s.drop (i + sep.length)) (if n < 0 then -1 else n - 1))
          (asLimit_ne hn) (by rw [← hs, List.length_take, Nat.min_eq_left (by omega)]; exact h2)
          (by
            rw [← asLimit_step hn _ (Or.inl rfl)]
            exact ih _ _ (by rw [List.length_drop]; omega))
        rw [← hs] at this
        exact this
      · rw [h1, if_pos rfl]
        exact IsSplit.last _ s h2

theorem rsplitLoop_spec {sep : Str} (hsep : sep ≠ []) : ∀ (fuel : Nat) (s : Str) (n : Int),
    s.length < fuel → IsRsplit sep (asLimit n) s (rsplitLoop sep fuel s n) := by
  have hpos : 0 < sep.length := List.length_pos_iff.mpr hsep
  intro fuel
  induction fuel with
  | zero => intro s n h; omega
  | succ fuel ih =>
    intro s n hlen
    unfold rsplitLoop
    by_cases hn : n = 0
    · subst hn; exact IsRsplit.limit s
    · rw [if_neg hn]
      simp only
      rcases rfind_whole s sep with ⟨i, h1, h2⟩ | ⟨h1, h2⟩
      · rw [h1, if_neg (by omega), cut_to,
          show (sep.length : Int) + (i : Int) = ((i + sep.length : Nat) : Int) by omega, cut_from]
        have hb := occurs_bound h2.1
        have hs := occurs_split h2.1
        have := IsRsplit.cut (sep := sep) (asLimit n) (s.take i) (s.drop (i + sep.length))
          (rsplitLoop sep fuel (s.take i) (if n < 0 then -1 else n - 1))
          (asLimit_ne hn) (by rw [← hs, List.length_take, Nat.min_eq_left (by omega)]; exact h2)
          (by
            rw [← asLimit_step hn _ (Or.inl rfl)]
            exact ih _ _ (by rw [List.length_take]; omega))
        rw [← hs] at this
        exact this
      · rw [h1, if_pos rfl]
        exact IsRsplit.last _ s h2

theorem join_cons (sep p : Str) {ps : List Str} (h : ps ≠ []) :
    join sep (p :: ps) = p ++ sep ++ join sep ps := by
  cases ps with
  | nil => simp at h
  | cons q ps => rfl

theorem join_snoc (sep q : Str) : ∀ {ps : List Str}, ps ≠ [] →
    join sep (ps ++ [q]) = join sep ps ++ sep ++ q := by
  intro ps
  induction ps with
  | nil => intro h; simp at h
  | cons p ps ih =>
    intro _
    cases ps with
    | nil => rfl
    | cons p' ps =>
      rw [List.cons_append, join_cons _ _ (by simp), ih (by simp), join_cons sep p (ps := p' :: ps) (by simp)]
      simp [List.append_assoc]

theorem isSplit_ne {sep : Str} {lim : Option Nat} {s : Str} {ps : List Str}
    (h : IsSplit sep lim s ps) : ps ≠ [] := by
  cases h <;> simp

theorem isRsplit_ne {sep : Str} {lim : Option Nat} {s : Str} {ps : List Str}
    (h : IsRsplit sep lim s ps) : ps ≠ [] := by
  cases h <;> simp

theorem isSplit_join {sep : Str} {lim : Option Nat} {s : Str} {ps : List Str}
    (h : IsSplit sep lim s ps) : join sep ps = s := by
  induction h with
  | limit s => rfl
  | last lim s _ => rfl
  | cut lim pre post ps _ _ hps ih => rw [join_cons _ _ (isSplit_ne hps), ih]

theorem isRsplit_join {sep : Str} {lim : Option Nat} {s : Str} {ps : List Str}
    (h : IsRsplit sep lim s ps) : join sep ps = s := by
  induction h with
  | limit s => rfl
  | last lim s _ => rfl
  | cut lim pre post ps _ _ hps ih => rw [join_snoc _ _ (isRsplit_ne hps), ih]

theorem first_pre {sep pre post : Str} (hsep : sep ≠ [])
    (h : FirstAt sep (pre ++ sep ++ post) pre.length) : ¬ Contains pre sep := by
  have hpos : 0 < sep.length := List.length_pos_iff.mpr hsep
  rintro ⟨j, hj⟩
  have hb := occurs_bound hj
  obtain ⟨a, b, h1, h2⟩ := hj
  refine h.2 j (by omega) ⟨a, b ++ (sep ++ post), ?_, h2⟩
  rw [h1]
  simp [List.append_assoc]

theorem last_post {sep pre post : Str} (hsep : sep ≠ [])
    (h : LastAt sep (pre ++ sep ++ post) pre.length) : ¬ Contains post sep := by
  have hpos : 0 < sep.length := List.length_pos_iff.mpr hsep
  rintro ⟨j, a, b, h1, h2⟩
  refine h.2 (pre.length + sep.length + a.length) (by omega) ⟨pre ++ sep ++ a, b, ?_, by simp; omega⟩
  rw [h1]
  simp [List.append_assoc]

/-- The pieces before the last never contain the separator; the last does only if the limit was
used up. -/
theorem isSplit_pieces {sep : Str} (hsep : sep ≠ []) {lim : Option Nat} {s : Str} {ps : List Str}
    (h : IsSplit sep lim s ps) :
    (∀ p ∈ ps.dropLast, ¬ Contains p sep) ∧ (∀ n, lim = some n → ps.length ≤ n + 1) ∧
    ((∀ n, lim = some n → ps.length < n + 1) → ∀ p ∈ ps, ¬ Contains p sep) := by
  induction h with
  | limit s =>
    exact ⟨by simp, fun n h => by simp, fun h => absurd (h 0 rfl) (by simp)⟩
  | last lim s hc =>
    refine ⟨by simp, fun n _ => by simp, fun _ p hp => ?_⟩
    simp at hp
    rw [hp]; exact hc
  | cut lim pre post ps hlim hf hps ih =>
    obtain ⟨ih1, ih2, ih3⟩ := ih
    have hpre := first_pre hsep hf
    have hne := isSplit_ne hps
    refine ⟨?_, ?_, ?_⟩
    · intro p hp
      rw [List.dropLast_cons_of_ne_nil hne] at hp
      rcases List.mem_cons.mp hp with rfl | hp
      · exact hpre
      · exact ih1 p hp
    · intro n hn
      have hn0 : n ≠ 0 := fun e => hlim (by rw [hn, e])
      have := ih2 (n - 1) (by rw [hn]; rfl)
      simp only [List.length_cons]
      omega
    · intro hall p hp
      rcases List.mem_cons.mp hp with rfl | hp
      · exact hpre
      · refine ih3 ?_ p hp
        intro n hn
        cases hl : lim with
        | none => rw [hl] at hn; simp at hn
        | some m =>
          rw [hl] at hn
          simp at hn
          have := hall m hl
          have hm0 : m ≠ 0 := fun e => hlim (by rw [hl, e])
          simp only [List.length_cons] at this
          omega

theorem isRsplit_pieces {sep : Str} (hsep : sep ≠ []) {lim : Option Nat} {s : Str} {ps : List Str}
    (h : IsRsplit sep lim s ps) :
    (∀ p ∈ ps.tail, ¬ Contains p sep) ∧ (∀ n, lim = some n → ps.length ≤ n + 1) ∧
    ((∀ n, lim = some n → ps.length < n + 1) → ∀ p ∈ ps, ¬ Contains p sep) := by
  induction h with
  | limit s =>
    exact ⟨by simp, fun n h => by simp, fun h => absurd (h 0 rfl) (by simp)⟩
  | last lim s hc =>
    refine ⟨by simp, fun n _ => by simp, fun _ p hp => ?_⟩
    simp at hp
    rw [hp]; exact hc
  | cut lim pre post ps hlim hf hps ih =>
    obtain ⟨ih1, ih2, ih3⟩ := ih
    have hpost := last_post hsep hf
    have hne := isRsplit_ne hps
    refine ⟨?_, ?_, ?_⟩
    · intro p hp
      rw [List.tail_append_of_ne_nil hne, List.mem_append] at hp
      rcases hp with hp | hp
      · exact ih1 p hp
      · simp at hp; rw [hp]; exact hpost
    · intro n hn
      have hn0 : n ≠ 0 := fun e => hlim (by rw [hn, e])
      have := ih2 (n - 1) (by rw [hn]; rfl)
      simp only [List.length_append, List.length_singleton]
      omega
    · intro hall p hp
      rcases List.mem_append.mp hp with hp | hp
      · refine ih3 ?_ p hp
        intro n hn
        cases hl : lim with
        | none => rw [hl] at hn; simp at hn
        | some m =>
          rw [hl] at hn
          simp at hn
          have := hall m hl
          have hm0 : m ≠ 0 := fun e => hlim (by rw [hl, e])
          simp only [List.length_append, List.length_singleton] at this
          omega
      · simp at hp; rw [hp]; exact hpost

theorem first_unique {sub s : Str} {i j : Nat} (h1 : FirstAt sub s i) (h2 : FirstAt sub s j) : i = j := by
  rcases Nat.lt_trichotomy i j with h | h | h
  · exact absurd h1.1 (h2.2 i h)
  · exact h
  · exact absurd h2.1 (h1.2 j h)

theorem last_unique {sub s : Str} {i j : Nat} (h1 : LastAt sub s i) (h2 : LastAt sub s j) : i = j := by
  rcases Nat.lt_trichotomy i j with h | h | h
  · exact absurd h2.1 (h1.2 j h)
  · exact h
  · exact absurd h1.1 (h2.2 i h)

theorem cut_inj {sep a b c d : Str} (h : a ++ sep ++ b = c ++ sep ++ d) (hl : a.length = c.length) :
    a = c ∧ b = d := by
  rw [List.append_assoc, List.append_assoc] at h
  obtain ⟨h1, h2⟩ := List.append_inj h hl
  exact ⟨h1, (List.append_cancel_left h2)⟩

theorem isSplit_unique {sep : Str} {lim : Option Nat} {s : Str} {ps qs : List Str}
    (h1 : IsSplit sep lim s ps) (h2 : IsSplit sep lim s qs) : ps = qs := by
  induction h1 generalizing qs with
  | limit s => cases h2 with
    | limit => rfl
    | last => rfl
    | cut _ _ _ _ h => simp at h
  | last lim s hc =>
    generalize hs : s = t at h2
    cases h2 with
    | limit => rfl
    | last => rfl
    | cut _ pre post _ _ hf => exact absurd ⟨_, hf.1⟩ (hs ▸ hc)
  | cut lim pre post ps hlim hf hps ih =>
    generalize hs : pre ++ sep ++ post = t at h2
    cases h2 with
    | limit => exact absurd rfl hlim
    | last _ _ hc => exact absurd ⟨_, hf.1⟩ (hs ▸ hc)
    | cut _ pre' post' qs _ hf' hqs =>
      rw [← hs] at hf'
      obtain ⟨e1, e2⟩ := cut_inj hs (first_unique hf hf')
      subst e1 e2
      rw [ih hqs]

theorem isRsplit_unique {sep : Str} {lim : Option Nat} {s : Str} {ps qs : List Str}
    (h1 : IsRsplit sep lim s ps) (h2 : IsRsplit sep lim s qs) : ps = qs := by
  induction h1 generalizing qs with
  | limit s => cases h2 with
    | limit => rfl
    | last => rfl
    | cut _ _ _ _ h => simp at h
  | last lim s hc =>
    generalize hs : s = t at h2
    cases h2 with
    | limit => rfl
    | last => rfl
    | cut _ pre post _ _ hf => exact absurd ⟨_, hf.1⟩ (hs ▸ hc)
  | cut lim pre post ps hlim hf hps ih =>
    generalize hs : pre ++ sep ++ post = t at h2
    cases h2 with
    | limit => exact absurd rfl hlim
    | last _ _ hc => exact absurd ⟨_, hf.1⟩ (hs ▸ hc)
    | cut _ pre' post' qs _ hf' hqs =>
      rw [← hs] at hf'
      obtain ⟨e1, e2⟩ := cut_inj hs (last_unique hf hf')
      subst e1 e2
      rw [ih hqs]

theorem replaceLoop_spec {old : Str} (new : Str) (hold : old ≠ []) : ∀ (fuel : Nat) (s : Str) (n : Int),
    s.length < fuel → ∃ ps, IsSplit old (asLimit n) s ps ∧ replaceLoop old new fuel s n = join new ps := by
  have hpos : 0 < old.length := List.length_pos_iff.mpr hold
  intro fuel
  induction fuel with
  | zero => intro s n h; omega
  | succ fuel ih =>
    intro s n hlen
    unfold replaceLoop
    by_cases hn : n = 0
    · subst hn; exact ⟨[s], IsSplit.limit s, by simp [join]⟩
    · rw [if_neg hn]
      by_cases h0 : s.length = 0
      · rw [if_pos h0, if_neg (by omega)]
        refine ⟨[s], IsSplit.last _ s ?_, rfl⟩
        rintro ⟨i, hi⟩
        have := occurs_bound hi
        omega
      · rw [if_neg h0, if_neg (by omega)]
        rcases partition_spec s hold with ⟨i, h1, h2⟩ | ⟨h1, h2⟩
        · rw [h2]
          simp only
          rw [if_neg (by omega)]
          have hb := occurs_bound h1.1
          have hs := occurs_split h1.1
          obtain ⟨ps, g1, g2⟩ := ih (s.drop (i + old.length)) (n - 1) (by rw [List.length_drop]; omega)
          rw [asLimit_step hn _ (Or.inr rfl)] at g1
          have := IsSplit.cut (sep := old) (asLimit n) (s.take i) (s.drop (i + old.length)) ps
            (asLimit_ne hn) (by rw [← hs, List.length_take, Nat.min_eq_left (by omega)]; exact h1) g1
          rw [← hs] at this
          exact ⟨_, this, by rw [join_cons _ _ (isSplit_ne g1), g2]⟩
        · rw [h2]
          exact ⟨[s], IsSplit.last _ s h1, by simp [join]⟩

theorem replaceLoop_empty (new : Str) : ∀ (fuel : Nat) (s : Str) (n : Int), s.length < fuel →
    replaceLoop [] new fuel s n =
      if n < 0 ∨ (s.length : Int) < n then s.flatMap (fun c => new ++ [c]) ++ new
      else (s.take n.toNat).flatMap (fun c => new ++ [c]) ++ s.drop n.toNat := by
  intro fuel
  induction fuel with
  | zero => intro s n h; omega
  | succ fuel ih =>
    intro s n hlen
    unfold replaceLoop
    by_cases hn : n = 0
    · subst hn
      rw [if_pos rfl, if_neg (by omega)]
      simp
    · rw [if_neg hn]
      cases s with
      | nil =>
        simp only [List.length_nil, if_true]
        rw [if_pos (by simp; omega)]
        simp
      | cons c s =>
        rw [if_neg (by simp), if_pos (by simp), show (1 : Int) = ((1 : Nat) : Int) by rfl, cut_to, cut_from]
        simp only [List.take_succ_cons, List.take_zero, List.drop_succ_cons, List.drop_zero]
        rw [ih s _ (by simpa using hlen)]
        simp only [List.length_cons] at hlen ⊢
        by_cases hc : n < 0 ∨ ((s.length + 1 : Nat) : Int) < n
        · rw [if_pos hc, if_pos (by omega)]
          simp [List.append_assoc]
        · rw [if_neg hc, if_neg (by omega)]
          have : n.toNat = (n - ((1 : Nat) : Int)).toNat + 1 := by omega
          rw [this]
          simp [List.append_assoc]

/-- Searching from a position on. -/
theorem find_from (s sub : Str) {pos : Nat} (hp : pos ≤ s.length) :
    (∃ i : Nat, find s sub (some (pos : Int)) none false = ((pos + i : Nat) : Int) ∧ FirstAt sub (s.drop pos) i) ∨
    (find s sub (some (pos : Int)) none false = -1 ∧ ¬ Contains (s.drop pos) sub) := by
  have hw : ∀ i, OccursAt sub (s.drop pos) i ↔ InWindow s sub (some (pos : Int)) none (pos + i) := by
    intro i
    have := occurs_cut (sub := sub) (s := s) (a := pos) (b := s.length) (i := i) (Nat.le_refl _) (Or.inr hp)
    rw [List.take_length] at this
    rw [this]
    unfold InWindow windowLo windowHi
    simp only [Option.map_some, Option.getD_some, Option.map_none, Option.getD_none]
    rw [if_neg (by omega)]
    constructor
    · rintro ⟨h1, h2⟩; exact ⟨by omega, h1, h2⟩
    · rintro ⟨_, h1, h2⟩; exact ⟨h1, h2⟩
  have hlo : ∀ j, InWindow s sub (some (pos : Int)) none j → pos ≤ j := by
    intro j hj
    have := hj.1
    unfold windowLo at this
    simp only [Option.map_some, Option.getD_some] at this
    rw [if_neg (by omega)] at this
    omega
  rcases find_spec s sub (some (pos : Int)) none false (by simp) (by simp) with
    ⟨i, h1, h2, h3⟩ | ⟨h1, h2⟩
  · left
    have hi := hlo i h2
    refine ⟨i - pos, by rw [h1]; omega, (hw _).mpr (by rw [show pos + (i - pos) = i by omega]; exact h2), ?_⟩
    intro j hj ho
    have := h3 (pos + j) ((hw j).mp ho)
    simp at this
    omega
  · exact Or.inr ⟨h1, fun ⟨i, hi⟩ => h2 _ ((hw i).mp hi)⟩

theorem countLoop_spec {sub : Str} (hsub : sub ≠ []) (s : Str) : ∀ (fuel total pos : Nat),
    pos ≤ s.length → s.length - pos < fuel →
    ∃ ps, IsSplit sub none (s.drop pos) ps ∧
      countLoop s sub fuel total pos + 1 = total + ps.length := by
  have hpos : 0 < sub.length := List.length_pos_iff.mpr hsub
  intro fuel
  induction fuel with
  | zero => intro total pos _ h; omega
  | succ fuel ih =>
    intro total pos hp hf
    unfold countLoop
    simp only
    rcases find_from s sub hp with ⟨i, h1, h2⟩ | ⟨h1, h2⟩
    · rw [h1, if_neg (by omega)]
      have hb := occurs_bound h2.1
      rw [List.length_drop] at hb
      have hs := occurs_split h2.1
      obtain ⟨ps, g1, g2⟩ := ih (total + 1) (pos + i + sub.length) (by omega) (by omega)
      rw [show ((pos + i : Nat) : Int) + (sub.length : Int) = ((pos + i + sub.length : Nat) : Int) by omega]
      refine ⟨(s.drop pos).take i :: ps, ?_, ?_⟩
      · have := IsSplit.cut (sep := sub) none ((s.drop pos).take i) ((s.drop pos).drop (i + sub.length)) ps
          (by simp) (by
            rw [← hs, List.length_take, Nat.min_eq_left (by rw [List.length_drop]; omega)]; exact h2)
          (by
            simp only [Option.map_none]
            rw [List.drop_drop, show pos + (i + sub.length) = pos + i + sub.length by omega]
            exact g1)
        rw [← hs] at this
        exact this
      · rw [g2, List.length_cons]; omega
    · rw [h1, if_pos rfl]
      exact ⟨[s.drop pos], IsSplit.last _ _ h2, by simp⟩

theorem unfindable_iff (n : Nat) (a b : Option Int) :
    unfindableRange a b n = true ↔ windowHi n b < windowLo n a := by
  unfold unfindableRange
  cases a with
  | none => simp [windowLo]
  | some a =>
    simp only
    have hlo : windowLo n (some a) = (if a < 0 then max (a + n) 0 else a).toNat := by
      simp [windowLo]
    rw [hlo]
    by_cases h1 : a = 0 ∨ a ≤ -(n : Int)
    · rw [if_pos h1]
      have : (if a < 0 then max (a + n) 0 else a).toNat = 0 := by split <;> omega
      rw [this]
      simp
    · rw [if_neg h1]
      cases b with
      | none =>
        simp only [if_true, windowHi, Option.map_none, Option.getD_none, decide_eq_true_eq]
        split <;> omega
      | some b =>
        simp only [windowHi, Option.map_some, Option.getD_some, bound]
        by_cases h2 : b ≥ n
        · rw [if_pos (by simpa using h2)]
          simp only [decide_eq_true_eq]
          split <;> split <;> omega
        · rw [if_neg (by simpa using h2)]
          simp only [decide_eq_true_eq]
          split <;> split <;> omega

theorem cut_whole (s : Str) : pyCut s none none = s := by
  rw [cut_eq]; simp [windowHi, windowLo]

theorem cut_length (s : Str) (a b : Option Int) :
    (pyCut s a b).length = windowHi s.length b - windowLo s.length a := by
  rw [cut_eq, List.length_drop, List.length_take]
  have := windowHi_le s.length b
  omega

theorem startswith_spec (s p : Str) (a b : Option Int) :
    startswith s p a b = true ↔ InWindow s p a b (windowLo s.length a) := by
  unfold startswith InWindow
  have hb := windowHi_le s.length b
  have hm : (if a = none ∧ b = none then s else pyCut s a b) = pyCut s a b := by
    split
    · rename_i h; rw [h.1, h.2, cut_whole]
    · rfl
  simp only [hm, Nat.le_refl, true_and]
  by_cases hu : ¬ (a = none ∧ b = none) ∧ unfindableRange a b s.length = true
  · rw [if_pos hu]
    have := (unfindable_iff _ _ _).mp hu.2
    simp only [Bool.false_eq_true, false_iff]
    rintro ⟨h1, _⟩
    omega
  · rw [if_neg hu]
    have hle : windowLo s.length a ≤ windowHi s.length b := by
      by_cases hw : a = none ∧ b = none
      · rw [hw.1, hw.2]; simp [windowLo]
      · by_contra hlt
        exact hu ⟨hw, (unfindable_iff _ _ _).mpr (by omega)⟩
    rw [cut_length]
    by_cases hp : p.length > windowHi s.length b - windowLo s.length a
    · rw [if_pos hp]
      simp only [Bool.false_eq_true, false_iff]
      rintro ⟨h1, _⟩
      omega
    · rw [if_neg hp, cut_to, allEq_iff (by rw [List.length_take, cut_length]; omega)]
      have := occurs_cut (sub := p) (s := s) (a := windowLo s.length a) (b := windowHi s.length b)
        (i := 0) hb (Or.inr hle)
      simp only [Nat.add_zero] at this
      rw [← this, ← cut_eq, occurs_iff, cut_length]
      simp only [List.drop_zero]
      constructor
      · intro h; exact ⟨by omega, h⟩
      · intro h; exact h.2

theorem cut_last (s : Str) {k : Nat} (h0 : 0 < k) (hk : k ≤ s.length) :
    pyCut s (some (-(k : Int))) none = s.drop (s.length - k) := by
  rw [cut_eq]
  simp only [windowHi, windowLo, Option.map_none, Option.getD_none, List.take_length, Option.map_some,
    Option.getD_some]
  rw [if_pos (by omega)]
  congr 1
  omega

theorem cut_but_last (s : Str) {k : Nat} (h0 : 0 < k) (hk : k ≤ s.length) :
    pyCut s none (some (-(k : Int))) = s.take (s.length - k) := by
  rw [cut_eq]
  simp only [windowHi, windowLo, Option.map_none, Option.getD_none, List.drop_zero, Option.map_some,
    Option.getD_some, bound]
  rw [if_pos (by omega)]
  congr 1
  omega

theorem endswith_spec (s p : Str) (a b : Option Int) :
    endswith s p a b = true ↔ ∃ i, InWindow s p a b i ∧ i + p.length = windowHi s.length b := by
  unfold endswith InWindow
  have hb := windowHi_le s.length b
  have hm : (if a = none ∧ b = none then s else pyCut s a b) = pyCut s a b := by
    split
    · rename_i h; rw [h.1, h.2, cut_whole]
    · rfl
  simp only [hm]
  by_cases h0 : p.length = 0
  · rw [if_pos h0]
    simp only [Bool.not_eq_true', Bool.eq_false_iff, ne_eq, unfindable_iff]
    have hnil : p = [] := List.length_eq_zero_iff.mp h0
    constructor
    · intro h
      refine ⟨windowHi s.length b, ⟨by omega, by omega, ?_⟩, by omega⟩
      rw [occurs_iff, hnil]
      exact ⟨by simpa using hb, by simp⟩
    · rintro ⟨i, ⟨h1, h2, _⟩, h3⟩; omega
  · rw [if_neg h0, cut_length]
    by_cases hp : p.length > windowHi s.length b - windowLo s.length a
    · rw [if_pos hp]
      simp only [Bool.false_eq_true, false_iff]
      rintro ⟨i, ⟨h1, h2, _⟩, h3⟩
      omega
    · rw [if_neg hp, cut_last _ (by omega) (by rw [cut_length]; omega),
        allEq_iff (by rw [List.length_drop, cut_length]; omega), cut_length]
      have := fun i => occurs_cut (sub := p) (s := s) (a := windowLo s.length a)
        (b := windowHi s.length b) (i := i) hb (Or.inr (by omega))
      have h2 := this (windowHi s.length b - windowLo s.length a - p.length)
      rw [← cut_eq, occurs_iff, cut_length] at h2
      have e : windowLo s.length a + (windowHi s.length b - windowLo s.length a - p.length) =
          windowHi s.length b - p.length := by omega
      rw [e] at h2
      have htake : List.take p.length (List.drop (windowHi s.length b - windowLo s.length a - p.length) (pyCut s a b)) =
          List.drop (windowHi s.length b - windowLo s.length a - p.length) (pyCut s a b) :=
        List.take_of_length_le (by rw [List.length_drop, cut_length]; omega)
      rw [htake] at h2
      constructor
      · intro h
        have := h2.mp ⟨by omega, h⟩
        exact ⟨windowHi s.length b - p.length, ⟨by omega, by omega, this.2⟩, by omega⟩
      · rintro ⟨i, ⟨h1, _, h3⟩, h4⟩
        have : i = windowHi s.length b - p.length := by omega
        subst this
        exact (h2.mpr ⟨by omega, h3⟩).2

theorem startswith_whole (s p : Str) : startswith s p none none = true ↔ ∃ t, s = p ++ t := by
  rw [startswith_spec]
  unfold InWindow
  simp only [windowLo, windowHi, Option.map_none, Option.getD_none]
  constructor
  · rintro ⟨_, _, pre, post, h1, h2⟩
    have : pre = [] := List.length_eq_zero_iff.mp h2
    subst this
    exact ⟨post, by simpa using h1⟩
  · rintro ⟨t, rfl⟩
    exact ⟨Nat.le_refl _, by simp, [], t, by simp, rfl⟩

theorem endswith_whole (s p : Str) : endswith s p none none = true ↔ ∃ t, s = t ++ p := by
  rw [endswith_spec]
  unfold InWindow
  simp only [windowLo, windowHi, Option.map_none, Option.getD_none]
  constructor
  · rintro ⟨i, ⟨_, _, pre, post, h1, h2⟩, h3⟩
    have h4 := congrArg List.length h1
    simp at h4
    have : post = [] := List.length_eq_zero_iff.mp (by omega)
    subst this
    exact ⟨pre, by simpa using h1⟩
  · rintro ⟨t, rfl⟩
    exact ⟨t.length, ⟨by omega, by simp, t, [], by simp, rfl⟩, by simp⟩

theorem lstrip_spec (p : Nat → Bool) (s : Str) : IsLstrip p s (lstrip p s) := by
  unfold lstrip
  cases h : s.findIdx? (fun c => !p c) with
  | none =>
    rw [List.findIdx?_eq_none_iff] at h
    exact ⟨s, by simp, fun c hc => by simpa using h c hc, by simp⟩
  | some i =>
    rw [List.findIdx?_eq_some_iff_getElem] at h
    obtain ⟨hi, h1, h2⟩ := h
    simp only
    rw [cut_from]
    refine ⟨s.take i, by simp, ?_, ?_⟩
    · intro c hc
      rw [List.mem_take_iff_getElem] at hc
      obtain ⟨j, hj, rfl⟩ := hc
      have := h2 j (by omega)
      simpa using this
    · intro c hc
      rw [List.head?_drop, List.getElem?_eq_getElem hi] at hc
      simp at hc h1
      rw [← hc]; exact h1

theorem rstripLoop_spec (p : Nat → Bool) : ∀ (fuel : Nat) (s : Str), s.length ≤ fuel →
    IsRstrip p s (rstripLoop p fuel s) := by
  intro fuel
  induction fuel with
  | zero =>
    intro s h
    have : s = [] := List.length_eq_zero_iff.mp (by omega)
    subst this
    exact ⟨[], by simp [rstripLoop], by simp, by simp [rstripLoop]⟩
  | succ fuel ih =>
    intro s h
    unfold rstripLoop
    cases hl : s.getLast? with
    | none =>
      rw [List.getLast?_eq_none_iff] at hl
      subst hl
      exact ⟨[], rfl, by simp, by simp⟩
    | some c =>
      obtain ⟨t, rfl⟩ := List.getLast?_eq_some_iff.mp hl
      simp only
      by_cases hc : p c = true
      · rw [if_pos hc]
        have e : pyCut (t ++ [c]) none (some (-1)) = t := by
          have := cut_but_last (t ++ [c]) (k := 1) (by omega) (by simp)
          simp only [Nat.cast_one] at this
          rw [this]
          simp
        rw [e]
        obtain ⟨post, h1, h2, h3⟩ := ih t (by simpa using h)
        refine ⟨post ++ [c], by rw [← List.append_assoc, ← h1], ?_, h3⟩
        intro d hd
        rcases List.mem_append.mp hd with hd | hd
        · exact h2 d hd
        · simp at hd; rw [hd]; exact hc
      · rw [if_neg hc]
        refine ⟨[], by simp, by simp, ?_⟩
        intro d hd
        rw [hl] at hd
        simp at hd
        rw [← hd]
        simpa using hc

theorem rstrip_spec (p : Nat → Bool) (s : Str) : IsRstrip p s (rstrip p s) :=
  rstripLoop_spec p _ s (Nat.le_refl _)

theorem splitlines_spec (nl : Nat → Bool) : ∀ (fuel : Nat) (s : Str), s.length < fuel →
    ∃ ps, IsLines nl s ps ∧ splitlinesLoop nl true fuel s = ps.map (fun p => p.1 ++ p.2) ∧
      splitlinesLoop nl false fuel s = ps.map (·.1) := by
  intro fuel
  induction fuel with
  | zero => intro s h; omega
  | succ fuel ih =>
    intro s h
    unfold splitlinesLoop
    by_cases h0 : s.length = 0
    · have : s = [] := List.length_eq_zero_iff.mp h0
      subst this
      exact ⟨[], IsLines.nil, by simp, by simp⟩
    · rw [if_neg h0]
      simp only [if_neg h0]
      cases hf : s.findIdx? nl with
      | none =>
        rw [List.findIdx?_eq_none_iff] at hf
        refine ⟨[(s, [])], IsLines.last s (fun e => h0 (by rw [e]; rfl)) hf, by simp, by simp⟩
      | some i =>
        rw [List.findIdx?_eq_some_iff_getElem] at hf
        obtain ⟨hi, h1, h2⟩ := hf
        have hline : ∀ c ∈ s.take i, nl c = false := by
          intro c hc
          rw [List.mem_take_iff_getElem] at hc
          obtain ⟨j, hj, rfl⟩ := hc
          simpa using h2 j (by omega)
        simp only [if_true, Bool.false_eq_true, if_false]
        rw [show (i : Int) + 2 = ((i + 2 : Nat) : Int) by omega,
          show (i : Int) + 1 = ((i + 1 : Nat) : Int) by omega]
        simp only [cut_to, cut_from]
        by_cases hcr : s[i]? = some 13 ∧ i + 1 < s.length ∧ s[i + 1]? = some 10
        · rw [if_pos hcr, if_pos hcr]
          obtain ⟨ps, g1, g2, g3⟩ := ih (s.drop (i + 2)) (by rw [List.length_drop]; omega)
          have e : s.take (i + 2) = s.take i ++ [13, 10] := by
            rw [List.take_add_one, hcr.2.2, List.take_add_one, hcr.1]
            simp
          have hs : s = s.take i ++ [13, 10] ++ s.drop (i + 2) := by
            rw [← e, List.take_append_drop]
          refine ⟨(s.take i, [13, 10]) :: ps, ?_, by simp only [List.map_cons]; rw [g2, e],
            by simp only [List.map_cons]; rw [g3]⟩
          have := IsLines.crlf (nl := nl) (s.take i) (s.drop (i + 2)) ps hline g1
          rw [← hs] at this
          exact this
        · rw [if_neg hcr, if_neg hcr]
          obtain ⟨ps, g1, g2, g3⟩ := ih (s.drop (i + 1)) (by rw [List.length_drop]; omega)
          have e : s.take (i + 1) = s.take i ++ [s[i]] := by
            rw [List.take_add_one, List.getElem?_eq_getElem hi]
            rfl
          have hs : s = s.take i ++ [s[i]] ++ s.drop (i + 1) := by
            rw [← e, List.take_append_drop]
          refine ⟨(s.take i, [s[i]]) :: ps, ?_, by simp only [List.map_cons]; rw [g2, e],
            by simp only [List.map_cons]; rw [g3]⟩
          have := IsLines.one (nl := nl) (s.take i) (s.drop (i + 1)) s[i] ps hline h1 (by
            rintro ⟨c1, c2⟩
            rw [List.head?_drop] at c2
            refine hcr ⟨by rw [List.getElem?_eq_getElem hi, c1], ?_, c2⟩
            by_contra hge
            rw [List.getElem?_eq_none (by omega)] at c2
            simp at c2) g1
          rw [← hs] at this
          exact this

end Verif.Strs
