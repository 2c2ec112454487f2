import Verif.Report.Model
/-
Property theorems about messages (C09), `crosshair check` (C10), watching (C11) and the other commands (C50).
-/
namespace Verif.Report

/-! ### C09: the order of messages, and their collection -/

/-- C09: the states are totally ordered, as listed from harmless to severe, and problems are above everything else. -/
theorem state_order :
    (∀ a b : State, State.lt a b = true ∨ a = b ∨ State.lt b a = true) ∧
    (∀ a b c : State, State.lt a b = true → State.lt b c = true → State.lt a c = true) ∧
    (∀ a : State, State.lt a a = false) ∧
    (∀ a b : State, State.le a b = true ↔ State.lt b a = false) ∧
    (∀ a b : State, a.isProblem = false → b.isProblem = true → State.lt a b = true) ∧
    (∀ a : State, a.isProblem = State.lt .preUnsat a) ∧
    severities.Pairwise (fun a b => State.lt a b = true) ∧ (∀ a : State, a ∈ severities) := by
  refine ⟨?_, ?_, ?_, ?_, ?_, ?_, by decide, by intro a; cases a <;> decide⟩
  · intro a b; cases a <;> cases b <;> decide
  · intro a b c; cases a <;> cases b <;> cases c <;> decide
  · intro a; cases a <;> decide
  · intro a b; cases a <;> cases b <;> decide
  · intro a b; cases a <;> cases b <;> decide
  · intro a; cases a <;> decide

/-- C09: the comparison of messages is the preference of the specification. -/
theorem keyLt_preferred {F : Type} (unable : List Char → Bool) (a b : Msg F) :
    keyLt unable a b = true ↔ Preferred State.order (fun t => !unable t) b a := by
  have hinj : ∀ x y : State, x.order = y.order ↔ x = y := by
    intro x y; cases x <;> cases y <;> decide
  unfold keyLt Preferred
  by_cases hs : a.state = b.state
  · rw [if_neg (by simpa using hs), hs]
    by_cases hu : unable a.text = unable b.text
    · rw [if_neg (by simp [hu])]
      simp only [decide_eq_true_eq, Nat.lt_irrefl, hu, true_and, false_or]
      constructor
      · intro h
        exact Or.inr (by omega)
      · rintro (⟨h1, h2⟩ | h)
        · simp_all
        · omega
    · rw [if_pos (by simpa using hu)]
      cases ha : unable a.text <;> cases hb : unable b.text <;> simp_all
  · rw [if_pos hs]
    have := mt (hinj a.state b.state).mp hs
    simp only [State.lt, decide_eq_true_eq]
    constructor
    · exact Or.inl
    · rintro (h | ⟨h, _⟩)
      · exact h
      · exact absurd h this

theorem keyLt_trans {F : Type} (unable : List Char → Bool) (a b c : Msg F) (h1 : keyLt unable a b = true)
    (h2 : keyLt unable b c = true) : keyLt unable a c = true := by
  rw [keyLt_preferred] at *
  unfold Preferred at *
  dsimp only at *
  rcases h1 with h1 | ⟨e1, h1⟩ <;> rcases h2 with h2 | ⟨e2, h2⟩
  · exact Or.inl (by omega)
  · exact Or.inl (by omega)
  · exact Or.inl (by omega)
  · refine Or.inr ⟨by omega, ?_⟩
    rcases h1 with ⟨x1, y1⟩ | ⟨x1, y1⟩ <;> rcases h2 with ⟨x2, y2⟩ | ⟨x2, y2⟩
    · rw [y1] at x2; cases x2
    · exact Or.inl ⟨x1, by rw [← x2]; exact y1⟩
    · exact Or.inl ⟨by rw [x1]; exact x2, y2⟩
    · exact Or.inr ⟨by rw [x1, x2], by omega⟩

theorem keyLt_total {F : Type} (unable : List Char → Bool) (a b c : Msg F) (h1 : keyLt unable a b = false)
    (h2 : keyLt unable b c = false) : keyLt unable a c = false := by
  -- "not less" is transitive: the keys are totally ordered
  have key : ∀ x y : Msg F, keyLt unable x y = false ↔ State.order y.state < State.order x.state ∨
      State.order y.state = State.order x.state ∧ ((unable y.text = true ∧ unable x.text = false) ∨
        (unable y.text = unable x.text ∧ x.text.length ≤ y.text.length)) := by
    intro x y
    rw [← Bool.not_eq_true, keyLt_preferred]
    unfold Preferred
    dsimp only
    cases hx : unable x.text <;> cases hy : unable y.text <;> simp <;> omega
  rw [key] at *
  rcases h1 with h1 | ⟨e1, h1⟩ <;> rcases h2 with h2 | ⟨e2, h2⟩
  · exact Or.inl (by omega)
  · exact Or.inl (by omega)
  · exact Or.inl (by omega)
  · refine Or.inr ⟨by omega, ?_⟩
    rcases h1 with ⟨x1, y1⟩ | ⟨x1, y1⟩ <;> rcases h2 with ⟨x2, y2⟩ | ⟨x2, y2⟩
    · exact Or.inl ⟨x2, y1⟩
    · exact Or.inl ⟨by rw [x2]; exact x1, y1⟩
    · exact Or.inl ⟨x2, by rw [← x1]; exact y2⟩
    · exact Or.inr ⟨by rw [x2, x1], by omega⟩

/-- What the dictionary holds after some messages: one entry for each place, with the first of the best messages there. -/
def Holds {F : Type} [DecidableEq F] (unable : List Char → Bool) (msgs : List (Msg F)) (d : List (Place F × Msg F)) : Prop :=
  (d.map Prod.fst).Nodup ∧ (∀ m ∈ msgs, ∃ e ∈ d, e.1 = m.place) ∧
  ∀ e ∈ d, e.1 = e.2.place ∧ ∃ before after, msgs = before ++ e.2 :: after ∧
    (∀ x ∈ before, x.place = e.1 → keyLt unable x e.2 = true) ∧
    (∀ x ∈ after, x.place = e.1 → keyLt unable e.2 x = false)

theorem append_spec {F : Type} [DecidableEq F] (unable : List Char → Bool) (d : List (Place F × Msg F)) (m : Msg F)
    (hn : (d.map Prod.fst).Nodup) :
    ((append unable d m).map Prod.fst).Nodup ∧
    (∀ e, e ∈ append unable d m ↔ (e ∈ d ∧ e.1 ≠ m.place) ∨ (∃ old, (m.place, old) ∈ d ∧ e = (m.place, maxMsg unable old m)) ∨
      ((∀ x ∈ d, x.1 ≠ m.place) ∧ e = (m.place, m))) := by
  induction d with
  | nil =>
    refine ⟨by simp [append], ?_⟩
    intro e
    simp [append]
  | cons x xs ih =>
    obtain ⟨k, old⟩ := x
    rw [List.map_cons, List.nodup_cons] at hn
    have ih := ih hn.2
    have hk : ∀ y ∈ xs, y.1 ≠ k := by
      intro y hy he
      exact hn.1 (List.mem_map.mpr ⟨y, hy, he⟩)
    rw [append]
    by_cases hkm : k = m.place
    · rw [if_pos hkm]
      subst hkm
      refine ⟨?_, ?_⟩
      · rw [List.map_cons, List.nodup_cons]
        exact hn
      · intro e
        constructor
        · intro he
          rcases List.mem_cons.mp he with rfl | he
          · exact Or.inr (Or.inl ⟨old, by simp, rfl⟩)
          · exact Or.inl ⟨by simp [he], hk e he⟩
        · rintro (⟨he, hne⟩ | ⟨o, ho, rfl⟩ | ⟨hall, _⟩)
          · rcases List.mem_cons.mp he with rfl | he
            · exact absurd rfl hne
            · simp [he]
          · rcases List.mem_cons.mp ho with ho | ho
            · injection ho with _ ho
              rw [ho]; simp
            · exact absurd rfl (hk _ ho)
          · exact absurd rfl (hall (m.place, old) (by simp))
    · rw [if_neg hkm]
      refine ⟨?_, ?_⟩
      · rw [List.map_cons, List.nodup_cons]
        refine ⟨?_, ih.1⟩
        intro hmem
        rw [List.mem_map] at hmem
        obtain ⟨e, he, hek⟩ := hmem
        dsimp only at hek
        rcases (ih.2 e).mp he with ⟨he, _⟩ | ⟨o, _, rfl⟩ | ⟨_, rfl⟩
        · exact hk e he hek
        · exact hkm hek.symm
        · exact hkm hek.symm
      · intro e
        rw [List.mem_cons, ih.2]
        constructor
        · rintro (rfl | ⟨he, hne⟩ | ⟨o, ho, rfl⟩ | ⟨hall, rfl⟩)
          · exact Or.inl ⟨by simp, hkm⟩
          · exact Or.inl ⟨by simp [he], hne⟩
          · exact Or.inr (Or.inl ⟨o, by simp [ho], rfl⟩)
          · refine Or.inr (Or.inr ⟨?_, rfl⟩)
            intro x hx
            rcases List.mem_cons.mp hx with rfl | hx
            · exact hkm
            · exact hall x hx
        · rintro (⟨he, hne⟩ | ⟨o, ho, rfl⟩ | ⟨hall, rfl⟩)
          · rcases List.mem_cons.mp he with rfl | he
            · exact Or.inl rfl
            · exact Or.inr (Or.inl ⟨he, hne⟩)
          · rcases List.mem_cons.mp ho with ho | ho
            · injection ho with ho _
              exact absurd ho.symm hkm
            · exact Or.inr (Or.inr (Or.inl ⟨o, ho, rfl⟩))
          · exact Or.inr (Or.inr (Or.inr ⟨fun x hx => hall x (by simp [hx]), rfl⟩))

theorem holds_append {F : Type} [DecidableEq F] (unable : List Char → Bool) (msgs : List (Msg F)) (d : List (Place F × Msg F))
    (m : Msg F) (h : Holds unable msgs d) : Holds unable (msgs ++ [m]) (append unable d m) := by
  obtain ⟨hn, hcov, hbest⟩ := h
  obtain ⟨hn', hmem⟩ := append_spec unable d m hn
  have hplace : ∀ o, (m.place, o) ∈ d → o.place = m.place := fun o ho => ((hbest _ ho).1).symm
  refine ⟨hn', ?_, ?_⟩
  · intro x hx
    by_cases hp : x.place = m.place
    · by_cases hold : ∃ o, (m.place, o) ∈ d
      · obtain ⟨o, ho⟩ := hold
        exact ⟨_, (hmem _).mpr (Or.inr (Or.inl ⟨o, ho, rfl⟩)), hp.symm⟩
      · refine ⟨_, (hmem _).mpr (Or.inr (Or.inr ⟨?_, rfl⟩)), hp.symm⟩
        intro y hy he
        exact hold ⟨y.2, by rw [← he]; exact hy⟩
    · rcases List.mem_append.mp hx with hx | hx
      · obtain ⟨e, he, hep⟩ := hcov x hx
        exact ⟨e, (hmem e).mpr (Or.inl ⟨he, by rw [hep]; exact hp⟩), hep⟩
      · rw [List.mem_singleton] at hx
        rw [hx] at hp
        exact absurd rfl hp
  · intro e he
    rcases (hmem e).mp he with ⟨he, hne⟩ | ⟨o, ho, rfl⟩ | ⟨hall, rfl⟩
    · obtain ⟨h1, b, a, h2, h3, h4⟩ := hbest e he
      refine ⟨h1, b, a ++ [m], by rw [h2]; simp, h3, ?_⟩
      intro x hx hxp
      rcases List.mem_append.mp hx with hx | hx
      · exact h4 x hx hxp
      · rw [List.mem_singleton] at hx
        rw [hx] at hxp
        exact absurd hxp.symm hne
    · obtain ⟨_, b, a, h2, h3, h4⟩ := hbest _ ho
      dsimp only at h2 h3 h4 ⊢
      unfold maxMsg
      by_cases hlt : keyLt unable o m = true
      · rw [if_pos hlt]
        refine ⟨rfl, msgs, [], rfl, ?_, by simp⟩
        intro x hx hxp
        rw [h2] at hx
        rcases List.mem_append.mp hx with hx | hx
        · exact keyLt_trans unable x o m (h3 x hx hxp) hlt
        · rcases List.mem_cons.mp hx with rfl | hx
          · exact hlt
          · -- x is not better than o, and o is worse than m
            have hox := h4 x hx hxp
            cases hxm : keyLt unable x m with
            | true => rfl
            | false =>
              have := keyLt_total unable o x m hox hxm
              rw [hlt] at this
              cases this
      · rw [if_neg hlt]
        refine ⟨(hplace o ho).symm, b, a ++ [m], by rw [h2]; simp, h3, ?_⟩
        intro x hx hxp
        rcases List.mem_append.mp hx with hx | hx
        · exact h4 x hx hxp
        · rw [List.mem_singleton.mp hx]
          simpa using hlt
    · refine ⟨rfl, msgs, [], rfl, ?_, by simp⟩
      intro x hx hxp
      obtain ⟨e, he, hep⟩ := hcov x hx
      exact absurd (hep.trans hxp) (hall e he)

theorem holds_fold {F : Type} [DecidableEq F] (unable : List Char → Bool) (msgs : List (Msg F)) :
    Holds unable msgs (msgs.foldl (append unable) []) := by
  have : ∀ (rest done : List (Msg F)) (d : List (Place F × Msg F)), Holds unable done d →
      Holds unable (done ++ rest) (rest.foldl (append unable) d) := by
    intro rest
    induction rest with
    | nil => intro done d h; simpa using h
    | cons m rest ih =>
      intro done d h
      rw [List.foldl_cons, show done ++ m :: rest = (done ++ [m]) ++ rest by simp]
      exact ih _ _ (holds_append unable done d m h)
  have := this msgs [] [] ⟨by simp, by simp, by simp⟩
  simpa using this

theorem insertSorted_perm {α : Type} (le : α → α → Bool) (x : α) (l : List α) : (insertSorted le x l).Perm (x :: l) := by
  induction l with
  | nil => exact List.Perm.refl _
  | cons y ys ih =>
    rw [insertSorted]
    split
    · exact (List.Perm.cons y ih).trans (List.Perm.swap x y ys)
    · exact List.Perm.refl _

theorem sorted_perm {α : Type} (le : α → α → Bool) (l : List α) : (sorted le l).Perm l := by
  have : ∀ (l acc : List α), (l.foldl (fun acc x => insertSorted le x acc) acc).Perm (l ++ acc) := by
    intro l
    induction l with
    | nil => intro acc; exact List.Perm.refl _
    | cons x xs ih =>
      intro acc
      rw [List.foldl_cons]
      refine (ih _).trans ?_
      refine (List.Perm.append_left xs (insertSorted_perm le x acc)).trans ?_
      exact List.perm_middle
  have := this l []
  rwa [List.append_nil] at this

theorem insertSorted_pairwise {α : Type} (le : α → α → Bool) (htr : ∀ a b c, le a b = true → le b c = true → le a c = true)
    (htot : ∀ a b, le a b = true ∨ le b a = true) (x : α) (l : List α) (h : l.Pairwise fun a b => le a b = true) :
    (insertSorted le x l).Pairwise fun a b => le a b = true := by
  induction l with
  | nil => simp [insertSorted]
  | cons y ys ih =>
    rw [List.pairwise_cons] at h
    rw [insertSorted]
    split
    · rename_i hyx
      rw [List.pairwise_cons]
      refine ⟨?_, ih h.2⟩
      intro z hz
      rcases List.mem_cons.mp ((insertSorted_perm le x ys).mem_iff.mp hz) with rfl | hz
      · exact hyx
      · exact h.1 z hz
    · rename_i hyx
      have hxy : le x y = true := by
        rcases htot x y with h' | h'
        · exact h'
        · exact absurd h' hyx
      rw [List.pairwise_cons]
      refine ⟨?_, List.pairwise_cons.mpr h⟩
      intro z hz
      rcases List.mem_cons.mp hz with rfl | hz
      · exact hxy
      · exact htr x y z hxy (h.1 z hz)

theorem sorted_pairwise {α : Type} (le : α → α → Bool) (htr : ∀ a b c, le a b = true → le b c = true → le a c = true)
    (htot : ∀ a b, le a b = true ∨ le b a = true) (l : List α) : (sorted le l).Pairwise fun a b => le a b = true := by
  have : ∀ (l acc : List α), acc.Pairwise (fun a b => le a b = true) →
      (l.foldl (fun acc x => insertSorted le x acc) acc).Pairwise fun a b => le a b = true := by
    intro l
    induction l with
    | nil => intro acc h; exact h
    | cons x xs ih =>
      intro acc h
      rw [List.foldl_cons]
      exact ih _ (insertSorted_pairwise le htr htot x acc h)
  exact this l [] List.Pairwise.nil

theorem placeLe_total {F : Type} [DecidableEq F] (le : F → F → Bool) (ho : FileOrder le) (a b : Place F) :
    placeLe le a b = true ∨ placeLe le b a = true := by
  obtain ⟨fa, la, ca⟩ := a
  obtain ⟨fb, lb, cb⟩ := b
  unfold placeLe
  dsimp only
  by_cases hf : fa = fb
  · subst hf
    simp only [ne_eq, not_true_eq_false, if_false]
    by_cases hl : la = lb
    · subst hl
      simp only [not_true_eq_false, if_false, decide_eq_true_eq]
      omega
    · rw [if_pos hl, if_pos (fun h => hl h.symm)]
      simp only [decide_eq_true_eq]
      omega
  · rw [if_pos hf, if_pos (Ne.symm hf)]
    exact ho.total fa fb

theorem placeLe_trans {F : Type} [DecidableEq F] (le : F → F → Bool) (ho : FileOrder le) (a b c : Place F)
    (h1 : placeLe le a b = true) (h2 : placeLe le b c = true) : placeLe le a c = true := by
  obtain ⟨fa, la, ca⟩ := a
  obtain ⟨fb, lb, cb⟩ := b
  obtain ⟨fc, lc, cc⟩ := c
  unfold placeLe at *
  dsimp only at *
  by_cases hab : fa = fb
  · subst hab
    by_cases hac : fa = fc
    · subst hac
      rw [if_neg (by simp)] at h1 h2 ⊢
      by_cases e1 : la = lb
      · subst e1
        rw [if_neg (by simp)] at h1
        by_cases e2 : la = lc
        · subst e2
          rw [if_neg (by simp)] at h2 ⊢
          simp only [decide_eq_true_eq] at *
          omega
        · rw [if_pos e2] at h2 ⊢
          exact h2
      · rw [if_pos e1] at h1
        simp only [decide_eq_true_eq] at h1
        by_cases e2 : lb = lc
        · subst e2
          rw [if_pos e1]
          simpa using h1
        · rw [if_pos e2] at h2
          simp only [decide_eq_true_eq] at h2
          rw [if_pos (by omega)]
          simp only [decide_eq_true_eq]
          omega
    · rw [if_pos hac] at h2 ⊢
      exact h2
  · rw [if_pos hab] at h1
    by_cases hbc : fb = fc
    · subst hbc
      rw [if_pos hab]
      exact h1
    · rw [if_pos hbc] at h2
      by_cases hac : fa = fc
      · subst hac
        exact absurd (ho.antisymm fa fb h1 h2) hab
      · rw [if_pos hac]
        exact ho.trans _ _ _ h1 h2

theorem before_of_placeLe {F : Type} [DecidableEq F] (le : F → F → Bool) (a b : Msg F) (hne : a.place ≠ b.place)
    (h : placeLe le a.place b.place = true) : Before le a b := by
  unfold placeLe Msg.place at h
  unfold Msg.place at hne
  unfold Before
  dsimp only at h
  by_cases hf : a.file = b.file
  · right
    refine ⟨hf, ?_⟩
    rw [if_neg (by simpa using hf)] at h
    by_cases hl : a.line = b.line
    · right
      refine ⟨hl, ?_⟩
      rw [if_neg (by simpa using hl)] at h
      simp only [decide_eq_true_eq] at h
      rcases Nat.lt_or_eq_of_le h with h | h
      · exact h
      · exact absurd (by rw [hf, hl, h]) hne
    · left
      rw [if_pos hl] at h
      simp only [decide_eq_true_eq] at h
      omega
  · left
    rw [if_pos hf] at h
    exact ⟨hf, h⟩

/-- C09: the messages reported are, for each place with messages, exactly one: the first of those to which no other is
preferred.  They come in the order of their places. -/
theorem collect_best {F : Type} [DecidableEq F] (unable : List Char → Bool) (le : F → F → Bool) (ho : FileOrder le)
    (msgs : List (Msg F)) :
    (collect unable le msgs).Pairwise (Before le) ∧
    (∀ m ∈ msgs, ∃ r ∈ collect unable le msgs, r.place = m.place) ∧
    (∀ r ∈ collect unable le msgs, ∃ before after, msgs = before ++ r :: after ∧
      (∀ x ∈ before, x.place = r.place → Preferred State.order (fun t => !unable t) r x) ∧
      (∀ x ∈ after, x.place = r.place → ¬ Preferred State.order (fun t => !unable t) x r)) := by
  obtain ⟨hn, hcov, hbest⟩ := holds_fold unable msgs
  have hperm := sorted_perm (fun a b => placeLe le a.1 b.1) (msgs.foldl (append unable) [])
  have hsorted := sorted_pairwise (fun a b : Place F × Msg F => placeLe le a.1 b.1)
    (fun a b c h1 h2 => placeLe_trans le ho a.1 b.1 c.1 h1 h2)
    (fun a b => placeLe_total le ho a.1 b.1) (msgs.foldl (append unable) [])
  unfold collect
  refine ⟨?_, ?_, ?_⟩
  · rw [List.pairwise_map]
    have hn2 : ((sorted (fun a b => placeLe le a.1 b.1) (msgs.foldl (append unable) [])).map Prod.fst).Nodup :=
      (hperm.map Prod.fst).nodup_iff.mpr hn
    rw [List.Nodup, List.pairwise_map] at hn2
    have hboth := hsorted.and hn2
    refine hboth.imp_of_mem ?_
    intro a b ha hb hab
    have pa := (hbest a (hperm.mem_iff.mp ha)).1
    have pb := (hbest b (hperm.mem_iff.mp hb)).1
    exact before_of_placeLe le a.2 b.2 (by rw [← pa, ← pb]; exact hab.2) (by rw [← pa, ← pb]; exact hab.1)
  · intro m hm
    obtain ⟨e, he, hep⟩ := hcov m hm
    refine ⟨e.2, List.mem_map.mpr ⟨e, hperm.mem_iff.mpr he, rfl⟩, ?_⟩
    rw [← (hbest e he).1, hep]
  · intro r hr
    rw [List.mem_map] at hr
    obtain ⟨e, he, rfl⟩ := hr
    obtain ⟨h1, b, a, h2, h3, h4⟩ := hbest e (hperm.mem_iff.mp he)
    refine ⟨b, a, h2, ?_, ?_⟩
    · intro x hx hxp
      rw [← keyLt_preferred]
      exact h3 x hx (by rw [h1]; exact hxp)
    · intro x hx hxp
      rw [← keyLt_preferred, h4 x hx (by rw [h1]; exact hxp)]
      simp

/-- A file order, for the examples. -/
example : FileOrder (fun a b : Nat => decide (a ≤ b)) :=
  ⟨fun a b => by simp; omega, fun a b c => by simp; omega, fun a b => by simp; omega⟩

example : (collect (fun _ => false) (fun a b : Nat => decide (a ≤ b))
    [⟨.confirmed, "ok".toList, 1, 7, 0⟩, ⟨.postFail, "long text".toList, 0, 3, 0⟩, ⟨.postFail, "short".toList, 0, 3, 0⟩,
     ⟨.execErr, "x".toList, 0, 3, 0⟩]).map (fun m => (m.state, m.file, m.line)) = [(.postFail, 0, 3), (.confirmed, 1, 7)] := by
  decide +kernel

/-- C09: the severity reported at a place does not depend on the order of the messages. -/
theorem collect_order_irrelevant {F : Type} [DecidableEq F] (unable : List Char → Bool) (le : F → F → Bool) (ho : FileOrder le)
    (msgs msgs' : List (Msg F)) (hp : msgs.Perm msgs') (r : Msg F) (hr : r ∈ collect unable le msgs) :
    ∃ r' ∈ collect unable le msgs', r'.place = r.place ∧ r'.state = r.state ∧ r'.text.length = r.text.length := by
  obtain ⟨_, _, hb⟩ := collect_best unable le ho msgs
  obtain ⟨_, hc', hb'⟩ := collect_best unable le ho msgs'
  obtain ⟨b, a, e, h1, h2⟩ := hb r hr
  have hrm : r ∈ msgs := by rw [e]; simp
  obtain ⟨r', hr', hpl⟩ := hc' r (hp.mem_iff.mp hrm)
  obtain ⟨b', a', e', h1', h2'⟩ := hb' r' hr'
  have hrm' : r' ∈ msgs := hp.mem_iff.mpr (by rw [e']; simp)
  -- neither is preferred over the other
  have n1 : ¬ Preferred State.order (fun t => !unable t) r' r := by
    rw [e] at hrm'
    intro hpref
    rcases List.mem_append.mp hrm' with hm | hm
    · have h3 := h1 r' hm hpl
      rw [← keyLt_preferred] at hpref h3
      have := keyLt_trans unable r r' r hpref h3
      rw [keyLt_preferred] at this
      unfold Preferred at this
      dsimp only at this
      rcases this with h | ⟨_, ⟨h, h'⟩ | ⟨_, h⟩⟩
      · omega
      · rw [h] at h'; cases h'
      · omega
    · rcases List.mem_cons.mp hm with rfl | hm
      · unfold Preferred at hpref
        dsimp only at hpref
        rcases hpref with h | ⟨_, ⟨h, h'⟩ | ⟨_, h⟩⟩
        · omega
        · rw [h] at h'; cases h'
        · omega
      · exact h2 r' hm hpl hpref
  have n2 : ¬ Preferred State.order (fun t => !unable t) r r' := by
    have hm2 : r ∈ msgs' := hp.mem_iff.mp hrm
    rw [e'] at hm2
    intro hpref
    rcases List.mem_append.mp hm2 with hm | hm
    · have h3 := h1' r hm hpl.symm
      rw [← keyLt_preferred] at hpref h3
      have := keyLt_trans unable r' r r' hpref h3
      rw [keyLt_preferred] at this
      unfold Preferred at this
      dsimp only at this
      rcases this with h | ⟨_, ⟨h, h'⟩ | ⟨_, h⟩⟩
      · omega
      · rw [h] at h'; cases h'
      · omega
    · rcases List.mem_cons.mp hm with rfl | hm
      · unfold Preferred at hpref
        dsimp only at hpref
        rcases hpref with h | ⟨_, ⟨h, h'⟩ | ⟨_, h⟩⟩
        · omega
        · rw [h] at h'; cases h'
        · omega
      · exact h2' r hm hpl.symm hpref
  refine ⟨r', hr', hpl, ?_⟩
  have hinj : ∀ x y : State, x.order = y.order → x = y := by
    intro x y; cases x <;> cases y <;> decide
  unfold Preferred at n1 n2
  dsimp only at n1 n2
  have hs : State.order r'.state = State.order r.state := by
    rcases Nat.lt_trichotomy (State.order r'.state) (State.order r.state) with h | h | h
    · exact absurd (Or.inl h) n2
    · exact h
    · exact absurd (Or.inl h) n1
  refine ⟨hinj _ _ hs, ?_⟩
  cases hu : unable r.text <;> cases hu' : unable r'.text
  · have m1 : ¬ r'.text.length < r.text.length := fun h => n1 (Or.inr ⟨hs.symm, Or.inr ⟨by rw [hu, hu'], h⟩⟩)
    have m2 : ¬ r.text.length < r'.text.length := fun h => n2 (Or.inr ⟨hs, Or.inr ⟨by rw [hu, hu'], h⟩⟩)
    omega
  · exact absurd (Or.inr ⟨hs, Or.inl ⟨by rw [hu']; rfl, by rw [hu]; rfl⟩⟩) n2
  · exact absurd (Or.inr ⟨hs.symm, Or.inl ⟨by rw [hu]; rfl, by rw [hu']; rfl⟩⟩) n1
  · have m1 : ¬ r'.text.length < r.text.length := fun h => n1 (Or.inr ⟨hs.symm, Or.inr ⟨by rw [hu, hu'], h⟩⟩)
    have m2 : ¬ r.text.length < r'.text.length := fun h => n2 (Or.inr ⟨hs, Or.inr ⟨by rw [hu, hu'], h⟩⟩)
    omega

example : [(⟨.confirmed, [], 1, 7, 0⟩ : Msg Nat), ⟨.postFail, [], 1, 7, 0⟩].Perm [⟨.postFail, [], 1, 7, 0⟩, ⟨.confirmed, [], 1, 7, 0⟩] :=
  List.Perm.swap _ _ _

/-! ### C10: `crosshair check` -/

theorem describe_some {F : Type} (verbose reportAll : Bool) (m : Msg F) :
    (describe verbose reportAll m).isSome = (reportAll || m.state.isProblem) := by
  unfold describe longDescribe shortDescribe
  cases verbose <;> cases reportAll <;> cases m.state <;> rfl

theorem checkLoop_spec {F : Type} (verbose reportAll : Bool) (msgs : List (Msg F)) :
    (checkLoop verbose reportAll msgs).1 = msgs.filterMap (describe verbose reportAll) ∧
    (checkLoop verbose reportAll msgs).2 = msgs.any (fun m => m.state.isProblem) := by
  induction msgs with
  | nil => exact ⟨rfl, rfl⟩
  | cons m rest ih =>
    have hd := describe_some verbose reportAll m
    have hp : m.state.isProblem = State.lt .preUnsat m.state := state_order.2.2.2.2.2.1 m.state
    simp only [checkLoop, List.filterMap_cons, List.any_cons]
    cases h : describe verbose reportAll m with
    | none =>
      rw [h] at hd
      have : m.state.isProblem = false := by
        cases hh : m.state.isProblem
        · rfl
        · rw [hh] at hd; simp at hd
      rw [this, Bool.false_or]
      exact ih
    | some line =>
      dsimp only
      rw [ih.1, ih.2, hp, Bool.or_comm]
      exact ⟨rfl, rfl⟩

/-- C10: `check` ends with status 2 if the targets cannot be loaded; otherwise with 1 if the analysis of any of them
produced a problem, and with 0 if not. -/
theorem check_exit {F : Type} [DecidableEq F] (unable : List Char → Bool) (le : F → F → Bool) (ho : FileOrder le)
    (verbose reportAll : Bool) (targets : Option (List (List (Msg F)))) :
    ((check unable le verbose reportAll targets).2 = 2 ↔ targets = none) ∧
    ((check unable le verbose reportAll targets).2 = 1 ↔
      ∃ checkables, targets = some checkables ∧ ∃ c ∈ checkables, ∃ m ∈ c, m.state.isProblem = true) ∧
    ((check unable le verbose reportAll targets).2 = 0 ↔
      ∃ checkables, targets = some checkables ∧ ∀ c ∈ checkables, ∀ m ∈ c, m.state.isProblem = false) := by
  cases targets with
  | none => simp [check]
  | some checkables =>
    have hany : (checkLoop verbose reportAll (runCheckables unable le checkables)).2 = true ↔
        ∃ c ∈ checkables, ∃ m ∈ c, m.state.isProblem = true := by
      rw [(checkLoop_spec verbose reportAll _).2, List.any_eq_true]
      obtain ⟨_, hcov, hbest⟩ := collect_best unable le ho checkables.flatten
      constructor
      · rintro ⟨r, hr, hp⟩
        obtain ⟨b, a, e, _⟩ := hbest r hr
        have : r ∈ checkables.flatten := by rw [e]; simp
        rw [List.mem_flatten] at this
        obtain ⟨c, hc, hm⟩ := this
        exact ⟨c, hc, r, hm, hp⟩
      · rintro ⟨c, hc, m, hm, hp⟩
        have hmf : m ∈ checkables.flatten := List.mem_flatten.mpr ⟨c, hc, hm⟩
        obtain ⟨r, hr, hpl⟩ := hcov m hmf
        refine ⟨r, hr, ?_⟩
        obtain ⟨b, a, e, h1, h2⟩ := hbest r hr
        have hsev : ∀ x y : State, x.isProblem = true → y.isProblem = false → y.order < x.order := by
          intro x y; cases x <;> cases y <;> decide
        cases hrp : r.state.isProblem with
        | true => rfl
        | false =>
          exfalso
          rw [e] at hmf
          have hlt := hsev _ _ hp hrp
          rcases List.mem_append.mp hmf with hm' | hm'
          · have := h1 m hm' hpl.symm
            unfold Preferred at this
            rcases this with h | ⟨h, _⟩ <;> omega
          · rcases List.mem_cons.mp hm' with rfl | hm'
            · omega
            · exact h2 m hm' hpl.symm (Or.inl hlt)
    have hval : (check unable le verbose reportAll (some checkables)).2 =
        if (checkLoop verbose reportAll (runCheckables unable le checkables)).2 then 1 else 0 := rfl
    rw [hval]
    cases hb : (checkLoop verbose reportAll (runCheckables unable le checkables)).2 with
    | true =>
      have hex := hany.mp hb
      refine ⟨by simp, ⟨fun _ => ⟨checkables, rfl, hex⟩, fun _ => by simp⟩, ⟨fun h => by simp at h, ?_⟩⟩
      rintro ⟨c', e, hall⟩
      injection e with e
      subst e
      obtain ⟨c, hc, m, hm, hp⟩ := hex
      rw [hall c hc m hm] at hp
      cases hp
    | false =>
      have hno : ¬ ∃ c ∈ checkables, ∃ m ∈ c, m.state.isProblem = true := by
        rw [← hany, hb]; simp
      refine ⟨by simp, ⟨fun h => by simp at h, ?_⟩, ⟨fun _ => ⟨checkables, rfl, ?_⟩, fun _ => by simp⟩⟩
      · rintro ⟨c', e, hex⟩
        injection e with e
        subst e
        exact absurd hex hno
      · intro c hc m hm
        cases hp : m.state.isProblem with
        | false => rfl
        | true => exact absurd ⟨c, hc, m, hm, hp⟩ hno

example : (check (fun _ => false) (fun a b : Nat => decide (a ≤ b)) false false
    (some [[⟨.confirmed, [], 0, 1, 0⟩], [⟨.postFail, [], 0, 1, 0⟩]])).2 = 1 := by decide +kernel

/-- C10: the lines printed are those for the messages collected that are problems, or for all of them if asked for, in
the order of places, one for each place. -/
theorem check_prints {F : Type} [DecidableEq F] (unable : List Char → Bool) (le : F → F → Bool)
    (verbose reportAll : Bool) (checkables : List (List (Msg F))) :
    (check unable le verbose reportAll (some checkables)).1 =
      ((collect unable le checkables.flatten).filter (fun m => reportAll || m.state.isProblem)).map
        (fun m => if verbose then Printed.long m else Printed.short m.state.isProblem m) := by
  have : (check unable le verbose reportAll (some checkables)).1 =
      (checkLoop verbose reportAll (runCheckables unable le checkables)).1 := rfl
  rw [this, (checkLoop_spec verbose reportAll _).1]
  unfold runCheckables
  generalize collect unable le checkables.flatten = l
  induction l with
  | nil => rfl
  | cons m rest ih =>
    rw [List.filterMap_cons, List.filter_cons]
    have hd : describe verbose reportAll m = if (reportAll || m.state.isProblem) = true then
        some (if verbose then Printed.long m else Printed.short m.state.isProblem m) else none := by
      unfold describe longDescribe shortDescribe
      cases verbose <;> cases reportAll <;> cases hs : m.state <;> rfl
    rw [hd]
    cases hb : (reportAll || m.state.isProblem)
    · simpa using ih
    · simpa using ih

/-- C10: the verdicts of conditions show in the exit status: conditions that were confirmed or left undecided do not
cause a failure, and a refuted one does if its messages include a problem; reporting on the class instead of the method
changes nothing. -/
theorem verdicts_exit {F : Type} [DecidableEq F] (unable : List Char → Bool) (le : F → F → Bool) (ho : FileOrder le)
    (verbose reportAll : Bool) (same : F → F → Bool) (clsFile : F) (clsLine : Nat)
    (conditions : List (F × Nat × Verdict × List (Msg F)))
    (hprob : ∀ c ∈ conditions, c.2.2.1 = .refuted → ∃ m ∈ c.2.2.2, m.state.isProblem = true) :
    (check unable le verbose reportAll (some (conditions.map fun c =>
      clamp same clsFile clsLine (conditionMessages c.1 c.2.1 c.2.2.1 c.2.2.2)))).2 =
      if ∃ c ∈ conditions, c.2.2.1 = .refuted then 1 else 0 := by
  have h := check_exit unable le ho verbose reportAll (some (conditions.map fun c =>
      clamp same clsFile clsLine (conditionMessages c.1 c.2.1 c.2.2.1 c.2.2.2)))
  split
  · rename_i hex
    rw [h.2.1]
    obtain ⟨c, hc, hv⟩ := hex
    obtain ⟨m, hm, hp⟩ := hprob c hc hv
    refine ⟨_, rfl, _, List.mem_map.mpr ⟨c, hc, rfl⟩, ?_⟩
    rw [hv]
    refine ⟨_, List.mem_map.mpr ⟨m, hm, rfl⟩, ?_⟩
    split <;> exact hp
  · rename_i hno
    rw [h.2.2]
    refine ⟨_, rfl, ?_⟩
    intro l hl m hm
    rw [List.mem_map] at hl
    obtain ⟨c, hc, rfl⟩ := hl
    unfold clamp at hm
    rw [List.mem_map] at hm
    obtain ⟨m', hm', rfl⟩ := hm
    have hstate : (if same m'.file clsFile then m' else { m' with file := clsFile, line := clsLine }).state = m'.state := by
      split <;> rfl
    rw [hstate]
    cases hv : c.2.2.1 with
    | refuted => exact absurd ⟨c, hc, hv⟩ hno
    | confirmed =>
      rw [hv] at hm'
      simp only [conditionMessages, List.mem_singleton] at hm'
      rw [hm']; rfl
    | unknown =>
      rw [hv] at hm'
      simp only [conditionMessages, List.mem_singleton] at hm'
      rw [hm']; rfl

example : ∀ c ∈ [((0 : Nat), (1 : Nat), Verdict.refuted, [(⟨.postFail, [], 0, 1, 0⟩ : Msg Nat)])],
    c.2.2.1 = .refuted → ∃ m ∈ c.2.2.2, m.state.isProblem = true := by decide

/-- Messages about a class's methods are all on files that are the class's file. -/
theorem clamp_places {F : Type} (same : F → F → Bool) (hsame : ∀ f, same f f = true) (clsFile : F) (clsLine : Nat) (msgs : List (Msg F)) :
    (∀ m ∈ clamp same clsFile clsLine msgs, same m.file clsFile = true) ∧
    (clamp same clsFile clsLine msgs).map Msg.state = msgs.map Msg.state ∧
    (clamp same clsFile clsLine msgs).map Msg.text = msgs.map Msg.text := by
  unfold clamp
  refine ⟨?_, ?_, ?_⟩
  · intro m hm
    rw [List.mem_map] at hm
    obtain ⟨m', _, rfl⟩ := hm
    split
    · assumption
    · exact hsame clsFile
  · rw [List.map_map]
    apply List.map_congr_left
    intro m _
    dsimp only [Function.comp]
    split <;> rfl
  · rw [List.map_map]
    apply List.map_congr_left
    intro m _
    dsimp only [Function.comp]
    split <;> rfl

/-! ### C11: watching -/

theorem merge_spec {F : Type} [DecidableEq F] (msgs : List (Msg F)) (d : List ((F × Nat) × Msg F)) :
    ∃ added : List (Msg F), (merge d msgs).1 = d ++ added.map (fun m => ((m.file, m.line), m)) ∧
      ((merge d msgs).2 = true ↔ ∃ m ∈ msgs, ∀ e ∈ d, e.1 ≠ (m.file, m.line)) ∧
      (∀ m ∈ added, ∃ before after, msgs = before ++ m :: after ∧ (∀ e ∈ d, e.1 ≠ (m.file, m.line)) ∧
        ∀ x ∈ before, (x.file, x.line) ≠ (m.file, m.line)) ∧
      (added.map fun m => (m.file, m.line)).Nodup ∧
      (∀ m ∈ msgs, ∃ e ∈ (merge d msgs).1, e.1 = (m.file, m.line)) := by
  induction msgs generalizing d with
  | nil => exact ⟨[], by simp [merge], by simp [merge], by simp, by simp, by simp⟩
  | cons m rest ih =>
    rw [merge]
    by_cases hk : (d.any fun e => decide (e.1 = (m.file, m.line))) = true
    · rw [if_pos hk]
      simp only [List.any_eq_true, decide_eq_true_eq] at hk
      obtain ⟨added, h1, h2, h3, h4, h5⟩ := ih d
      refine ⟨added, h1, ?_, ?_, h4, ?_⟩
      · rw [h2]
        constructor
        · rintro ⟨x, hx, hall⟩
          exact ⟨x, by simp [hx], hall⟩
        · rintro ⟨x, hx, hall⟩
          rcases List.mem_cons.mp hx with rfl | hx
          · obtain ⟨e, he, hee⟩ := hk
            exact absurd hee (hall e he)
          · exact ⟨x, hx, hall⟩
      · intro x hx
        obtain ⟨b, a, e1, e2, e3⟩ := h3 x hx
        refine ⟨m :: b, a, by rw [e1]; rfl, e2, ?_⟩
        intro y hy
        rcases List.mem_cons.mp hy with rfl | hy
        · obtain ⟨e, he, hee⟩ := hk
          intro hh
          exact e2 e he (hee.trans hh)
        · exact e3 y hy
      · intro x hx
        rcases List.mem_cons.mp hx with rfl | hx
        · obtain ⟨e, he, hee⟩ := hk
          exact ⟨e, by rw [h1]; exact List.mem_append_left _ he, hee⟩
        · exact h5 x hx
    · rw [if_neg hk]
      have hk' : ∀ e ∈ d, e.1 ≠ (m.file, m.line) := by
        intro e he hee
        apply hk
        simp only [List.any_eq_true, decide_eq_true_eq]
        exact ⟨e, he, hee⟩
      obtain ⟨added, h1, h2, h3, h4, h5⟩ := ih (d ++ [((m.file, m.line), m)])
      refine ⟨m :: added, by dsimp only; rw [h1]; simp, ?_, ?_, ?_, ?_⟩
      · dsimp only
        exact ⟨fun _ => ⟨m, by simp, hk'⟩, fun _ => rfl⟩
      · intro x hx
        rcases List.mem_cons.mp hx with rfl | hx
        · exact ⟨[], rest, rfl, hk', by simp⟩
        · obtain ⟨b, a, e1, e2, e3⟩ := h3 x hx
          refine ⟨m :: b, a, by rw [e1]; rfl, fun e he => e2 e (by simp [he]), ?_⟩
          intro y hy
          rcases List.mem_cons.mp hy with rfl | hy
          · exact e2 ((y.file, y.line), y) (by simp)
          · exact e3 y hy
      · rw [List.map_cons, List.nodup_cons]
        refine ⟨?_, h4⟩
        intro hmem
        rw [List.mem_map] at hmem
        obtain ⟨x, hx, hxe⟩ := hmem
        obtain ⟨_, _, _, e2, _⟩ := h3 x hx
        exact e2 ((m.file, m.line), m) (by simp) hxe.symm
      · intro x hx
        dsimp only
        rcases List.mem_cons.mp hx with rfl | hx
        · refine ⟨((x.file, x.line), x), ?_, rfl⟩
          rw [h1]
          simp
        · exact h5 x hx

/-- C11: merging new messages keeps what is displayed, adds the first message for each line that has none, and reports a
change exactly if there is such a line. -/
theorem merge_exact {F : Type} [DecidableEq F] (msgs : List (Msg F)) (d : List ((F × Nat) × Msg F)) :
    (∃ added, (merge d msgs).1 = d ++ added) ∧
    ((merge d msgs).2 = true ↔ ∃ m ∈ msgs, ∀ e ∈ d, e.1 ≠ (m.file, m.line)) ∧
    ((merge d msgs).2 = false → (merge d msgs).1 = d) := by
  obtain ⟨added, h1, h2, h3, _, _⟩ := merge_spec msgs d
  refine ⟨⟨_, h1⟩, h2, ?_⟩
  intro hf
  cases added with
  | nil => simpa using h1
  | cons m rest =>
    exfalso
    obtain ⟨b, a, e1, e2, _⟩ := h3 m (by simp)
    have := h2.mpr ⟨m, by rw [e1]; simp, e2⟩
    rw [hf] at this
    cases this

/-- C11: over any batches of messages since the last restart, the display has exactly one message for each line with a
problem: the first. -/
theorem watch_display {F : Type} [DecidableEq F] (batches : List (List (Msg F))) :
    ((watchBatches batches).map Prod.fst).Nodup ∧
    (∀ m ∈ batches.flatten, m.state.isProblem = true → ∃ e ∈ watchBatches batches, e.1 = (m.file, m.line)) ∧
    (∀ e ∈ watchBatches batches, e.1 = (e.2.file, e.2.line) ∧ e.2.state.isProblem = true ∧
      ∃ before after, batches.flatten = before ++ e.2 :: after ∧
        ∀ x ∈ before, x.state.isProblem = true → (x.file, x.line) ≠ e.1) := by
  have hfilter : ∀ m : Msg F, State.lt .preUnsat m.state = m.state.isProblem := fun m => (state_order.2.2.2.2.2.1 m.state).symm
  have key : ∀ (rest done : List (List (Msg F))) (d : List ((F × Nat) × Msg F)),
      ((d.map Prod.fst).Nodup ∧
        (∀ m ∈ done.flatten, m.state.isProblem = true → ∃ e ∈ d, e.1 = (m.file, m.line)) ∧
        (∀ e ∈ d, e.1 = (e.2.file, e.2.line) ∧ e.2.state.isProblem = true ∧
          ∃ before after, done.flatten = before ++ e.2 :: after ∧
            ∀ x ∈ before, x.state.isProblem = true → (x.file, x.line) ≠ e.1)) →
      (((rest.foldl (fun d b => (merge d (b.filter fun m => State.lt .preUnsat m.state)).1) d).map Prod.fst).Nodup ∧
        (∀ m ∈ (done ++ rest).flatten, m.state.isProblem = true →
          ∃ e ∈ rest.foldl (fun d b => (merge d (b.filter fun m => State.lt .preUnsat m.state)).1) d, e.1 = (m.file, m.line)) ∧
        (∀ e ∈ rest.foldl (fun d b => (merge d (b.filter fun m => State.lt .preUnsat m.state)).1) d,
          e.1 = (e.2.file, e.2.line) ∧ e.2.state.isProblem = true ∧
          ∃ before after, (done ++ rest).flatten = before ++ e.2 :: after ∧
            ∀ x ∈ before, x.state.isProblem = true → (x.file, x.line) ≠ e.1)) := by
    intro rest
    induction rest with
    | nil => intro done d h; simpa using h
    | cons b rest ih =>
      intro done d ⟨hn, hcov, hfirst⟩
      rw [List.foldl_cons, show done ++ b :: rest = (done ++ [b]) ++ rest by simp]
      apply ih
      obtain ⟨added, h1, _, h3, h4, h5⟩ := merge_spec (b.filter fun m => State.lt .preUnsat m.state) d
      have hflat : (done ++ [b]).flatten = done.flatten ++ b := by simp
      refine ⟨?_, ?_, ?_⟩
      · rw [h1, List.map_append, List.nodup_append]
        refine ⟨hn, ?_, ?_⟩
        · rw [List.map_map]
          exact h4
        · intro x hx y hy hxy
          rw [List.mem_map] at hx hy
          obtain ⟨e, he, rfl⟩ := hx
          obtain ⟨e', he', rfl⟩ := hy
          rw [List.mem_map] at he'
          obtain ⟨m, hm, rfl⟩ := he'
          obtain ⟨_, _, _, e2, _⟩ := h3 m hm
          exact e2 e he hxy
      · intro m hm hp
        rw [hflat] at hm
        rcases List.mem_append.mp hm with hm | hm
        · obtain ⟨e, he, hee⟩ := hcov m hm hp
          exact ⟨e, by rw [h1]; exact List.mem_append_left _ he, hee⟩
        · exact h5 m (List.mem_filter.mpr ⟨hm, by rw [hfilter]; exact hp⟩)
      · intro e he
        rw [h1] at he
        rcases List.mem_append.mp he with he | he
        · obtain ⟨g1, g2, bf, af, g3, g4⟩ := hfirst e he
          exact ⟨g1, g2, bf, af ++ b, by rw [hflat, g3]; simp, g4⟩
        · rw [List.mem_map] at he
          obtain ⟨m, hm, rfl⟩ := he
          obtain ⟨bf, af, e1, e2, e3⟩ := h3 m hm
          have hmf : m ∈ b.filter fun m => State.lt .preUnsat m.state := by rw [e1]; simp
          have hmp : m.state.isProblem = true := by
            rw [← hfilter]; exact (List.mem_filter.mp hmf).2
          -- the first occurrence in the unfiltered batch
          obtain ⟨bf', af', e1', e3'⟩ : ∃ bf' af', b = bf' ++ m :: af' ∧
              (bf'.filter fun m => State.lt .preUnsat m.state) = bf := by
            have hsplit := e1
            rw [List.filter_eq_append_iff] at hsplit
            obtain ⟨l1, l2, hb, hl1, hl2⟩ := hsplit
            rw [List.filter_eq_cons_iff] at hl2
            obtain ⟨p, q, hl2, hp1, _, hq⟩ := hl2
            refine ⟨l1 ++ p, q, by rw [hb, hl2]; simp, ?_⟩
            rw [List.filter_append, hl1, List.filter_eq_nil_iff.mpr hp1, List.append_nil]
          refine ⟨rfl, hmp, done.flatten ++ bf', af', by rw [hflat, e1']; simp, ?_⟩
          intro x hx hxp
          dsimp only
          rcases List.mem_append.mp hx with hx | hx
          · obtain ⟨e, he, hee⟩ := hcov x hx hxp
            rw [← hee]
            exact e2 e he
          · apply e3
            rw [← e3']
            exact List.mem_filter.mpr ⟨hx, by rw [hfilter]; exact hxp⟩
  have := key batches [] [] ⟨by simp, by simp, by simp⟩
  simpa [watchBatches] using this

example : (watchBatches [[(⟨.confirmed, [], 1, 7, 0⟩ : Msg Nat), ⟨.postFail, ['a'], 1, 7, 0⟩], [⟨.execErr, ['b'], 1, 7, 3⟩, ⟨.execErr, ['c'], 2, 7, 3⟩]]).map
    (fun e => (e.1, e.2.text)) = [((1, 7), ['a']), ((2, 7), ['c'])] := by decide

/-- C11: the effort of successive passes doubles until its cap: it never decreases and reaches the cap. -/
theorem watchLimit_exact (initial k : Nat) (h : initial ≤ 100000000) :
    watchLimit initial k = min (initial * 2 ^ k) 100000000 := by
  induction k with
  | zero => rw [watchLimit, Nat.pow_zero, Nat.mul_one]; omega
  | succ k ih =>
    have : initial * 2 ^ (k + 1) = initial * 2 ^ k * 2 := by rw [Nat.pow_succ, Nat.mul_assoc]
    rw [watchLimit, ih, this]; omega

example : watchLimit 5 3 = 40 := by decide

/-! ### C50: `diffbehavior` and `search` -/

/-- C50: `diffbehavior` ends with 2 if a function cannot be loaded or compared, with 0 if no differences are reported, and
with 1 if some are; all of them are printed. -/
theorem diff_exit (load1 load2 : Bool) (diffs : Option Nat) :
    ((diffExit load1 load2 diffs).2 = 2 ↔ load1 = false ∨ load2 = false ∨ diffs = none) ∧
    ((diffExit load1 load2 diffs).2 = 0 ↔ load1 = true ∧ load2 = true ∧ diffs = some 0) ∧
    ((diffExit load1 load2 diffs).2 = 1 ↔ load1 = true ∧ load2 = true ∧ ∃ n, diffs = some (n + 1)) ∧
    (∀ n, load1 = true → load2 = true → diffs = some n → (diffExit load1 load2 diffs).1 = n) := by
  unfold diffExit
  cases load1 <;> cases load2 <;> rcases diffs with _ | _ | n <;> simp

example : diffExit true true (some 3) = (3, 1) := by decide

/-- C50: `search` ends with 2 if the function or the formatter cannot be loaded, with 1 if no input was found, and with 0
if one was; it prints all inputs found, or the last. -/
theorem search_exit {E : Type} (load : Bool) (formatter : Option Bool) (all : Bool) (examples : List E) :
    ((searchExit load formatter all examples).2 = 2 ↔ load = false ∨ formatter = some false) ∧
    ((searchExit load formatter all examples).2 = 1 ↔ load = true ∧ formatter ≠ some false ∧ examples = []) ∧
    ((searchExit load formatter all examples).2 = 0 ↔ load = true ∧ formatter ≠ some false ∧ examples ≠ []) ∧
    ((searchExit load formatter all examples).2 = 0 → (searchExit load formatter all examples).1 =
      if all then examples else examples.getLast?.toList) := by
  have hfold : ∀ (l : List E) (a : Option E), l.foldl (fun _ e => some e) a = l.getLast?.or a := by
    intro l
    induction l with
    | nil => intro a; rfl
    | cons x xs ih =>
      intro a
      rw [List.foldl_cons, ih]
      cases hx : xs.getLast? with
      | none =>
        have : xs = [] := List.getLast?_eq_none_iff.mp hx
        subst this
        rfl
      | some y =>
        rw [List.getLast?_cons, hx]
        rfl
  unfold searchExit
  cases load with
  | false => simp
  | true =>
    by_cases hf : formatter = some false
    · simp [hf]
    · simp only [hf, if_false, hfold, Option.or_none]
      cases hl : examples.getLast? with
      | none =>
        have : examples = [] := List.getLast?_eq_none_iff.mp hl
        simp [this, hf]
      | some e =>
        have : examples ≠ [] := by intro hh; rw [hh] at hl; cases hl
        cases all <;> simp [this, hf]

example : searchExit true none false [1, 2, 3] = ([3], 0) := by decide

end Verif.Report
