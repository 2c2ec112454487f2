import Verif.Types.Lemmas

/-! Lemmas on symbolic types. -/
namespace Verif.Types

theorem pyIssub_answer (w : World) (a b : Nat) : pyIssub w a b = (w.issub a b).answer := by
  unfold pyIssub
  cases w.issub a b <;> rfl

variable {i : Interp} {w : World} {below : Nat → List Nat}

theorem getType_mono {r : Repo} {t : Nat} : r.known ⊆ (getType w r t).known := fun _ h => mem_getType.2 (.inl h)

theorem getType_self {r : Repo} {t : Nat} : t ∈ (getType w r t).known := mem_getType.2 (.inr rfl)

/-- What stays true of a symbolic type. -/
structure Ok (w : World) (s : Sym i) : Prop where
  good : Good w s.repo
  real : ∀ t, s.realization = some t → t ∈ s.repo.known ∧ s.var = i.const t
  capped : i.fn s.var (i.const s.cap) = .yes ∧ s.cap ∈ s.repo.known

/-- What a step keeps. -/
structure Keeps (s s' : Sym i) : Prop where
  var : s'.var = s.var
  known : s.repo.known ⊆ s'.repo.known
  facts : ∀ f ∈ s.repo.facts, f ∈ s'.repo.facts

theorem Keeps.refl (s : Sym i) : Keeps s s := ⟨rfl, fun _ h => h, fun _ h => h⟩

theorem Keeps.trans {a b c : Sym i} (h : Keeps a b) (k : Keeps b c) : Keeps a c :=
  ⟨k.var.trans h.var, fun _ x => k.known (h.known x), fun _ x => k.facts _ (h.facts _ x)⟩

theorem keeps_getType (s : Sym i) (t : Nat) : Keeps s { s with repo := getType w s.repo t } := ⟨rfl, getType_mono, facts_getType⟩

theorem ok_getType {s : Sym i} (h : Ok w s) (t : Nat) : Ok w { s with repo := getType w s.repo t } :=
  ⟨good_getType h.good t, fun u hu => ⟨getType_mono (h.real u hu).1, (h.real u hu).2⟩, h.capped.1, getType_mono h.capped.2⟩

theorem tryTypes_spec : ∀ (l : List Nat) (s : Sym i), Ok w s →
    Ok w (tryTypes w s l).2 ∧ Keeps s (tryTypes w s l).2 ∧ (tryTypes w s l).2.cap = s.cap ∧
      (tryTypes w s l).2.realization = s.realization ∧
      match (tryTypes w s l).1 with
      | some t => t ∈ l ∧ t ∈ (tryTypes w s l).2.repo.known ∧ s.var = i.const t
      | none => ∀ t ∈ l, s.var ≠ i.const t := by
  intro l
  induction l with
  | nil => intro s h; exact ⟨h, .refl s, rfl, rfl, by simp [tryTypes]⟩
  | cons t ts ih =>
    intro s h
    rw [tryTypes]
    by_cases hv : s.var = i.const t
    · simp only [hv, if_true]
      exact ⟨hv ▸ ok_getType h t, hv ▸ keeps_getType s t, trivial, trivial, by simp, getType_self, trivial⟩
    · simp only [hv, if_false]
      obtain ⟨h1, h2, h3, h4, h5⟩ := ih { s with repo := getType w s.repo t } (ok_getType h t)
      refine ⟨h1, (keeps_getType s t).trans h2, h3, h4, ?_⟩
      cases hr : (tryTypes w { s with repo := getType w s.repo t } ts).1 with
      | none =>
        rw [hr] at h5
        simp only at h5 ⊢
        intro u hu
        rcases List.mem_cons.1 hu with rfl | hu
        · exact hv
        · exact h5 u hu
      | some u =>
        rw [hr] at h5
        simp only at h5 ⊢
        exact ⟨List.mem_cons_of_mem _ h5.1, h5.2⟩

theorem realize_spec {s : Sym i} (h : Ok w s) :
    Ok w (realize w below s).2 ∧ Keeps s (realize w below s).2 ∧ (realize w below s).2.cap = s.cap ∧
      (∀ t, (realize w below s).1 = .ok t → t ∈ (realize w below s).2.repo.known ∧ s.var = i.const t ∧
        (realize w below s).2.realization = some t) ∧
      (realize w below s).1 ≠ .typeError := by
  unfold realize
  cases hr : s.realization with
  | some t =>
    simp only
    refine ⟨h, .refl s, trivial, ?_, by simp⟩
    intro u hu
    simp only [Ans.ok.injEq] at hu
    subst hu
    exact ⟨(h.real t hr).1, (h.real t hr).2, hr⟩
  | none =>
    simp only
    obtain ⟨h1, h2, h3, h4, h5⟩ := tryTypes_spec (w := w) (if s.cap = object then eager else below s.cap) s h
    revert h1 h2 h3 h4 h5
    generalize tryTypes w s (if s.cap = object then eager else below s.cap) = x
    obtain ⟨o, s'⟩ := x
    intro h1 h2 h3 h4 h5
    cases o with
    | none =>
      simp only at *
      exact ⟨h1, h2, h3, by intro t ht; split at ht <;> simp at ht, by split <;> simp⟩
    | some t =>
      simp only at *
      refine ⟨⟨h1.good, ?_, h1.capped⟩, ⟨h2.var, h2.known, h2.facts⟩, h3, ?_, by simp⟩
      · intro u hu
        simp only [Option.some.injEq] at hu
        subst hu
        exact ⟨h5.2.1, h2.var.trans h5.2.2⟩
      · intro u hu
        simp only [Ans.ok.injEq] at hu
        subst hu
        exact ⟨h5.2.1, h5.2.2, rfl⟩

theorem lowerCap_spec {s : Sym i} (h : Ok w s) (other : Nat) (ret : Bool)
    (hret : ret = true → i.fn s.var (i.const other) = .yes ∧ other ∈ s.repo.known) :
    Ok w (lowerCap w s other ret).2 ∧ Keeps s (lowerCap w s other ret).2 ∧
      (∀ b, (lowerCap w s other ret).1 = .ok b → b = ret) ∧
      ((lowerCap w s other ret).2.cap = s.cap ∨ (ret = true ∧ w.issub other s.cap = .yes ∧ (lowerCap w s other ret).2.cap = other)) ∧
      (lowerCap w s other ret).2.realization = s.realization ∧
      ((lowerCap w s other ret).1 = .typeError → w.issub other s.cap = .exception) := by
  unfold lowerCap
  by_cases hc : other = s.cap
  · rw [if_pos hc]; exact ⟨h, .refl s, by simp, .inl rfl, rfl, by simp⟩
  · rw [if_neg hc]
    cases hy : w.issub other s.cap with
    | exception => exact ⟨h, .refl s, by simp, .inl rfl, rfl, by simp⟩
    | no => exact ⟨h, .refl s, by simp, .inl rfl, rfl, by simp⟩
    | yes =>
      cases ret with
      | false => exact ⟨h, .refl s, by simp, .inl rfl, rfl, by simp⟩
      | true => exact ⟨⟨h.good, h.real, hret rfl⟩, ⟨rfl, fun _ x => x, fun _ x => x⟩, by simp, .inr ⟨rfl, rfl, rfl⟩, rfl, by simp⟩

/-- What follows for a later repository that the solver believes. -/
structure Later (w : World) (i : Interp) (s : Sym i) (r : Repo) : Prop where
  good : Good w r
  believes : Believes i r
  known : s.repo.known ⊆ r.known

theorem later_eq {s : Sym i} {r : Repo} (hl : Later w i s r) {a b : Nat} (ha : a ∈ r.known) (hb : b ∈ r.known)
    (h : i.const a = i.const b) : a = b := (good_exact hl.good hl.believes ha hb).1.1 h

theorem ask_spec {s : Sym i} (h : Ok w s) (q : Question) :
    Ok w (ask w below s q).2 ∧ Keeps s (ask w below s q).2 ∧
      ∀ (r : Repo) (t : Nat), Later w i (ask w below s q).2 r → t ∈ r.known → s.var = i.const t →
        (∀ b, (ask w below s q).1 = .ok b → q.truth w t = .ok b) ∧
        ((ask w below s q).1 = .typeError → q.truth w t = .typeError ∨ Excused w t q) := by
  cases q with
  | realize =>
    simp only [ask]
    obtain ⟨h1, h2, _, h3, h4⟩ := realize_spec (below := below) h
    revert h1 h2 h3 h4
    generalize realize w below s = x
    obtain ⟨a, s'⟩ := x
    intro h1 h2 h3 h4
    cases a <;> simp only at * <;> refine ⟨h1, h2, ?_⟩ <;> intro r t _ _ _ <;> simp_all [Question.truth]
  | superclassOf other =>
    simp only [ask, isSuperclassOf]
    have ho := ok_getType h other
    have hk := keeps_getType (w := w) s other
    have hs : other ∈ (getType w s.repo other).known := getType_self
    cases hf : i.fn (i.const other) s.var with
    | yes =>
      refine ⟨ho, hk, ?_⟩
      intro r t hl ht hv
      have := (good_exact hl.good hl.believes (hl.known hs) ht).2
      rw [← hv, hf] at this
      simp [Question.truth, Maybe.answer, ← this]
    | no =>
      refine ⟨ho, hk, ?_⟩
      intro r t hl ht hv
      have := (good_exact hl.good hl.believes (hl.known hs) ht).2
      rw [← hv, hf] at this
      simp [Question.truth, Maybe.answer, ← this]
    | exception =>
      obtain ⟨h1, h2, _, h3, h4⟩ := realize_spec (below := below) ho
      revert h1 h2 h3 h4
      simp only
      generalize realize w below { s with repo := getType w s.repo other } = x
      obtain ⟨a, s'⟩ := x
      intro h1 h2 h3 h4
      cases a with
      | ok u =>
        simp only at *
        refine ⟨h1, hk.trans h2, ?_⟩
        intro r t hl ht hv
        obtain ⟨hu, hvu, _⟩ := h3 u rfl
        have : u = t := later_eq hl (hl.known hu) ht (hvu.symm.trans hv)
        subst this
        exact ⟨fun _ hb => hb, .inl⟩
      | typeError => exact absurd rfl h4
      | ignored => exact ⟨h1, hk.trans h2, by intro r t _ _ _; simp⟩
      | unsupported => exact ⟨h1, hk.trans h2, by intro r t _ _ _; simp⟩
  | subclassOf other =>
    simp only [ask, isSubclassOf]
    have ho := ok_getType h other
    have hk := keeps_getType (w := w) s other
    have hs : other ∈ (getType w s.repo other).known := getType_self
    have excuse : ∀ (r : Repo) (t : Nat) (s' : Sym i), Keeps s s' → Later w i s' r → t ∈ r.known → s.var = i.const t →
        w.issub other s.cap = .exception → Excused w t (.subclassOf other) := by
      intro r t s' hks hl ht hv he
      have := (good_exact hl.good hl.believes ht (hl.known (hks.known h.capped.2))).2
      rw [← hv, h.capped.1] at this
      exact ⟨other, s.cap, rfl, this.symm, he⟩
    cases hf : i.fn s.var (i.const other) with
    | yes =>
      obtain ⟨h1, h2, h3, _, _, h6⟩ := lowerCap_spec ho other true (fun _ => ⟨hf, hs⟩)
      refine ⟨h1, hk.trans h2, ?_⟩
      intro r t hl ht hv
      refine ⟨?_, fun he => .inr (excuse r t _ (hk.trans h2) hl ht hv (h6 he))⟩
      intro b hb
      rw [h3 b hb]
      have := (good_exact hl.good hl.believes ht (hl.known (h2.known hs))).2
      rw [← hv, hf] at this
      simp [Question.truth, Maybe.answer, ← this]
    | no =>
      obtain ⟨h1, h2, h3, _, _, h6⟩ := lowerCap_spec ho other false (by simp)
      refine ⟨h1, hk.trans h2, ?_⟩
      intro r t hl ht hv
      refine ⟨?_, fun he => .inr (excuse r t _ (hk.trans h2) hl ht hv (h6 he))⟩
      intro b hb
      rw [h3 b hb]
      have := (good_exact hl.good hl.believes ht (hl.known (h2.known hs))).2
      rw [← hv, hf] at this
      simp [Question.truth, Maybe.answer, ← this]
    | exception =>
      obtain ⟨h1, h2, _, h3, h4⟩ := realize_spec (below := below) ho
      revert h1 h2 h3 h4
      simp only
      generalize realize w below { s with repo := getType w s.repo other } = x
      obtain ⟨a, s'⟩ := x
      intro h1 h2 h3 h4
      cases a with
      | ok u =>
        simp only at *
        refine ⟨h1, hk.trans h2, ?_⟩
        intro r t hl ht hv
        obtain ⟨hu, hvu, _⟩ := h3 u rfl
        have : u = t := later_eq hl (hl.known hu) ht (hvu.symm.trans hv)
        subst this
        exact ⟨fun _ hb => hb, .inl⟩
      | typeError => exact absurd rfl h4
      | ignored => exact ⟨h1, hk.trans h2, by intro r t _ _ _; simp⟩
      | unsupported => exact ⟨h1, hk.trans h2, by intro r t _ _ _; simp⟩

theorem askAll_spec : ∀ (qs : List Question) (s : Sym i), Ok w s →
    Ok w (askAll w below s qs).2 ∧ Keeps s (askAll w below s qs).2 ∧
      ∀ (r : Repo) (t : Nat), Later w i (askAll w below s qs).2 r → t ∈ r.known → s.var = i.const t →
        ∀ qa ∈ (askAll w below s qs).1, (∀ b, qa.2 = .ok b → qa.1.truth w t = .ok b) ∧
          (qa.2 = .typeError → qa.1.truth w t = .typeError ∨ Excused w t qa.1) := by
  intro qs
  induction qs with
  | nil => intro s h; exact ⟨h, .refl s, by simp [askAll]⟩
  | cons q qs ih =>
    intro s h
    obtain ⟨h1, h2, h3⟩ := ask_spec (below := below) h q
    obtain ⟨k1, k2, k3⟩ := ih _ h1
    simp only [askAll]
    refine ⟨k1, h2.trans k2, ?_⟩
    intro r t hl ht hv qa hqa
    rcases List.mem_cons.1 hqa with rfl | hqa
    · exact h3 r t ⟨hl.good, hl.believes, fun _ x => hl.known (k2.known x)⟩ ht hv
    · exact k3 r t hl ht (h2.var.trans hv) qa hqa

theorem ok_start {r : Repo} {cap : Nat} {var : i.Dom} (h : Good w r) (hc : capped cap var) : Ok w (start (i := i) w r cap var) :=
  ⟨good_getType h cap, by intro t ht; simp [start] at ht, hc, getType_self⟩

/-! ### The class is found -/

/-- What is needed for the class `t` to be found. -/
structure Finds (w : World) (t : Nat) (s : Sym i) : Prop where
  var : s.var = i.const t
  capped : w.issub t s.cap = .yes
  proper : s.cap ≠ object

theorem realize_finds {s : Sym i} {t : Nat} (hb : ∀ c x, x ∈ below c ↔ w.issub x c = .yes) (hi : Function.Injective i.const)
    (ho : Ok w s) (hf : Finds w t s) : (realize w below s).1 = .ok t := by
  have h := (realize_spec (below := below) ho).2.2.2
  have hne : ∃ u, (realize w below s).1 = .ok u := by
    unfold realize
    cases hr : s.realization with
    | some u => exact ⟨u, rfl⟩
    | none =>
      simp only [hf.proper, if_false]
      obtain ⟨_, _, _, _, h5⟩ := tryTypes_spec (w := w) (below s.cap) s ho
      revert h5
      generalize tryTypes w s (below s.cap) = x
      obtain ⟨o, s'⟩ := x
      intro h5
      cases o with
      | some u => exact ⟨u, rfl⟩
      | none => exact absurd hf.var (h5 t ((hb _ _).2 hf.capped))
  obtain ⟨u, hu⟩ := hne
  have := (h.1 u hu).2.1
  rw [hf.var] at this
  rw [hu, hi this]

theorem ask_finds {s : Sym i} {t : Nat} (htop : ∀ x, w.issub object x = .yes → x = object)
    (hfn : ∀ a b, i.fn (i.const a) (i.const b) = w.issub a b) (ho : Ok w s) (hf : Finds w t s) (q : Question) : Finds w t (ask w below s q).2 := by
  cases q with
  | realize =>
    simp only [ask]
    obtain ⟨_, h2, h3, _⟩ := realize_spec (below := below) ho
    revert h2 h3
    generalize realize w below s = x
    obtain ⟨a, s'⟩ := x
    intro h2 h3
    cases a <;> exact ⟨h2.var.trans hf.var, by rw [h3]; exact hf.capped, by rw [h3]; exact hf.proper⟩
  | superclassOf other =>
    simp only [ask, isSuperclassOf]
    cases hx : i.fn (i.const other) s.var with
    | yes => exact ⟨hf.var, hf.capped, hf.proper⟩
    | no => exact ⟨hf.var, hf.capped, hf.proper⟩
    | exception =>
      simp only
      obtain ⟨_, h2, h3, _⟩ := realize_spec (below := below) (ok_getType (w := w) ho other)
      revert h2 h3
      generalize realize w below { s with repo := getType w s.repo other } = x
      obtain ⟨a, s'⟩ := x
      intro h2 h3
      cases a <;> exact ⟨h2.var.trans hf.var, by rw [h3]; exact hf.capped, by rw [h3]; exact hf.proper⟩
  | subclassOf other =>
    simp only [ask, isSubclassOf]
    cases hx : i.fn s.var (i.const other) with
    | yes =>
      obtain ⟨_, h2, _, h4, _⟩ := lowerCap_spec (ok_getType (w := w) ho other) other true (fun _ => ⟨hx, getType_self⟩)
      have hy : w.issub t other = .yes := by rw [← hfn, ← hf.var, hx]
      refine ⟨h2.var.trans hf.var, ?_, ?_⟩
      · rcases h4 with h4 | ⟨_, _, h4⟩
        · rw [h4]; exact hf.capped
        · rw [h4]; exact hy
      · rcases h4 with h4 | ⟨_, hc, h4⟩
        · rw [h4]; exact hf.proper
        · rw [h4]
          rintro rfl
          exact hf.proper (htop _ hc)
    | no =>
      obtain ⟨_, h2, _, h4, _⟩ := lowerCap_spec (ok_getType (w := w) ho other) other false (by simp)
      have h5 : (lowerCap w { s with repo := getType w s.repo other } other false).2.cap = s.cap := by
        rcases h4 with h4 | ⟨h, _⟩
        · exact h4
        · simp at h
      exact ⟨h2.var.trans hf.var, by rw [h5]; exact hf.capped, by rw [h5]; exact hf.proper⟩
    | exception =>
      simp only
      obtain ⟨_, h2, h3, _⟩ := realize_spec (below := below) (ok_getType (w := w) ho other)
      revert h2 h3
      generalize realize w below { s with repo := getType w s.repo other } = x
      obtain ⟨a, s'⟩ := x
      intro h2 h3
      cases a <;> exact ⟨h2.var.trans hf.var, by rw [h3]; exact hf.capped, by rw [h3]; exact hf.proper⟩

theorem askAll_finds {t : Nat} (htop : ∀ x, w.issub object x = .yes → x = object)
    (hfn : ∀ a b, i.fn (i.const a) (i.const b) = w.issub a b) : ∀ (qs : List Question) (s : Sym i), Ok w s → Finds w t s →
    Finds w t (askAll w below s qs).2 := by
  intro qs
  induction qs with
  | nil => intro s _ hf; exact hf
  | cons q qs ih =>
    intro s ho hf
    simp only [askAll]
    exact ih _ (ask_spec ho q).1 (ask_finds htop hfn ho hf q)

end Verif.Types
