import Verif.Skip.Spec

namespace Verif.Skip

variable {σ α ο : Type} {sem : Nat → σ → Ret α}

theorem run_nil (p : Prog σ α ο) : ∀ s, run sem p s [] = (exec sem p s, []) := by
  induction p with
  | done out => intro s; rfl
  | write g k ih => intro s; rw [run, exec, ih]
  | call f k ih => intro s; rw [run, exec]; exact ih _ s

theorem reconcile_refuted {eq : α → α → Bool} {o o' : ο} : ∀ (as : List (Assumption σ α)), reconcile sem eq o as = .refuted o' →
    o' = o ∧ ∀ a ∈ as, ∃ w, sem a.fn a.args = .val w ∧ eq a.ret w = true := by
  intro as
  induction as with
  | nil => intro h; simp only [reconcile, Verdict.refuted.injEq] at h; exact ⟨h.symm, by simp⟩
  | cons a as ih =>
    intro h
    rw [reconcile] at h
    cases hs : sem a.fn a.args with
    | exc e => rw [hs] at h; simp at h
    | val w =>
      rw [hs] at h
      simp only at h
      by_cases he : eq a.ret w = true
      · rw [if_pos he] at h
        obtain ⟨h1, h2⟩ := ih h
        refine ⟨h1, ?_⟩
        intro b hb
        rcases List.mem_cons.1 hb with rfl | hb
        · exact ⟨w, hs, he⟩
        · exact h2 b hb
      · rw [if_neg he] at h; simp at h

theorem reconcile_all {eq : α → α → Bool} {o : ο} : ∀ (as : List (Assumption σ α)),
    (∀ a ∈ as, ∃ w, sem a.fn a.args = .val w ∧ eq a.ret w = true) → reconcile sem eq o as = .refuted o := by
  intro as
  induction as with
  | nil => intro _; rfl
  | cons a as ih =>
    intro h
    obtain ⟨w, hs, he⟩ := h a (by simp)
    rw [reconcile, hs]
    simp only [he, if_true]
    exact ih fun b hb => h b (by simp [hb])

/-- If all that was assumed is so, the outcome is the real one. -/
theorem run_exec (p : Prog σ α ο) : ∀ (s : σ) (ds : List (Decision α)), (∀ a ∈ (run sem p s ds).2, sem a.fn a.args = .val a.ret) →
    (run sem p s ds).1 = exec sem p s := by
  induction p with
  | done out => intro s ds _; rfl
  | write g k ih => intro s ds h; rw [run] at h ⊢; rw [exec]; exact ih _ _ h
  | call f k ih =>
    intro s ds h
    cases ds with
    | nil => rw [run_nil]
    | cons d ds =>
      cases d with
      | into => rw [run] at h ⊢; rw [exec]; exact ih _ _ _ h
      | skip v =>
        rw [run] at h ⊢
        simp only at h ⊢
        rw [exec]
        have h1 := h ⟨f, s, v⟩ (by simp)
        simp only at h1
        rw [h1]
        exact ih _ _ _ fun a ha => h a (List.mem_cons_of_mem _ ha)

/-- For every choice of calls to skip, there are decisions with the real values. -/
theorem real_decisions (spec : Nat → σ → α → Prop) (hspec : ∀ f s, ∃ v, sem f s = .val v ∧ spec f s v) (p : Prog σ α ο) :
    ∀ (s : σ) (choice : List Bool), ∃ ds : List (Decision α), skips ds = choice ∧ Allowed sem spec p s ds ∧
      ∀ a ∈ (run sem p s ds).2, sem a.fn a.args = .val a.ret := by
  have any : ∀ (f : Nat) (s : σ) (choice : List Bool), ∃ ds : List (Decision α), skips ds = choice := by
    intro f s choice
    obtain ⟨v, _⟩ := hspec f s
    refine ⟨choice.map fun b => if b then .skip v else .into, ?_⟩
    induction choice with
    | nil => rfl
    | cons b l ih =>
      simp only [skips, List.map_cons, List.map_map] at ih ⊢
      rw [ih]
      cases b <;> rfl
  induction p with
  | done out =>
    intro s choice
    obtain ⟨ds, hd⟩ := any 0 s choice
    exact ⟨ds, hd, trivial, by simp [run]⟩
  | write g k ih => intro s choice; exact ih (g s) choice
  | call f k ih =>
    intro s choice
    cases choice with
    | nil =>
      obtain ⟨ds, h1, h2, h3⟩ := ih (sem f s) s []
      have : ds = [] := by simpa [skips] using h1
      subst this
      exact ⟨[], rfl, h2, h3⟩
    | cons b choice =>
      cases b with
      | false =>
        obtain ⟨ds, h1, h2, h3⟩ := ih (sem f s) s choice
        exact ⟨.into :: ds, by simp [skips] at h1 ⊢; exact h1, h2, h3⟩
      | true =>
        obtain ⟨v, hv, hs⟩ := hspec f s
        obtain ⟨ds, h1, h2, h3⟩ := ih (.val v) s choice
        refine ⟨.skip v :: ds, by simp [skips] at h1 ⊢; exact h1, ⟨hs, h2⟩, ?_⟩
        intro a ha
        rw [run] at ha
        rcases List.mem_cons.1 ha with rfl | ha
        · exact hv
        · exact h3 a ha

/-! ## Decisions -/

/-- `intercept`, of flags only: `x` is whether arguments may be changed. -/
def flags (engaged inSpace specsComplete skipBody overloaded sigFound x genericReturn allSymbolic unifies forkSkips : Bool) : Action :=
  if !engaged || !inSpace then .call
  else
    let shortCircuit := (specsComplete || skipBody) && (!overloaded || sigFound)
    match (if !shortCircuit && x then some false
      else if genericReturn && !shortCircuit && !allSymbolic then some false
      else if genericReturn && !unifies then if !shortCircuit then some false else none
      else if !!shortCircuit then some true
      else some forkSkips : Option Bool) with
    | none => .unsupported
    | some hasType => if shortCircuit then .skipTrusted else if hasType then .skipChecked else .call

theorem intercept_flags (s : Situation) : intercept s = flags s.engaged s.inSpace s.specsComplete s.skipBody s.overloaded s.sigFound
    (s.mutableArgs.isNone || s.mutableArgs != some 0) s.genericReturn s.allSymbolic s.unifies s.forkSkips := rfl

/-! ## Made-up values -/

/-- The values of a function. -/
def get (l : List (Nat × List α)) (f : Nat) : List α := (l.lookup f).getD []

theorem get_appendReturn (l : List (Nat × List α)) (f : Nat) (v : α) (g : Nat) :
    get (appendReturn l f v) g = if g = f then get l f ++ [v] else get l g := by
  induction l with
  | nil =>
    simp only [appendReturn, get, List.lookup_cons, List.lookup_nil]
    by_cases h : g = f
    · subst h; simp
    · have h' : (g == f) = false := by simpa using h
      simp [h, h']
  | cons x l ih =>
    obtain ⟨k, vs⟩ := x
    rw [appendReturn]
    by_cases hk : k = f
    · rw [if_pos hk]
      subst hk
      simp only [get, List.lookup_cons] at ih ⊢
      by_cases h : g = k
      · subst h; simp
      · have h' : (g == k) = false := by simpa using h
        simp [h, h']
    · rw [if_neg hk]
      simp only [get, List.lookup_cons] at ih ⊢
      by_cases h : g = k
      · subst h; simp [hk]
      · have h' : (g == k) = false := by simpa using h
        have hk' : (f == k) = false := by simpa using fun e : f = k => hk e.symm
        simp only [h', hk']
        exact ih

theorem runTrusted_grows {trusted : Nat → Bool} {d : α} (p : Prog σ α ο) : ∀ (s : σ) (vals : List α) (l : List (Nat × List α)) (f : Nat),
    ∃ more, get (runTrusted sem trusted d p s vals l).2 f = get l f ++ more := by
  induction p with
  | done out => intro s vals l f; exact ⟨[], by simp [runTrusted]⟩
  | write g k ih => intro s vals l f; rw [runTrusted]; exact ih _ _ _ _
  | call h k ih =>
    intro s vals l f
    rw [runTrusted]
    split
    · obtain ⟨more, hm⟩ := ih (.val (vals.headD d)) s vals.tail (appendReturn l h (vals.headD d)) f
      rw [hm, get_appendReturn]
      split
      · rename_i e; subst e; exact ⟨vals.headD d :: more, by simp⟩
      · exact ⟨more, rfl⟩
    · exact ih _ _ _ _ _

/-- Taking the next value. -/
theorem takeReturn_some : ∀ (P : List (Nat × List α)) (f : Nat) (v : α) (rest : List α), get P f = v :: rest →
    ∃ P', takeReturn P f = some (some v, P') ∧ (∀ g, get P' g = if g = f then rest else get P g) ∧ P'.map (·.1) = P.map (·.1) := by
  intro P
  induction P with
  | nil => intro f v rest h; simp [get] at h
  | cons x P ih =>
    obtain ⟨k, vs⟩ := x
    intro f v rest h
    rw [takeReturn]
    by_cases hk : k = f
    · subst hk
      simp only [get, List.lookup_cons_self, Option.getD_some] at h
      subst h
      refine ⟨(k, rest) :: P, by simp, ?_, rfl⟩
      intro g
      simp only [get, List.lookup_cons]
      by_cases hg : g = k
      · subst hg; simp
      · have : (g == k) = false := by simpa using hg
        simp [this, hg]
    · have hk' : (f == k) = false := by simpa using fun e : f = k => hk e.symm
      simp only [get, List.lookup_cons, hk'] at h
      obtain ⟨P', h1, h2, h3⟩ := ih f v rest h
      refine ⟨(k, vs) :: P', by rw [if_neg hk, h1]; rfl, ?_, by simp [h3]⟩
      intro g
      have := h2 g
      simp only [get, List.lookup_cons] at this ⊢
      by_cases hg : g = k
      · subst hg; simp [hk]
      · have hg' : (g == k) = false := by simpa using hg
        simp only [hg']
        exact this

theorem takeReturn_none : ∀ (P : List (Nat × List α)) (f : Nat), f ∉ P.map (·.1) → takeReturn P f = none := by
  intro P
  induction P with
  | nil => intro f _; rfl
  | cons x P ih =>
    obtain ⟨k, vs⟩ := x
    intro f h
    simp only [List.map_cons, List.mem_cons, not_or] at h
    rw [takeReturn, if_neg (fun e => h.1 e.symm), ih f h.2]
    rfl

theorem replay_spec {trusted : Nat → Bool} {d : α} (p : Prog σ α ο) : ∀ (s : σ) (vals : List α) (l P : List (Nat × List α)),
    (∀ f, get (runTrusted sem trusted d p s vals l).2 f = get l f ++ get P f) → (∀ f, trusted f = false → f ∉ P.map (·.1)) →
    replay sem p s P = some (runTrusted sem trusted d p s vals l).1 := by
  induction p with
  | done out => intro s vals l P _ _; rfl
  | write g k ih => intro s vals l P h ht; rw [runTrusted] at h ⊢; rw [replay]; exact ih _ _ _ _ h ht
  | call f k ih =>
    intro s vals l P h ht
    rw [runTrusted] at h ⊢
    cases hf : trusted f with
    | false =>
      simp only [hf, Bool.false_eq_true, if_false] at h ⊢
      rw [replay, takeReturn_none P f (ht f hf)]
      exact ih _ _ _ _ _ h ht
    | true =>
      simp only [hf, if_true] at h ⊢
      have hgrow : ∀ g, ∃ more, get (runTrusted sem trusted d (k (.val (vals.headD d))) s vals.tail (appendReturn l f (vals.headD d))).2 g =
          get (appendReturn l f (vals.headD d)) g ++ more := fun g => runTrusted_grows _ _ _ _ _
      obtain ⟨more, hm⟩ := hgrow f
      have hP : get P f = vals.headD d :: more := by
        have := h f
        rw [hm, get_appendReturn, if_pos rfl, List.append_assoc] at this
        exact (List.append_cancel_left this).symm
      obtain ⟨P', h1, h2, h3⟩ := takeReturn_some P f _ _ hP
      rw [replay, h1]
      refine ih _ _ _ _ _ ?_ (by rw [h3]; exact ht)
      intro g
      rw [h2]
      by_cases hg : g = f
      · subst hg
        rw [if_pos rfl, hm]
      · rw [if_neg hg, h g, get_appendReturn, if_neg hg]

theorem keys_appendReturn (l : List (Nat × List α)) (f : Nat) (v : α) (g : Nat) :
    g ∈ (appendReturn l f v).map (·.1) → g = f ∨ g ∈ l.map (·.1) := by
  induction l with
  | nil => intro h; simp only [appendReturn, List.map_cons, List.map_nil, List.mem_singleton] at h; exact .inl h
  | cons x l ih =>
    obtain ⟨k, vs⟩ := x
    rw [appendReturn]
    split
    · intro h; exact .inr h
    · intro h
      simp only [List.map_cons, List.mem_cons] at h ⊢
      rcases h with h | h
      · exact .inr (.inl h)
      · rcases ih h with h | h
        · exact .inl h
        · exact .inr (.inr h)

theorem keys_runTrusted {trusted : Nat → Bool} {d : α} (p : Prog σ α ο) : ∀ (s : σ) (vals : List α) (l : List (Nat × List α)),
    (∀ g ∈ l.map (·.1), trusted g = true) → ∀ g ∈ (runTrusted sem trusted d p s vals l).2.map (·.1), trusted g = true := by
  induction p with
  | done out => intro s vals l h; exact h
  | write g k ih => intro s vals l h; rw [runTrusted]; exact ih _ _ _ h
  | call f k ih =>
    intro s vals l h
    rw [runTrusted]
    cases hf : trusted f with
    | false => simp only [Bool.false_eq_true, if_false]; exact ih _ _ _ _ h
    | true =>
      simp only [if_true]
      refine ih _ _ _ _ ?_
      intro g hg
      rcases keys_appendReturn _ _ _ _ hg with rfl | hg
      · exact hf
      · exact h g hg

end Verif.Skip
