import Verif.Search.Lemmas
/- Helper lemmas: the tree is aligned with the program, and exhaustion is tracked exactly. -/
namespace Verif.Search
variable {W : World} {P : Prog W}

/-- Some node on the way described by a list of decisions is exhausted. -/
def exAt {E V : Type} : Tree E V → List Bool → Bool
  | t, [] => t.exhausted
  | .stem, _ :: _ => false
  | .leaf _ x, _ :: _ => x
  | .worst _ _ _ p n _ x, b :: bs => x || (if b then exAt p bs else exAt n bs)
  | .par p n _ x, b :: bs => x || (if b then exAt p bs else exAt n bs)
  | .detached c _ x, _ :: bs => x || exAt c bs

theorem exAt_of_exhausted {E V : Type} {t : Tree E V} (h : t.exhausted = true) (q) :
    exAt t q = true := by
  cases q <;> cases t <;> simp_all [exAt, Tree.exhausted]

theorem exAt_append {E V : Type} (q : List Bool) :
    ∀ (t : Tree E V) (q' : List Bool), exAt t q = true → exAt t (q ++ q') = true := by
  induction q with
  | nil => intro t q' h; exact exAt_of_exhausted (by simpa [exAt] using h) _
  | cons b bs ih =>
    intro t q' h
    cases t with
    | stem => simp [exAt] at h
    | leaf r x => simpa [exAt] using h
    | worst mv e f p n r x =>
      simp only [exAt, List.cons_append, Bool.or_eq_true] at h ⊢
      refine h.imp id ?_
      split
      · exact ih _ _
      · exact ih _ _
    | par p n r x =>
      simp only [exAt, List.cons_append, Bool.or_eq_true] at h ⊢
      refine h.imp id ?_
      split
      · exact ih _ _
      · exact ih _ _
    | detached c r x =>
      simp only [exAt, List.cons_append, Bool.or_eq_true] at h ⊢
      exact h.imp id (ih _ _)

theorem finish_exhausted {E V : Type} {t : Tree E V} {a} : (finish t a).exhausted = true := by
  cases t <;> rfl

/-- After an iteration, its own path is marked. -/
theorem iter_marks (script : List (Env W)) :
    ∀ (t : Tree W.E W.V) (s : P.S) kn pc det o,
      iter P script t s kn pc det = .ok o → o.orphan = false → exAt o.tree o.trace = true := by
  induction script with
  | nil =>
    intro t s kn pc det o h _
    simp only [iter, Except.ok.injEq] at h
    subst h; exact exAt_of_exhausted finish_exhausted _
  | cons env rest ih =>
    intro t s kn pc det o h ho
    rw [iter] at h
    cases hact : P.act s with
    | done ret a =>
      simp only [hact, Except.ok.injEq] at h
      subst h; exact exAt_of_exhausted finish_exhausted _
    | abort =>
      simp only [hact, Except.ok.injEq] at h
      subst h; simp at ho
    | cap s' =>
      simp only [hact, map_ok_iff] at h
      obtain ⟨o', ho', rfl⟩ := h
      have := ih _ _ _ _ _ _ ho' ho
      exact this
    | assume e s' =>
      simp only [hact] at h
      split at h
      · exact ih _ _ _ _ _ _ h ho
      · exact absurd h (by simp)
      · exact ih _ _ _ _ _ _ h ho
    | ask e k =>
      simp only [hact] at h
      split at h
      · exact ih _ _ _ _ _ _ h ho
      · split at h
        · simp only [Except.ok.injEq] at h; subst h; exact exAt_of_exhausted finish_exhausted _
        · simp only [Except.ok.injEq] at h; subst h; exact exAt_of_exhausted finish_exhausted _
        · split at h
          · exact absurd h (by simp)
          · simp only [map_ok_iff] at h
            obtain ⟨o', ho', rfl⟩ := h
            simp [Tree.updWorst, exAt, ih _ _ _ _ _ _ ho' ho]
          · simp only [map_ok_iff] at h
            obtain ⟨o', ho', rfl⟩ := h
            simp [Tree.updWorst, exAt, ih _ _ _ _ _ _ ho' ho]
    | realize y k =>
      simp only [hact] at h
      split at h
      · simp only [Except.ok.injEq] at h; subst h; exact exAt_of_exhausted finish_exhausted _
      · simp only [Except.ok.injEq] at h; subst h; exact exAt_of_exhausted finish_exhausted _
      · exact absurd h (by simp)
      · split at h
        · exact absurd h (by simp)
        · simp only [map_ok_iff] at h
          obtain ⟨o', ho', rfl⟩ := h
          simp [Tree.updWorst, exAt, ih _ _ _ _ _ _ ho' ho]
        · simp only [map_ok_iff] at h
          obtain ⟨o', ho', rfl⟩ := h
          simp [Tree.updWorst, exAt, ih _ _ _ _ _ _ ho' ho]
    | fork k =>
      simp only [hact] at h
      split at h
      · simp only [Except.ok.injEq] at h; subst h; exact exAt_of_exhausted finish_exhausted _
      · split at h
        · exact absurd h (by simp)
        · simp only [map_ok_iff] at h
          obtain ⟨o', ho', rfl⟩ := h
          simp [Tree.updPar, exAt, ih _ _ _ _ _ _ ho' ho]
        · simp only [map_ok_iff] at h
          obtain ⟨o', ho', rfl⟩ := h
          simp [Tree.updPar, exAt, ih _ _ _ _ _ _ ho' ho]
    | detach s' =>
      simp only [hact] at h
      split at h
      · exact ih _ _ _ _ _ _ h ho
      · split at h
        · simp only [map_ok_iff] at h
          obtain ⟨o', ho', rfl⟩ := h
          simp [Tree.updDetached, exAt, updateResult]
        · exact ih _ _ _ _ _ _ h ho
        · simp only [Except.ok.injEq] at h; subst h
          simp at ho

theorem nodeForAsk_exAt {env : Env W} {t : Tree W.E W.V} {pc e mv f p n r x}
    (h : nodeForAsk env pc e t = .node mv f p n r x) :
    (t = .stem ∧ x = false ∧ p = .stem ∧ n = .stem ∧ r = {} ∧
      initForced (fun c => env.solve (c :: pc)) e = some f) ∨ t = .worst mv e f p n r x := by
  cases t <;> simp only [nodeForAsk, reduceCtorEq] at h
  · split at h
    · exact absurd h (by simp)
    · rename_i hf
      simp only [NodeAt.node.injEq] at h
      obtain ⟨rfl, rfl, rfl, rfl, rfl, rfl⟩ := h
      exact Or.inl ⟨rfl, rfl, rfl, rfl, rfl, hf⟩
  · split at h
    · simp only [NodeAt.node.injEq] at h
      obtain ⟨rfl, rfl, rfl, rfl, rfl, rfl⟩ := h
      rename_i he
      exact Or.inr (by rw [he])
    · exact absurd h (by simp)

theorem nodeForRealize_exAt {env : Env W} {t : Tree W.E W.V} {pc y v e f p n r x}
    (h : nodeForRealize env pc y t = .node v e f p n r x) :
    (t = .stem ∧ x = false ∧ p = .stem ∧ n = .stem ∧ r = {} ∧ e = W.eqE y v ∧
      v = env.model pc y ∧ env.solve pc = .sat ∧
      initForced (fun c => env.solve (c :: pc)) e = some f)
    ∨ t = .worst (some v) e f p n r x := by
  cases t with
  | stem =>
    simp only [nodeForRealize] at h
    split at h
    · exact absurd h (by simp)
    · exact absurd h (by simp)
    · rename_i hsat
      split at h
      · exact absurd h (by simp)
      · rename_i hf
        simp only [ModelNodeAt.node.injEq] at h
        obtain ⟨rfl, rfl, rfl, rfl, rfl, rfl, rfl⟩ := h
        exact Or.inl ⟨rfl, rfl, rfl, rfl, rfl, rfl, rfl, hsat, hf⟩
  | worst mv' e' f' p' n' r' x' =>
    cases mv' with
    | none => simp [nodeForRealize] at h
    | some v' =>
      simp only [nodeForRealize, ModelNodeAt.node.injEq] at h
      obtain ⟨rfl, rfl, rfl, rfl, rfl, rfl, rfl⟩ := h
      exact Or.inr rfl
  | leaf => simp [nodeForRealize] at h
  | par => simp [nodeForRealize] at h
  | detached => simp [nodeForRealize] at h

theorem nodeForFork_exAt {E V : Type} {t p n : Tree E V} {r x}
    (h : nodeForFork t = some (p, n, r, x)) :
    (t = .stem ∧ x = false ∧ p = .stem ∧ n = .stem ∧ r = {}) ∨ t = .par p n r x := by
  cases t <;> simp only [nodeForFork, reduceCtorEq, Option.some.injEq, Prod.mk.injEq] at h
  · obtain ⟨rfl, rfl, rfl, rfl⟩ := h
    exact Or.inl ⟨rfl, rfl, rfl, rfl, rfl⟩
  · obtain ⟨rfl, rfl, rfl, rfl⟩ := h
    exact Or.inr rfl

theorem exAt_stem {E V : Type} (q) : exAt (.stem : Tree E V) q = false := by
  cases q <;> rfl

theorem exAt_updWorst_pos {E V : Type} {mv : Option V} {e : E} {f p n r x p'}
    (h : ∀ q, exAt p q = true → exAt p' q = true) (q)
    (hq : exAt (.worst mv e f p n r x) q = true) : exAt (.updWorst mv e f p' n r x) q = true := by
  cases x with
  | true => exact exAt_of_exhausted rfl _
  | false =>
    cases q with
    | nil => simp [exAt, Tree.exhausted] at hq
    | cons b bs =>
      simp only [Tree.updWorst, exAt, Bool.or_eq_true, Bool.false_or] at hq ⊢
      right
      cases b
      · simpa using hq
      · simpa using h _ (by simpa using hq)

theorem exAt_updWorst_neg {E V : Type} {mv : Option V} {e : E} {f p n r x n'}
    (h : ∀ q, exAt n q = true → exAt n' q = true) (q)
    (hq : exAt (.worst mv e f p n r x) q = true) : exAt (.updWorst mv e f p n' r x) q = true := by
  cases x with
  | true => exact exAt_of_exhausted rfl _
  | false =>
    cases q with
    | nil => simp [exAt, Tree.exhausted] at hq
    | cons b bs =>
      simp only [Tree.updWorst, exAt, Bool.or_eq_true, Bool.false_or] at hq ⊢
      right
      cases b
      · simpa using h _ (by simpa using hq)
      · simpa using hq

theorem exAt_updPar_pos {E V : Type} {p n : Tree E V} {r x p'}
    (h : ∀ q, exAt p q = true → exAt p' q = true) (q)
    (hq : exAt (.par p n r x) q = true) : exAt (.updPar p' n r x) q = true := by
  cases x with
  | true => exact exAt_of_exhausted rfl _
  | false =>
    cases q with
    | nil => simp [exAt, Tree.exhausted] at hq
    | cons b bs =>
      simp only [Tree.updPar, exAt, Bool.or_eq_true, Bool.false_or] at hq ⊢
      right
      cases b
      · simpa using hq
      · simpa using h _ (by simpa using hq)

theorem exAt_updPar_neg {E V : Type} {p n : Tree E V} {r x n'}
    (h : ∀ q, exAt n q = true → exAt n' q = true) (q)
    (hq : exAt (.par p n r x) q = true) : exAt (.updPar p n' r x) q = true := by
  cases x with
  | true => exact exAt_of_exhausted rfl _
  | false =>
    cases q with
    | nil => simp [exAt, Tree.exhausted] at hq
    | cons b bs =>
      simp only [Tree.updPar, exAt, Bool.or_eq_true, Bool.false_or] at hq ⊢
      right
      cases b
      · simpa using h _ (by simpa using hq)
      · simpa using hq

/-- Exhausted places stay exhausted. -/
theorem iter_mono (script : List (Env W)) :
    ∀ (t : Tree W.E W.V) (s : P.S) kn pc det o,
      iter P script t s kn pc det = .ok o → ∀ q, exAt t q = true → exAt o.tree q = true := by
  induction script with
  | nil =>
    intro t s kn pc det o h q hq
    simp only [iter, Except.ok.injEq] at h
    subst h; exact exAt_of_exhausted finish_exhausted _
  | cons env rest ih =>
    intro t s kn pc det o h q hq
    rw [iter] at h
    cases hact : P.act s with
    | done ret a =>
      simp only [hact, Except.ok.injEq] at h
      subst h; exact exAt_of_exhausted finish_exhausted _
    | abort =>
      simp only [hact, Except.ok.injEq] at h
      subst h; exact hq
    | cap s' =>
      simp only [hact, map_ok_iff] at h
      obtain ⟨o', ho', rfl⟩ := h
      have := ih _ _ _ _ _ _ ho' q hq
      exact this
    | assume e s' =>
      simp only [hact] at h
      split at h
      · exact ih _ _ _ _ _ _ h q hq
      · exact absurd h (by simp)
      · exact ih _ _ _ _ _ _ h q hq
    | ask e k =>
      simp only [hact] at h
      split at h
      · exact ih _ _ _ _ _ _ h q hq
      · split at h
        · simp only [Except.ok.injEq] at h; subst h; exact exAt_of_exhausted finish_exhausted _
        · simp only [Except.ok.injEq] at h; subst h; exact exAt_of_exhausted finish_exhausted _
        · rename_i hnode
          split at h
          · exact absurd h (by simp)
          · simp only [map_ok_iff] at h
            obtain ⟨o', ho', rfl⟩ := h
            rcases nodeForAsk_exAt hnode with ⟨rfl, -⟩ | rfl
            · simp [exAt_stem] at hq
            · exact exAt_updWorst_pos (ih _ _ _ _ _ _ ho') _ hq
          · simp only [map_ok_iff] at h
            obtain ⟨o', ho', rfl⟩ := h
            rcases nodeForAsk_exAt hnode with ⟨rfl, -⟩ | rfl
            · simp [exAt_stem] at hq
            · exact exAt_updWorst_neg (ih _ _ _ _ _ _ ho') _ hq
    | realize y k =>
      simp only [hact] at h
      split at h
      · simp only [Except.ok.injEq] at h; subst h; exact exAt_of_exhausted finish_exhausted _
      · simp only [Except.ok.injEq] at h; subst h; exact exAt_of_exhausted finish_exhausted _
      · exact absurd h (by simp)
      · rename_i hnode
        split at h
        · exact absurd h (by simp)
        · simp only [map_ok_iff] at h
          obtain ⟨o', ho', rfl⟩ := h
          rcases nodeForRealize_exAt hnode with ⟨rfl, -⟩ | rfl
          · simp [exAt_stem] at hq
          · exact exAt_updWorst_pos (ih _ _ _ _ _ _ ho') _ hq
        · simp only [map_ok_iff] at h
          obtain ⟨o', ho', rfl⟩ := h
          rcases nodeForRealize_exAt hnode with ⟨rfl, -⟩ | rfl
          · simp [exAt_stem] at hq
          · exact exAt_updWorst_neg (ih _ _ _ _ _ _ ho') _ hq
    | fork k =>
      simp only [hact] at h
      split at h
      · simp only [Except.ok.injEq] at h; subst h; exact exAt_of_exhausted finish_exhausted _
      · rename_i hnode
        split at h
        · exact absurd h (by simp)
        · simp only [map_ok_iff] at h
          obtain ⟨o', ho', rfl⟩ := h
          rcases nodeForFork_exAt hnode with ⟨rfl, -⟩ | rfl
          · simp [exAt_stem] at hq
          · exact exAt_updPar_pos (ih _ _ _ _ _ _ ho') _ hq
        · simp only [map_ok_iff] at h
          obtain ⟨o', ho', rfl⟩ := h
          rcases nodeForFork_exAt hnode with ⟨rfl, -⟩ | rfl
          · simp [exAt_stem] at hq
          · exact exAt_updPar_neg (ih _ _ _ _ _ _ ho') _ hq
    | detach s' =>
      simp only [hact] at h
      split at h
      · exact ih _ _ _ _ _ _ h q hq
      · split at h
        · simp [exAt_stem] at hq
        · exact ih _ _ _ _ _ _ h q hq
        · simp only [Except.ok.injEq] at h; subst h
          exact exAt_of_exhausted rfl _

theorem capTop_exAt {E V : Type} {t : Tree E V} {q} : exAt (capTop t) q = exAt t q := by
  cases t <;> cases q <;> rfl

/-- The tree is aligned with the deterministic program `P`; `F` is a fact about every fork. -/
def Shape (P : Prog W) (F : Option Bool → W.E → List (W.E × Bool) → Prop) :
    Tree W.E W.V → P.S → List (W.E × Bool) → List (W.E × Bool) → Prop
  | .stem, _, _, _ => True
  | .leaf _ x, _, _, _ => x = true
  | .worst mv e f p n _ x, s, kn, pc =>
    x = true ∨ (worstIsExhausted f p n = false ∧
      ∃ s' kn' pc', Sil P s kn pc s' kn' pc' ∧ F f e pc' ∧
      ((∃ k, P.act s' = .ask e k ∧ known? kn' e = none ∧ mv = none ∧
          Shape P F p (k true) ((e, true) :: kn') ((e, true) :: pc') ∧
          Shape P F n (k false) ((e, false) :: kn') ((e, false) :: pc')) ∨
       (∃ y k v, P.act s' = .realize y k ∧ mv = some v ∧ e = W.eqE y v ∧
          Shape P F p (k v) kn' ((e, true) :: pc') ∧
          Shape P F n s' kn' ((e, false) :: pc'))))
  | .par p n _ x, s, kn, pc =>
    x = true ∨ ((p.exhausted && n.exhausted) = false ∧
      ∃ s' kn' pc', Sil P s kn pc s' kn' pc' ∧
      ∃ k, P.act s' = .fork k ∧ Shape P F p (k true) kn' pc' ∧ Shape P F n (k false) kn' pc')
  | .detached _ _ x, _, _, _ => x = true

theorem shape_exhausted {F} {t : Tree W.E W.V} {s : P.S} {kn pc} (h : t.exhausted = true) :
    Shape P F t s kn pc := by
  cases t <;> simp_all [Shape, Tree.exhausted]

theorem shape_step {F} {t : Tree W.E W.V} {s kn pc s1 kn1 pc1}
    (h : Step1 P s kn pc s1 kn1 pc1) : Shape P F t s kn pc ↔ Shape P F t s1 kn1 pc1 := by
  cases t with
  | stem => simp [Shape]
  | leaf r x => simp [Shape]
  | detached c r x => simp [Shape]
  | worst mv e f p n r x =>
    simp only [Shape]
    refine or_congr_right (and_congr_right fun _ => ⟨?_, ?_⟩)
    · rintro ⟨s', kn', pc', hs, hf, hd⟩
      refine ⟨s', kn', pc', sil_inv h hs ?_, hf, hd⟩
      rcases hd with ⟨k, ha, hkn, _⟩ | ⟨y, k, v, ha, _⟩
      · exact not_step_ask ha hkn
      · exact not_step_realize ha
    · rintro ⟨s', kn', pc', hs, hf, hd⟩
      exact ⟨s', kn', pc', .step h hs, hf, hd⟩
  | par p n r x =>
    simp only [Shape]
    refine or_congr_right (and_congr_right fun _ => ⟨?_, ?_⟩)
    · rintro ⟨s', kn', pc', hs, k, ha, hd⟩
      exact ⟨s', kn', pc', sil_inv h hs (not_step_fork ha), k, ha, hd⟩
    · rintro ⟨s', kn', pc', hs, hd⟩
      exact ⟨s', kn', pc', .step h hs, hd⟩

theorem worstCompute_ex {E V : Type} {f : Option Bool} {p n : Tree E V} :
    (worstCompute f p n).2 = worstIsExhausted f p n := by
  unfold worstCompute
  simp only []
  split
  · rfl
  · split
    · rfl
    · rename_i h1 h2
      have hf : f = none := by
        cases f with
        | none => rfl
        | some b => cases b <;> simp_all
      subst hf
      simp only [mergeNodeResults, worstIsExhausted]
      split <;> cases p.exhausted <;> cases n.exhausted <;> rfl

theorem parCompute_ex {E V : Type} {p n : Tree E V} (h : (parCompute p n).2 = false) :
    (p.exhausted && n.exhausted) = false := by
  unfold parCompute at h
  split at h
  · simp at h
  · split at h
    · simp at h
    · cases hp : p.exhausted <;> cases hn : n.exhausted <;> simp
      simp only [mergeNodeResults, hp, hn] at h
      split at h <;> simp at h

/-- The choice at an open node goes to an open child, and the assertion in `choose` holds. -/
theorem worstChoose_open {E V : Type} {f : Option Bool} {p n : Tree E V} {c : Bool}
    (h : worstIsExhausted f p n = false) :
    ∃ b, worstChoose f p n c = some b ∧ (if b then p else n).exhausted = false := by
  unfold worstIsExhausted at h
  unfold worstChoose
  cases f with
  | some b => cases b <;> simp_all
  | none =>
    unfold binChoose
    cases hp : p.exhausted <;> cases hn : n.exhausted <;> cases c <;> simp_all

theorem binChoose_open {E V : Type} {p n : Tree E V} {c : Bool}
    (h : (p.exhausted && n.exhausted) = false) :
    ∃ b, binChoose p n c = some b ∧ (if b then p else n).exhausted = false := by
  unfold binChoose
  cases hp : p.exhausted <;> cases hn : n.exhausted <;> cases c <;> simp_all

/-- The fact `F` is established whenever a fork is created. -/
def FactOK (F : Option Bool → W.E → List (W.E × Bool) → Prop) (env : Env W) : Prop :=
  ∀ pc e f, initForced (fun c => env.solve (c :: pc)) e = some f → F f e pc

theorem nodeForAsk_shape {F} {env : Env W} (hF : FactOK F env) {t : Tree W.E W.V} {s : P.S}
    {kn pc e k} (ho : t.exhausted = false) (hg : Shape P F t s kn pc)
    (ha : P.act s = .ask e k) (hk : known? kn e = none) :
    nodeForAsk env pc e t = .unknownSat ∨
    ∃ f p n r, nodeForAsk env pc e t = .node none f p n r false ∧ F f e pc ∧
      worstIsExhausted f p n = false ∧
      Shape P F p (k true) ((e, true) :: kn) ((e, true) :: pc) ∧
      Shape P F n (k false) ((e, false) :: kn) ((e, false) :: pc) ∧
      (t = .stem → p = .stem ∧ n = .stem) ∧
      (∀ b q, exAt t (b :: q) = if b then exAt p q else exAt n q) := by
  cases t with
  | stem =>
    simp only [nodeForAsk]
    cases hf : initForced (fun c => env.solve (c :: pc)) e with
    | none => exact Or.inl rfl
    | some f =>
      refine Or.inr ⟨f, .stem, .stem, {}, rfl, hF _ _ _ hf, ?_, trivial, trivial, fun _ => ⟨rfl, rfl⟩,
        ?_⟩
      · simp [worstIsExhausted, Tree.exhausted]
      · intro b q; cases b <;> simp [exAt_stem]
  | worst mv e' f p n r x =>
    simp only [Tree.exhausted] at ho
    subst ho
    obtain ⟨hw, s', kn', pc', hsil, hf, hd⟩ := hg.resolve_left (by simp)
    have hns : ∀ a b c, ¬ Step1 P s kn pc a b c := not_step_ask ha hk
    obtain ⟨rfl, rfl, rfl⟩ := sil_stuck hsil hns
    rcases hd with ⟨k', ha', hkn, hmv, hp, hn⟩ | ⟨y, k', v, ha', _⟩
    · rw [ha] at ha'
      simp only [Action.ask.injEq] at ha'
      obtain ⟨rfl, rfl⟩ := ha'
      subst hmv
      refine Or.inr ⟨f, p, n, r, by simp [nodeForAsk], hf, hw, hp, hn, by simp, ?_⟩
      intro b q; simp [exAt]
    · rw [ha] at ha'; simp at ha'
  | leaf r x =>
    have hx : x = true := hg
    subst hx; simp [Tree.exhausted] at ho
  | par p n r x =>
    simp only [Tree.exhausted] at ho
    subst ho
    obtain ⟨-, s', kn', pc', hsil, k', ha', -⟩ := hg.resolve_left (by simp)
    obtain ⟨rfl, rfl, rfl⟩ := sil_stuck hsil (not_step_ask ha hk)
    rw [ha] at ha'; simp at ha'
  | detached c r x =>
    have hx : x = true := hg
    subst hx; simp [Tree.exhausted] at ho

theorem nodeForRealize_shape {F} {env : Env W} (hF : FactOK F env) {t : Tree W.E W.V} {s : P.S}
    {kn pc y k} (ho : t.exhausted = false) (hg : Shape P F t s kn pc)
    (ha : P.act s = .realize y k) :
    nodeForRealize env pc y t = .unknownSat ∨
    nodeForRealize env pc y t = .internalError ∨
    ∃ v f p n r, nodeForRealize env pc y t = .node v (W.eqE y v) f p n r false ∧
      F f (W.eqE y v) pc ∧
      worstIsExhausted f p n = false ∧
      Shape P F p (k v) kn ((W.eqE y v, true) :: pc) ∧
      Shape P F n s kn ((W.eqE y v, false) :: pc) ∧
      (t = .stem → p = .stem ∧ n = .stem) ∧
      (∀ b q, exAt t (b :: q) = if b then exAt p q else exAt n q) := by
  cases t with
  | stem =>
    simp only [nodeForRealize]
    cases hsat : env.solve pc with
    | unknown => exact Or.inl rfl
    | unsat => exact Or.inr (Or.inl rfl)
    | sat =>
      cases hf : initForced (fun c => env.solve (c :: pc)) (W.eqE y (env.model pc y)) with
      | none => exact Or.inl (by simp)
      | some f =>
        refine Or.inr (Or.inr ⟨env.model pc y, f, .stem, .stem, {}, by simp, hF _ _ _ hf, ?_,
          trivial, trivial, fun _ => ⟨rfl, rfl⟩, ?_⟩)
        · simp [worstIsExhausted, Tree.exhausted]
        · intro b q; cases b <;> simp [exAt_stem]
  | worst mv e' f p n r x =>
    simp only [Tree.exhausted] at ho
    subst ho
    obtain ⟨hw, s', kn', pc', hsil, hf, hd⟩ := hg.resolve_left (by simp)
    obtain ⟨rfl, rfl, rfl⟩ := sil_stuck hsil (not_step_realize ha)
    rcases hd with ⟨k', ha', _⟩ | ⟨y', k', v, ha', hmv, he, hp, hn⟩
    · rw [ha] at ha'; simp at ha'
    · rw [ha] at ha'
      simp only [Action.realize.injEq] at ha'
      obtain ⟨rfl, rfl⟩ := ha'
      subst hmv
      subst he
      refine Or.inr (Or.inr ⟨v, f, p, n, r, by simp [nodeForRealize], hf, hw, hp, hn, by simp, ?_⟩)
      intro b q; simp [exAt]
  | leaf r x =>
    have hx : x = true := hg
    subst hx; simp [Tree.exhausted] at ho
  | par p n r x =>
    simp only [Tree.exhausted] at ho
    subst ho
    obtain ⟨-, s', kn', pc', hsil, k', ha', -⟩ := hg.resolve_left (by simp)
    obtain ⟨rfl, rfl, rfl⟩ := sil_stuck hsil (not_step_realize ha)
    rw [ha] at ha'; simp at ha'
  | detached c r x =>
    have hx : x = true := hg
    subst hx; simp [Tree.exhausted] at ho

theorem nodeForFork_shape {F} {t : Tree W.E W.V} {s : P.S}
    {kn pc k} (ho : t.exhausted = false) (hg : Shape P F t s kn pc) (ha : P.act s = .fork k) :
    ∃ p n r, nodeForFork t = some (p, n, r, false) ∧
      (p.exhausted && n.exhausted) = false ∧
      Shape P F p (k true) kn pc ∧ Shape P F n (k false) kn pc ∧
      (t = .stem → p = .stem ∧ n = .stem) ∧
      (∀ b q, exAt t (b :: q) = if b then exAt p q else exAt n q) := by
  cases t with
  | stem =>
    refine ⟨.stem, .stem, {}, rfl, by simp [Tree.exhausted], trivial, trivial,
      fun _ => ⟨rfl, rfl⟩, ?_⟩
    intro b q; cases b <;> simp [exAt_stem]
  | worst mv e' f p n r x =>
    simp only [Tree.exhausted] at ho
    subst ho
    obtain ⟨hw, s', kn', pc', hsil, hf, hd⟩ := hg.resolve_left (by simp)
    obtain ⟨rfl, rfl, rfl⟩ := sil_stuck hsil (not_step_fork ha)
    rcases hd with ⟨k', ha', _⟩ | ⟨y', k', v, ha', _⟩
    · rw [ha] at ha'; simp at ha'
    · rw [ha] at ha'; simp at ha'
  | leaf r x =>
    have hx : x = true := hg
    subst hx; simp [Tree.exhausted] at ho
  | par p n r x =>
    simp only [Tree.exhausted] at ho
    subst ho
    obtain ⟨hb, s', kn', pc', hsil, k', ha', hp, hn⟩ := hg.resolve_left (by simp)
    obtain ⟨rfl, rfl, rfl⟩ := sil_stuck hsil (not_step_fork ha)
    rw [ha] at ha'
    simp only [Action.fork.injEq] at ha'
    subst ha'
    refine ⟨p, n, r, rfl, hb, hp, hn, by simp, ?_⟩
    intro b q; simp [exAt]
  | detached c r x =>
    have hx : x = true := hg
    subst hx; simp [Tree.exhausted] at ho

/-- What one iteration from an open place guarantees. -/
def After (P : Prog W) (F : Option Bool → W.E → List (W.E × Bool) → Prop) (t : Tree W.E W.V) (s : P.S) (kn pc : List (W.E × Bool)) (det : Bool) :
    Except Err (Out W.E W.V) → Prop
  | .error e => e ≠ .assertion
  | .ok o => (det = false → Shape P F o.tree s kn pc) ∧ exAt t o.trace = false ∧
      (Reach P s o.leaf ∧ o.orphan = false ∨
        o.leaf = .unknown ∧ (o.orphan = true → ∃ s, P.act s = .abort))

theorem After.silent {F} {t : Tree W.E W.V} {s s1 : P.S} {kn pc kn1 pc1 det r}
    (hst : Step1 P s kn pc s1 kn1 pc1) (hr : ∀ a, Reach P s1 a → Reach P s a)
    (h : After P F t s1 kn1 pc1 det r) : After P F t s kn pc det r := by
  cases r with
  | error e => exact h
  | ok o => exact ⟨fun hd => (shape_step hst).2 (h.1 hd), h.2.1, h.2.2.imp (fun h => ⟨hr _ h.1, h.2⟩) id⟩

theorem shape_updWorst {F} {mv : Option W.V} {e : W.E} {f p n r} {s : P.S} {kn pc}
    (h : worstIsExhausted f p n = false → Shape P F (.worst mv e f p n r false) s kn pc) :
    Shape P F (.updWorst mv e f p n r false) s kn pc := by
  unfold Tree.updWorst
  rw [updateResult_false]
  cases hx : (worstCompute f p n).2 with
  | true => exact Or.inl hx
  | false =>
    rw [worstCompute_ex] at hx
    have := (h hx).resolve_left (by simp)
    exact Or.inr this

theorem shape_updPar {F} {p n : Tree W.E W.V} {r} {s : P.S} {kn pc}
    (h : (p.exhausted && n.exhausted) = false → Shape P F (.par p n r false) s kn pc) :
    Shape P F (.updPar p n r false) s kn pc := by
  unfold Tree.updPar
  rw [updateResult_false]
  cases hx : (parCompute p n).2 with
  | true => exact Or.inl hx
  | false => exact Or.inr ((h (parCompute_ex hx)).resolve_left (by simp))

theorem iter_after {F} (script : List (Env W)) (hF : ∀ env ∈ script, FactOK F env) :
    ∀ (t : Tree W.E W.V) (s : P.S) kn pc det, (det = true → t = .stem) → t.exhausted = false →
      Shape P F t s kn pc → After P F t s kn pc det (iter P script t s kn pc det) := by
  induction script with
  | nil =>
    intro t s kn pc det hdet ho hg
    exact ⟨fun _ => shape_exhausted finish_exhausted, by simpa [exAt] using ho, Or.inr ⟨rfl, by simp⟩⟩
  | cons env rest ih =>
    intro t s kn pc det hdet ho hg
    have hFe : FactOK F env := hF env (by simp)
    replace ih := ih (fun e he => hF e (by simp [he]))
    have fin : ∀ a ret, (Reach P s a ∨ a = .unknown) →
        After P F t s kn pc det (.ok { tree := finish t a, leaf := a, returned := ret }) :=
      fun a ret hr => ⟨fun _ => shape_exhausted finish_exhausted, by simpa [exAt] using ho,
        hr.imp (fun h => ⟨h, rfl⟩) (fun h => ⟨h, by simp⟩)⟩
    rw [iter]
    cases hact : P.act s with
    | done ret a => simp only []; exact fin a ret (Or.inl (.done hact))
    | abort =>
      simp only []
      exact ⟨fun _ => hg, by simpa [exAt] using ho, Or.inr ⟨rfl, fun _ => ⟨s, hact⟩⟩⟩
    | cap s' =>
      simp only []
      have hst : Step1 P s kn pc s' kn pc := .cap hact
      have h := (ih t s' kn pc det hdet ho ((shape_step hst).1 hg)).silent hst
        (fun _ => .cap hact)
      cases hi : iter P rest t s' kn pc det with
      | error e => rw [hi] at h; exact h
      | ok o => rw [hi] at h; exact h
    | assume e s' =>
      simp only []
      split
      · rename_i hkn
        have hst : Step1 P s kn pc s' kn pc := .assumeK hact hkn
        exact (ih _ _ _ _ _ hdet ho ((shape_step hst).1 hg)).silent hst (fun _ => .assume hact)
      · simp [After]
      · rename_i hkn
        have hst : Step1 P s kn pc s' _ _ := .assumeN hact hkn
        exact (ih _ _ _ _ _ hdet ho ((shape_step hst).1 hg)).silent hst (fun _ => .assume hact)
    | ask e k =>
      simp only []
      split
      · rename_i b hkn
        have hst : Step1 P s kn pc (k b) kn pc := .known hact hkn
        exact (ih _ _ _ _ _ hdet ho ((shape_step hst).1 hg)).silent hst (fun _ => .ask _ hact)
      · rename_i hkn
        rcases nodeForAsk_shape hFe ho hg hact hkn with hn | ⟨f, p, n, r, hn, hf, hw, hsp, hsn, hst, hex⟩
        · rw [hn]; exact fin _ _ (Or.inr rfl)
        · rw [hn]
          simp only []
          obtain ⟨b, hb, hbo⟩ := worstChoose_open (c := env.coin) hw
          rw [hb]
          cases b with
          | true =>
            simp only [if_true] at hbo
            have h := ih p (k true) ((e, true) :: kn) ((e, true) :: pc) det
              (fun hd => (hst (hdet hd)).1) hbo hsp
            simp only []
            cases hi : iter P rest p (k true) ((e, true) :: kn) ((e, true) :: pc) det with
            | error e => rw [hi] at h; exact h
            | ok o =>
              rw [hi] at h
              obtain ⟨h1, h2, h3⟩ := h
              refine ⟨fun hd => shape_updWorst fun hx => Or.inr ⟨hx, s, kn, pc, .refl, hf, Or.inl
                ⟨k, hact, hkn, rfl, h1 hd, hsn⟩⟩, ?_, h3.imp (fun h => ⟨.ask _ hact h.1, h.2⟩) id⟩
              simp [hex, h2]
          | false =>
            simp only [Bool.false_eq_true, if_false] at hbo
            have h := ih n (k false) ((e, false) :: kn) ((e, false) :: pc) det
              (fun hd => (hst (hdet hd)).2) hbo hsn
            simp only []
            cases hi : iter P rest n (k false) ((e, false) :: kn) ((e, false) :: pc) det with
            | error e => rw [hi] at h; exact h
            | ok o =>
              rw [hi] at h
              obtain ⟨h1, h2, h3⟩ := h
              refine ⟨fun hd => shape_updWorst fun hx => Or.inr ⟨hx, s, kn, pc, .refl, hf, Or.inl
                ⟨k, hact, hkn, rfl, hsp, h1 hd⟩⟩, ?_, h3.imp (fun h => ⟨.ask _ hact h.1, h.2⟩) id⟩
              simp [hex, h2]
    | realize y k =>
      simp only []
      rcases nodeForRealize_shape hFe ho hg hact with hn | hn | ⟨v, f, p, n, r, hn, hf, hw, hsp, hsn, hst, hex⟩
      · rw [hn]; exact fin _ _ (Or.inr rfl)
      · rw [hn]; simp [After]
      · rw [hn]
        simp only []
        obtain ⟨b, hb, hbo⟩ := worstChoose_open (c := env.coin) hw
        rw [hb]
        cases b with
        | true =>
          simp only [if_true] at hbo
          have h := ih p (k v) kn ((W.eqE y v, true) :: pc) det
            (fun hd => (hst (hdet hd)).1) hbo hsp
          simp only []
          cases hi : iter P rest p (k v) kn ((W.eqE y v, true) :: pc) det with
          | error e => rw [hi] at h; exact h
          | ok o =>
            rw [hi] at h
            obtain ⟨h1, h2, h3⟩ := h
            refine ⟨fun hd => shape_updWorst fun hx => Or.inr ⟨hx, s, kn, pc, .refl, hf, Or.inr
              ⟨y, k, v, hact, rfl, rfl, h1 hd, hsn⟩⟩, ?_, h3.imp (fun h => ⟨.realize _ hact h.1, h.2⟩) id⟩
            simp [hex, h2]
        | false =>
          simp only [Bool.false_eq_true, if_false] at hbo
          have h := ih n s kn ((W.eqE y v, false) :: pc) det
            (fun hd => (hst (hdet hd)).2) hbo hsn
          simp only []
          cases hi : iter P rest n s kn ((W.eqE y v, false) :: pc) det with
          | error e => rw [hi] at h; exact h
          | ok o =>
            rw [hi] at h
            obtain ⟨h1, h2, h3⟩ := h
            refine ⟨fun hd => shape_updWorst fun hx => Or.inr ⟨hx, s, kn, pc, .refl, hf, Or.inr
              ⟨y, k, v, hact, rfl, rfl, hsp, h1 hd⟩⟩, ?_, h3⟩
            simp [hex, h2]
    | fork k =>
      simp only []
      obtain ⟨p, n, r, hn, hw, hsp, hsn, hst, hex⟩ := nodeForFork_shape ho hg hact
      rw [hn]
      simp only []
      obtain ⟨b, hb, hbo⟩ := binChoose_open (c := env.coin) hw
      rw [hb]
      cases b with
      | true =>
        simp only [if_true] at hbo
        have h := ih p (k true) kn pc det (fun hd => (hst (hdet hd)).1) hbo hsp
        simp only []
        cases hi : iter P rest p (k true) kn pc det with
        | error e => rw [hi] at h; exact h
        | ok o =>
          rw [hi] at h
          obtain ⟨h1, h2, h3⟩ := h
          refine ⟨fun hd => shape_updPar fun hx => Or.inr ⟨hx, s, kn, pc, .refl, k, hact, h1 hd, hsn⟩,
            ?_, h3.imp (fun h => ⟨.fork _ hact h.1, h.2⟩) id⟩
          simp [hex, h2]
      | false =>
        simp only [Bool.false_eq_true, if_false] at hbo
        have h := ih n (k false) kn pc det (fun hd => (hst (hdet hd)).2) hbo hsn
        simp only []
        cases hi : iter P rest n (k false) kn pc det with
        | error e => rw [hi] at h; exact h
        | ok o =>
          rw [hi] at h
          obtain ⟨h1, h2, h3⟩ := h
          refine ⟨fun hd => shape_updPar fun hx => Or.inr ⟨hx, s, kn, pc, .refl, k, hact, hsp, h1 hd⟩,
            ?_, h3.imp (fun h => ⟨.fork _ hact h.1, h.2⟩) id⟩
          simp [hex, h2]
    | detach s' =>
      simp only []
      cases det with
      | true =>
        simp only [if_true]
        have ht := hdet rfl
        subst ht
        have h := ih .stem s' kn pc true (fun _ => rfl) rfl trivial
        cases hi : iter P rest .stem s' kn pc true with
        | error e => rw [hi] at h; exact h
        | ok o =>
          rw [hi] at h
          exact ⟨by simp, h.2.1, h.2.2.imp (fun h => ⟨.detach hact h.1, h.2⟩) id⟩
      | false =>
        simp only [Bool.false_eq_true, if_false]
        cases t with
        | stem =>
          simp only []
          have h := ih .stem s' kn pc true (fun _ => rfl) rfl trivial
          cases hi : iter P rest .stem s' kn pc true with
          | error e => rw [hi] at h; exact h
          | ok o =>
            rw [hi] at h
            exact ⟨fun _ => rfl, exAt_stem _, h.2.2.imp (fun h => ⟨.detach hact h.1, h.2⟩) id⟩
        | leaf r x =>
          have hx : x = true := hg
          subst hx; simp [Tree.exhausted] at ho
        | detached c r x =>
          have hx : x = true := hg
          subst hx; simp [Tree.exhausted] at ho
        | worst mv e' f p n r x =>
          simp only [Tree.exhausted] at ho
          subst ho
          obtain ⟨hw, s1, kn', pc', hsil, hf, hd⟩ := hg.resolve_left (by simp)
          have hns : ∀ a b c, ¬ Step1 P s kn pc a b c := by
            intro a b c h; cases h <;> simp_all
          obtain ⟨rfl, rfl, rfl⟩ := sil_stuck hsil hns
          rcases hd with ⟨k', ha', _⟩ | ⟨y', k', v, ha', _⟩
          · rw [hact] at ha'; simp at ha'
          · rw [hact] at ha'; simp at ha'
        | par p n r x =>
          simp only [Tree.exhausted] at ho
          subst ho
          obtain ⟨-, s1, kn', pc', hsil, k', ha', -⟩ := hg.resolve_left (by simp)
          have hns : ∀ a b c, ¬ Step1 P s kn pc a b c := by
            intro a b c h; cases h <;> simp_all
          obtain ⟨rfl, rfl, rfl⟩ := sil_stuck hsil hns
          rw [hact] at ha'; simp at ha'

end Verif.Search
