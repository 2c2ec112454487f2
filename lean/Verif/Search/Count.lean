import Verif.Search.Real
/- Helper lemmas: every iteration uses up one of the program's paths. -/
namespace Verif.Search
variable {W : World} {P : Prog W}

theorem PathBound.mono {s : P.S} {A : W.Inp → Prop} {n} (h : PathBound P s A n) :
    ∀ {B : W.Inp → Prop}, (∀ i, B i → A i) → PathBound P s B n := by
  induction h with
  | done ha => intro B _; exact .done ha
  | ask ha _ _ ih1 ih2 =>
    intro B hB
    exact .ask ha (ih1 fun i h => ⟨hB i h.1, h.2⟩) (ih2 fun i h => ⟨hB i h.1, h.2⟩)
  | realize vs c ha hv _ ih =>
    intro B hB
    exact .realize vs c ha (fun i h => hv i (hB i h)) fun v hm => ih v hm fun i h => ⟨hB i h.1, h.2⟩
  | fork ha _ _ ih1 ih2 => intro B hB; exact .fork ha (ih1 hB) (ih2 hB)
  | assume ha _ ih => intro B hB; exact .assume ha (ih fun i h => ⟨hB i h.1, h.2⟩)
  | cap ha _ ih => intro B hB; exact .cap ha (ih hB)
  | detach ha => intro B _; exact .detach ha

theorem PathBound.pos {s : P.S} {A : W.Inp → Prop} {n} (h : PathBound P s A n) : 1 ≤ n := by
  induction h with
  | done => exact Nat.le_refl _
  | ask _ _ _ h1 h2 => omega
  | realize => omega
  | fork _ _ _ h1 h2 => omega
  | assume _ _ ih => exact ih
  | cap _ _ ih => exact ih
  | detach => exact Nat.le_refl _

theorem PathBound.ask_inv {s : P.S} {A : W.Inp → Prop} {n e k} (h : PathBound P s A n)
    (ha : P.act s = .ask e k) : ∃ n1 n2, n = n1 + n2 ∧
      PathBound P (k true) (fun i => A i ∧ W.holds e i = true) n1 ∧
      PathBound P (k false) (fun i => A i ∧ W.holds e i = false) n2 := by
  cases h with
  | ask ha' h1 h2 =>
    rw [ha] at ha'
    simp only [Action.ask.injEq] at ha'
    obtain ⟨rfl, rfl⟩ := ha'
    exact ⟨_, _, rfl, h1, h2⟩
  | _ => simp_all

theorem PathBound.fork_inv {s : P.S} {A : W.Inp → Prop} {n k} (h : PathBound P s A n)
    (ha : P.act s = .fork k) : ∃ n1 n2, n = n1 + n2 ∧
      PathBound P (k true) A n1 ∧ PathBound P (k false) A n2 := by
  cases h with
  | fork ha' h1 h2 =>
    rw [ha] at ha'
    simp only [Action.fork.injEq] at ha'
    subst ha'
    exact ⟨_, _, rfl, h1, h2⟩
  | _ => simp_all

theorem PathBound.assume_inv {s s' : P.S} {A : W.Inp → Prop} {n e} (h : PathBound P s A n)
    (ha : P.act s = .assume e s') : PathBound P s' (fun i => A i ∧ W.holds e i = true) n := by
  cases h with
  | assume ha' h1 =>
    rw [ha] at ha'
    simp only [Action.assume.injEq] at ha'
    obtain ⟨rfl, rfl⟩ := ha'
    exact h1
  | _ => simp_all

theorem PathBound.cap_inv {s s' : P.S} {A : W.Inp → Prop} {n} (h : PathBound P s A n)
    (ha : P.act s = .cap s') : PathBound P s' A n := by
  cases h with
  | cap ha' h1 =>
    rw [ha] at ha'
    simp only [Action.cap.injEq] at ha'
    subst ha'
    exact h1
  | _ => simp_all

/-- At most `m` paths are left to explore below `t`. -/
def Rem (P : Prog W) :
    Tree W.E W.V → P.S → List (W.E × Bool) → List (W.E × Bool) → Nat → Prop
  | .stem, s, kn, pc, m => ∃ s' kn' pc' m', Sil P s kn pc s' kn' pc' ∧ m' ≤ m ∧
      PathBound P s' (fun i => Meets i pc') m'
  | .leaf _ x, _, _, _, _ => x = true
  | .worst mv e f p n _ x, s, kn, pc, m =>
    x = true ∨ (worstIsExhausted f p n = false ∧
      ∃ s' kn' pc', Sil P s kn pc s' kn' pc' ∧ ∃ mp mn, mp + mn ≤ m ∧
      ((∃ k, P.act s' = .ask e k ∧ known? kn' e = none ∧ mv = none ∧
          Rem P p (k true) ((e, true) :: kn') ((e, true) :: pc') mp ∧
          Rem P n (k false) ((e, false) :: kn') ((e, false) :: pc') mn) ∨
       (∃ y k v, P.act s' = .realize y k ∧ mv = some v ∧ e = W.eqE y v ∧
          Rem P p (k v) kn' ((e, true) :: pc') mp ∧
          Rem P n s' kn' ((e, false) :: pc') mn)))
  | .par p n _ x, s, kn, pc, m =>
    x = true ∨ ((p.exhausted && n.exhausted) = false ∧
      ∃ s' kn' pc', Sil P s kn pc s' kn' pc' ∧ ∃ mp mn, mp + mn ≤ m ∧
      ∃ k, P.act s' = .fork k ∧ Rem P p (k true) kn' pc' mp ∧ Rem P n (k false) kn' pc' mn)
  | .detached _ _ x, _, _, _, _ => x = true

theorem rem_exhausted {t : Tree W.E W.V} {s : P.S} {kn pc m} (h : t.exhausted = true) :
    Rem P t s kn pc m := by
  cases t <;> simp_all [Rem, Tree.exhausted]

theorem rem_pos : ∀ (t : Tree W.E W.V) (s : P.S) kn pc m, Rem P t s kn pc m →
    t.exhausted = false → 1 ≤ m := by
  intro t
  induction t with
  | stem =>
    rintro s kn pc m ⟨_, _, _, m', _, hm, hp⟩ _
    have := hp.pos; omega
  | leaf r x => intro s kn pc m h ho; simp_all [Rem, Tree.exhausted]
  | detached c r x => intro s kn pc m h ho; simp_all [Rem, Tree.exhausted]
  | worst mv e f p n r x ihp ihn =>
    intro s kn pc m h ho
    simp only [Tree.exhausted] at ho
    subst ho
    obtain ⟨hw, s', kn', pc', -, mp, mn, hm, hd⟩ := h.resolve_left (by simp)
    have hopen : p.exhausted = false ∨ n.exhausted = false := by
      cases hp : p.exhausted <;> cases hn : n.exhausted <;> simp_all [worstIsExhausted]
    rcases hd with ⟨k, -, -, -, h1, h2⟩ | ⟨y, k, v, -, -, -, h1, h2⟩
    · rcases hopen with h | h
      · have := ihp _ _ _ _ h1 h; omega
      · have := ihn _ _ _ _ h2 h; omega
    · rcases hopen with h | h
      · have := ihp _ _ _ _ h1 h; omega
      · have := ihn _ _ _ _ h2 h; omega
  | par p n r x ihp ihn =>
    intro s kn pc m h ho
    simp only [Tree.exhausted] at ho
    subst ho
    obtain ⟨hw, s', kn', pc', -, mp, mn, hm, k, -, h1, h2⟩ := h.resolve_left (by simp)
    have hopen : p.exhausted = false ∨ n.exhausted = false := by
      cases hp : p.exhausted <;> cases hn : n.exhausted <;> simp_all
    rcases hopen with h | h
    · have := ihp _ _ _ _ h1 h; omega
    · have := ihn _ _ _ _ h2 h; omega

theorem pathBound_step {s kn pc s1 kn1 pc1 m} (hk : kn ⊆ pc)
    (h : Step1 P s kn pc s1 kn1 pc1) (hp : PathBound P s (fun i => Meets i pc) m) :
    ∃ m' ≤ m, PathBound P s1 (fun i => Meets i pc1) m' := by
  cases h with
  | cap ha => exact ⟨_, Nat.le_refl _, hp.cap_inv ha⟩
  | known ha hkn =>
    rename_i e k b
    have hmem := hk (known_mem hkn)
    obtain ⟨n1, n2, rfl, h1, h2⟩ := hp.ask_inv ha
    cases b with
    | true => exact ⟨n1, by omega, h1.mono fun i hi => ⟨hi, hi _ hmem⟩⟩
    | false => exact ⟨n2, by omega, h2.mono fun i hi => ⟨hi, hi _ hmem⟩⟩
  | assumeK ha hkn =>
    have hmem := hk (known_mem hkn)
    exact ⟨_, Nat.le_refl _, (hp.assume_inv ha).mono fun i hi => ⟨hi, hi _ hmem⟩⟩
  | assumeN ha hkn =>
    refine ⟨_, Nat.le_refl _, (hp.assume_inv ha).mono fun i hi => ?_⟩
    rw [meets_cons] at hi
    exact ⟨hi.2, hi.1⟩

theorem rem_step {t : Tree W.E W.V} {s kn pc s1 kn1 pc1 m} (hk : kn ⊆ pc)
    (h : Step1 P s kn pc s1 kn1 pc1) : Rem P t s kn pc m ↔ Rem P t s1 kn1 pc1 m := by
  cases t with
  | stem =>
    simp only [Rem]
    constructor
    · rintro ⟨s', kn', pc', m', hs, hm, hp⟩
      cases hs with
      | refl =>
        obtain ⟨m2, hm2, hp2⟩ := pathBound_step hk h hp
        exact ⟨_, _, _, m2, .refl, by omega, hp2⟩
      | step h' hrest =>
        obtain ⟨rfl, rfl, rfl⟩ := h.det h'
        exact ⟨_, _, _, m', hrest, hm, hp⟩
    · rintro ⟨s', kn', pc', m', hs, hm, hp⟩
      exact ⟨_, _, _, m', .step h hs, hm, hp⟩
  | leaf r x => simp [Rem]
  | detached c r x => simp [Rem]
  | worst mv e f p n r x =>
    simp only [Rem]
    refine or_congr_right (and_congr_right fun _ => ⟨?_, ?_⟩)
    · rintro ⟨s', kn', pc', hs, mp, mn, hm, hd⟩
      refine ⟨s', kn', pc', sil_inv h hs ?_, mp, mn, hm, hd⟩
      rcases hd with ⟨k, ha, hkn, _⟩ | ⟨y, k, v, ha, _⟩
      · exact not_step_ask ha hkn
      · exact not_step_realize ha
    · rintro ⟨s', kn', pc', hs, hf⟩
      exact ⟨s', kn', pc', .step h hs, hf⟩
  | par p n r x =>
    simp only [Rem]
    refine or_congr_right (and_congr_right fun _ => ⟨?_, ?_⟩)
    · rintro ⟨s', kn', pc', hs, mp, mn, hm, k, ha, hd⟩
      exact ⟨s', kn', pc', sil_inv h hs (not_step_fork ha), mp, mn, hm, k, ha, hd⟩
    · rintro ⟨s', kn', pc', hs, hd⟩
      exact ⟨s', kn', pc', .step h hs, hd⟩

theorem rem_updWorst {mv : Option W.V} {e : W.E} {f p n r} {s : P.S} {kn pc m}
    (h : worstIsExhausted f p n = false → Rem P (.worst mv e f p n r false) s kn pc m) :
    Rem P (.updWorst mv e f p n r false) s kn pc m := by
  cases hw : worstIsExhausted f p n with
  | true =>
    apply rem_exhausted
    simp [Tree.updWorst, updateResult, Tree.exhausted, worstCompute_ex, hw]
  | false =>
    rcases h hw with h | h
    · simp at h
    · exact Or.inr h

theorem rem_updPar {p n : Tree W.E W.V} {r} {s : P.S} {kn pc m}
    (h : (p.exhausted && n.exhausted) = false → Rem P (.par p n r false) s kn pc m) :
    Rem P (.updPar p n r false) s kn pc m := by
  cases hx : (parCompute p n).2 with
  | true =>
    apply rem_exhausted
    simp [Tree.updPar, updateResult, Tree.exhausted, hx]
  | false =>
    rcases h (parCompute_ex hx) with h | h
    · simp at h
    · exact Or.inr h

theorem nodeForAsk_rem {env : Env W} {t : Tree W.E W.V} {s : P.S}
    {kn pc e k m} (ho : t.exhausted = false) (hg : Rem P t s kn pc m)
    (ha : P.act s = .ask e k) (hk : known? kn e = none) :
    nodeForAsk env pc e t = .unknownSat ∨
    ∃ f p n r mp mn, nodeForAsk env pc e t = .node none f p n r false ∧
      worstIsExhausted f p n = false ∧ mp + mn ≤ m ∧
      Rem P p (k true) ((e, true) :: kn) ((e, true) :: pc) mp ∧
      Rem P n (k false) ((e, false) :: kn) ((e, false) :: pc) mn := by
  cases t with
  | stem =>
    obtain ⟨s', kn', pc', m', hsil, hm, hp⟩ := hg
    obtain ⟨rfl, rfl, rfl⟩ := sil_stuck hsil (not_step_ask ha hk)
    simp only [nodeForAsk]
    cases hf : initForced (fun c => env.solve (c :: pc')) e with
    | none => exact Or.inl rfl
    | some f =>
      obtain ⟨m, n, rfl, h1, h2⟩ := hp.ask_inv ha
      refine Or.inr ⟨f, .stem, .stem, {}, m, n, rfl, by simp [worstIsExhausted, Tree.exhausted], by omega,
        ⟨_, _, _, m, .refl, Nat.le_refl _, h1.mono fun i hi => ?_⟩,
        ⟨_, _, _, n, .refl, Nat.le_refl _, h2.mono fun i hi => ?_⟩⟩
      · rw [meets_cons] at hi; exact ⟨hi.2, hi.1⟩
      · rw [meets_cons] at hi; exact ⟨hi.2, hi.1⟩
  | worst mv e' f p n r x =>
    simp only [Tree.exhausted] at ho
    subst ho
    obtain ⟨hw, s', kn', pc', hsil, mp, mn, hm, hd⟩ := hg.resolve_left (by simp)
    have hns : ∀ a b c, ¬ Step1 P s kn pc a b c := not_step_ask ha hk
    obtain ⟨rfl, rfl, rfl⟩ := sil_stuck hsil hns
    rcases hd with ⟨k', ha', hkn, hmv, hp, hn⟩ | ⟨y, k', v, ha', _⟩
    · rw [ha] at ha'
      simp only [Action.ask.injEq] at ha'
      obtain ⟨rfl, rfl⟩ := ha'
      subst hmv
      exact Or.inr ⟨f, p, n, r, mp, mn, by simp [nodeForAsk], hw, hm, hp, hn⟩
    · rw [ha] at ha'; simp at ha'
  | leaf r x =>
    have hx : x = true := hg
    subst hx; simp [Tree.exhausted] at ho
  | par p n r x =>
    simp only [Tree.exhausted] at ho
    subst ho
    obtain ⟨-, s', kn', pc', hsil, mp, mn, hm, k', ha', -⟩ := hg.resolve_left (by simp)
    obtain ⟨rfl, rfl, rfl⟩ := sil_stuck hsil (not_step_ask ha hk)
    rw [ha] at ha'; simp at ha'
  | detached c r x =>
    have hx : x = true := hg
    subst hx; simp [Tree.exhausted] at ho

theorem sum_remove {α : Type} {vs : List α} {v : α} (h : v ∈ vs) (c : α → Nat) :
    ∃ l : List α, (∀ a ∈ vs, a = v ∨ a ∈ l) ∧ (∀ a ∈ l, a ∈ vs) ∧
      c v + (l.map c).sum = (vs.map c).sum := by
  obtain ⟨a, b, rfl⟩ := List.append_of_mem h
  refine ⟨a ++ b, ?_, ?_, ?_⟩
  · intro x hx; simp at hx ⊢; rcases hx with h | h | h <;> simp [h]
  · intro x hx; simp at hx ⊢; rcases hx with h | h <;> simp [h]
  · simp; omega

theorem nodeForRealize_rem {env : Env W} (hs : env.SatSound) {t : Tree W.E W.V} {s : P.S}
    {kn pc y k m} (ho : t.exhausted = false) (hg : Rem P t s kn pc m)
    (ha : P.act s = .realize y k) :
    nodeForRealize env pc y t = .unknownSat ∨
    nodeForRealize env pc y t = .internalError ∨
    ∃ v f p n r mp mn, nodeForRealize env pc y t = .node v (W.eqE y v) f p n r false ∧
      worstIsExhausted f p n = false ∧ mp + mn ≤ m ∧
      Rem P p (k v) kn ((W.eqE y v, true) :: pc) mp ∧
      Rem P n s kn ((W.eqE y v, false) :: pc) mn := by
  cases t with
  | stem =>
    obtain ⟨s', kn', pc', m', hsil, hm, hp⟩ := hg
    obtain ⟨rfl, rfl, rfl⟩ := sil_stuck hsil (not_step_realize ha)
    simp only [nodeForRealize]
    cases hsat : env.solve pc' with
    | unknown => exact Or.inl rfl
    | unsat => exact Or.inr (Or.inl rfl)
    | sat =>
      cases hf : initForced (fun c => env.solve (c :: pc')) (W.eqE y (env.model pc' y)) with
      | none => exact Or.inl (by simp)
      | some f =>
        obtain ⟨i, hi, hv⟩ := hs _ hsat
        cases hp with
        | @realize _ _ x k' vs c ha' hvs hall =>
          rw [ha] at ha'
          simp only [Action.realize.injEq] at ha'
          obtain ⟨rfl, rfl⟩ := ha'
          have hmem : env.model pc' y ∈ vs := by rw [← hv]; exact hvs i hi
          obtain ⟨l, hl1, hl2, hsum⟩ := sum_remove hmem c
          refine Or.inr (Or.inr ⟨env.model pc' y, f, .stem, .stem, {}, c (env.model pc' y),
            1 + (l.map c).sum, by simp, by simp [worstIsExhausted, Tree.exhausted], by omega,
            ⟨_, _, _, _, .refl, Nat.le_refl _, (hall _ hmem).mono fun j hj => ?_⟩,
            ⟨_, _, _, _, .refl, Nat.le_refl _, .realize l c ha (fun j hj => ?_) (fun v hv =>
              (hall v (hl2 v hv)).mono fun j hj => ?_)⟩⟩)
          · rw [meets_cons] at hj; exact ⟨hj.2, (W.eqE_spec _ _ _).1 hj.1⟩
          · rw [meets_cons] at hj
            rcases hl1 _ (hvs j hj.2) with h | h
            · have := (W.eqE_spec y (env.model pc' y) j).2 h
              rw [this] at hj; simp at hj
            · exact h
          · obtain ⟨h1, h2⟩ := hj
            rw [meets_cons] at h1
            exact ⟨h1.2, h2⟩
        | _ => simp_all
  | worst mv e' f p n r x =>
    simp only [Tree.exhausted] at ho
    subst ho
    obtain ⟨hw, s', kn', pc', hsil, mp, mn, hm, hd⟩ := hg.resolve_left (by simp)
    obtain ⟨rfl, rfl, rfl⟩ := sil_stuck hsil (not_step_realize ha)
    rcases hd with ⟨k', ha', _⟩ | ⟨y', k', v, ha', hmv, he, hp, hn⟩
    · rw [ha] at ha'; simp at ha'
    · rw [ha] at ha'
      simp only [Action.realize.injEq] at ha'
      obtain ⟨rfl, rfl⟩ := ha'
      subst hmv
      subst he
      exact Or.inr (Or.inr ⟨v, f, p, n, r, mp, mn, by simp [nodeForRealize], hw, hm, hp, hn⟩)
  | leaf r x =>
    have hx : x = true := hg
    subst hx; simp [Tree.exhausted] at ho
  | par p n r x =>
    simp only [Tree.exhausted] at ho
    subst ho
    obtain ⟨-, s', kn', pc', hsil, mp, mn, hm, k', ha', -⟩ := hg.resolve_left (by simp)
    obtain ⟨rfl, rfl, rfl⟩ := sil_stuck hsil (not_step_realize ha)
    rw [ha] at ha'; simp at ha'
  | detached c r x =>
    have hx : x = true := hg
    subst hx; simp [Tree.exhausted] at ho

theorem nodeForFork_rem {t : Tree W.E W.V} {s : P.S}
    {kn pc k m} (ho : t.exhausted = false) (hg : Rem P t s kn pc m) (ha : P.act s = .fork k) :
    ∃ p n r mp mn, nodeForFork t = some (p, n, r, false) ∧
      (p.exhausted && n.exhausted) = false ∧ mp + mn ≤ m ∧
      Rem P p (k true) kn pc mp ∧ Rem P n (k false) kn pc mn := by
  cases t with
  | stem =>
    obtain ⟨s', kn', pc', m', hsil, hm, hp⟩ := hg
    obtain ⟨rfl, rfl, rfl⟩ := sil_stuck hsil (not_step_fork ha)
    obtain ⟨m, n, rfl, h1, h2⟩ := hp.fork_inv ha
    exact ⟨.stem, .stem, {}, m, n, rfl, by simp [Tree.exhausted], hm,
      ⟨_, _, _, _, .refl, Nat.le_refl _, h1⟩, ⟨_, _, _, _, .refl, Nat.le_refl _, h2⟩⟩
  | worst mv e' f p n r x =>
    simp only [Tree.exhausted] at ho
    subst ho
    obtain ⟨hw, s', kn', pc', hsil, mp, mn, hm, hd⟩ := hg.resolve_left (by simp)
    obtain ⟨rfl, rfl, rfl⟩ := sil_stuck hsil (not_step_fork ha)
    rcases hd with ⟨k', ha', _⟩ | ⟨y', k', v, ha', _⟩
    · rw [ha] at ha'; simp at ha'
    · rw [ha] at ha'; simp at ha'
  | leaf r x =>
    have hx : x = true := hg
    subst hx; simp [Tree.exhausted] at ho
  | par p n r x =>
    simp only [Tree.exhausted] at ho
    subst ho
    obtain ⟨hb, s', kn', pc', hsil, mp, mn, hm, k', ha', hp, hn⟩ := hg.resolve_left (by simp)
    obtain ⟨rfl, rfl, rfl⟩ := sil_stuck hsil (not_step_fork ha)
    rw [ha] at ha'
    simp only [Action.fork.injEq] at ha'
    subst ha'
    exact ⟨p, n, r, mp, mn, rfl, hb, hm, hp, hn⟩
  | detached c r x =>
    have hx : x = true := hg
    subst hx; simp [Tree.exhausted] at ho

theorem iter_rem (hna : ∀ s, P.act s ≠ .abort) (script : List (Env W))
    (hs : ∀ env ∈ script, env.SatSound) :
    ∀ (t : Tree W.E W.V) (s : P.S) kn pc m o, kn ⊆ pc → t.exhausted = false →
      Rem P t s kn pc m → iter P script t s kn pc false = .ok o →
      ∃ m' < m, Rem P o.tree s kn pc m' := by
  induction script with
  | nil =>
    intro t s kn pc m o hk ho hg h
    simp only [iter, Except.ok.injEq] at h
    subst h; exact ⟨0, rem_pos _ _ _ _ _ hg ho, rem_exhausted finish_exhausted⟩
  | cons env rest ih =>
    intro t s kn pc m o hk ho hg h
    have hse := hs env (by simp)
    replace ih := ih (fun e he => hs e (by simp [he]))
    have hpos := rem_pos _ _ _ _ _ hg ho
    rw [iter] at h
    cases hact : P.act s with
    | done ret a =>
      simp only [hact, Except.ok.injEq] at h
      subst h; exact ⟨0, hpos, rem_exhausted finish_exhausted⟩
    | abort => exact absurd hact (hna s)
    | cap s' =>
      simp only [hact, map_ok_iff] at h
      obtain ⟨o', ho', rfl⟩ := h
      have hst : Step1 P s kn pc s' kn pc := .cap hact
      obtain ⟨m', hm, h⟩ := ih _ _ _ _ _ _ hk ho ((rem_step hk hst).1 hg) ho'
      exact ⟨m', hm, (rem_step hk hst).2 h⟩
    | assume e s' =>
      simp only [hact] at h
      split at h
      · rename_i hkn
        have hst : Step1 P s kn pc s' kn pc := .assumeK hact hkn
        obtain ⟨m', hm, h⟩ := ih _ _ _ _ _ _ hk ho ((rem_step hk hst).1 hg) h
        exact ⟨m', hm, (rem_step hk hst).2 h⟩
      · exact absurd h (by simp)
      · rename_i hkn
        have hst : Step1 P s kn pc s' _ _ := .assumeN hact hkn
        obtain ⟨m', hm, h⟩ := ih _ _ _ _ _ _ (sub_cons2 hk) ho ((rem_step hk hst).1 hg) h
        exact ⟨m', hm, (rem_step hk hst).2 h⟩
    | ask e k =>
      simp only [hact] at h
      split at h
      · rename_i b hkn
        have hst : Step1 P s kn pc (k b) kn pc := .known hact hkn
        obtain ⟨m', hm, h⟩ := ih _ _ _ _ _ _ hk ho ((rem_step hk hst).1 hg) h
        exact ⟨m', hm, (rem_step hk hst).2 h⟩
      · rename_i hkn
        rcases nodeForAsk_rem (env := env) ho hg hact hkn with hn | ⟨f, p, n, r, mp, mn, hn, hw, hm, hsp, hsn⟩
        · rw [hn] at h
          simp only [Except.ok.injEq] at h
          subst h; exact ⟨0, hpos, rem_exhausted finish_exhausted⟩
        · rw [hn] at h
          simp only [] at h
          obtain ⟨b, hb, hbo⟩ := worstChoose_open (c := env.coin) hw
          rw [hb] at h
          cases b with
          | true =>
            simp only [map_ok_iff] at h
            obtain ⟨o', ho', rfl⟩ := h
            obtain ⟨m', hm', h⟩ := ih _ _ _ _ _ _ (sub_cons2 hk) hbo hsp ho'
            exact ⟨m' + mn, by omega, rem_updWorst fun hx => Or.inr ⟨hx, s, kn, pc, .refl, m', mn,
              Nat.le_refl _, Or.inl ⟨k, hact, hkn, rfl, h, hsn⟩⟩⟩
          | false =>
            simp only [map_ok_iff] at h
            obtain ⟨o', ho', rfl⟩ := h
            obtain ⟨m', hm', h⟩ := ih _ _ _ _ _ _ (sub_cons2 hk) hbo hsn ho'
            exact ⟨mp + m', by omega, rem_updWorst fun hx => Or.inr ⟨hx, s, kn, pc, .refl, mp, m',
              Nat.le_refl _, Or.inl ⟨k, hact, hkn, rfl, hsp, h⟩⟩⟩
    | realize y k =>
      simp only [hact] at h
      have hk' : ∀ c, kn ⊆ c :: pc := fun c a ha => by simp [hk ha]
      rcases nodeForRealize_rem hse ho hg hact with hn | hn | ⟨v, f, p, n, r, mp, mn, hn, hw, hm, hsp, hsn⟩
      · rw [hn] at h
        simp only [Except.ok.injEq] at h
        subst h; exact ⟨0, hpos, rem_exhausted finish_exhausted⟩
      · rw [hn] at h
        exact absurd h (by simp)
      · rw [hn] at h
        simp only [] at h
        obtain ⟨b, hb, hbo⟩ := worstChoose_open (c := env.coin) hw
        rw [hb] at h
        cases b with
        | true =>
          simp only [map_ok_iff] at h
          obtain ⟨o', ho', rfl⟩ := h
          obtain ⟨m', hm', h⟩ := ih _ _ _ _ _ _ (hk' _) hbo hsp ho'
          exact ⟨m' + mn, by omega, rem_updWorst fun hx => Or.inr ⟨hx, s, kn, pc, .refl, m', mn,
            Nat.le_refl _, Or.inr ⟨y, k, v, hact, rfl, rfl, h, hsn⟩⟩⟩
        | false =>
          simp only [map_ok_iff] at h
          obtain ⟨o', ho', rfl⟩ := h
          obtain ⟨m', hm', h⟩ := ih _ _ _ _ _ _ (hk' _) hbo hsn ho'
          exact ⟨mp + m', by omega, rem_updWorst fun hx => Or.inr ⟨hx, s, kn, pc, .refl, mp, m',
            Nat.le_refl _, Or.inr ⟨y, k, v, hact, rfl, rfl, hsp, h⟩⟩⟩
    | fork k =>
      simp only [hact] at h
      obtain ⟨p, n, r, mp, mn, hn, hw, hm, hsp, hsn⟩ := nodeForFork_rem ho hg hact
      rw [hn] at h
      simp only [] at h
      obtain ⟨b, hb, hbo⟩ := binChoose_open (c := env.coin) hw
      rw [hb] at h
      cases b with
      | true =>
        simp only [map_ok_iff] at h
        obtain ⟨o', ho', rfl⟩ := h
        obtain ⟨m', hm', h⟩ := ih _ _ _ _ _ _ hk hbo hsp ho'
        exact ⟨m' + mn, by omega, rem_updPar fun hx => Or.inr ⟨hx, s, kn, pc, .refl, m', mn,
          Nat.le_refl _, k, hact, h, hsn⟩⟩
      | false =>
        simp only [map_ok_iff] at h
        obtain ⟨o', ho', rfl⟩ := h
        obtain ⟨m', hm', h⟩ := ih _ _ _ _ _ _ hk hbo hsn ho'
        exact ⟨mp + m', by omega, rem_updPar fun hx => Or.inr ⟨hx, s, kn, pc, .refl, mp, m',
          Nat.le_refl _, k, hact, hsp, h⟩⟩
    | detach s' =>
      simp only [hact, Bool.false_eq_true, if_false] at h
      refine ⟨0, hpos, rem_exhausted ?_⟩
      cases t with
      | stem =>
        simp only [map_ok_iff] at h
        obtain ⟨o', ho', rfl⟩ := h
        rfl
      | leaf r x =>
        have hx : x = true := hg
        subst hx; simp [Tree.exhausted] at ho
      | detached c r x =>
        have hx : x = true := hg
        subst hx; simp [Tree.exhausted] at ho
      | worst mv e' f p n r x =>
        simp only [Except.ok.injEq] at h; subst h; rfl
      | par p n r x =>
        simp only [Except.ok.injEq] at h; subst h; rfl

theorem capTop_rem {t : Tree W.E W.V} {s : P.S} {kn pc m} (h : Rem P t s kn pc m) :
    Rem P (capTop t) s kn pc m := by
  cases t <;> exact h

end Verif.Search
