import Verif.Search.Shape
/- Helper lemmas: paths are realised by inputs; stored results come from explored paths. -/
namespace Verif.Search
variable {W : World} {P : Prog W}

/-- Every stored result satisfies `K`. -/
def AllRes {E V : Type} (K : Analysis → Prop) : Tree E V → Prop
  | .stem => True
  | .leaf r _ => K r
  | .worst _ _ _ p n r _ => K r ∧ AllRes K p ∧ AllRes K n
  | .par p n r _ => K r ∧ AllRes K p ∧ AllRes K n
  | .detached _ r _ => K r

/-- `K` is kept by the ways results are combined. -/
structure ResClosed (K : Analysis → Prop) : Prop where
  unknown : K .unknown
  default : K {}
  merge : ∀ l r ls rs fp, l.status = some ls → r.status = some rs → K l → K r →
    K { status := some (ls.min rs), messages := l.messages ++ r.messages, failPre := fp }
  low : ∀ r s, r.status = some s → K r → K { r with status := some (s.min .unknown) }

variable {K : Analysis → Prop}

theorem AllRes.top {E V : Type} (hK : ResClosed K) {t : Tree E V} (h : AllRes K t) :
    K t.result := by
  cases t with
  | stem => exact hK.unknown
  | leaf => exact h
  | worst => exact h.1
  | par => exact h.1
  | detached => exact h

theorem finish_allRes {E V : Type} {t : Tree E V} {a} (ha : K a) (h : AllRes K t) :
    AllRes K (finish t a) := by
  cases t with
  | stem => exact ha
  | leaf => exact ha
  | worst => exact ⟨ha, h.2⟩
  | par => exact ⟨ha, h.2⟩
  | detached => exact ha

theorem merge_allRes {E V : Type} (hK : ResClosed K) {l : Analysis} {x} {n : Tree E V}
    (hl : K l) (hn : K n.result) : K (mergeNodeResults l x n).1 := by
  unfold mergeNodeResults
  simp only []
  split
  · exact hn
  · exact hl
  · exact hK.merge _ _ _ _ _ (by assumption) (by assumption) hl hn

theorem worstCompute_allRes {E V : Type} (hK : ResClosed K) {f} {p n : Tree E V}
    (hp : K p.result) (hn : K n.result) : K (worstCompute f p n).1 := by
  unfold worstCompute
  simp only []
  split
  · exact hp
  · split
    · exact hn
    · exact merge_allRes hK hp hn

theorem parCompute_allRes {E V : Type} (hK : ResClosed K) {p n : Tree E V}
    (hp : K p.result) (hn : K n.result) : K (parCompute p n).1 := by
  unfold parCompute
  split
  · exact hp
  · split
    · exact hn
    · exact merge_allRes hK hp hn

theorem updWorst_allRes {E V : Type} (hK : ResClosed K) {mv : Option V} {e : E} {f p n r x}
    (hr : K r) (hp : AllRes K p) (hn : AllRes K n) : AllRes K (Tree.updWorst mv e f p n r x) := by
  refine ⟨?_, hp, hn⟩
  cases x with
  | true => exact hr
  | false => exact worstCompute_allRes hK (hp.top hK) (hn.top hK)

theorem updPar_allRes {E V : Type} (hK : ResClosed K) {p n : Tree E V} {r x}
    (hr : K r) (hp : AllRes K p) (hn : AllRes K n) : AllRes K (Tree.updPar p n r x) := by
  refine ⟨?_, hp, hn⟩
  cases x with
  | true => exact hr
  | false => exact parCompute_allRes hK (hp.top hK) (hn.top hK)

theorem iter_allRes (hK : ResClosed K) (script : List (Env W)) :
    ∀ (t : Tree W.E W.V) (s : P.S) kn pc det o, AllRes K t →
      iter P script t s kn pc det = .ok o → K o.leaf → AllRes K o.tree := by
  induction script with
  | nil =>
    intro t s kn pc det o ht h hl
    simp only [iter, Except.ok.injEq] at h
    subst h; exact finish_allRes hl ht
  | cons env rest ih =>
    intro t s kn pc det o ht h hl
    rw [iter] at h
    cases hact : P.act s with
    | done ret a =>
      simp only [hact, Except.ok.injEq] at h
      subst h; exact finish_allRes hl ht
    | abort =>
      simp only [hact, Except.ok.injEq] at h
      subst h; exact ht
    | cap s' =>
      simp only [hact, map_ok_iff] at h
      obtain ⟨o', ho', rfl⟩ := h
      have := ih _ _ _ _ _ _ ht ho' hl
      exact this
    | assume e s' =>
      simp only [hact] at h
      split at h
      · exact ih _ _ _ _ _ _ ht h hl
      · exact absurd h (by simp)
      · exact ih _ _ _ _ _ _ ht h hl
    | ask e k =>
      simp only [hact] at h
      split at h
      · exact ih _ _ _ _ _ _ ht h hl
      · split at h
        · simp only [Except.ok.injEq] at h; subst h; exact finish_allRes hl ht
        · simp only [Except.ok.injEq] at h; subst h; exact finish_allRes hl ht
        · rename_i mv f p n r x hnode
          have hparts : K r ∧ AllRes K p ∧ AllRes K n := by
            rcases nodeForAsk_exAt hnode with ⟨rfl, rfl, rfl, rfl, rfl, -⟩ | rfl
            · exact ⟨hK.default, trivial, trivial⟩
            · exact ht
          obtain ⟨hr, hp, hn⟩ := hparts
          split at h
          · exact absurd h (by simp)
          · simp only [map_ok_iff] at h
            obtain ⟨o', ho', rfl⟩ := h
            exact updWorst_allRes hK hr (ih _ _ _ _ _ _ hp ho' hl) hn
          · simp only [map_ok_iff] at h
            obtain ⟨o', ho', rfl⟩ := h
            exact updWorst_allRes hK hr hp (ih _ _ _ _ _ _ hn ho' hl)
    | realize y k =>
      simp only [hact] at h
      split at h
      · simp only [Except.ok.injEq] at h; subst h; exact finish_allRes hl ht
      · simp only [Except.ok.injEq] at h; subst h; exact finish_allRes hl ht
      · exact absurd h (by simp)
      · rename_i v e f p n r x hnode
        have hparts : K r ∧ AllRes K p ∧ AllRes K n := by
          rcases nodeForRealize_exAt hnode with ⟨rfl, rfl, rfl, rfl, rfl, -⟩ | rfl
          · exact ⟨hK.default, trivial, trivial⟩
          · exact ht
        obtain ⟨hr, hp, hn⟩ := hparts
        split at h
        · exact absurd h (by simp)
        · simp only [map_ok_iff] at h
          obtain ⟨o', ho', rfl⟩ := h
          exact updWorst_allRes hK hr (ih _ _ _ _ _ _ hp ho' hl) hn
        · simp only [map_ok_iff] at h
          obtain ⟨o', ho', rfl⟩ := h
          exact updWorst_allRes hK hr hp (ih _ _ _ _ _ _ hn ho' hl)
    | fork k =>
      simp only [hact] at h
      split at h
      · simp only [Except.ok.injEq] at h; subst h; exact finish_allRes hl ht
      · rename_i p n r x hnode
        have hparts : K r ∧ AllRes K p ∧ AllRes K n := by
          rcases nodeForFork_exAt hnode with ⟨rfl, rfl, rfl, rfl, rfl⟩ | rfl
          · exact ⟨hK.default, trivial, trivial⟩
          · exact ht
        obtain ⟨hr, hp, hn⟩ := hparts
        split at h
        · exact absurd h (by simp)
        · simp only [map_ok_iff] at h
          obtain ⟨o', ho', rfl⟩ := h
          exact updPar_allRes hK hr (ih _ _ _ _ _ _ hp ho' hl) hn
        · simp only [map_ok_iff] at h
          obtain ⟨o', ho', rfl⟩ := h
          exact updPar_allRes hK hr hp (ih _ _ _ _ _ _ hn ho' hl)
    | detach s' =>
      simp only [hact] at h
      split at h
      · exact ih _ _ _ _ _ _ ht h hl
      · split at h
        · simp only [map_ok_iff] at h
          obtain ⟨o', ho', rfl⟩ := h
          exact hl
        · exact ih _ _ _ _ _ _ ht h hl
        · simp only [Except.ok.injEq] at h; subst h
          exact hl

theorem low_allRes (hK : ResClosed K) {r : Analysis} (h : K r) :
    K (match r.status with
      | none => r
      | some s => { r with status := some (s.min .unknown) }) := by
  split
  · exact h
  · exact hK.low _ _ (by assumption) h

theorem capTop_allRes {E V : Type} (hK : ResClosed K) {t : Tree E V} (h : AllRes K t) :
    AllRes K (capTop t) := by
  cases t with
  | stem => trivial
  | leaf r x => exact low_allRes hK h
  | worst => exact ⟨low_allRes hK h.1, h.2⟩
  | par => exact ⟨low_allRes hK h.1, h.2⟩
  | detached => exact low_allRes hK h

/-- Both directions of an unforced fork can be taken; a forced one is forced. -/
def Feas (f : Option Bool) (e : W.E) (pc : List (W.E × Bool)) : Prop :=
  ForcedOK f e pc ∧ (f = none → ∀ b, ∃ i : W.Inp, Meets i ((e, b) :: pc))

theorem feas_ok {env : Env W} (hu : env.UnsatSound) (hs : env.SatSound) :
    FactOK Feas env := by
  intro pc e f h
  refine ⟨initForced_ok hu h, ?_⟩
  rintro rfl b
  unfold initForced at h
  split at h
  · exact absurd h (by simp)
  · rename_i hq
    split at h
    · exact absurd h (by simp)
    · rename_i hq2
      cases b with
      | false => obtain ⟨i, hi, _⟩ := hs _ hq; exact ⟨i, hi⟩
      | true => obtain ⟨i, hi, _⟩ := hs _ hq2; exact ⟨i, hi⟩
    · exact absurd h (by simp)
  · exact absurd h (by simp)

/-- The chosen side of a fork is feasible. -/
theorem choose_feas {f : Option Bool} {e : W.E} {pc} {p n : Tree W.E W.V} {c b}
    (hf : Feas f e pc) (hi : ∃ i : W.Inp, Meets i pc) (hb : worstChoose f p n c = some b) :
    ∃ i : W.Inp, Meets i ((e, b) :: pc) := by
  cases f with
  | none => exact hf.2 rfl b
  | some b' =>
    simp only [worstChoose, Option.some.injEq] at hb
    subst hb
    obtain ⟨i, hi⟩ := hi
    exact ⟨i, meets_cons.2 ⟨hf.1 b' rfl i hi, hi⟩⟩

/-- An explored path is the path of some input. -/
theorem iter_real (s0 : P.S) (hadd : AddsConsistent P s0) (script : List (Env W))
    (hu : ∀ env ∈ script, env.UnsatSound) (hs : ∀ env ∈ script, env.SatSound) :
    ∀ (t : Tree W.E W.V) (s : P.S) kn pc det o, kn ⊆ pc → At P s0 s pc →
      (∃ i : W.Inp, Meets i pc) → (det = true → t = .stem) → t.exhausted = false →
      Shape P Feas t s kn pc → iter P script t s kn pc det = .ok o →
      o.leaf = .unknown ∨ ∃ i : W.Inp, Meets i pc ∧ Runs P i s (some o.leaf) := by
  induction script with
  | nil =>
    intro t s kn pc det o hk hat hi hdet ho hg h
    simp only [iter, Except.ok.injEq] at h
    subst h; exact Or.inl rfl
  | cons env rest ih =>
    intro t s kn pc det o hk hat hi hdet ho hg h
    have hFe : FactOK Feas env := feas_ok (hu env (by simp)) (hs env (by simp))
    replace ih := ih (fun e he => hu e (by simp [he])) (fun e he => hs e (by simp [he]))
    rw [iter] at h
    cases hact : P.act s with
    | done ret a =>
      simp only [hact, Except.ok.injEq] at h
      subst h
      obtain ⟨i, hi⟩ := hi
      exact Or.inr ⟨i, hi, .done hact⟩
    | abort =>
      simp only [hact, Except.ok.injEq] at h
      subst h; exact Or.inl rfl
    | cap s' =>
      simp only [hact, map_ok_iff] at h
      obtain ⟨o', ho', rfl⟩ := h
      rcases ih _ _ _ _ _ _ hk (.cap hat hact) hi hdet ho ((shape_step (.cap hact)).1 hg) ho' with h | ⟨i, h1, h2⟩
      · exact Or.inl h
      · exact Or.inr ⟨i, h1, .cap hact h2⟩
    | assume e s' =>
      simp only [hact] at h
      split at h
      · rename_i hkn
        have hmem : (e, true) ∈ pc := hk (known_mem hkn)
        rcases ih _ _ _ _ _ _ hk (.assumeKnown hat hact hmem) hi hdet ho
          ((shape_step (.assumeK hact hkn)).1 hg) h with h | ⟨i, h1, h2⟩
        · exact Or.inl h
        · exact Or.inr ⟨i, h1, .assume hact (h1 _ hmem) h2⟩
      · exact absurd h (by simp)
      · rename_i hkn
        rcases ih _ _ _ _ _ _ (sub_cons2 hk) (.assume hat hact) (hadd _ _ _ _ hat hact hi) hdet ho
          ((shape_step (.assumeN hact hkn)).1 hg) h with h | ⟨i, h1, h2⟩
        · exact Or.inl h
        · rw [meets_cons] at h1
          exact Or.inr ⟨i, h1.2, .assume hact h1.1 h2⟩
    | ask e k =>
      simp only [hact] at h
      split at h
      · rename_i b hkn
        have hmem : (e, b) ∈ pc := hk (known_mem hkn)
        rcases ih _ _ _ _ _ _ hk (.askKnown hat hact hmem) hi hdet ho
          ((shape_step (.known hact hkn)).1 hg) h with h | ⟨i, h1, h2⟩
        · exact Or.inl h
        · have hb : W.holds e i = b := h1 _ hmem
          exact Or.inr ⟨i, h1, .ask hact (by rw [hb]; exact h2)⟩
      · rename_i hkn
        rcases nodeForAsk_shape hFe ho hg hact hkn with hn | ⟨f, p, n, r, hn, hf, hw, hsp, hsn, hst, hex⟩
        · rw [hn] at h
          simp only [Except.ok.injEq] at h
          subst h; exact Or.inl rfl
        · rw [hn] at h
          simp only [] at h
          obtain ⟨b, hb, hbo⟩ := worstChoose_open (c := env.coin) hw
          rw [hb] at h
          have hfe := choose_feas hf hi hb
          cases b with
          | true =>
            simp only [map_ok_iff] at h
            obtain ⟨o', ho', rfl⟩ := h
            rcases ih _ _ _ _ _ _ (sub_cons2 hk) (.ask true hat hact) hfe
              (fun hd => (hst (hdet hd)).1) hbo hsp ho' with h | ⟨i, h1, h2⟩
            · exact Or.inl h
            · rw [meets_cons] at h1
              exact Or.inr ⟨i, h1.2, .ask hact (by rw [h1.1]; exact h2)⟩
          | false =>
            simp only [map_ok_iff] at h
            obtain ⟨o', ho', rfl⟩ := h
            rcases ih _ _ _ _ _ _ (sub_cons2 hk) (.ask false hat hact) hfe
              (fun hd => (hst (hdet hd)).2) hbo hsn ho' with h | ⟨i, h1, h2⟩
            · exact Or.inl h
            · rw [meets_cons] at h1
              exact Or.inr ⟨i, h1.2, .ask hact (by rw [h1.1]; exact h2)⟩
    | realize y k =>
      simp only [hact] at h
      rcases nodeForRealize_shape hFe ho hg hact with hn | hn | ⟨v, f, p, n, r, hn, hf, hw, hsp, hsn, hst, hex⟩
      · rw [hn] at h
        simp only [Except.ok.injEq] at h
        subst h; exact Or.inl rfl
      · rw [hn] at h
        exact absurd h (by simp)
      · rw [hn] at h
        simp only [] at h
        obtain ⟨b, hb, hbo⟩ := worstChoose_open (c := env.coin) hw
        rw [hb] at h
        have hfe := choose_feas hf hi hb
        have hk' : ∀ c, kn ⊆ c :: pc := fun c a ha => by simp [hk ha]
        cases b with
        | true =>
          simp only [map_ok_iff] at h
          obtain ⟨o', ho', rfl⟩ := h
          rcases ih _ _ _ _ _ _ (hk' _) (.realize v hat hact) hfe
            (fun hd => (hst (hdet hd)).1) hbo hsp ho' with h | ⟨i, h1, h2⟩
          · exact Or.inl h
          · rw [meets_cons] at h1
            have := (W.eqE_spec _ _ _).1 h1.1
            exact Or.inr ⟨i, h1.2, .realize hact (by rw [this]; exact h2)⟩
        | false =>
          simp only [map_ok_iff] at h
          obtain ⟨o', ho', rfl⟩ := h
          rcases ih _ _ _ _ _ _ (hk' _) (.another v hat hact) hfe
            (fun hd => (hst (hdet hd)).2) hbo hsn ho' with h | ⟨i, h1, h2⟩
          · exact Or.inl h
          · rw [meets_cons] at h1
            exact Or.inr ⟨i, h1.2, h2⟩
    | fork k =>
      simp only [hact] at h
      obtain ⟨p, n, r, hn, hw, hsp, hsn, hst, hex⟩ := nodeForFork_shape ho hg hact
      rw [hn] at h
      simp only [] at h
      obtain ⟨b, hb, hbo⟩ := binChoose_open (c := env.coin) hw
      rw [hb] at h
      cases b with
      | true =>
        simp only [map_ok_iff] at h
        obtain ⟨o', ho', rfl⟩ := h
        rcases ih _ _ _ _ _ _ hk (.fork true hat hact) hi
          (fun hd => (hst (hdet hd)).1) hbo hsp ho' with h | ⟨i, h1, h2⟩
        · exact Or.inl h
        · exact Or.inr ⟨i, h1, .fork _ hact h2⟩
      | false =>
        simp only [map_ok_iff] at h
        obtain ⟨o', ho', rfl⟩ := h
        rcases ih _ _ _ _ _ _ hk (.fork false hat hact) hi
          (fun hd => (hst (hdet hd)).2) hbo hsn ho' with h | ⟨i, h1, h2⟩
        · exact Or.inl h
        · exact Or.inr ⟨i, h1, .fork _ hact h2⟩
    | detach s' =>
      simp only [hact] at h
      have done' : ∀ o', iter P rest .stem s' kn pc true = .ok o' →
          o'.leaf = .unknown ∨ ∃ i : W.Inp, Meets i pc ∧ Runs P i s (some o'.leaf) := by
        intro o' ho'
        rcases ih _ _ _ _ _ _ hk (.detach hat hact) hi (fun _ => rfl) rfl trivial ho' with h | ⟨i, h1, h2⟩
        · exact Or.inl h
        · exact Or.inr ⟨i, h1, .detach hact h2⟩
      cases det with
      | true =>
        have ht := hdet rfl
        subst ht
        simp only [if_true] at h
        exact done' _ h
      | false =>
        simp only [Bool.false_eq_true, if_false] at h
        cases t with
        | stem =>
          simp only [map_ok_iff] at h
          obtain ⟨o', ho', rfl⟩ := h
          exact done' o' ho'
        | leaf r x =>
          have hx : x = true := hg
          subst hx; simp [Tree.exhausted] at ho
        | detached c r x =>
          have hx : x = true := hg
          subst hx; simp [Tree.exhausted] at ho
        | worst mv e' f p n r x =>
          simp only [Tree.exhausted] at ho
          subst ho
          obtain ⟨hw, s1, kn', pc', hsil, hf, hd⟩ := hg.resolve_left (by simp)
          have hns : ∀ a b c, ¬ Step1 P s kn pc a b c := by
            intro a b c h; cases h <;> simp_all
          obtain ⟨rfl, rfl, rfl⟩ := sil_stuck hsil hns
          rcases hd with ⟨k', ha', _⟩ | ⟨y', k', v, ha', _⟩
          · rw [hact] at ha'; simp at ha'
          · rw [hact] at ha'; simp at ha'
        | par p n r x =>
          simp only [Tree.exhausted] at ho
          subst ho
          obtain ⟨-, s1, kn', pc', hsil, k', ha', -⟩ := hg.resolve_left (by simp)
          have hns : ∀ a b c, ¬ Step1 P s kn pc a b c := by
            intro a b c h; cases h <;> simp_all
          obtain ⟨rfl, rfl, rfl⟩ := sil_stuck hsil hns
          rw [hact] at ha'; simp at ha'

/-- What is known about the tree between iterations. -/
structure LoopOK (P : Prog W) (F) (s0 : P.S) (t : Tree W.E W.V) : Prop where
  shape : Shape P F t s0 [] []
  openR : t.exhausted = false

theorem loopOK_stem {F} (s0 : P.S) : LoopOK P F s0 .stem := ⟨trivial, rfl⟩

theorem capTop_shape {F} {t : Tree W.E W.V} {s : P.S} {kn pc} (h : Shape P F t s kn pc) :
    Shape P F (capTop t) s kn pc := by
  cases t <;> exact h

/-- After an iteration that does not end the loop the invariant still holds. -/
theorem bubble_loopOK {F} {s0 : P.S} {script : List (Env W)} {t : Tree W.E W.V} {o}
    (hF : ∀ env ∈ script, FactOK F env) (hl : LoopOK P F s0 t)
    (h : iter P script t s0 [] [] false = .ok o) (hx : (bubble t o).2.2 = false) :
    LoopOK P F s0 (bubble t o).1 := by
  have ha := iter_after (P := P) (F := F) script hF t s0 [] [] false (by simp) hl.openR hl.shape
  rw [h] at ha
  unfold bubble at hx ⊢
  split at hx
  · simp at hx
  · rename_i htr
    rw [if_neg htr]
    simp only [] at hx ⊢
    refine ⟨?_, hx⟩
    split
    · exact capTop_shape (ha.1 rfl)
    · exact ha.1 rfl

end Verif.Search
