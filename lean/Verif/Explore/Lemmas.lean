import Verif.Search.Hist
import Verif.Explore.Spec
/- Helper lemmas: an exhausted tree accounts for every input. -/
namespace Verif.Explore
open Verif.Search
variable {W : World} {P : Prog W} {K : Analysis → Prop}

/-- All inputs meeting `pc` are accounted for from `s`. -/
def AccAt (P : Prog W) (K : Analysis → Prop) (pc : List (W.E × Bool)) (s : P.S) : Prop :=
  ∀ i : W.Inp, Meets i pc → Accounted P K i s

theorem acc_step {s kn pc s1 kn1 pc1} (h : Step1 P s kn pc s1 kn1 pc1) (hk : kn ⊆ pc) :
    AccAt P K pc s ↔ AccAt P K pc1 s1 := by
  have kmeets : ∀ {i : W.Inp} {e b}, Meets i pc → known? kn e = some b → W.holds e i = b := by
    intro i e b hm hkn
    exact hm _ (hk (known_mem hkn))
  cases h with
  | cap ha =>
    constructor
    · intro H i hi
      have hr := H i hi
      cases hr with
      | cut hu => exact .cut hu
      | cap ha' h => rw [ha] at ha'; injection ha' with h1; subst h1; exact h
      | _ => simp_all
    · intro H i hi
      exact .cap ha (H i hi)
  | known ha hkn =>
    constructor
    · intro H i hi
      have hr := H i hi
      cases hr with
      | cut hu => exact .cut hu
      | ask ha' h =>
        rw [ha] at ha'; injection ha' with h1 h2; subst h1 h2
        rwa [kmeets hi hkn] at h
      | _ => simp_all
    · intro H i hi
      exact .ask ha (by rw [kmeets hi hkn]; exact H i hi)
  | assumeK ha hkn =>
    constructor
    · intro H i hi
      have hr := H i hi
      cases hr with
      | cut hu => exact .cut hu
      | assume ha' hh h => rw [ha] at ha'; injection ha' with h1 h2; subst h1 h2; exact h
      | excluded ha' hh =>
        rw [ha] at ha'; injection ha' with h1 h2; subst h1 h2
        rw [kmeets hi hkn] at hh; cases hh
      | _ => simp_all
    · intro H i hi
      exact .assume ha (kmeets hi hkn) (H i hi)
  | assumeN ha hkn =>
    rename_i e
    constructor
    · intro H i hi
      rw [meets_cons] at hi
      have hr := H i hi.2
      cases hr with
      | cut hu => exact .cut hu
      | assume ha' hh h => rw [ha] at ha'; injection ha' with h1 h2; subst h1 h2; exact h
      | excluded ha' hh =>
        rw [ha] at ha'; injection ha' with h1 h2; subst h1 h2
        have := hi.1
        rw [hh] at this; cases this
      | _ => simp_all
    · intro H i hi
      by_cases he : W.holds e i = true
      · exact .assume ha he (H i (meets_cons.2 ⟨he, hi⟩))
      · exact .excluded ha (by simpa using he)

/-- What an exhausted node promises. -/
def Promise (P : Prog W) (K : Analysis → Prop) (x : Bool) (s : P.S) (pc : List (W.E × Bool)) : Prop :=
  x = true → AccAt P K pc s

theorem promise_step {x s kn pc s1 kn1 pc1} (h : Step1 P s kn pc s1 kn1 pc1) (hk : kn ⊆ pc) :
    Promise P K x s pc ↔ Promise P K x s1 pc1 := by
  unfold Promise
  rw [acc_step h hk]

/-- The exhausted parts of the tree account for their inputs. -/
def Cov (P : Prog W) (K : Analysis → Prop) : Tree W.E W.V → P.S → List (W.E × Bool) → List (W.E × Bool) → Prop
  | .stem, _, _, _ => True
  | .leaf _ x, s, _, pc => Promise P K x s pc
  | .worst mv e f p n _ x, s, kn, pc =>
    Promise P K x s pc ∧ (x = true ∨ ∃ s' kn' pc', Sil P s kn pc s' kn' pc' ∧ ForcedOK f e pc' ∧
      ((∃ k, P.act s' = .ask e k ∧ known? kn' e = none ∧ mv = none ∧
          Cov P K p (k true) ((e, true) :: kn') ((e, true) :: pc') ∧
          Cov P K n (k false) ((e, false) :: kn') ((e, false) :: pc')) ∨
       (∃ y k v, P.act s' = .realize y k ∧ mv = some v ∧ e = W.eqE y v ∧
          Cov P K p (k v) kn' ((e, true) :: pc') ∧
          Cov P K n s' kn' ((e, false) :: pc'))))
  | .par p n _ x, s, kn, pc =>
    Promise P K x s pc ∧ (x = true ∨ ∃ s' kn' pc', Sil P s kn pc s' kn' pc' ∧
      ∃ k, P.act s' = .fork k ∧ Cov P K p (k true) kn' pc' ∧ Cov P K n (k false) kn' pc')
  | .detached _ _ x, s, _, pc => x = true ∧ Promise P K x s pc

theorem Cov.promise {t : Tree W.E W.V} {s : P.S} {kn pc} (h : Cov P K t s kn pc) :
    Promise P K t.exhausted s pc := by
  cases t with
  | stem => intro h; simp [Tree.exhausted] at h
  | leaf r x => exact h
  | worst => exact h.1
  | par => exact h.1
  | detached => exact h.2

theorem cov_step {t : Tree W.E W.V} {s kn pc s1 kn1 pc1} (h : Step1 P s kn pc s1 kn1 pc1)
    (hk : kn ⊆ pc) : Cov P K t s kn pc ↔ Cov P K t s1 kn1 pc1 := by
  cases t with
  | stem => simp [Cov]
  | leaf r x => exact promise_step h hk
  | detached c r x => simp only [Cov]; rw [promise_step h hk]
  | worst mv e f p n r x =>
    simp only [Cov]
    rw [promise_step h hk]
    refine and_congr_right fun _ => or_congr_right ⟨?_, ?_⟩
    · rintro ⟨s', kn', pc', hs, hf, hd⟩
      refine ⟨s', kn', pc', sil_inv h hs ?_, hf, hd⟩
      rcases hd with ⟨k, ha, hkn, _⟩ | ⟨y, k, v, ha, _⟩
      · exact not_step_ask ha hkn
      · exact not_step_realize ha
    · rintro ⟨s', kn', pc', hs, hf, hd⟩
      exact ⟨s', kn', pc', .step h hs, hf, hd⟩
  | par p n r x =>
    simp only [Cov]
    rw [promise_step h hk]
    refine and_congr_right fun _ => or_congr_right ⟨?_, ?_⟩
    · rintro ⟨s', kn', pc', hs, k, ha, hd⟩
      exact ⟨s', kn', pc', sil_inv h hs (not_step_fork ha), k, ha, hd⟩
    · rintro ⟨s', kn', pc', hs, hd⟩
      exact ⟨s', kn', pc', .step h hs, hd⟩

theorem finish_cov {t : Tree W.E W.V} {s : P.S} {kn pc a} (h : AccAt P K pc s) : Cov P K (finish t a) s kn pc := by
  cases t <;> simp only [finish, Cov, Promise] <;> simp_all

theorem promise_false {s : P.S} {pc} : Promise P K false s pc := by
  intro h; cases h

theorem nodeForAsk_cov {env : Env W} (hs : env.UnsatSound) {t : Tree W.E W.V} {s : P.S}
    {kn pc e k mv f p n r x} (hg : Cov P K t s kn pc) (ha : P.act s = .ask e k)
    (hk : known? kn e = none) (hn : nodeForAsk env pc e t = .node mv f p n r x) :
    Promise P K x s pc ∧ (x = true ∨ (mv = none ∧ ForcedOK f e pc ∧
      Cov P K p (k true) ((e, true) :: kn) ((e, true) :: pc) ∧
      Cov P K n (k false) ((e, false) :: kn) ((e, false) :: pc))) := by
  cases t with
  | stem =>
    simp only [nodeForAsk] at hn
    split at hn
    · exact absurd hn (by simp)
    · rename_i hf
      simp only [NodeAt.node.injEq] at hn
      obtain ⟨rfl, rfl, rfl, rfl, rfl, rfl⟩ := hn
      exact ⟨promise_false, Or.inr ⟨rfl, initForced_ok hs hf, trivial, trivial⟩⟩
  | worst mv' e' f' p' n' r' x' =>
    simp only [nodeForAsk] at hn
    split at hn
    · rename_i he
      subst he
      simp only [NodeAt.node.injEq] at hn
      obtain ⟨rfl, rfl, rfl, rfl, rfl, rfl⟩ := hn
      refine ⟨hg.1, hg.2.imp id ?_⟩
      rintro ⟨s', kn', pc', hsil, hf, hd⟩
      obtain ⟨rfl, rfl, rfl⟩ := sil_stuck hsil (not_step_ask ha hk)
      rcases hd with ⟨k', ha', _, hmv, hp, hn⟩ | ⟨y, k', v, ha', _⟩
      · rw [ha] at ha'
        simp only [Action.ask.injEq, true_and] at ha'
        subst ha'
        exact ⟨hmv, hf, hp, hn⟩
      · rw [ha] at ha'; simp at ha'
    · exact absurd hn (by simp)
  | leaf => simp [nodeForAsk] at hn
  | par => simp [nodeForAsk] at hn
  | detached => simp [nodeForAsk] at hn

theorem nodeForRealize_cov {env : Env W} (hs : env.UnsatSound) {t : Tree W.E W.V} {s : P.S}
    {kn pc y k v e f p n r x} (hg : Cov P K t s kn pc) (ha : P.act s = .realize y k)
    (hn : nodeForRealize env pc y t = .node v e f p n r x) :
    Promise P K x s pc ∧ (x = true ∨ (e = W.eqE y v ∧ ForcedOK f e pc ∧
      Cov P K p (k v) kn ((e, true) :: pc) ∧ Cov P K n s kn ((e, false) :: pc))) := by
  cases t with
  | stem =>
    simp only [nodeForRealize] at hn
    split at hn
    · exact absurd hn (by simp)
    · exact absurd hn (by simp)
    · split at hn
      · exact absurd hn (by simp)
      · rename_i hf
        simp only [ModelNodeAt.node.injEq] at hn
        obtain ⟨rfl, rfl, rfl, rfl, rfl, rfl, rfl⟩ := hn
        exact ⟨promise_false, Or.inr ⟨rfl, initForced_ok hs hf, trivial, trivial⟩⟩
  | worst mv' e' f' p' n' r' x' =>
    cases mv' with
    | none => simp [nodeForRealize] at hn
    | some v' =>
      simp only [nodeForRealize, ModelNodeAt.node.injEq] at hn
      obtain ⟨rfl, rfl, rfl, rfl, rfl, rfl, rfl⟩ := hn
      refine ⟨hg.1, hg.2.imp id ?_⟩
      rintro ⟨s', kn', pc', hsil, hf, hd⟩
      obtain ⟨rfl, rfl, rfl⟩ := sil_stuck hsil (not_step_realize ha)
      rcases hd with ⟨k', ha', _⟩ | ⟨y', k', v', ha', hv, he, hp, hn⟩
      · rw [ha] at ha'; simp at ha'
      · rw [ha] at ha'
        simp only [Action.realize.injEq] at ha'
        obtain ⟨rfl, rfl⟩ := ha'
        simp only [Option.some.injEq] at hv
        subst hv
        exact ⟨he, hf, hp, hn⟩
  | leaf => simp [nodeForRealize] at hn
  | par => simp [nodeForRealize] at hn
  | detached => simp [nodeForRealize] at hn

theorem nodeForFork_cov {t : Tree W.E W.V} {s : P.S}
    {kn pc k p n r x} (hg : Cov P K t s kn pc) (ha : P.act s = .fork k)
    (hn : nodeForFork t = some (p, n, r, x)) :
    Promise P K x s pc ∧ (x = true ∨ (Cov P K p (k true) kn pc ∧ Cov P K n (k false) kn pc)) := by
  cases t with
  | stem =>
    simp only [nodeForFork, Option.some.injEq, Prod.mk.injEq] at hn
    obtain ⟨rfl, rfl, rfl, rfl⟩ := hn
    exact ⟨promise_false, Or.inr ⟨trivial, trivial⟩⟩
  | par p' n' r' x' =>
    simp only [nodeForFork, Option.some.injEq, Prod.mk.injEq] at hn
    obtain ⟨rfl, rfl, rfl, rfl⟩ := hn
    refine ⟨hg.1, hg.2.imp id ?_⟩
    rintro ⟨s', kn', pc', hsil, k', ha', hd⟩
    obtain ⟨rfl, rfl, rfl⟩ := sil_stuck hsil (not_step_fork ha)
    rw [ha] at ha'
    simp only [Action.fork.injEq] at ha'
    subst ha'
    exact hd
  | leaf => simp [nodeForFork] at hn
  | worst => simp [nodeForFork] at hn
  | detached => simp [nodeForFork] at hn

theorem worst_promise {e : W.E} {f : Option Bool} {p n : Tree W.E W.V} {s sp sn : P.S} {pc}
    (hf : ForcedOK f e pc)
    (hT : ∀ i : W.Inp, W.holds e i = true → Accounted P K i sp → Accounted P K i s)
    (hF : ∀ i : W.Inp, W.holds e i = false → Accounted P K i sn → Accounted P K i s)
    (hp : Promise P K p.exhausted sp ((e, true) :: pc))
    (hn : Promise P K n.exhausted sn ((e, false) :: pc)) :
    Promise P K (worstCompute f p n).2 s pc := by
  intro hx i hi
  rw [worstCompute_ex] at hx
  have useP : p.exhausted = true → W.holds e i = true → Accounted P K i s :=
    fun h1 h3 => hT i h3 (hp h1 i (meets_cons.2 ⟨h3, hi⟩))
  have useN : n.exhausted = true → W.holds e i = false → Accounted P K i s :=
    fun h1 h3 => hF i h3 (hn h1 i (meets_cons.2 ⟨h3, hi⟩))
  unfold worstIsExhausted at hx
  simp only [Bool.or_eq_true, Bool.and_eq_true, decide_eq_true_eq] at hx
  rcases hx with (⟨h1, h2⟩ | ⟨h1, h2⟩) | ⟨h1, h2⟩
  · cases hh : W.holds e i with
    | true => exact useP h1 hh
    | false => exact useN h2 hh
  · exact useP h2 (hf true h1 i hi)
  · exact useN h2 (hf false h1 i hi)

theorem par_ex {E V : Type} {p n : Tree E V} (h : (parCompute p n).2 = true) : p.exhausted = true ∨ n.exhausted = true := by
  unfold parCompute at h
  split at h
  · rename_i hc; exact Or.inl hc.1
  · split at h
    · rename_i hc; exact Or.inr hc.1
    · refine Or.inl ?_
      simp only [mergeNodeResults] at h
      cases hp : p.exhausted <;> cases hn : n.exhausted <;> rw [hp, hn] at h <;> split at h <;> simp_all

theorem par_promise {p n : Tree W.E W.V} {s sp sn : P.S} {pc}
    (hT : ∀ i : W.Inp, Accounted P K i sp → Accounted P K i s)
    (hF : ∀ i : W.Inp, Accounted P K i sn → Accounted P K i s)
    (hp : Promise P K p.exhausted sp pc) (hn : Promise P K n.exhausted sn pc) :
    Promise P K (parCompute p n).2 s pc := by
  intro hx i hi
  rcases par_ex hx with h | h
  · exact hT i (hp h i hi)
  · exact hF i (hn h i hi)

/-- One iteration keeps the promises. -/
theorem iter_cov (script : List (Env W)) (henv : ∀ env ∈ script, env.UnsatSound) :
    ∀ (t : Tree W.E W.V) (s : P.S) kn pc o, kn ⊆ pc → Cov P K t s kn pc →
      iter P script t s kn pc false = .ok o → o.leaf ≠ .notDet → K o.leaf → Cov P K o.tree s kn pc := by
  induction script with
  | nil =>
    intro t s kn pc o hk hg h hnd hK
    simp only [iter, Except.ok.injEq] at h
    subst h
    exact finish_cov fun i _ => .cut hK
  | cons env rest ih =>
    intro t s kn pc o hk hg h hnd hK
    have hs : env.UnsatSound := henv env (by simp)
    replace ih := ih (fun e he => henv e (by simp [he]))
    rw [iter] at h
    have silent : ∀ {s1 kn1 pc1}, Step1 P s kn pc s1 kn1 pc1 → ∀ {o'},
        iter P rest t s1 kn1 pc1 false = .ok o' → o'.leaf ≠ .notDet → K o'.leaf → Cov P K o'.tree s kn pc := by
      intro s1 kn1 pc1 hst o' ho' h1 h2
      exact (cov_step hst hk).2 (ih _ _ _ _ _ (hst.sub hk) ((cov_step hst hk).1 hg) ho' h1 h2)
    cases hact : P.act s with
    | done ret a =>
      simp only [hact, Except.ok.injEq] at h
      subst h
      exact finish_cov fun i hi => .done hact hK
    | abort =>
      simp only [hact, Except.ok.injEq] at h
      subst h; exact hg
    | cap s' =>
      simp only [hact, map_ok_iff] at h
      obtain ⟨o', ho', rfl⟩ := h
      exact silent (.cap hact) (o' := o') ho' hnd hK
    | assume e s' =>
      simp only [hact] at h
      split at h
      · rename_i hkn; exact silent (.assumeK hact hkn) h hnd hK
      · exact absurd h (by simp)
      · rename_i hkn; exact silent (.assumeN hact hkn) h hnd hK
    | ask e k =>
      simp only [hact] at h
      split at h
      · rename_i b hkn; exact silent (.known hact hkn) h hnd hK
      · rename_i hkn
        split at h
        · simp only [Except.ok.injEq] at h; subst h
          exact finish_cov fun i _ => .cut hK
        · simp only [Except.ok.injEq] at h; subst h
          exact absurd rfl hnd
        · rename_i mv f p n r x hnode
          obtain ⟨hcl, hrest⟩ := nodeForAsk_cov hs hg hact hkn hnode
          have key : ∀ p' n' : Tree W.E W.V,
              (x = false → Cov P K p' (k true) ((e, true) :: kn) ((e, true) :: pc)) →
              (x = false → Cov P K n' (k false) ((e, false) :: kn) ((e, false) :: pc)) →
              Cov P K (.updWorst mv e f p' n' r x) s kn pc := by
            intro p' n' hp' hn'
            unfold Tree.updWorst
            cases x with
            | true => exact ⟨hcl, Or.inl rfl⟩
            | false =>
              obtain ⟨hmv, hf, hp, hn⟩ := hrest.resolve_left (by simp)
              refine ⟨worst_promise hf ?_ ?_ (hp' rfl).promise (hn' rfl).promise, Or.inr
                ⟨s, kn, pc, .refl, hf, Or.inl ⟨k, hact, hkn, hmv, hp' rfl, hn' rfl⟩⟩⟩
              · intro i hh hr; exact .ask hact (by rw [hh]; exact hr)
              · intro i hh hr; exact .ask hact (by rw [hh]; exact hr)
          split at h
          · exact absurd h (by simp)
          · simp only [map_ok_iff] at h
            obtain ⟨o', ho', rfl⟩ := h
            refine key _ _ (fun hx => ?_) (fun hx => ?_)
            · obtain ⟨hmv, hf, hp, hn⟩ := hrest.resolve_left (by simp [hx])
              exact ih _ _ _ _ _ (sub_cons2 hk) hp ho' hnd hK
            · obtain ⟨hmv, hf, hp, hn⟩ := hrest.resolve_left (by simp [hx])
              exact hn
          · simp only [map_ok_iff] at h
            obtain ⟨o', ho', rfl⟩ := h
            refine key _ _ (fun hx => ?_) (fun hx => ?_)
            · obtain ⟨hmv, hf, hp, hn⟩ := hrest.resolve_left (by simp [hx])
              exact hp
            · obtain ⟨hmv, hf, hp, hn⟩ := hrest.resolve_left (by simp [hx])
              exact ih _ _ _ _ _ (sub_cons2 hk) hn ho' hnd hK
    | realize y k =>
      simp only [hact] at h
      split at h
      · simp only [Except.ok.injEq] at h; subst h
        exact finish_cov fun i _ => .cut hK
      · simp only [Except.ok.injEq] at h; subst h
        exact absurd rfl hnd
      · exact absurd h (by simp)
      · rename_i v e f p n r x hnode
        obtain ⟨hcl, hrest⟩ := nodeForRealize_cov hs hg hact hnode
        have key : ∀ p' n' : Tree W.E W.V,
            (x = false → Cov P K p' (k v) kn ((e, true) :: pc)) →
            (x = false → Cov P K n' s kn ((e, false) :: pc)) →
            Cov P K (.updWorst (some v) e f p' n' r x) s kn pc := by
          intro p' n' hp' hn'
          unfold Tree.updWorst
          cases x with
          | true => exact ⟨hcl, Or.inl rfl⟩
          | false =>
            obtain ⟨he, hf, hp, hn⟩ := hrest.resolve_left (by simp)
            refine ⟨worst_promise hf ?_ ?_ (hp' rfl).promise (hn' rfl).promise, Or.inr
              ⟨s, kn, pc, .refl, hf, Or.inr ⟨y, k, v, hact, rfl, he, hp' rfl, hn' rfl⟩⟩⟩
            · intro i hh hr
              rw [he, W.eqE_spec] at hh
              exact .realize hact (by rw [hh]; exact hr)
            · intro i hh hr; exact hr
        split at h
        · exact absurd h (by simp)
        · simp only [map_ok_iff] at h
          obtain ⟨o', ho', rfl⟩ := h
          refine key _ _ (fun hx => ?_) (fun hx => ?_)
          · obtain ⟨he, hf, hp, hn⟩ := hrest.resolve_left (by simp [hx])
            subst he
            exact ih _ _ _ _ _ (fun a ha => by simp [hk ha]) hp ho' hnd hK
          · exact (hrest.resolve_left (by simp [hx])).2.2.2
        · simp only [map_ok_iff] at h
          obtain ⟨o', ho', rfl⟩ := h
          refine key _ _ (fun hx => ?_) (fun hx => ?_)
          · exact (hrest.resolve_left (by simp [hx])).2.2.1
          · obtain ⟨he, hf, hp, hn⟩ := hrest.resolve_left (by simp [hx])
            subst he
            exact ih _ _ _ _ _ (fun a ha => by simp [hk ha]) hn ho' hnd hK
    | fork k =>
      simp only [hact] at h
      split at h
      · simp only [Except.ok.injEq] at h; subst h
        exact absurd rfl hnd
      · rename_i p n r x hnode
        obtain ⟨hcl, hrest⟩ := nodeForFork_cov hg hact hnode
        have key : ∀ p' n' : Tree W.E W.V,
            (x = false → Cov P K p' (k true) kn pc) →
            (x = false → Cov P K n' (k false) kn pc) →
            Cov P K (.updPar p' n' r x) s kn pc := by
          intro p' n' hp' hn'
          unfold Tree.updPar
          cases x with
          | true => exact ⟨hcl, Or.inl rfl⟩
          | false =>
            refine ⟨par_promise ?_ ?_ (hp' rfl).promise (hn' rfl).promise, Or.inr
              ⟨s, kn, pc, .refl, k, hact, hp' rfl, hn' rfl⟩⟩
            · intro i hr; exact .fork _ hact hr
            · intro i hr; exact .fork _ hact hr
        split at h
        · exact absurd h (by simp)
        · simp only [map_ok_iff] at h
          obtain ⟨o', ho', rfl⟩ := h
          refine key _ _ (fun hx => ?_) (fun hx => ?_)
          · exact ih _ _ _ _ _ hk (hrest.resolve_left (by simp [hx])).1 ho' hnd hK
          · exact (hrest.resolve_left (by simp [hx])).2
        · simp only [map_ok_iff] at h
          obtain ⟨o', ho', rfl⟩ := h
          refine key _ _ (fun hx => ?_) (fun hx => ?_)
          · exact (hrest.resolve_left (by simp [hx])).1
          · exact ih _ _ _ _ _ hk (hrest.resolve_left (by simp [hx])).2 ho' hnd hK
    | detach s' =>
      simp only [hact, Bool.false_eq_true, if_false] at h
      split at h
      · simp only [map_ok_iff] at h
        obtain ⟨o', ho', rfl⟩ := h
        refine ⟨rfl, fun _ i hi => ?_⟩
        rcases iter_leaf rest _ _ _ _ _ _ ho' with hr | hr | hr
        · exact .detached hact hr hK
        · exact .cut (hr ▸ hK)
        · exact absurd hr hnd
      · rename_i c r x
        have hfin : AccAt P K pc s := by
          intro i hi
          rcases iter_leaf rest _ _ _ _ _ _ h with hr | hr | hr
          · exact .detached hact hr hK
          · exact .cut (hr ▸ hK)
          · exact absurd hr hnd
        rcases iter_detached rest _ _ _ _ _ _ _ h with ht | ht
        · rw [ht]; exact hg
        · rw [ht]; exact ⟨rfl, fun _ => hfin⟩
      · simp only [Except.ok.injEq] at h; subst h
        exact absurd rfl hnd

theorem capTop_cov {t : Tree W.E W.V} {s : P.S} {kn pc} (h : Cov P K t s kn pc) : Cov P K (capTop t) s kn pc := by
  cases t <;> exact h

end Verif.Explore
