import Verif.Search.Spec
/- Helper lemmas for the search-tree properties. -/
namespace Verif.Search
variable {W : World} {P : Prog W}

theorem map_ok_iff {ε α β : Type} {f : α → β} {x : Except ε α} {b : β} :
    x.map f = .ok b ↔ ∃ a, x = .ok a ∧ f a = b := by
  cases x <;> simp [Except.map]

theorem meets_cons {i : W.Inp} {c : W.E × Bool} {pc : List (W.E × Bool)} :
    Meets i (c :: pc) ↔ W.holds c.1 i = c.2 ∧ Meets i pc := by
  simp [Meets]

theorem known_mem {E : Type} [DecidableEq E] {kn : List (E × Bool)} {e : E} {b : Bool}
    (h : known? kn e = some b) : (e, b) ∈ kn := by
  induction kn with
  | nil => simp [known?] at h
  | cons c kn ih =>
    obtain ⟨e', b'⟩ := c
    simp only [known?] at h
    split at h
    · rename_i he; simp_all
    · exact List.mem_cons_of_mem _ (ih h)

/-- All inputs meeting `pc` have a fine run from `s`. -/
def SafeAt (P : Prog W) (pc : List (W.E × Bool)) (s : P.S) : Prop :=
  ∀ i : W.Inp, Meets i pc → ∃ o, Runs P i s o ∧ Fine o

/-- Steps of a path that do not touch the search tree. -/
inductive Step1 (P : Prog W) :
    P.S → List (W.E × Bool) → List (W.E × Bool) →
    P.S → List (W.E × Bool) → List (W.E × Bool) → Prop
  | cap {s s' kn pc} : P.act s = .cap s' → Step1 P s kn pc s' kn pc
  | known {s e k b kn pc} : P.act s = .ask e k → known? kn e = some b →
      Step1 P s kn pc (k b) kn pc
  | assumeK {s e s' kn pc} : P.act s = .assume e s' → known? kn e = some true →
      Step1 P s kn pc s' kn pc
  | assumeN {s e s' kn pc} : P.act s = .assume e s' → known? kn e = none →
      Step1 P s kn pc s' ((e, true) :: kn) ((e, true) :: pc)

inductive Sil (P : Prog W) :
    P.S → List (W.E × Bool) → List (W.E × Bool) →
    P.S → List (W.E × Bool) → List (W.E × Bool) → Prop
  | refl {s kn pc} : Sil P s kn pc s kn pc
  | step {s kn pc s1 kn1 pc1 s2 kn2 pc2} : Step1 P s kn pc s1 kn1 pc1 →
      Sil P s1 kn1 pc1 s2 kn2 pc2 → Sil P s kn pc s2 kn2 pc2

theorem Step1.sub {s kn pc s1 kn1 pc1} (h : Step1 P s kn pc s1 kn1 pc1) (hk : kn ⊆ pc) :
    kn1 ⊆ pc1 := by
  cases h <;> simp_all

theorem Sil.sub {s kn pc s1 kn1 pc1} (h : Sil P s kn pc s1 kn1 pc1) (hk : kn ⊆ pc) :
    kn1 ⊆ pc1 := by
  induction h with
  | refl => exact hk
  | step h1 _ ih => exact ih (h1.sub hk)

theorem Step1.det {s kn pc s1 kn1 pc1 s2 kn2 pc2} (h : Step1 P s kn pc s1 kn1 pc1)
    (h' : Step1 P s kn pc s2 kn2 pc2) : s1 = s2 ∧ kn1 = kn2 ∧ pc1 = pc2 := by
  cases h <;> cases h' <;> simp_all

theorem Step1.safe {s kn pc s1 kn1 pc1} (h : Step1 P s kn pc s1 kn1 pc1) (hk : kn ⊆ pc) :
    SafeAt P pc s ↔ SafeAt P pc1 s1 := by
  have kmeets : ∀ {i : W.Inp} {e b}, Meets i pc → known? kn e = some b → W.holds e i = b := by
    intro i e b hm hkn
    exact hm _ (hk (known_mem hkn))
  cases h with
  | cap ha =>
    constructor
    · intro H i hi
      obtain ⟨o, hr, hf⟩ := H i hi
      cases hr <;> simp_all
      exact ⟨_, by assumption, hf⟩
    · intro H i hi
      obtain ⟨o, hr, hf⟩ := H i hi
      exact ⟨o, .cap ha hr, hf⟩
  | known ha hkn =>
    constructor
    · intro H i hi
      obtain ⟨o, hr, hf⟩ := H i hi
      have := kmeets hi hkn
      cases hr <;> simp_all
      exact ⟨_, by assumption, hf⟩
    · intro H i hi
      obtain ⟨o, hr, hf⟩ := H i hi
      exact ⟨o, .ask ha (by rw [kmeets hi hkn]; exact hr), hf⟩
  | assumeK ha hkn =>
    constructor
    · intro H i hi
      obtain ⟨o, hr, hf⟩ := H i hi
      have := kmeets hi hkn
      cases hr <;> simp_all
      exact ⟨_, by assumption, hf⟩
    · intro H i hi
      obtain ⟨o, hr, hf⟩ := H i hi
      exact ⟨o, .assume ha (kmeets hi hkn) hr, hf⟩
  | assumeN ha hkn =>
    rename_i e
    constructor
    · intro H i hi
      rw [meets_cons] at hi
      obtain ⟨o, hr, hf⟩ := H i hi.2
      have := hi.1
      cases hr <;> simp_all
      exact ⟨_, by assumption, hf⟩
    · intro H i hi
      by_cases he : W.holds e i = true
      · obtain ⟨o, hr, hf⟩ := H i (meets_cons.2 ⟨he, hi⟩)
        exact ⟨o, .assume ha he hr, hf⟩
      · exact ⟨none, .excluded ha (by simpa using he), trivial⟩

theorem Sil.safe {s kn pc s1 kn1 pc1} (h : Sil P s kn pc s1 kn1 pc1) (hk : kn ⊆ pc) :
    SafeAt P pc s ↔ SafeAt P pc1 s1 := by
  induction h with
  | refl => rfl
  | step h1 _ ih => exact (h1.safe hk).trans (ih (h1.sub hk))

/-- What a stored result of a node promises. -/
def Claim (P : Prog W) (r : Analysis) (x : Bool) (s : P.S) (pc : List (W.E × Bool)) : Prop :=
  x = true → Fine (some r) → SafeAt P pc s

/-- A forced direction is really forced. -/
def ForcedOK (f : Option Bool) (e : W.E) (pc : List (W.E × Bool)) : Prop :=
  ∀ b, f = some b → ∀ i : W.Inp, Meets i pc → W.holds e i = b

/-- The tree `t`, sitting where the program is in state `s`, tells the truth. -/
def Good (P : Prog W) : Tree W.E W.V → P.S → List (W.E × Bool) → List (W.E × Bool) → Prop
  | .stem, _, _, _ => True
  | .leaf r x, s, _, pc => Claim P r x s pc
  | .worst mv e f p n r x, s, kn, pc =>
    Claim P r x s pc ∧ (x = true ∨ ∃ s' kn' pc', Sil P s kn pc s' kn' pc' ∧ ForcedOK f e pc' ∧
      ((∃ k, P.act s' = .ask e k ∧ known? kn' e = none ∧ mv = none ∧
          Good P p (k true) ((e, true) :: kn') ((e, true) :: pc') ∧
          Good P n (k false) ((e, false) :: kn') ((e, false) :: pc')) ∨
       (∃ y k v, P.act s' = .realize y k ∧ mv = some v ∧ e = W.eqE y v ∧
          Good P p (k v) kn' ((e, true) :: pc') ∧
          Good P n s' kn' ((e, false) :: pc'))))
  | .par p n r x, s, kn, pc =>
    Claim P r x s pc ∧ (x = true ∨ ∃ s' kn' pc', Sil P s kn pc s' kn' pc' ∧
      ∃ k, P.act s' = .fork k ∧ Good P p (k true) kn' pc' ∧ Good P n (k false) kn' pc')
  | .detached _ r x, s, _, pc => x = true ∧ Claim P r x s pc

theorem Good.claim {t : Tree W.E W.V} {s : P.S} {kn pc} (h : Good P t s kn pc) :
    Claim P t.result t.exhausted s pc := by
  cases t with
  | stem => intro h; simp [Tree.exhausted] at h
  | leaf r x => exact h
  | worst => exact h.1
  | par => exact h.1
  | detached => exact h.2

theorem claim_iff {r x s kn pc s1 kn1 pc1} (h : Step1 P s kn pc s1 kn1 pc1) (hk : kn ⊆ pc) :
    Claim P r x s pc ↔ Claim P r x s1 pc1 := by
  unfold Claim
  rw [h.safe hk]

theorem sil_inv {s kn pc s1 kn1 pc1 s2 kn2 pc2} (h : Step1 P s kn pc s1 kn1 pc1)
    (h2 : Sil P s kn pc s2 kn2 pc2)
    (hn : ∀ a b c, ¬ Step1 P s2 kn2 pc2 a b c) : Sil P s1 kn1 pc1 s2 kn2 pc2 := by
  cases h2 with
  | refl => exact absurd h (hn _ _ _)
  | step h' hrest =>
    obtain ⟨rfl, rfl, rfl⟩ := h.det h'
    exact hrest

theorem not_step_ask {s e k kn pc} (ha : P.act s = .ask e k) (hk : known? kn e = none) :
    ∀ a b c, ¬ Step1 P s kn pc a b c := by
  intro a b c h; cases h <;> simp_all

theorem not_step_realize {s x k kn pc} (ha : P.act s = .realize x k) :
    ∀ a b c, ¬ Step1 P s kn pc a b c := by
  intro a b c h; cases h <;> simp_all

theorem not_step_fork {s k kn pc} (ha : P.act s = .fork k) :
    ∀ a b c, ¬ Step1 P s kn pc a b c := by
  intro a b c h; cases h <;> simp_all

/-- `Good` does not see steps that leave the tree alone. -/
theorem good_step {t : Tree W.E W.V} {s kn pc s1 kn1 pc1} (h : Step1 P s kn pc s1 kn1 pc1)
    (hk : kn ⊆ pc) : Good P t s kn pc ↔ Good P t s1 kn1 pc1 := by
  cases t with
  | stem => simp [Good]
  | leaf r x => exact claim_iff h hk
  | detached c r x => simp only [Good]; rw [claim_iff h hk]
  | worst mv e f p n r x =>
    simp only [Good]
    rw [claim_iff h hk]
    refine and_congr_right fun _ => or_congr_right ⟨?_, ?_⟩
    · rintro ⟨s', kn', pc', hs, hf, hd⟩
      refine ⟨s', kn', pc', sil_inv h hs ?_, hf, hd⟩
      rcases hd with ⟨k, ha, hkn, _⟩ | ⟨y, k, v, ha, _⟩
      · exact not_step_ask ha hkn
      · exact not_step_realize ha
    · rintro ⟨s', kn', pc', hs, hf, hd⟩
      exact ⟨s', kn', pc', .step h hs, hf, hd⟩
  | par p n r x =>
    simp only [Good]
    rw [claim_iff h hk]
    refine and_congr_right fun _ => or_congr_right ⟨?_, ?_⟩
    · rintro ⟨s', kn', pc', hs, k, ha, hd⟩
      exact ⟨s', kn', pc', sil_inv h hs (not_step_fork ha), k, ha, hd⟩
    · rintro ⟨s', kn', pc', hs, hd⟩
      exact ⟨s', kn', pc', .step h hs, hd⟩

theorem min_confirmed {a b : Status} (h : a.min b = .confirmed) :
    a = .confirmed ∧ b = .confirmed := by
  cases a <;> cases b <;> simp_all [Status.min, Status.val]

/-- A merged result that is final and good comes from two final and good results. -/
theorem merge_fine {left : Analysis} {x : Bool} {node : Tree W.E W.V}
    (hx : (mergeNodeResults left x node).2 = true)
    (hf : Fine (some (mergeNodeResults left x node).1)) :
    x = true ∧ node.exhausted = true ∧ Fine (some left) ∧ Fine (some node.result) := by
  unfold mergeNodeResults at hx hf
  simp only [] at hx hf
  split at hx <;> rename_i hl <;> simp only [Fine] at hf ⊢
  · cases hn : node.exhausted <;> simp_all
  · cases hn : node.exhausted <;> simp_all
  · rename_i ls rs hr
    rw [hl, hr] at hf
    simp only [] at hf
    cases hn : node.exhausted <;> simp_all
    exact min_confirmed hf

@[simp] theorem Out.via_leaf {E V : Type} (o : Out E V) (b f) : (o.via b f).leaf = o.leaf := rfl
@[simp] theorem Out.via_tree {E V : Type} (o : Out E V) (b f) :
    (o.via b f).tree = f o.tree := rfl
@[simp] theorem Out.via_trace {E V : Type} (o : Out E V) (b f) :
    (o.via b f).trace = b :: o.trace := rfl

/-- The analysis a path ends with was produced by the program, by a timeout or unknown
satisfiability, or by the nondeterminism check. -/
theorem iter_leaf (script : List (Env W)) :
    ∀ (t : Tree W.E W.V) (s : P.S) kn pc det o, iter P script t s kn pc det = .ok o →
      Reach P s o.leaf ∨ o.leaf = .unknown ∨ o.leaf = .notDet := by
  induction script with
  | nil =>
    intro t s kn pc det o h
    simp only [iter, Except.ok.injEq] at h
    subst h; simp
  | cons env rest ih =>
    intro t s kn pc det o h
    have lift : ∀ {t' s' kn' pc' det'} {g : Out W.E W.V → Out W.E W.V},
        (iter P rest t' s' kn' pc' det').map g = .ok o → (∀ o, (g o).leaf = o.leaf) →
        (Reach P s' o.leaf → Reach P s o.leaf) →
        Reach P s o.leaf ∨ o.leaf = .unknown ∨ o.leaf = .notDet := by
      intro t' s' kn' pc' det' g hm hg hr
      rw [map_ok_iff] at hm
      obtain ⟨o', ho', rfl⟩ := hm
      rw [hg] at hr ⊢
      rcases ih _ _ _ _ _ _ ho' with h | h | h
      · exact Or.inl (hr h)
      · exact Or.inr (Or.inl h)
      · exact Or.inr (Or.inr h)
    have lift0 : ∀ {t' s' kn' pc' det'},
        iter P rest t' s' kn' pc' det' = .ok o →
        (Reach P s' o.leaf → Reach P s o.leaf) →
        Reach P s o.leaf ∨ o.leaf = .unknown ∨ o.leaf = .notDet := by
      intro t' s' kn' pc' det' hm hr
      exact lift (g := id) (by simpa using hm) (fun _ => rfl) hr
    rw [iter] at h
    cases hact : P.act s with
    | done ret a =>
      simp only [hact, Except.ok.injEq] at h
      subst h; exact Or.inl (.done hact)
    | abort =>
      simp only [hact, Except.ok.injEq] at h
      subst h; simp
    | cap s' =>
      simp only [hact] at h
      exact lift h (fun _ => rfl) (.cap hact)
    | assume e s' =>
      simp only [hact] at h
      split at h
      · exact lift0 h (.assume hact)
      · exact absurd h (by simp)
      · exact lift0 h (.assume hact)
    | ask e k =>
      simp only [hact] at h
      split at h
      · exact lift0 h (.ask _ hact)
      · split at h
        · simp only [Except.ok.injEq] at h; subst h; simp
        · simp only [Except.ok.injEq] at h; subst h; simp
        · split at h
          · exact absurd h (by simp)
          · exact lift h (fun _ => rfl) (.ask _ hact)
          · exact lift h (fun _ => rfl) (.ask _ hact)
    | realize x k =>
      simp only [hact] at h
      split at h
      · simp only [Except.ok.injEq] at h; subst h; simp
      · simp only [Except.ok.injEq] at h; subst h; simp
      · exact absurd h (by simp)
      · split at h
        · exact absurd h (by simp)
        · exact lift h (fun _ => rfl) (.realize _ hact)
        · exact lift h (fun _ => rfl) id
    | fork k =>
      simp only [hact] at h
      split at h
      · simp only [Except.ok.injEq] at h; subst h; simp
      · split at h
        · exact absurd h (by simp)
        · exact lift h (fun _ => rfl) (.fork _ hact)
        · exact lift h (fun _ => rfl) (.fork _ hact)
    | detach s' =>
      simp only [hact] at h
      split at h
      · exact lift0 h (.detach hact)
      · split at h
        · exact lift h (fun _ => rfl) (.detach hact)
        · exact lift0 h (.detach hact)
        · simp only [Except.ok.injEq] at h; subst h; simp

theorem finish_good {t : Tree W.E W.V} {s : P.S} {kn pc a}
    (h : Fine (some a) → SafeAt P pc s) : Good P (finish t a) s kn pc := by
  cases t <;> simp only [finish, Good, Claim] <;> simp_all

theorem not_fine_unknown : ¬ Fine (some Analysis.unknown) := by simp [Fine, Analysis.unknown]
theorem not_fine_notDet : ¬ Fine (some Analysis.notDet) := by simp [Fine, Analysis.notDet]

theorem sil_stuck {s kn pc s1 kn1 pc1} (h : Sil P s kn pc s1 kn1 pc1)
    (hn : ∀ a b c, ¬ Step1 P s kn pc a b c) : s1 = s ∧ kn1 = kn ∧ pc1 = pc := by
  cases h with
  | refl => simp
  | step h1 _ => exact absurd h1 (hn _ _ _)

theorem initForced_ok {env : Env W} (hs : env.UnsatSound) {pc e f}
    (h : initForced (fun c => env.solve (c :: pc)) e = some f) : ForcedOK f e pc := by
  intro b hb i hi
  unfold initForced at h
  split at h
  · exact absurd h (by simp)
  · split at h
    · exact absurd h (by simp)
    · simp_all
    · rename_i hq
      simp only [Option.some.injEq] at h
      subst h
      simp only [Option.some.injEq] at hb
      subst hb
      cases hh : W.holds e i with
      | false => rfl
      | true => exact absurd (meets_cons.2 ⟨hh, hi⟩) (hs _ hq i)
  · rename_i hq
    simp only [Option.some.injEq] at h
    subst h
    simp only [Option.some.injEq] at hb
    subst hb
    cases hh : W.holds e i with
    | true => rfl
    | false => exact absurd (meets_cons.2 ⟨hh, hi⟩) (hs _ hq i)

theorem claim_default {s : P.S} {pc} : Claim P {} false s pc := by
  intro h; exact absurd h (by simp)

theorem nodeForAsk_good {env : Env W} (hs : env.UnsatSound) {t : Tree W.E W.V} {s : P.S}
    {kn pc e k mv f p n r x} (hg : Good P t s kn pc) (ha : P.act s = .ask e k)
    (hk : known? kn e = none) (hn : nodeForAsk env pc e t = .node mv f p n r x) :
    Claim P r x s pc ∧ (x = true ∨ (mv = none ∧ ForcedOK f e pc ∧
      Good P p (k true) ((e, true) :: kn) ((e, true) :: pc) ∧
      Good P n (k false) ((e, false) :: kn) ((e, false) :: pc))) := by
  cases t with
  | stem =>
    simp only [nodeForAsk] at hn
    split at hn
    · exact absurd hn (by simp)
    · rename_i hf
      simp only [NodeAt.node.injEq] at hn
      obtain ⟨rfl, rfl, rfl, rfl, rfl, rfl⟩ := hn
      exact ⟨claim_default, Or.inr ⟨rfl, initForced_ok hs hf, trivial, trivial⟩⟩
  | worst mv' e' f' p' n' r' x' =>
    simp only [nodeForAsk] at hn
    split at hn
    · rename_i he
      subst he
      simp only [NodeAt.node.injEq] at hn
      obtain ⟨rfl, rfl, rfl, rfl, rfl, rfl⟩ := hn
      refine ⟨hg.1, hg.2.imp id ?_⟩
      rintro ⟨s', kn', pc', hsil, hf, hd⟩
      obtain ⟨rfl, rfl, rfl⟩ := sil_stuck hsil (not_step_ask ha hk)
      rcases hd with ⟨k', ha', _, hmv, hp, hn⟩ | ⟨y, k', v, ha', _⟩
      · rw [ha] at ha'
        simp only [Action.ask.injEq, true_and] at ha'
        subst ha'
        exact ⟨hmv, hf, hp, hn⟩
      · rw [ha] at ha'; simp at ha'
    · exact absurd hn (by simp)
  | leaf => simp [nodeForAsk] at hn
  | par => simp [nodeForAsk] at hn
  | detached => simp [nodeForAsk] at hn

theorem nodeForRealize_good {env : Env W} (hs : env.UnsatSound) {t : Tree W.E W.V} {s : P.S}
    {kn pc y k v e f p n r x} (hg : Good P t s kn pc) (ha : P.act s = .realize y k)
    (hn : nodeForRealize env pc y t = .node v e f p n r x) :
    Claim P r x s pc ∧ (x = true ∨ (e = W.eqE y v ∧ ForcedOK f e pc ∧
      Good P p (k v) kn ((e, true) :: pc) ∧ Good P n s kn ((e, false) :: pc))) := by
  cases t with
  | stem =>
    simp only [nodeForRealize] at hn
    split at hn
    · exact absurd hn (by simp)
    · exact absurd hn (by simp)
    · split at hn
      · exact absurd hn (by simp)
      · rename_i hf
        simp only [ModelNodeAt.node.injEq] at hn
        obtain ⟨rfl, rfl, rfl, rfl, rfl, rfl, rfl⟩ := hn
        exact ⟨claim_default, Or.inr ⟨rfl, initForced_ok hs hf, trivial, trivial⟩⟩
  | worst mv' e' f' p' n' r' x' =>
    cases mv' with
    | none => simp [nodeForRealize] at hn
    | some v' =>
      simp only [nodeForRealize, ModelNodeAt.node.injEq] at hn
      obtain ⟨rfl, rfl, rfl, rfl, rfl, rfl, rfl⟩ := hn
      refine ⟨hg.1, hg.2.imp id ?_⟩
      rintro ⟨s', kn', pc', hsil, hf, hd⟩
      obtain ⟨rfl, rfl, rfl⟩ := sil_stuck hsil (not_step_realize ha)
      rcases hd with ⟨k', ha', _⟩ | ⟨y', k', v', ha', hv, he, hp, hn⟩
      · rw [ha] at ha'; simp at ha'
      · rw [ha] at ha'
        simp only [Action.realize.injEq] at ha'
        obtain ⟨rfl, rfl⟩ := ha'
        simp only [Option.some.injEq] at hv
        subst hv
        exact ⟨he, hf, hp, hn⟩
  | leaf => simp [nodeForRealize] at hn
  | par => simp [nodeForRealize] at hn
  | detached => simp [nodeForRealize] at hn

theorem nodeForFork_good {t : Tree W.E W.V} {s : P.S}
    {kn pc k p n r x} (hg : Good P t s kn pc) (ha : P.act s = .fork k)
    (hn : nodeForFork t = some (p, n, r, x)) :
    Claim P r x s pc ∧ (x = true ∨ (Good P p (k true) kn pc ∧ Good P n (k false) kn pc)) := by
  cases t with
  | stem =>
    simp only [nodeForFork, Option.some.injEq, Prod.mk.injEq] at hn
    obtain ⟨rfl, rfl, rfl, rfl⟩ := hn
    exact ⟨claim_default, Or.inr ⟨trivial, trivial⟩⟩
  | par p' n' r' x' =>
    simp only [nodeForFork, Option.some.injEq, Prod.mk.injEq] at hn
    obtain ⟨rfl, rfl, rfl, rfl⟩ := hn
    refine ⟨hg.1, hg.2.imp id ?_⟩
    rintro ⟨s', kn', pc', hsil, k', ha', hd⟩
    obtain ⟨rfl, rfl, rfl⟩ := sil_stuck hsil (not_step_fork ha)
    rw [ha] at ha'
    simp only [Action.fork.injEq] at ha'
    subst ha'
    exact hd
  | leaf => simp [nodeForFork] at hn
  | worst => simp [nodeForFork] at hn
  | detached => simp [nodeForFork] at hn

/-- Combining the two sides of a `WorstResultNode` keeps promises. -/
theorem worstCompute_claim {e : W.E} {f : Option Bool} {p n : Tree W.E W.V} {s sp sn : P.S} {pc}
    (hf : ForcedOK f e pc)
    (hT : ∀ i : W.Inp, W.holds e i = true → ∀ o, Runs P i sp o → Runs P i s o)
    (hF : ∀ i : W.Inp, W.holds e i = false → ∀ o, Runs P i sn o → Runs P i s o)
    (hp : Claim P p.result p.exhausted sp ((e, true) :: pc))
    (hn : Claim P n.result n.exhausted sn ((e, false) :: pc)) :
    Claim P (worstCompute f p n).1 (worstCompute f p n).2 s pc := by
  intro hx hfine i hi
  have useP : p.exhausted = true → Fine (some p.result) → W.holds e i = true →
      ∃ o, Runs P i s o ∧ Fine o := by
    intro h1 h2 h3
    obtain ⟨o, hr, ho⟩ := hp h1 h2 i (meets_cons.2 ⟨h3, hi⟩)
    exact ⟨o, hT i h3 o hr, ho⟩
  have useN : n.exhausted = true → Fine (some n.result) → W.holds e i = false →
      ∃ o, Runs P i s o ∧ Fine o := by
    intro h1 h2 h3
    obtain ⟨o, hr, ho⟩ := hn h1 h2 i (meets_cons.2 ⟨h3, hi⟩)
    exact ⟨o, hF i h3 o hr, ho⟩
  unfold worstCompute at hx hfine
  simp only [] at hx hfine
  split at hx
  · rename_i hc
    simp only [hc, if_true] at hfine
    rcases hc with hc | hc
    · simp [Fine, Tree.status] at hfine hc; simp [hc] at hfine
    · subst hc
      have : p.exhausted = true := by
        unfold worstIsExhausted at hx
        simp at hx
        rcases hx with hx | hx
        · exact hx.1
        · exact hx
      exact useP this hfine (hf true rfl i hi)
  · rename_i hc1
    rw [if_neg hc1] at hfine
    split at hx
    · rename_i hc
      rw [if_pos hc] at hfine
      rcases hc with hc | hc
      · simp [Fine, Tree.status] at hfine hc; simp [hc] at hfine
      · subst hc
        have : n.exhausted = true := by
          unfold worstIsExhausted at hx
          simp at hx
          rcases hx with hx | hx
          · exact hx.2
          · exact hx
        exact useN this hfine (hf false rfl i hi)
    · rename_i hc
      rw [if_neg hc] at hfine
      obtain ⟨h1, h2, h3, h4⟩ := merge_fine hx hfine
      cases hh : W.holds e i with
      | true => exact useP h1 h3 hh
      | false => exact useN h2 h4 hh

theorem parCompute_claim {p n : Tree W.E W.V} {s sp sn : P.S} {pc}
    (hT : ∀ i : W.Inp, ∀ o, Runs P i sp o → Runs P i s o)
    (hF : ∀ i : W.Inp, ∀ o, Runs P i sn o → Runs P i s o)
    (hp : Claim P p.result p.exhausted sp pc)
    (hn : Claim P n.result n.exhausted sn pc) :
    Claim P (parCompute p n).1 (parCompute p n).2 s pc := by
  intro hx hfine i hi
  have useP : p.exhausted = true → Fine (some p.result) → ∃ o, Runs P i s o ∧ Fine o := by
    intro h1 h2
    obtain ⟨o, hr, ho⟩ := hp h1 h2 i hi
    exact ⟨o, hT i o hr, ho⟩
  have useN : n.exhausted = true → Fine (some n.result) → ∃ o, Runs P i s o ∧ Fine o := by
    intro h1 h2
    obtain ⟨o, hr, ho⟩ := hn h1 h2 i hi
    exact ⟨o, hF i o hr, ho⟩
  unfold parCompute at hx hfine
  split at hx
  · rename_i hc
    rw [if_pos hc] at hfine
    exact useP hc.1 hfine
  · rename_i hc1
    rw [if_neg hc1] at hfine
    split at hx
    · rename_i hc
      rw [if_pos hc] at hfine
      exact useN hc.1 hfine
    · rename_i hc
      rw [if_neg hc] at hfine
      obtain ⟨h1, h2, h3, h4⟩ := merge_fine hx hfine
      simp at h1
      exact useP h1.1 h3

theorem updateResult_claim {r x c s pc} (h : Claim P r x s pc)
    (hc : x = false → Claim P c.1 c.2 s pc) :
    Claim P (updateResult r x c).1 (updateResult r x c).2 s pc := by
  unfold updateResult
  cases x <;> simp_all

theorem updateResult_true {r c} : updateResult r true c = (r, true) := rfl
theorem updateResult_false {r c} : updateResult r false c = c := rfl

theorem sub_cons2 {α : Type} {a : α} {l m : List α} (h : l ⊆ m) : a :: l ⊆ a :: m := by
  intro x hx
  simp only [List.mem_cons] at hx ⊢
  exact hx.imp id (fun h' => h h')

/-- A path that comes back to a detached node either leaves it or overwrites it. -/
theorem iter_detached (script : List (Env W)) :
    ∀ c r x (s : P.S) kn pc o, iter P script (.detached c r x) s kn pc true = .ok o →
      o.tree = .detached c r x ∨ o.tree = .detached c o.leaf true := by
  induction script with
  | nil =>
    intro c r x s kn pc o h
    simp only [iter, Except.ok.injEq] at h
    subst h; simp [finish]
  | cons env rest ih =>
    intro c r x s kn pc o h
    rw [iter] at h
    cases hact : P.act s with
    | done ret a =>
      simp only [hact, Except.ok.injEq] at h
      subst h; simp [finish]
    | abort =>
      simp only [hact, Except.ok.injEq] at h
      subst h; simp
    | cap s' =>
      simp only [hact, map_ok_iff] at h
      obtain ⟨o', ho', rfl⟩ := h
      have := ih _ _ _ _ _ _ _ ho'
      exact this
    | assume e s' =>
      simp only [hact] at h
      split at h
      · exact ih _ _ _ _ _ _ _ h
      · exact absurd h (by simp)
      · exact ih _ _ _ _ _ _ _ h
    | ask e k =>
      simp only [hact] at h
      split at h
      · exact ih _ _ _ _ _ _ _ h
      · simp only [nodeForAsk, Except.ok.injEq] at h
        subst h; simp [finish]
    | realize y k =>
      simp only [hact, nodeForRealize, Except.ok.injEq] at h
      subst h; simp [finish]
    | fork k =>
      simp only [hact, nodeForFork, Except.ok.injEq] at h
      subst h; simp [finish]
    | detach s' =>
      simp only [hact, if_true] at h
      exact ih _ _ _ _ _ _ _ h

/-- One iteration keeps the whole tree truthful. -/
theorem iter_good (hd : DetachUniform P) (script : List (Env W))
    (henv : ∀ env ∈ script, env.UnsatSound) :
    ∀ (t : Tree W.E W.V) (s : P.S) kn pc o, kn ⊆ pc → Good P t s kn pc →
      iter P script t s kn pc false = .ok o → Good P o.tree s kn pc := by
  induction script with
  | nil =>
    intro t s kn pc o hk hg h
    simp only [iter, Except.ok.injEq] at h
    subst h
    exact finish_good fun hf => absurd hf not_fine_unknown
  | cons env rest ih =>
    intro t s kn pc o hk hg h
    have hs : env.UnsatSound := henv env (by simp)
    replace ih := ih (fun e he => henv e (by simp [he]))
    rw [iter] at h
    have silent : ∀ {s1 kn1 pc1}, Step1 P s kn pc s1 kn1 pc1 → ∀ {o'},
        iter P rest t s1 kn1 pc1 false = .ok o' → Good P o'.tree s kn pc := by
      intro s1 kn1 pc1 hst o' ho'
      exact (good_step hst hk).2 (ih _ _ _ _ _ (hst.sub hk) ((good_step hst hk).1 hg) ho')
    cases hact : P.act s with
    | done ret a =>
      simp only [hact, Except.ok.injEq] at h
      subst h
      exact finish_good fun hf i hi => ⟨_, .done hact, hf⟩
    | abort =>
      simp only [hact, Except.ok.injEq] at h
      subst h; exact hg
    | cap s' =>
      simp only [hact, map_ok_iff] at h
      obtain ⟨o', ho', rfl⟩ := h
      exact silent (.cap hact) (o' := o') ho'
    | assume e s' =>
      simp only [hact] at h
      split at h
      · rename_i hkn; exact silent (.assumeK hact hkn) h
      · exact absurd h (by simp)
      · rename_i hkn; exact silent (.assumeN hact hkn) h
    | ask e k =>
      simp only [hact] at h
      split at h
      · rename_i b hkn; exact silent (.known hact hkn) h
      · rename_i hkn
        split at h
        · simp only [Except.ok.injEq] at h; subst h
          exact finish_good fun hf => absurd hf not_fine_unknown
        · simp only [Except.ok.injEq] at h; subst h
          exact finish_good fun hf => absurd hf not_fine_notDet
        · rename_i mv f p n r x hnode
          obtain ⟨hcl, hrest⟩ := nodeForAsk_good hs hg hact hkn hnode
          have key : ∀ p' n' : Tree W.E W.V,
              (x = false → Good P p' (k true) ((e, true) :: kn) ((e, true) :: pc)) →
              (x = false → Good P n' (k false) ((e, false) :: kn) ((e, false) :: pc)) →
              Good P (.updWorst mv e f p' n' r x) s kn pc := by
            intro p' n' hp' hn'
            unfold Tree.updWorst
            cases x with
            | true => exact ⟨hcl, Or.inl rfl⟩
            | false =>
              obtain ⟨hmv, hf, hp, hn⟩ := hrest.resolve_left (by simp)
              refine ⟨worstCompute_claim hf ?_ ?_ (hp' rfl).claim (hn' rfl).claim, Or.inr
                ⟨s, kn, pc, .refl, hf, Or.inl ⟨k, hact, hkn, hmv, hp' rfl, hn' rfl⟩⟩⟩
              · intro i hh o hr; exact .ask hact (by rw [hh]; exact hr)
              · intro i hh o hr; exact .ask hact (by rw [hh]; exact hr)
          split at h
          · exact absurd h (by simp)
          · simp only [map_ok_iff] at h
            obtain ⟨o', ho', rfl⟩ := h
            refine key _ _ (fun hx => ?_) (fun hx => ?_)
            · obtain ⟨hmv, hf, hp, hn⟩ := hrest.resolve_left (by simp [hx])
              exact ih _ _ _ _ _ (sub_cons2 hk) hp ho'
            · obtain ⟨hmv, hf, hp, hn⟩ := hrest.resolve_left (by simp [hx])
              exact hn
          · simp only [map_ok_iff] at h
            obtain ⟨o', ho', rfl⟩ := h
            refine key _ _ (fun hx => ?_) (fun hx => ?_)
            · obtain ⟨hmv, hf, hp, hn⟩ := hrest.resolve_left (by simp [hx])
              exact hp
            · obtain ⟨hmv, hf, hp, hn⟩ := hrest.resolve_left (by simp [hx])
              exact ih _ _ _ _ _ (sub_cons2 hk) hn ho'
    | realize y k =>
      simp only [hact] at h
      split at h
      · simp only [Except.ok.injEq] at h; subst h
        exact finish_good fun hf => absurd hf not_fine_unknown
      · simp only [Except.ok.injEq] at h; subst h
        exact finish_good fun hf => absurd hf not_fine_notDet
      · exact absurd h (by simp)
      · rename_i v e f p n r x hnode
        obtain ⟨hcl, hrest⟩ := nodeForRealize_good hs hg hact hnode
        have key : ∀ p' n' : Tree W.E W.V,
            (x = false → Good P p' (k v) kn ((e, true) :: pc)) →
            (x = false → Good P n' s kn ((e, false) :: pc)) →
            Good P (.updWorst (some v) e f p' n' r x) s kn pc := by
          intro p' n' hp' hn'
          unfold Tree.updWorst
          cases x with
          | true => exact ⟨hcl, Or.inl rfl⟩
          | false =>
            obtain ⟨he, hf, hp, hn⟩ := hrest.resolve_left (by simp)
            refine ⟨worstCompute_claim hf ?_ ?_ (hp' rfl).claim (hn' rfl).claim, Or.inr
              ⟨s, kn, pc, .refl, hf, Or.inr ⟨y, k, v, hact, rfl, he, hp' rfl, hn' rfl⟩⟩⟩
            · intro i hh o hr
              rw [he, W.eqE_spec] at hh
              exact .realize hact (by rw [hh]; exact hr)
            · intro i hh o hr; exact hr
        split at h
        · exact absurd h (by simp)
        · simp only [map_ok_iff] at h
          obtain ⟨o', ho', rfl⟩ := h
          refine key _ _ (fun hx => ?_) (fun hx => ?_)
          · obtain ⟨he, hf, hp, hn⟩ := hrest.resolve_left (by simp [hx])
            subst he
            exact ih _ _ _ _ _ (fun a ha => by simp [hk ha]) hp ho'
          · exact (hrest.resolve_left (by simp [hx])).2.2.2
        · simp only [map_ok_iff] at h
          obtain ⟨o', ho', rfl⟩ := h
          refine key _ _ (fun hx => ?_) (fun hx => ?_)
          · exact (hrest.resolve_left (by simp [hx])).2.2.1
          · obtain ⟨he, hf, hp, hn⟩ := hrest.resolve_left (by simp [hx])
            subst he
            exact ih _ _ _ _ _ (fun a ha => by simp [hk ha]) hn ho'
    | fork k =>
      simp only [hact] at h
      split at h
      · simp only [Except.ok.injEq] at h; subst h
        exact finish_good fun hf => absurd hf not_fine_notDet
      · rename_i p n r x hnode
        obtain ⟨hcl, hrest⟩ := nodeForFork_good hg hact hnode
        have key : ∀ p' n' : Tree W.E W.V,
            (x = false → Good P p' (k true) kn pc) →
            (x = false → Good P n' (k false) kn pc) →
            Good P (.updPar p' n' r x) s kn pc := by
          intro p' n' hp' hn'
          unfold Tree.updPar
          cases x with
          | true => exact ⟨hcl, Or.inl rfl⟩
          | false =>
            refine ⟨parCompute_claim ?_ ?_ (hp' rfl).claim (hn' rfl).claim, Or.inr
              ⟨s, kn, pc, .refl, k, hact, hp' rfl, hn' rfl⟩⟩
            · intro i o hr; exact .fork _ hact hr
            · intro i o hr; exact .fork _ hact hr
        split at h
        · exact absurd h (by simp)
        · simp only [map_ok_iff] at h
          obtain ⟨o', ho', rfl⟩ := h
          refine key _ _ (fun hx => ?_) (fun hx => ?_)
          · exact ih _ _ _ _ _ hk (hrest.resolve_left (by simp [hx])).1 ho'
          · exact (hrest.resolve_left (by simp [hx])).2
        · simp only [map_ok_iff] at h
          obtain ⟨o', ho', rfl⟩ := h
          refine key _ _ (fun hx => ?_) (fun hx => ?_)
          · exact (hrest.resolve_left (by simp [hx])).1
          · exact ih _ _ _ _ _ hk (hrest.resolve_left (by simp [hx])).2 ho'
    | detach s' =>
      simp only [hact, Bool.false_eq_true, if_false] at h
      split at h
      · simp only [map_ok_iff] at h
        obtain ⟨o', ho', rfl⟩ := h
        refine ⟨rfl, fun _ hf i hi => ?_⟩
        rcases iter_leaf rest _ _ _ _ _ _ ho' with hr | hr | hr
        · obtain ⟨o, h1, h2⟩ := hd s s' hact _ hr hf i
          exact ⟨o, .detach hact h1, h2⟩
        · exact absurd (hr ▸ hf) not_fine_unknown
        · exact absurd (hr ▸ hf) not_fine_notDet
      · rename_i c r x
        have hfin : Claim P o.leaf true s pc := by
          intro _ hf i hi
          rcases iter_leaf rest _ _ _ _ _ _ h with hr | hr | hr
          · obtain ⟨o, h1, h2⟩ := hd s s' hact _ hr hf i
            exact ⟨o, .detach hact h1, h2⟩
          · exact absurd (hr ▸ hf) not_fine_unknown
          · exact absurd (hr ▸ hf) not_fine_notDet
        rcases iter_detached rest _ _ _ _ _ _ _ h with ht | ht
        · rw [ht]; exact hg
        · rw [ht]; exact ⟨rfl, hfin⟩
      · simp only [Except.ok.injEq] at h; subst h
        exact ⟨rfl, fun _ hf => absurd hf not_fine_notDet⟩

/-- Every stored result that is not UNKNOWN or REFUTED belongs to an exhausted node. -/
def Settled {E V : Type} : Tree E V → Prop
  | .stem => True
  | .leaf r x => Fine (some r) → x = true
  | .worst _ _ _ p n r x => (Fine (some r) → x = true) ∧ Settled p ∧ Settled n
  | .par p n r x => (Fine (some r) → x = true) ∧ Settled p ∧ Settled n
  | .detached _ r x => Fine (some r) → x = true

theorem Settled.top {E V : Type} {t : Tree E V} (h : Settled t) :
    Fine (some t.result) → t.exhausted = true := by
  cases t with
  | stem => intro hf; exact absurd hf not_fine_unknown
  | leaf => exact h
  | worst => exact h.1
  | par => exact h.1
  | detached => exact h

theorem finish_settled {E V : Type} {t : Tree E V} {a} (h : Settled t) : Settled (finish t a) := by
  cases t <;> simp_all [finish, Settled]

theorem merge_settled {E V : Type} {p n : Tree E V} {x : Bool}
    (hp : Fine (some p.result) → x = true)
    (hn : Fine (some n.result) → n.exhausted = true)
    (hf : Fine (some (mergeNodeResults p.result x n).1)) :
    (mergeNodeResults p.result x n).2 = true := by
  unfold mergeNodeResults at hf ⊢
  simp only [] at hf ⊢
  split at hf <;> rename_i hl
  · have h1 := hn hf
    have h2 := hp (by simp [Fine, hl])
    simp [h1, h2]
  · rename_i hr _
    have h1 := hp hf
    have h2 := hn (by simp_all [Fine])
    simp [h1, h2]
  · rename_i ls rs hr
    simp only [Fine, reduceCtorEq, false_or, Option.some.injEq] at hf
    obtain ⟨rfl, rfl⟩ := min_confirmed hf
    have h1 := hp (by simp_all [Fine])
    have h2 := hn (by simp_all [Fine])
    simp [h1, h2]

theorem worstCompute_settled {E V : Type} {f : Option Bool} {p n : Tree E V}
    (hp : Settled p) (hn : Settled n) (hf : Fine (some (worstCompute f p n).1)) :
    (worstCompute f p n).2 = true := by
  unfold worstCompute at hf ⊢
  simp only [] at hf ⊢
  split at hf
  · rename_i hc
    rw [if_pos hc]
    have := hp.top hf
    rcases hc with hc | hc
    · simp [Fine, Tree.status] at hf hc; simp [hc] at hf
    · simp [worstIsExhausted, this, hc]
  · rename_i hc1
    rw [if_neg hc1]
    split at hf
    · rename_i hc
      rw [if_pos hc]
      have := hn.top hf
      rcases hc with hc | hc
      · simp [Fine, Tree.status] at hf hc; simp [hc] at hf
      · simp [worstIsExhausted, this, hc]
    · rename_i hc
      rw [if_neg hc]
      exact merge_settled hp.top hn.top hf

theorem parCompute_settled {E V : Type} {p n : Tree E V}
    (hp : Settled p) (hn : Settled n) (hf : Fine (some (parCompute p n).1)) :
    (parCompute p n).2 = true := by
  unfold parCompute at hf ⊢
  split
  · rfl
  · rename_i hc1
    rw [if_neg hc1] at hf
    split
    · rfl
    · rename_i hc
      rw [if_neg hc] at hf
      by_cases hpx : p.exhausted = true
      · have hpu : p.status = some .unknown := by
          by_cases hu : p.status = some .unknown
          · exact hu
          · exact absurd ⟨hpx, hu⟩ hc1
        refine merge_settled ?_ hn.top hf
        intro h
        simp [Fine, Tree.status] at h hpu
        simp [hpu] at h
      · have hnf : ¬ Fine (some p.result) := fun h => hpx (hp.top h)
        refine merge_settled (fun h => absurd h hnf) hn.top hf

theorem updWorst_settled {E V : Type} {mv : Option V} {e : E} {f p n r x}
    (hp : Settled p) (hn : Settled n) : Settled (Tree.updWorst mv e f p n r x) := by
  refine ⟨?_, hp, hn⟩
  cases x with
  | true => intro; rfl
  | false => exact worstCompute_settled hp hn

theorem updPar_settled {E V : Type} {p n : Tree E V} {r x}
    (hp : Settled p) (hn : Settled n) : Settled (Tree.updPar p n r x) := by
  refine ⟨?_, hp, hn⟩
  cases x with
  | true => intro; rfl
  | false => exact parCompute_settled hp hn

theorem nodeForAsk_settled {env : Env W} {t : Tree W.E W.V} {pc e mv f p n r x}
    (ht : Settled t) (h : nodeForAsk env pc e t = .node mv f p n r x) :
    Settled p ∧ Settled n := by
  cases t <;> simp only [nodeForAsk, reduceCtorEq] at h
  · split at h
    · exact absurd h (by simp)
    · simp only [NodeAt.node.injEq] at h
      obtain ⟨rfl, rfl, rfl, rfl, rfl, rfl⟩ := h
      exact ⟨trivial, trivial⟩
  · split at h
    · simp only [NodeAt.node.injEq] at h
      obtain ⟨rfl, rfl, rfl, rfl, rfl, rfl⟩ := h
      exact ht.2
    · exact absurd h (by simp)

theorem nodeForRealize_settled {env : Env W} {t : Tree W.E W.V} {pc y v e f p n r x}
    (ht : Settled t) (h : nodeForRealize env pc y t = .node v e f p n r x) :
    Settled p ∧ Settled n := by
  cases t with
  | stem =>
    simp only [nodeForRealize] at h
    split at h
    · exact absurd h (by simp)
    · exact absurd h (by simp)
    · split at h
      · exact absurd h (by simp)
      · simp only [ModelNodeAt.node.injEq] at h
        obtain ⟨rfl, rfl, rfl, rfl, rfl, rfl, rfl⟩ := h
        exact ⟨trivial, trivial⟩
  | worst mv' e' f' p' n' r' x' =>
    cases mv' with
    | none => simp [nodeForRealize] at h
    | some v' =>
      simp only [nodeForRealize, ModelNodeAt.node.injEq] at h
      obtain ⟨rfl, rfl, rfl, rfl, rfl, rfl, rfl⟩ := h
      exact ht.2
  | leaf => simp [nodeForRealize] at h
  | par => simp [nodeForRealize] at h
  | detached => simp [nodeForRealize] at h

theorem nodeForFork_settled {E V : Type} {t p n : Tree E V} {r x}
    (ht : Settled t) (h : nodeForFork t = some (p, n, r, x)) : Settled p ∧ Settled n := by
  cases t <;> simp only [nodeForFork, reduceCtorEq, Option.some.injEq, Prod.mk.injEq] at h
  · obtain ⟨rfl, rfl, rfl, rfl⟩ := h
    exact ⟨trivial, trivial⟩
  · obtain ⟨rfl, rfl, rfl, rfl⟩ := h
    exact ht.2

theorem iter_settled (script : List (Env W)) :
    ∀ (t : Tree W.E W.V) (s : P.S) kn pc det o, Settled t →
      iter P script t s kn pc det = .ok o → Settled o.tree := by
  induction script with
  | nil =>
    intro t s kn pc det o ht h
    simp only [iter, Except.ok.injEq] at h
    subst h; exact finish_settled ht
  | cons env rest ih =>
    intro t s kn pc det o ht h
    rw [iter] at h
    cases hact : P.act s with
    | done ret a =>
      simp only [hact, Except.ok.injEq] at h
      subst h; exact finish_settled ht
    | abort =>
      simp only [hact, Except.ok.injEq] at h
      subst h; exact ht
    | cap s' =>
      simp only [hact, map_ok_iff] at h
      obtain ⟨o', ho', rfl⟩ := h
      have := ih _ _ _ _ _ _ ht ho'
      exact this
    | assume e s' =>
      simp only [hact] at h
      split at h
      · exact ih _ _ _ _ _ _ ht h
      · exact absurd h (by simp)
      · exact ih _ _ _ _ _ _ ht h
    | ask e k =>
      simp only [hact] at h
      split at h
      · exact ih _ _ _ _ _ _ ht h
      · split at h
        · simp only [Except.ok.injEq] at h; subst h; exact finish_settled ht
        · simp only [Except.ok.injEq] at h; subst h; exact finish_settled ht
        · rename_i hnode
          obtain ⟨hp, hn⟩ := nodeForAsk_settled ht hnode
          split at h
          · exact absurd h (by simp)
          · simp only [map_ok_iff] at h
            obtain ⟨o', ho', rfl⟩ := h
            exact updWorst_settled (ih _ _ _ _ _ _ hp ho') hn
          · simp only [map_ok_iff] at h
            obtain ⟨o', ho', rfl⟩ := h
            exact updWorst_settled hp (ih _ _ _ _ _ _ hn ho')
    | realize y k =>
      simp only [hact] at h
      split at h
      · simp only [Except.ok.injEq] at h; subst h; exact finish_settled ht
      · simp only [Except.ok.injEq] at h; subst h; exact finish_settled ht
      · exact absurd h (by simp)
      · rename_i hnode
        obtain ⟨hp, hn⟩ := nodeForRealize_settled ht hnode
        split at h
        · exact absurd h (by simp)
        · simp only [map_ok_iff] at h
          obtain ⟨o', ho', rfl⟩ := h
          exact updWorst_settled (ih _ _ _ _ _ _ hp ho') hn
        · simp only [map_ok_iff] at h
          obtain ⟨o', ho', rfl⟩ := h
          exact updWorst_settled hp (ih _ _ _ _ _ _ hn ho')
    | fork k =>
      simp only [hact] at h
      split at h
      · simp only [Except.ok.injEq] at h; subst h; exact finish_settled ht
      · rename_i hnode
        obtain ⟨hp, hn⟩ := nodeForFork_settled ht hnode
        split at h
        · exact absurd h (by simp)
        · simp only [map_ok_iff] at h
          obtain ⟨o', ho', rfl⟩ := h
          exact updPar_settled (ih _ _ _ _ _ _ hp ho') hn
        · simp only [map_ok_iff] at h
          obtain ⟨o', ho', rfl⟩ := h
          exact updPar_settled hp (ih _ _ _ _ _ _ hn ho')
    | detach s' =>
      simp only [hact] at h
      split at h
      · exact ih _ _ _ _ _ _ ht h
      · split at h
        · simp only [map_ok_iff] at h
          obtain ⟨o', ho', rfl⟩ := h
          exact fun _ => rfl
        · exact ih _ _ _ _ _ _ ht h
        · simp only [Except.ok.injEq] at h; subst h
          exact fun _ => rfl

theorem capTop_exhausted {E V : Type} {t : Tree E V} : (capTop t).exhausted = t.exhausted := by
  cases t <;> rfl

theorem low_fine {r : Analysis}
    (h : Fine (some (match r.status with
      | none => r
      | some s => { r with status := some (s.min .unknown) }))) : Fine (some r) := by
  cases hr : r.status with
  | none => simp [Fine, hr]
  | some s =>
    rw [hr] at h
    cases s <;> simp_all [Fine, Status.min, Status.val]

theorem capTop_settled {E V : Type} {t : Tree E V} (h : Settled t) : Settled (capTop t) := by
  cases t with
  | stem => trivial
  | leaf r x => exact fun hf => h (low_fine hf)
  | worst => exact ⟨fun hf => h.1 (low_fine hf), h.2⟩
  | par => exact ⟨fun hf => h.1 (low_fine hf), h.2⟩
  | detached => exact fun hf => h (low_fine hf)

theorem capTop_good {t : Tree W.E W.V} {s : P.S} {kn pc} (h : Good P t s kn pc) :
    Good P (capTop t) s kn pc := by
  cases t with
  | stem => trivial
  | leaf r x => exact fun hx hf => h hx (low_fine hf)
  | worst => exact ⟨fun hx hf => h.1 hx (low_fine hf), h.2⟩
  | par => exact ⟨fun hx hf => h.1 hx (low_fine hf), h.2⟩
  | detached => exact ⟨h.1, fun hx hf => h.2 hx (low_fine hf)⟩

theorem explore_good (hd : DetachUniform P) (s0 : P.S) (scripts : List (List (Env W)))
    (henv : ∀ sc ∈ scripts, ∀ env ∈ sc, env.UnsatSound) :
    ∀ l l', Good P l.root s0 [] [] → Settled l.root →
      explore P s0 scripts l = .ok l' → Good P l'.root s0 [] [] ∧ Settled l'.root := by
  induction scripts with
  | nil =>
    intro l l' h1 h2 h
    simp only [explore, Except.ok.injEq] at h
    subst h; exact ⟨h1, h2⟩
  | cons sc rest ih =>
    intro l l' h1 h2 h
    replace ih := ih (fun s hs => henv s (by simp [hs]))
    have step : ∀ l1 b, loopStep P s0 sc l = .ok (l1, b) →
        Good P l1.root s0 [] [] ∧ Settled l1.root := by
      intro l1 b hstep
      unfold loopStep at hstep
      rw [map_ok_iff] at hstep
      obtain ⟨o, ho, heq⟩ := hstep
      have g := iter_good hd sc (henv sc (by simp)) _ _ _ _ _ (by simp) h1 ho
      have st := iter_settled sc _ _ _ _ _ _ h2 ho
      simp only [Prod.mk.injEq] at heq
      obtain ⟨rfl, -⟩ := heq
      simp only [bubble]
      split
      · split
        · exact ⟨h1, h2⟩
        · exact ⟨g, st⟩
      · split
        · exact ⟨capTop_good g, capTop_settled st⟩
        · exact ⟨g, st⟩
    simp only [explore] at h
    split at h
    · exact absurd h (by simp)
    · rename_i l1 hl
      simp only [Except.ok.injEq] at h
      subst h; exact step _ _ hl
    · rename_i l1 hl
      obtain ⟨g, st⟩ := step _ _ hl
      exact ih _ _ g st h

end Verif.Search
