import Verif.Search.Count
/- Helper lemmas about whole exploration histories. -/
namespace Verif.Search
variable {W : World} {P : Prog W}

/-- The preconditions bookkeeping along a history. -/
def foldPre (fp : Option FailPre) (h : List (Out W.E W.V)) : Option FailPre :=
  h.foldl (fun fp o => if o.returned then stepFailPre fp o.leaf else fp) fp

theorem explore_history' (s0 : P.S) (scripts : List (List (Env W))) :
    ∀ l l', explore P s0 scripts l = .ok l' →
      ∃ h, history P s0 scripts l.root = .ok (h, l'.root) ∧ l'.failPre = foldPre l.failPre h ∧
        l'.confirmedPaths = l.confirmedPaths +
          h.countP (fun o => decide (o.leaf.status = some .confirmed)) := by
  induction scripts with
  | nil => intro l l' h; simp only [explore, Except.ok.injEq] at h; subst h; exact ⟨[], rfl, rfl, rfl⟩
  | cons sc rest ih =>
    intro l l' h
    simp only [explore, loopStep] at h
    simp only [history]
    cases hi : iter P sc l.root s0 [] [] false with
    | error e => rw [hi] at h; simp [Except.map] at h
    | ok o =>
      rw [hi] at h
      simp only [Except.map] at h ⊢
      cases hb : (bubble l.root o).2.2 || decide ((bubble l.root o).2.1 = some .refuted) with
      | true =>
        rw [hb] at h
        simp only [Except.ok.injEq] at h
        subst h
        refine ⟨[o], by simp, rfl, ?_⟩
        by_cases hc : o.leaf.status = some .confirmed <;> simp [hc]
      | false =>
        rw [hb] at h
        obtain ⟨h', hh, h1, h2⟩ := ih _ _ h
        refine ⟨o :: h', ?_, h1, ?_⟩
        · simp only [Bool.false_eq_true, if_false]
          simp only at hh
          rw [hh]
        · rw [h2]
          by_cases hc : o.leaf.status = some .confirmed <;> simp [hc] <;> omega

theorem explore_history (s0 : P.S) (scripts : List (List (Env W))) (l l')
    (h : explore P s0 scripts l = .ok l') :
      ∃ h, history P s0 scripts l.root = .ok (h, l'.root) := by
  obtain ⟨h, hh, _⟩ := explore_history' s0 scripts l l' h
  exact ⟨h, hh⟩

theorem stepFailPre_none_iff {fp : FailPre} {o : Out W.E W.V} :
    (if o.returned then stepFailPre (some fp) o.leaf else some fp) = none ↔ PassedPre o := by
  unfold PassedPre stepFailPre
  cases o.returned <;> cases h : o.leaf.failPre <;> cases h2 : o.leaf.status <;> simp
  all_goals (split <;> first | simp | (split <;> simp))

theorem foldPre_none (h : List (Out W.E W.V)) : foldPre none h = none := by
  induction h with
  | nil => rfl
  | cons o h ih =>
    have : (if o.returned then stepFailPre none o.leaf else none) = none := by
      cases o.returned <;> rfl
    simp only [foldPre, List.foldl_cons, this]
    exact ih

theorem foldPre_isSome (h : List (Out W.E W.V)) : ∀ fp : FailPre,
    (foldPre (some fp) h).isSome ↔ ∀ o ∈ h, ¬ PassedPre o := by
  induction h with
  | nil => intro fp; simp [foldPre]
  | cons o h ih =>
    intro fp
    have hstep := @stepFailPre_none_iff W fp o
    simp only [foldPre, List.foldl_cons]
    cases hs : (if o.returned then stepFailPre (some fp) o.leaf else some fp) with
    | none =>
      have hp := hstep.1 hs
      have := foldPre_none h
      unfold foldPre at this
      rw [this]
      simp [hp]
    | some fp' =>
      have hp : ¬ PassedPre o := fun hp => by rw [hstep.2 hp] at hs; simp at hs
      have := ih fp'
      unfold foldPre at this
      rw [this]
      simp [hp]

/-- Invariant-style induction over a history. -/
theorem history_ind (s0 : P.S) (I : Tree W.E W.V → Prop)
    (Q : List (Out W.E W.V) → Tree W.E W.V → Tree W.E W.V → Prop)
    (scripts : List (List (Env W)))
    (hnil : ∀ t, I t → Q [] t t)
    (hstop : ∀ sc ∈ scripts, ∀ t o, I t → iter P sc t s0 [] [] false = .ok o →
      ((bubble t o).2.2 || decide ((bubble t o).2.1 = some .refuted)) = true →
      Q [o] t (bubble t o).1)
    (hI : ∀ sc ∈ scripts, ∀ t o, I t → iter P sc t s0 [] [] false = .ok o →
      (bubble t o).2.2 = false → I (bubble t o).1)
    (hcons : ∀ sc ∈ scripts, ∀ t o h t', I t → iter P sc t s0 [] [] false = .ok o →
      (bubble t o).2.2 = false → Q h (bubble t o).1 t' → Q (o :: h) t t') :
    ∀ t h t', I t → history P s0 scripts t = .ok (h, t') → Q h t t' := by
  induction scripts with
  | nil =>
    intro t h t' hi hh
    simp only [history, Except.ok.injEq, Prod.mk.injEq] at hh
    obtain ⟨rfl, rfl⟩ := hh
    exact hnil _ hi
  | cons sc rest ih =>
    intro t h t' hi hh
    replace ih := ih (fun s hs => hstop s (by simp [hs])) (fun s hs => hI s (by simp [hs]))
      (fun s hs => hcons s (by simp [hs]))
    simp only [history] at hh
    cases hit : iter P sc t s0 [] [] false with
    | error e => rw [hit] at hh; simp at hh
    | ok o =>
      rw [hit] at hh
      simp only at hh
      split at hh
      · rename_i hb
        simp only [Except.ok.injEq, Prod.mk.injEq] at hh
        obtain ⟨rfl, rfl⟩ := hh
        exact hstop sc (by simp) t o hi hit hb
      · rename_i hb
        rw [map_ok_iff] at hh
        obtain ⟨⟨h', t''⟩, hr, he⟩ := hh
        simp only [Prod.mk.injEq] at he
        obtain ⟨rfl, rfl⟩ := he
        have hx : (bubble t o).2.2 = false := by
          cases h : (bubble t o).2.2 <;> simp_all
        exact hcons sc (by simp) t o h' t'' hi hit hx (ih _ _ _ (hI sc (by simp) t o hi hit hx) hr)

theorem iter_ends (script : List (Env W)) :
    ∀ (t : Tree W.E W.V) (s : P.S) kn pc det o, iter P script t s kn pc det = .ok o →
      (∃ s, P.act s = .done o.returned o.leaf) ∨ o.leaf = .unknown ∨ o.leaf = .notDet := by
  induction script with
  | nil =>
    intro t s kn pc det o h
    simp only [iter, Except.ok.injEq] at h
    subst h; simp
  | cons env rest ih =>
    intro t s kn pc det o h
    have lift : ∀ {t' s' kn' pc' det'} {g : Out W.E W.V → Out W.E W.V},
        (iter P rest t' s' kn' pc' det').map g = .ok o → (∀ o, (g o).leaf = o.leaf) →
        (∀ o, (g o).returned = o.returned) →
        (∃ s, P.act s = .done o.returned o.leaf) ∨ o.leaf = .unknown ∨ o.leaf = .notDet := by
      intro t' s' kn' pc' det' g hm hg hr
      rw [map_ok_iff] at hm
      obtain ⟨o', ho', rfl⟩ := hm
      rw [hg, hr]
      exact ih _ _ _ _ _ _ ho'
    rw [iter] at h
    cases hact : P.act s with
    | done ret a =>
      simp only [hact, Except.ok.injEq] at h
      subst h; exact Or.inl ⟨s, hact⟩
    | abort =>
      simp only [hact, Except.ok.injEq] at h
      subst h; simp
    | cap s' =>
      simp only [hact] at h
      exact lift h (fun _ => rfl) (fun _ => rfl)
    | assume e s' =>
      simp only [hact] at h
      split at h
      · exact ih _ _ _ _ _ _ h
      · exact absurd h (by simp)
      · exact ih _ _ _ _ _ _ h
    | ask e k =>
      simp only [hact] at h
      split at h
      · exact ih _ _ _ _ _ _ h
      · split at h
        · simp only [Except.ok.injEq] at h; subst h; simp
        · simp only [Except.ok.injEq] at h; subst h; simp
        · split at h
          · exact absurd h (by simp)
          · exact lift h (fun _ => rfl) (fun _ => rfl)
          · exact lift h (fun _ => rfl) (fun _ => rfl)
    | realize x k =>
      simp only [hact] at h
      split at h
      · simp only [Except.ok.injEq] at h; subst h; simp
      · simp only [Except.ok.injEq] at h; subst h; simp
      · exact absurd h (by simp)
      · split at h
        · exact absurd h (by simp)
        · exact lift h (fun _ => rfl) (fun _ => rfl)
        · exact lift h (fun _ => rfl) (fun _ => rfl)
    | fork k =>
      simp only [hact] at h
      split at h
      · simp only [Except.ok.injEq] at h; subst h; simp
      · split at h
        · exact absurd h (by simp)
        · exact lift h (fun _ => rfl) (fun _ => rfl)
        · exact lift h (fun _ => rfl) (fun _ => rfl)
    | detach s' =>
      simp only [hact] at h
      split at h
      · exact ih _ _ _ _ _ _ h
      · split at h
        · exact lift h (fun _ => rfl) (fun _ => rfl)
        · exact ih _ _ _ _ _ _ h
        · simp only [Except.ok.injEq] at h; subst h; simp

theorem history_ends (s0 : P.S) (scripts : List (List (Env W)))
    (t : Tree W.E W.V) (h t') (hh : history P s0 scripts t = .ok (h, t')) :
    ∀ o ∈ h, (∃ s, P.act s = .done o.returned o.leaf) ∨ o.leaf = .unknown ∨ o.leaf = .notDet := by
  refine history_ind (P := P) s0 (fun _ => True)
    (fun h t _ => ∀ o ∈ h, (∃ s, P.act s = .done o.returned o.leaf) ∨ o.leaf = .unknown ∨
      o.leaf = .notDet) scripts ?_ ?_ ?_ ?_ t h t' trivial hh
  · intro t _; simp
  · intro sc _ t o hl hi _
    simpa using iter_ends sc _ _ _ _ _ _ hi
  · intros; trivial
  · intro sc _ t o h t' hl hi hx hq o2 ho2
    simp only [List.mem_cons] at ho2
    rcases ho2 with rfl | ho2
    · exact iter_ends sc _ _ _ _ _ _ hi
    · exact hq o2 ho2

/-- No fact about forks. -/
def NoFact (_ : Option Bool) (_ : W.E) (_ : List (W.E × Bool)) : Prop := True

theorem noFact_ok (env : Env W) : FactOK NoFact env := fun _ _ _ _ => trivial

theorem explore_no_assertion (s0 : P.S) (scripts : List (List (Env W))) :
    ∀ l, LoopOK P NoFact s0 l.root → explore P s0 scripts l ≠ .error .assertion := by
  induction scripts with
  | nil => intro l _; simp [explore]
  | cons sc rest ih =>
    intro l hl
    simp only [explore, loopStep]
    have ha := iter_after (P := P) (F := NoFact) sc (fun e _ => noFact_ok e) l.root s0 [] [] false
      (by simp) hl.openR hl.shape
    cases hi : iter P sc l.root s0 [] [] false with
    | error e =>
      rw [hi] at ha
      simp only [Except.map]
      intro h
      simp only [Except.error.injEq] at h
      exact ha h
    | ok o =>
      simp only [Except.map]
      cases hb : (bubble l.root o).2.2 || decide ((bubble l.root o).2.1 = some .refuted) with
      | true => simp
      | false =>
        refine ih _ (bubble_loopOK (fun e _ => noFact_ok e) hl hi ?_)
        cases h : (bubble l.root o).2.2 <;> simp_all

theorem bubble_exAt {before : Tree W.E W.V} {o : Out W.E W.V} (h : (bubble before o).2.2 = false)
    (q) : exAt (bubble before o).1 q = exAt o.tree q := by
  unfold bubble at h ⊢
  split at h
  · simp at h
  · rename_i htr
    rw [if_neg htr]
    simp only []
    split
    · exact capTop_exAt
    · rfl

theorem history_fresh (s0 : P.S) (hna : ∀ s, P.act s ≠ .abort) (scripts : List (List (Env W)))
    (t : Tree W.E W.V) (h t') (hl : LoopOK P NoFact s0 t)
    (hh : history P s0 scripts t = .ok (h, t')) :
    h.Pairwise (fun o1 o2 => ¬ o1.trace <+: o2.trace) ∧ ∀ o ∈ h, exAt t o.trace = false := by
  refine history_ind (P := P) s0 (LoopOK P NoFact s0)
    (fun h t _ => h.Pairwise (fun o1 o2 => ¬ o1.trace <+: o2.trace) ∧
      ∀ o ∈ h, exAt t o.trace = false) scripts ?_ ?_ ?_ ?_ t h t' hl hh
  · intro t _; simp
  · intro sc _ t o hl hi _
    have ha := iter_after (P := P) (F := NoFact) sc (fun e _ => noFact_ok e) t s0 [] [] false
      (by simp) hl.openR hl.shape
    rw [hi] at ha
    simp [ha.2.1]
  · intro sc _ t o hl hi hx
    exact bubble_loopOK (fun e _ => noFact_ok e) hl hi hx
  · intro sc _ t o h t' hl hi hx ⟨hq1, hq2⟩
    have ha := iter_after (P := P) (F := NoFact) sc (fun e _ => noFact_ok e) t s0 [] [] false
      (by simp) hl.openR hl.shape
    rw [hi] at ha
    have horph : o.orphan = false := by
      rcases ha.2.2 with h | h
      · exact h.2
      · cases hb : o.orphan with
        | false => rfl
        | true =>
          obtain ⟨s, hs⟩ := h.2 hb
          exact absurd hs (hna s)
    have hmark := iter_marks sc _ _ _ _ _ _ hi horph
    refine ⟨List.pairwise_cons.2 ⟨?_, hq1⟩, ?_⟩
    · rintro o2 ho2 ⟨q, hq⟩
      have h1 := hq2 o2 ho2
      rw [bubble_exAt hx, ← hq, exAt_append _ _ _ hmark] at h1
      simp at h1
    · intro o2 ho2
      simp only [List.mem_cons] at ho2
      rcases ho2 with rfl | ho2
      · exact ha.2.1
      · have h1 := hq2 o2 ho2
        rw [bubble_exAt hx] at h1
        cases he : exAt t o2.trace with
        | false => rfl
        | true => rw [iter_mono sc _ _ _ _ _ _ hi _ he] at h1; simp at h1

theorem history_leaf (s0 : P.S) (scripts : List (List (Env W)))
    (t : Tree W.E W.V) (h t') (hl : LoopOK P NoFact s0 t)
    (hh : history P s0 scripts t = .ok (h, t')) :
    ∀ o ∈ h, Reach P s0 o.leaf ∨ o.leaf = .unknown := by
  have key : ∀ sc, ∀ t o, LoopOK P NoFact s0 t → iter P sc t s0 [] [] false = .ok o →
      Reach P s0 o.leaf ∨ o.leaf = .unknown := by
    intro sc t o hl hi
    have ha := iter_after (P := P) (F := NoFact) sc (fun e _ => noFact_ok e) t s0 [] [] false
      (by simp) hl.openR hl.shape
    rw [hi] at ha
    exact ha.2.2.imp (·.1) (·.1)
  refine history_ind (P := P) s0 (LoopOK P NoFact s0)
    (fun h t _ => ∀ o ∈ h, Reach P s0 o.leaf ∨ o.leaf = .unknown) scripts ?_ ?_ ?_ ?_ t h t' hl hh
  · intro t _; simp
  · intro sc _ t o hl hi _
    simpa using key sc t o hl hi
  · intro sc _ t o hl hi hx
    exact bubble_loopOK (fun e _ => noFact_ok e) hl hi hx
  · intro sc _ t o h t' hl hi hx hq o2 ho2
    simp only [List.mem_cons] at ho2
    rcases ho2 with rfl | ho2
    · exact key sc t o2 hl hi
    · exact hq o2 ho2

theorem history_count (s0 : P.S) (hna : ∀ s, P.act s ≠ .abort) (scripts : List (List (Env W)))
    (hs : ∀ sc ∈ scripts, ∀ env ∈ sc, env.SatSound)
    (t : Tree W.E W.V) (h t') (m) (ho : t.exhausted = false) (hr : Rem P t s0 [] [] m)
    (hh : history P s0 scripts t = .ok (h, t')) : h.length ≤ m := by
  induction scripts generalizing t h t' m with
  | nil =>
    simp only [history, Except.ok.injEq, Prod.mk.injEq] at hh
    obtain ⟨rfl, rfl⟩ := hh
    simp
  | cons sc rest ih =>
    have hpos := rem_pos _ _ _ _ _ hr ho
    simp only [history] at hh
    cases hit : iter P sc t s0 [] [] false with
    | error e => rw [hit] at hh; simp at hh
    | ok o =>
      rw [hit] at hh
      simp only at hh
      split at hh
      · simp only [Except.ok.injEq, Prod.mk.injEq] at hh
        obtain ⟨rfl, rfl⟩ := hh
        simpa using hpos
      · rename_i hb
        rw [map_ok_iff] at hh
        obtain ⟨⟨h', t''⟩, hr', he⟩ := hh
        simp only [Prod.mk.injEq] at he
        obtain ⟨rfl, rfl⟩ := he
        have hx : (bubble t o).2.2 = false := by
          cases h : (bubble t o).2.2 <;> simp_all
        obtain ⟨m', hm, hrem⟩ := iter_rem hna sc (hs sc (by simp)) _ _ _ _ _ _ (by simp) ho hr hit
        have hopen : (bubble t o).1.exhausted = false ∧ Rem P (bubble t o).1 s0 [] [] m' := by
          revert hx
          unfold bubble
          split
          · simp
          · simp only []
            intro hx
            refine ⟨hx, ?_⟩
            split
            · exact capTop_rem hrem
            · exact hrem
        have := ih (fun s hs' => hs s (by simp [hs'])) _ _ _ m' hopen.1 hopen.2 hr'
        simp; omega

/-- What a stored result of the search owes to real executions. -/
def Owed (P : Prog W) (s0 : P.S) (a : Analysis) : Prop :=
  (a.status = some .refuted → ∃ (i : W.Inp) (b : Analysis),
    Runs P i s0 (some b) ∧ b.status = some .refuted) ∧
  ∀ m ∈ a.messages, ∃ (i : W.Inp) (b : Analysis), Runs P i s0 (some b) ∧ m ∈ b.messages

theorem owed_closed (s0 : P.S) : ResClosed (Owed P s0) where
  unknown := ⟨by simp [Analysis.unknown], by simp [Analysis.unknown]⟩
  default := ⟨by simp, by simp⟩
  merge := by
    intro l r ls rs fp hl hr h1 h2
    refine ⟨?_, ?_⟩
    · intro h
      simp only [Option.some.injEq] at h
      cases ls <;> cases rs <;> simp_all [Status.min, Status.val]
      · exact h1.1 hl
      · exact h1.1 hl
      · exact h1.1 hl
      · exact h2.1 hr
      · exact h2.1 hr
    · intro m hm
      simp only [List.mem_append] at hm
      rcases hm with h | h
      · exact h1.2 m h
      · exact h2.2 m h
  low := by
    intro r s hs h
    refine ⟨?_, h.2⟩
    intro he
    simp only [Option.some.injEq] at he
    apply h.1
    rw [hs]
    cases s <;> simp_all [Status.min, Status.val]

theorem bubble_allRes {K} (hK : ResClosed K) {before : Tree W.E W.V} {o : Out W.E W.V}
    (hb : AllRes K before) (h : AllRes K o.tree) : AllRes K (bubble before o).1 := by
  unfold bubble
  split
  · simp only []
    split
    · exact hb
    · exact h
  · simp only []
    split
    · exact capTop_allRes hK h
    · exact h

theorem history_owed (s0 : P.S) (hadd : AddsConsistent P s0) (hne : Nonempty W.Inp)
    (scripts : List (List (Env W)))
    (hu : ∀ sc ∈ scripts, ∀ env ∈ sc, env.UnsatSound)
    (hs : ∀ sc ∈ scripts, ∀ env ∈ sc, env.SatSound)
    (t : Tree W.E W.V) (h t') (hl : LoopOK P Feas s0 t) (hr : AllRes (Owed P s0) t)
    (hh : history P s0 scripts t = .ok (h, t')) : AllRes (Owed P s0) t' := by
  have key : ∀ sc ∈ scripts, ∀ t o, LoopOK P Feas s0 t ∧ AllRes (Owed P s0) t →
      iter P sc t s0 [] [] false = .ok o → AllRes (Owed P s0) (bubble t o).1 := by
    intro sc hsc t o ⟨hl, hr⟩ hi
    have hroot : ∃ i : W.Inp, Meets i ([] : List (W.E × Bool)) := hne.elim fun i => ⟨i, by simp [Meets]⟩
    have hleaf : Owed P s0 o.leaf := by
      rcases iter_real s0 hadd sc (hu sc hsc) (hs sc hsc) _ _ _ _ _ _ (by simp) .start hroot
        (by simp) hl.openR hl.shape hi with h | ⟨i, -, h⟩
      · rw [h]; exact (owed_closed s0).unknown
      · exact ⟨fun hr => ⟨i, _, h, hr⟩, fun m hm => ⟨i, _, h, hm⟩⟩
    exact bubble_allRes (owed_closed s0) hr (iter_allRes (owed_closed s0) sc _ _ _ _ _ _ hr hi hleaf)
  refine history_ind (P := P) s0 (fun t => LoopOK P Feas s0 t ∧ AllRes (Owed P s0) t)
    (fun _ _ t' => AllRes (Owed P s0) t') scripts ?_ ?_ ?_ ?_ t h t' ⟨hl, hr⟩ hh
  · intro t h; exact h.2
  · intro sc hsc t o hi hit _; exact key sc hsc t o hi hit
  · intro sc hsc t o hi hit hx
    exact ⟨bubble_loopOK (fun e he => feas_ok (hu sc hsc e he) (hs sc hsc e he)) hi.1 hit hx,
      key sc hsc t o hi hit⟩
  · intro sc hsc t o h t' hi hit hx hq; exact hq

theorem history_settled (s0 : P.S) (scripts : List (List (Env W)))
    (t : Tree W.E W.V) (h t') (hs : Settled t) (hh : history P s0 scripts t = .ok (h, t')) :
    Settled t' := by
  have key : ∀ sc t o, Settled t → iter P sc t s0 [] [] false = .ok o →
      Settled (bubble t o).1 := by
    intro sc t o ht hi
    have st := iter_settled sc _ _ _ _ _ _ ht hi
    unfold bubble
    split
    · simp only []
      split
      · exact ht
      · exact st
    · simp only []
      split
      · exact capTop_settled st
      · exact st
  refine history_ind (P := P) s0 Settled (fun _ _ t' => Settled t') scripts ?_ ?_ ?_ ?_ t h t' hs hh
  · intro t h; exact h
  · intro sc _ t o ht hi _; exact key sc t o ht hi
  · intro sc _ t o ht hi _; exact key sc t o ht hi
  · intro sc _ t o h t' _ _ _ hq; exact hq

theorem below_stem {q : List Bool} {u : Tree W.E W.V} (h : below .stem q = some u) :
    u.exhausted = false := by
  cases q with
  | nil => simp only [below, Option.some.injEq] at h; subst h; rfl
  | cons => simp [below] at h

/-- An iteration that starts at an open place leaves every finished part of the tree alone. -/
theorem iter_frozen {F} (script : List (Env W)) (hF : ∀ env ∈ script, FactOK F env) :
    ∀ (t : Tree W.E W.V) (s : P.S) kn pc o, t.exhausted = false →
      Shape P F t s kn pc → iter P script t s kn pc false = .ok o →
      ∀ q u, below t q = some u → u.exhausted = true → below o.tree q = some u := by
  have fin : ∀ (t : Tree W.E W.V) a q u, t.exhausted = false → below t q = some u →
      u.exhausted = true → below (finish t a) q = some u := by
    intro t a q u ho hq hu
    cases q with
    | nil => simp only [below, Option.some.injEq] at hq; subst hq; rw [ho] at hu; simp at hu
    | cons b q => cases t <;> simp_all [below, finish]
  induction script with
  | nil =>
    intro t s kn pc o ho hg h q u hq hu
    simp only [iter, Except.ok.injEq] at h
    subst h; exact fin _ _ _ _ ho hq hu
  | cons env rest ih =>
    intro t s kn pc o ho hg h q u hq hu
    have hFe : FactOK F env := hF env (by simp)
    replace ih := ih (fun e he => hF e (by simp [he]))
    rw [iter] at h
    cases hact : P.act s with
    | done ret a =>
      simp only [hact, Except.ok.injEq] at h
      subst h; exact fin _ _ _ _ ho hq hu
    | abort =>
      simp only [hact, Except.ok.injEq] at h
      subst h; exact hq
    | cap s' =>
      simp only [hact, map_ok_iff] at h
      obtain ⟨o', ho', rfl⟩ := h
      have := ih _ _ _ _ _ ho ((shape_step (.cap hact)).1 hg) ho' q u hq hu
      exact this
    | assume e s' =>
      simp only [hact] at h
      split at h
      · rename_i hkn
        exact ih _ _ _ _ _ ho ((shape_step (.assumeK hact hkn)).1 hg) h q u hq hu
      · exact absurd h (by simp)
      · rename_i hkn
        exact ih _ _ _ _ _ ho ((shape_step (.assumeN hact hkn)).1 hg) h q u hq hu
    | ask e k =>
      simp only [hact] at h
      split at h
      · rename_i b hkn
        exact ih _ _ _ _ _ ho ((shape_step (.known hact hkn)).1 hg) h q u hq hu
      · rename_i hkn
        rcases nodeForAsk_shape hFe ho hg hact hkn with hn | ⟨f, p, n, r, hn, hf, hw, hsp, hsn, hst, hex⟩
        · rw [hn] at h
          simp only [Except.ok.injEq] at h
          subst h; exact fin _ _ _ _ ho hq hu
        · rw [hn] at h
          simp only [] at h
          obtain ⟨b, hb, hbo⟩ := worstChoose_open (c := env.coin) hw
          rw [hb] at h
          have hsub : ∀ b' q', below t (b' :: q') = some u →
              (if b' then below p q' else below n q') = some u := by
            intro b' q' hh
            rcases nodeForAsk_exAt hn with ⟨rfl, _⟩ | rfl
            · simp [below] at hh
            · simpa [below] using hh
          cases q with
          | nil => simp only [below, Option.some.injEq] at hq; subst hq; rw [ho] at hu; simp at hu
          | cons b' q' =>
            have hq' := hsub b' q' hq
            cases b with
            | true =>
              simp only [map_ok_iff] at h
              obtain ⟨o', ho', rfl⟩ := h
              have := ih _ _ _ _ _ hbo hsp ho' q' u
              cases b' <;> simp_all [Out.via, Tree.updWorst, below]
            | false =>
              simp only [map_ok_iff] at h
              obtain ⟨o', ho', rfl⟩ := h
              have := ih _ _ _ _ _ hbo hsn ho' q' u
              cases b' <;> simp_all [Out.via, Tree.updWorst, below]
    | realize y k =>
      simp only [hact] at h
      rcases nodeForRealize_shape hFe ho hg hact with hn | hn | ⟨v, f, p, n, r, hn, hf, hw, hsp, hsn, hst, hex⟩
      · rw [hn] at h
        simp only [Except.ok.injEq] at h
        subst h; exact fin _ _ _ _ ho hq hu
      · rw [hn] at h
        exact absurd h (by simp)
      · rw [hn] at h
        simp only [] at h
        obtain ⟨b, hb, hbo⟩ := worstChoose_open (c := env.coin) hw
        rw [hb] at h
        have hsub : ∀ b' q', below t (b' :: q') = some u →
            (if b' then below p q' else below n q') = some u := by
          intro b' q' hh
          rcases nodeForRealize_exAt hn with ⟨rfl, _⟩ | rfl
          · simp [below] at hh
          · simpa [below] using hh
        cases q with
        | nil => simp only [below, Option.some.injEq] at hq; subst hq; rw [ho] at hu; simp at hu
        | cons b' q' =>
          have hq' := hsub b' q' hq
          cases b with
          | true =>
            simp only [map_ok_iff] at h
            obtain ⟨o', ho', rfl⟩ := h
            have := ih _ _ _ _ _ hbo hsp ho' q' u
            cases b' <;> simp_all [Out.via, Tree.updWorst, below]
          | false =>
            simp only [map_ok_iff] at h
            obtain ⟨o', ho', rfl⟩ := h
            have := ih _ _ _ _ _ hbo hsn ho' q' u
            cases b' <;> simp_all [Out.via, Tree.updWorst, below]
    | fork k =>
      simp only [hact] at h
      obtain ⟨p, n, r, hn, hw, hsp, hsn, hst, hex⟩ := nodeForFork_shape ho hg hact
      rw [hn] at h
      simp only [] at h
      obtain ⟨b, hb, hbo⟩ := binChoose_open (c := env.coin) hw
      rw [hb] at h
      have hsub : ∀ b' q', below t (b' :: q') = some u →
          (if b' then below p q' else below n q') = some u := by
        intro b' q' hh
        rcases nodeForFork_exAt hn with ⟨rfl, _⟩ | rfl
        · simp [below] at hh
        · simpa [below] using hh
      cases q with
      | nil => simp only [below, Option.some.injEq] at hq; subst hq; rw [ho] at hu; simp at hu
      | cons b' q' =>
        have hq' := hsub b' q' hq
        cases b with
        | true =>
          simp only [map_ok_iff] at h
          obtain ⟨o', ho', rfl⟩ := h
          have := ih _ _ _ _ _ hbo hsp ho' q' u
          cases b' <;> simp_all [Out.via, Tree.updPar, below]
        | false =>
          simp only [map_ok_iff] at h
          obtain ⟨o', ho', rfl⟩ := h
          have := ih _ _ _ _ _ hbo hsn ho' q' u
          cases b' <;> simp_all [Out.via, Tree.updPar, below]
    | detach s' =>
      simp only [hact, Bool.false_eq_true, if_false] at h
      cases t with
      | stem => rw [below_stem hq] at hu; simp at hu
      | leaf r x =>
        have hx : x = true := hg
        subst hx; simp [Tree.exhausted] at ho
      | detached c r x =>
        have hx : x = true := hg
        subst hx; simp [Tree.exhausted] at ho
      | worst mv e' f p n r x =>
        simp only [Tree.exhausted] at ho
        subst ho
        obtain ⟨hw, s1, kn', pc', hsil, hf, hd⟩ := hg.resolve_left (by simp)
        have hns : ∀ a b c, ¬ Step1 P s kn pc a b c := by
          intro a b c h; cases h <;> simp_all
        obtain ⟨rfl, rfl, rfl⟩ := sil_stuck hsil hns
        rcases hd with ⟨k', ha', _⟩ | ⟨y', k', v, ha', _⟩
        · rw [hact] at ha'; simp at ha'
        · rw [hact] at ha'; simp at ha'
      | par p n r x =>
        simp only [Tree.exhausted] at ho
        subst ho
        obtain ⟨-, s1, kn', pc', hsil, k', ha', -⟩ := hg.resolve_left (by simp)
        have hns : ∀ a b c, ¬ Step1 P s kn pc a b c := by
          intro a b c h; cases h <;> simp_all
        obtain ⟨rfl, rfl, rfl⟩ := sil_stuck hsil hns
        rw [hact] at ha'; simp at ha'

theorem bubble_below {t : Tree W.E W.V} {o : Out W.E W.V} {q u} (hq : q ≠ [])
    (ht : below t q = some u) (h : below o.tree q = some u) : below (bubble t o).1 q = some u := by
  unfold bubble
  split
  · simp only []
    split
    · exact ht
    · exact h
  · simp only []
    split
    · cases q with
      | nil => exact absurd rfl hq
      | cons b q => revert h; cases o.tree <;> exact id
    · exact h

theorem history_frozen (s0 : P.S) (scripts : List (List (Env W)))
    (t : Tree W.E W.V) (h t') (hl : LoopOK P NoFact s0 t)
    (hh : history P s0 scripts t = .ok (h, t')) :
    ∀ q u, below t q = some u → u.exhausted = true → below t' q = some u := by
  have key : ∀ sc t o, LoopOK P NoFact s0 t → iter P sc t s0 [] [] false = .ok o →
      ∀ q u, below t q = some u → u.exhausted = true → below (bubble t o).1 q = some u := by
    intro sc t o hl hi q u hq hu
    refine bubble_below ?_ hq
      (iter_frozen sc (fun e _ => noFact_ok e) _ _ _ _ _ hl.openR hl.shape hi q u hq hu)
    rintro rfl
    simp only [below, Option.some.injEq] at hq
    subst hq
    rw [hl.openR] at hu; simp at hu
  refine history_ind (P := P) s0 (LoopOK P NoFact s0)
    (fun _ t t' => ∀ q u, below t q = some u → u.exhausted = true → below t' q = some u) scripts
    ?_ ?_ ?_ ?_ t h t' hl hh
  · intro t _ q u hq _; exact hq
  · intro sc _ t o hl hi _; exact key sc t o hl hi
  · intro sc _ t o hl hi hx; exact bubble_loopOK (fun e _ => noFact_ok e) hl hi hx
  · intro sc _ t o h t' hl hi hx hq q u h1 h2
    exact hq q u (key sc t o hl hi q u h1 h2) h2

theorem history_append (s0 : P.S) (scripts more : List (List (Env W))) :
    ∀ (t : Tree W.E W.V) (h t1 h' t2), LoopOK P NoFact s0 t →
      history P s0 scripts t = .ok (h, t1) → history P s0 (scripts ++ more) t = .ok (h', t2) →
      (h' = h ∧ t2 = t1) ∨
      (LoopOK P NoFact s0 t1 ∧ ∃ h2, history P s0 more t1 = .ok (h2, t2) ∧ h' = h ++ h2) := by
  induction scripts with
  | nil =>
    intro t h t1 h' t2 hl h1 h2
    simp only [history, Except.ok.injEq, Prod.mk.injEq] at h1
    obtain ⟨rfl, rfl⟩ := h1
    exact Or.inr ⟨hl, h', h2, rfl⟩
  | cons sc rest ih =>
    intro t h t1 h' t2 hl h1 h2
    simp only [history, List.cons_append] at h1 h2
    cases hit : iter P sc t s0 [] [] false with
    | error e => rw [hit] at h1; simp at h1
    | ok o =>
      rw [hit] at h1 h2
      simp only at h1 h2
      cases hb : (bubble t o).2.2 || decide ((bubble t o).2.1 = some .refuted) with
      | true =>
        rw [if_pos hb] at h1 h2
        rw [h1] at h2
        simp only [Except.ok.injEq, Prod.mk.injEq] at h2
        exact Or.inl ⟨h2.1.symm, h2.2.symm⟩
      | false =>
        rw [if_neg (by simp [hb])] at h1 h2
        rw [map_ok_iff] at h1 h2
        obtain ⟨⟨ha, ta⟩, hr1, he1⟩ := h1
        obtain ⟨⟨hb', tb⟩, hr2, he2⟩ := h2
        simp only [Prod.mk.injEq] at he1 he2
        obtain ⟨rfl, rfl⟩ := he1
        obtain ⟨rfl, rfl⟩ := he2
        have hx : (bubble t o).2.2 = false := by
          cases h : (bubble t o).2.2 <;> simp_all
        rcases ih _ _ _ _ _ (bubble_loopOK (fun e _ => noFact_ok e) hl hit hx) hr1 hr2 with
          ⟨rfl, rfl⟩ | ⟨h3, h4, h5, rfl⟩
        · exact Or.inl ⟨rfl, rfl⟩
        · exact Or.inr ⟨h3, h4, h5, rfl⟩

end Verif.Search
