import Verif.Explore.Lemmas
/- Helper lemmas: induction over the rounds of a loop, and the parts of a comparison. -/
namespace Verif.Explore
open Verif.Search
variable {W : World} {P : Prog W}

/-- Invariant-style induction over rounds. -/
theorem rounds_ind (s0 : P.S) (maxStale : Option Nat) (ticks : Nat → Tick W) (I : Tree W.E W.V → Prop)
    (Q : Nat → Nat → List (Out W.E W.V) → Tree W.E W.V → Tree W.E W.V → Stop → Prop)
    (hzero : ∀ i t, I t → Q 0 i [] t t .iterations)
    (hlate : ∀ left i t, I t → (ticks i).late = true → Q (left + 1) i [] t t .timeLimit)
    (hstop : ∀ left i t o stop, I t → iter P (ticks i).script t s0 [] [] false = .ok o → o.leaf ≠ .notDet →
      (ticks i).late = false →
      (stop = .exhausted ∧ (bubble t o).2.2 = true ∧ (o.returned && (ticks i).breaks o.leaf) = false ∨
        stop = .breakout ∧ (o.returned && (ticks i).breaks o.leaf) = true ∨
        stop = .uninteresting ∧ tooStale maxStale (ticks i).stale = true ∧ (o.returned && (ticks i).breaks o.leaf) = false) →
      Q (left + 1) i [o] t (bubble t o).1 stop)
    (hI : ∀ i t o, I t → iter P (ticks i).script t s0 [] [] false = .ok o → o.leaf ≠ .notDet →
      (bubble t o).2.2 = false → I (bubble t o).1)
    (hcons : ∀ left i t o h t' stop, I t → iter P (ticks i).script t s0 [] [] false = .ok o → o.leaf ≠ .notDet →
      (ticks i).late = false → (o.returned && (ticks i).breaks o.leaf) = false →
      (bubble t o).2.2 = false → Q left (i + 1) h (bubble t o).1 t' stop → Q (left + 1) i (o :: h) t t' stop) :
    ∀ left i t r, I t → rounds P s0 maxStale ticks left i t = .ok r → Q left i r.outs t r.tree r.stop := by
  intro left
  induction left with
  | zero =>
    intro i t r hi hr
    simp only [rounds, Except.ok.injEq] at hr
    subst hr
    exact hzero _ _ hi
  | succ left ih =>
    intro i t r hi hr
    rw [rounds] at hr
    split at hr
    · rename_i hl
      simp only [Except.ok.injEq] at hr
      subst hr
      exact hlate _ _ _ hi hl
    · rename_i hl
      have hl : (ticks i).late = false := by simpa using hl
      cases hit : iter P (ticks i).script t s0 [] [] false with
      | error e => rw [hit] at hr; simp at hr
      | ok o =>
        rw [hit] at hr
        simp only at hr
        split at hr
        · simp at hr
        · rename_i hnd
          split at hr
          · rename_i hb
            simp only [Except.ok.injEq] at hr
            subst hr
            exact hstop left i t o _ hi hit hnd hl (Or.inr (Or.inl ⟨rfl, hb⟩))
          · rename_i hb
            have hb : (o.returned && (ticks i).breaks o.leaf) = false := by simpa using hb
            split at hr
            · rename_i hx
              simp only [Except.ok.injEq] at hr
              subst hr
              exact hstop left i t o _ hi hit hnd hl (Or.inl ⟨rfl, hx, hb⟩)
            · rename_i hx
              have hx : (bubble t o).2.2 = false := by simpa using hx
              split at hr
              · rename_i hst
                simp only [Except.ok.injEq] at hr
                subst hr
                exact hstop left i t o _ hi hit hnd hl (Or.inr (Or.inr ⟨rfl, hst, hb⟩))
              · rw [map_ok_iff] at hr
                obtain ⟨r', hr', rfl⟩ := hr
                exact hcons left i t o _ _ _ hi hit hnd hl hb hx (ih _ _ _ (hI i t o hi hit hnd hx) hr')

theorem bubble_cov {K : Analysis → Prop} {s0 : P.S} {script : List (Env W)} (henv : ∀ env ∈ script, env.UnsatSound)
    {t : Tree W.E W.V} {o : Out W.E W.V} (ht : Cov P K t s0 [] []) (hi : iter P script t s0 [] [] false = .ok o)
    (hnd : o.leaf ≠ .notDet) (hK : K o.leaf) : Cov P K (bubble t o).1 s0 [] [] := by
  have h := iter_cov script henv _ _ _ _ _ (by simp) ht hi hnd hK
  unfold bubble
  split
  · simp only []
    split
    · exact ht
    · exact h
  · simp only []
    split
    · exact capTop_cov h
    · exact h

/-- A path that ended without any node and was detached from the tree was cut short. -/
theorem orphan_unknown (script : List (Env W)) : ∀ (t : Tree W.E W.V) (s : P.S) kn pc det o,
    iter P script t s kn pc det = .ok o → o.orphan = true → o.leaf = .unknown ∨ o.leaf = .notDet := by
  induction script with
  | nil =>
    intro t s kn pc det o h ho
    simp only [iter, Except.ok.injEq] at h
    subst h; exact Or.inl rfl
  | cons env rest ih =>
    intro t s kn pc det o h ho
    rw [iter] at h
    cases hact : P.act s with
    | done ret a =>
      simp only [hact, Except.ok.injEq] at h
      subst h; simp at ho
    | abort =>
      simp only [hact, Except.ok.injEq] at h
      subst h; exact Or.inl rfl
    | cap s' =>
      simp only [hact, map_ok_iff] at h
      obtain ⟨o', ho', rfl⟩ := h
      exact ih _ _ _ _ _ o' ho' ho
    | assume e s' =>
      simp only [hact] at h
      split at h
      · exact ih _ _ _ _ _ _ h ho
      · exact absurd h (by simp)
      · exact ih _ _ _ _ _ _ h ho
    | ask e k =>
      simp only [hact] at h
      split at h
      · exact ih _ _ _ _ _ _ h ho
      · split at h
        · simp only [Except.ok.injEq] at h; subst h; exact Or.inl rfl
        · simp only [Except.ok.injEq] at h; subst h; exact Or.inr rfl
        · split at h
          · exact absurd h (by simp)
          · simp only [map_ok_iff] at h
            obtain ⟨o', ho', rfl⟩ := h
            exact ih _ _ _ _ _ o' ho' ho
          · simp only [map_ok_iff] at h
            obtain ⟨o', ho', rfl⟩ := h
            exact ih _ _ _ _ _ o' ho' ho
    | realize y k =>
      simp only [hact] at h
      split at h
      · simp only [Except.ok.injEq] at h; subst h; exact Or.inl rfl
      · simp only [Except.ok.injEq] at h; subst h; exact Or.inr rfl
      · exact absurd h (by simp)
      · split at h
        · exact absurd h (by simp)
        · simp only [map_ok_iff] at h
          obtain ⟨o', ho', rfl⟩ := h
          exact ih _ _ _ _ _ o' ho' ho
        · simp only [map_ok_iff] at h
          obtain ⟨o', ho', rfl⟩ := h
          exact ih _ _ _ _ _ o' ho' ho
    | fork k =>
      simp only [hact] at h
      split at h
      · simp only [Except.ok.injEq] at h; subst h; exact Or.inr rfl
      · split at h
        · exact absurd h (by simp)
        · simp only [map_ok_iff] at h
          obtain ⟨o', ho', rfl⟩ := h
          exact ih _ _ _ _ _ o' ho' ho
        · simp only [map_ok_iff] at h
          obtain ⟨o', ho', rfl⟩ := h
          exact ih _ _ _ _ _ o' ho' ho
    | detach s' =>
      simp only [hact] at h
      split at h
      · exact ih _ _ _ _ _ _ h ho
      · split at h
        · simp only [map_ok_iff] at h
          obtain ⟨o', ho', rfl⟩ := h
          exact ih _ _ _ _ _ o' ho' ho
        · exact ih _ _ _ _ _ _ h ho
        · simp only [Except.ok.injEq] at h; subst h; exact Or.inr rfl

/-- When the search says that it is exhausted, everything is accounted for. -/
theorem bubble_accounts {K : Analysis → Prop} {s0 : P.S} {script : List (Env W)} (henv : ∀ env ∈ script, env.UnsatSound)
    {t : Tree W.E W.V} {o : Out W.E W.V} (ht : Cov P K t s0 [] []) (hi : iter P script t s0 [] [] false = .ok o)
    (hnd : o.leaf ≠ .notDet) (hK : K o.leaf) (hx : (bubble t o).2.2 = true) : ∀ i : W.Inp, Accounted P K i s0 := by
  intro i
  by_cases ho : o.orphan = true
  · rcases orphan_unknown script _ _ _ _ _ _ hi ho with h | h
    · exact .cut (h ▸ hK)
    · exact absurd h hnd
  · have ho : o.orphan = false := by simpa using ho
    have h := iter_cov script henv _ _ _ _ _ (by simp) ht hi hnd hK
    have hm := iter_marks script _ _ _ _ _ _ hi ho
    have hex : o.tree.exhausted = true := by
      unfold bubble at hx
      split at hx
      · rename_i htr
        rw [htr] at hm
        simpa [exAt] using hm
      · simp only [] at hx
        split at hx
        · rwa [capTop_exhausted] at hx
        · exact hx
    exact h.promise hex i (by simp [Meets])

theorem accounted_mono {K K' : Analysis → Prop} (hKK : ∀ a, K a → K' a) {i : W.Inp} {s : P.S} (h : Accounted P K i s) :
    Accounted P K' i s := by
  induction h with
  | cut hu => exact .cut (hKK _ hu)
  | done ha hk => exact .done ha (hKK _ hk)
  | ask ha _ ih => exact .ask ha ih
  | realize ha _ ih => exact .realize ha ih
  | fork b ha _ ih => exact .fork b ha ih
  | assume ha hh _ ih => exact .assume ha hh ih
  | excluded ha hh => exact .excluded ha hh
  | cap ha _ ih => exact .cap ha ih
  | detached ha hr hk => exact .detached ha hr (hKK _ hk)

theorem rounds_account (s0 : P.S) (maxStale : Option Nat) (ticks : Nat → Tick W)
    (henv : ∀ i, ∀ env ∈ (ticks i).script, env.UnsatSound) (K : Analysis → Prop) :
    ∀ left i t r, Cov P K t s0 [] [] → rounds P s0 maxStale ticks left i t = .ok r → (∀ o ∈ r.outs, K o.leaf) →
      r.stop = .exhausted → ∀ i : W.Inp, Accounted P K i s0 := by
  intro left
  induction left with
  | zero =>
    intro i t r hc hr hK hs
    simp only [rounds, Except.ok.injEq] at hr
    subst hr; cases hs
  | succ left ih =>
    intro i t r hc hr hK hs
    rw [rounds] at hr
    split at hr
    · simp only [Except.ok.injEq] at hr
      subst hr; cases hs
    · cases hit : iter P (ticks i).script t s0 [] [] false with
      | error e => rw [hit] at hr; simp at hr
      | ok o =>
        rw [hit] at hr
        simp only at hr
        split at hr
        · simp at hr
        · rename_i hnd
          split at hr
          · simp only [Except.ok.injEq] at hr
            subst hr; cases hs
          · split at hr
            · rename_i hx
              simp only [Except.ok.injEq] at hr
              subst hr
              exact bubble_accounts (henv i) hc hit hnd (hK o (by simp)) hx
            · split at hr
              · simp only [Except.ok.injEq] at hr
                subst hr; cases hs
              · rw [map_ok_iff] at hr
                obtain ⟨r', hr', rfl⟩ := hr
                exact ih _ _ r' (bubble_cov (henv i) hc hit hnd (hK o (by simp))) hr' (fun o' ho' => hK o' (by simp [ho'])) hs

theorem rounds_fresh (s0 : P.S) (hna : ∀ s, P.act s ≠ .abort) (maxStale : Option Nat) (ticks : Nat → Tick W) (left i : Nat)
    (t : Tree W.E W.V) (r) (hl : LoopOK P NoFact s0 t) (hr : rounds P s0 maxStale ticks left i t = .ok r) :
    r.outs.Pairwise (fun o1 o2 => ¬ o1.trace <+: o2.trace) ∧ ∀ o ∈ r.outs, exAt t o.trace = false := by
  refine rounds_ind (P := P) s0 maxStale ticks (LoopOK P NoFact s0)
    (fun _ _ h t _ _ => h.Pairwise (fun o1 o2 => ¬ o1.trace <+: o2.trace) ∧ ∀ o ∈ h, exAt t o.trace = false)
    ?_ ?_ ?_ ?_ ?_ left i t r hl hr
  · intro i t _; simp
  · intro left i t _ _; simp
  · intro left i t o stop hl hi _ _ _
    have ha := iter_after (P := P) (F := NoFact) (ticks i).script (fun e _ => noFact_ok e) t s0 [] [] false
      (by simp) hl.openR hl.shape
    rw [hi] at ha
    simp [ha.2.1]
  · intro i t o hl hi _ hx
    exact bubble_loopOK (fun e _ => noFact_ok e) hl hi hx
  · intro left i t o h t' stop hl hi _ _ _ hx ⟨hq1, hq2⟩
    have ha := iter_after (P := P) (F := NoFact) (ticks i).script (fun e _ => noFact_ok e) t s0 [] [] false
      (by simp) hl.openR hl.shape
    rw [hi] at ha
    have horph : o.orphan = false := by
      rcases ha.2.2 with h | h
      · exact h.2
      · cases hb : o.orphan with
        | false => rfl
        | true =>
          obtain ⟨s, hs⟩ := h.2 hb
          exact absurd hs (hna s)
    have hmark := iter_marks _ _ _ _ _ _ _ hi horph
    refine ⟨List.pairwise_cons.2 ⟨?_, hq1⟩, ?_⟩
    · rintro o2 ho2 ⟨q, hq⟩
      have h1 := hq2 o2 ho2
      rw [bubble_exAt hx, ← hq, exAt_append _ _ _ hmark] at h1
      simp at h1
    · intro o2 ho2
      simp only [List.mem_cons] at ho2
      rcases ho2 with rfl | ho2
      · exact ha.2.1
      · have h1 := hq2 o2 ho2
        rw [bubble_exAt hx] at h1
        cases he : exAt t o2.trace with
        | false => rfl
        | true => rw [iter_mono _ _ _ _ _ _ _ hi _ he] at h1; simp at h1

theorem rounds_real (s0 : P.S) (hadd : AddsConsistent P s0) (hne : Nonempty W.Inp) (maxStale : Option Nat) (ticks : Nat → Tick W)
    (hu : ∀ i, ∀ env ∈ (ticks i).script, env.UnsatSound) (hs : ∀ i, ∀ env ∈ (ticks i).script, env.SatSound) (left i : Nat)
    (t : Tree W.E W.V) (r) (hl : LoopOK P Feas s0 t) (hr : rounds P s0 maxStale ticks left i t = .ok r) :
    ∀ o ∈ r.outs, o.leaf = .unknown ∨ ∃ i : W.Inp, Runs P i s0 (some o.leaf) := by
  have key : ∀ i t o, LoopOK P Feas s0 t → iter P (ticks i).script t s0 [] [] false = .ok o →
      o.leaf = .unknown ∨ ∃ i : W.Inp, Runs P i s0 (some o.leaf) := by
    intro i t o hl hi
    have hroot : ∃ i : W.Inp, Meets i ([] : List (W.E × Bool)) := hne.elim fun i => ⟨i, by simp [Meets]⟩
    exact (iter_real s0 hadd _ (hu i) (hs i) _ _ _ _ _ _ (by simp) .start hroot (by simp) hl.openR hl.shape hi).imp id
      (fun ⟨j, _, h⟩ => ⟨j, h⟩)
  refine rounds_ind (P := P) s0 maxStale ticks (LoopOK P Feas s0)
    (fun _ _ h _ _ _ => ∀ o ∈ h, o.leaf = .unknown ∨ ∃ i : W.Inp, Runs P i s0 (some o.leaf)) ?_ ?_ ?_ ?_ ?_ left i t r hl hr
  · intro i t _; simp
  · intro left i t _ _; simp
  · intro left i t o stop hl hi _ _ _
    simpa using key i t o hl hi
  · intro i t o hl hi _ hx
    exact bubble_loopOK (fun e he => feas_ok (hu i e he) (hs i e he)) hl hi hx
  · intro left i t o h t' stop hl hi _ _ _ hx hq o2 ho2
    simp only [List.mem_cons] at ho2
    rcases ho2 with rfl | ho2
    · exact key i t o2 hl hi
    · exact hq o2 ho2

theorem rounds_count (s0 : P.S) (hna : ∀ s, P.act s ≠ .abort) (maxStale : Option Nat) (ticks : Nat → Tick W)
    (hs : ∀ i, ∀ env ∈ (ticks i).script, env.SatSound) :
    ∀ left i (t : Tree W.E W.V) r m, t.exhausted = false → Rem P t s0 [] [] m →
      rounds P s0 maxStale ticks left i t = .ok r → r.outs.length ≤ m ∧ (m ≤ left → r.stop ≠ .iterations) := by
  intro left
  induction left with
  | zero =>
    intro i t r m ho hrem hr
    have hpos := rem_pos _ _ _ _ _ hrem ho
    simp only [rounds, Except.ok.injEq] at hr
    subst hr
    exact ⟨by simp, fun h => by omega⟩
  | succ left ih =>
    intro i t r m ho hrem hr
    have hpos := rem_pos _ _ _ _ _ hrem ho
    rw [rounds] at hr
    split at hr
    · simp only [Except.ok.injEq] at hr
      subst hr; exact ⟨by simp, fun _ => by simp⟩
    · cases hit : iter P (ticks i).script t s0 [] [] false with
      | error e => rw [hit] at hr; simp at hr
      | ok o =>
        rw [hit] at hr
        simp only at hr
        split at hr
        · simp at hr
        · split at hr
          · simp only [Except.ok.injEq] at hr
            subst hr; exact ⟨by simpa using hpos, fun _ => by simp⟩
          · split at hr
            · simp only [Except.ok.injEq] at hr
              subst hr; exact ⟨by simpa using hpos, fun _ => by simp⟩
            · rename_i hx
              split at hr
              · simp only [Except.ok.injEq] at hr
                subst hr; exact ⟨by simpa using hpos, fun _ => by simp⟩
              · rw [map_ok_iff] at hr
                obtain ⟨r', hr', rfl⟩ := hr
                obtain ⟨m', hm, hrem'⟩ := iter_rem hna _ (hs i) _ _ _ _ _ _ (by simp) ho hrem hit
                have hopen : (bubble t o).1.exhausted = false ∧ Rem P (bubble t o).1 s0 [] [] m' := by
                  have hx : (bubble t o).2.2 = false := by simpa using hx
                  revert hx
                  unfold bubble
                  split
                  · simp
                  · simp only []
                    intro hx
                    refine ⟨hx, ?_⟩
                    split
                    · exact capTop_rem hrem'
                    · exact hrem'
                have := ih _ _ _ m' hopen.1 hopen.2 hr'
                refine ⟨?_, fun h => this.2 (by omega)⟩
                simp only [List.length_cons]
                omega

/-- How many rounds there are, and why the loop ends. -/
theorem rounds_stop (s0 : P.S) (maxStale : Option Nat) (ticks : Nat → Tick W) (left i : Nat) (t : Tree W.E W.V) (r)
    (hr : rounds P s0 maxStale ticks left i t = .ok r) :
    r.outs.length ≤ left ∧ (∀ k < r.outs.length, (ticks (i + k)).late = false) ∧
    (r.stop = .iterations → r.outs.length = left) ∧
    (r.stop = .timeLimit → r.outs.length < left ∧ (ticks (i + r.outs.length)).late = true) ∧
    (r.stop = .uninteresting → 0 < r.outs.length ∧ tooStale maxStale (ticks (i + r.outs.length - 1)).stale = true) ∧
    (r.stop = .breakout → ∃ before o, r.outs = before ++ [o] ∧ o.returned = true ∧
      (ticks (i + before.length)).breaks o.leaf = true) ∧
    (∀ k (o : Out W.E W.V), r.outs[k]? = some o → o.returned = true → (ticks (i + k)).breaks o.leaf = true →
      r.stop = .breakout ∧ k + 1 = r.outs.length) := by
  refine rounds_ind (P := P) s0 maxStale ticks (fun _ => True)
    (fun left i outs _ _ stop => outs.length ≤ left ∧ (∀ k < outs.length, (ticks (i + k)).late = false) ∧
      (stop = .iterations → outs.length = left) ∧
      (stop = .timeLimit → outs.length < left ∧ (ticks (i + outs.length)).late = true) ∧
      (stop = .uninteresting → 0 < outs.length ∧ tooStale maxStale (ticks (i + outs.length - 1)).stale = true) ∧
      (stop = .breakout → ∃ before o, outs = before ++ [o] ∧ o.returned = true ∧
        (ticks (i + before.length)).breaks o.leaf = true) ∧
      (∀ k (o : Out W.E W.V), outs[k]? = some o → o.returned = true → (ticks (i + k)).breaks o.leaf = true →
        stop = .breakout ∧ k + 1 = outs.length))
    ?_ ?_ ?_ ?_ ?_ left i t r trivial hr
  · intro i t _
    simp
  · intro left i t _ hl
    simp [hl]
  · intro left i t o stop _ _ _ hl hst
    refine ⟨by simp, ?_, ?_, ?_, ?_, ?_, ?_⟩
    · intro k hk
      have : k = 0 := by simpa using hk
      subst this; exact hl
    · rintro rfl; rcases hst with h | h | h <;> cases h.1
    · rintro rfl; rcases hst with h | h | h <;> cases h.1
    · rintro rfl
      rcases hst with h | h | h
      · cases h.1
      · cases h.1
      · exact ⟨by simp, by simpa using h.2.1⟩
    · rintro rfl
      rcases hst with h | h | h
      · cases h.1
      · exact ⟨[], o, rfl, by simpa using h.2⟩
      · cases h.1
    · intro k o' hk hret hbr
      cases k with
      | zero =>
        simp only [List.getElem?_cons_zero, Option.some.injEq] at hk
        subst hk
        have hbr : (o.returned && (ticks i).breaks o.leaf) = true := by simpa [hret] using hbr
        rcases hst with h | h | h
        · rw [h.2.2] at hbr; cases hbr
        · exact ⟨h.1, rfl⟩
        · rw [h.2.2] at hbr; cases hbr
      | succ k => simp at hk
  · intro i t o _ _ _ _; trivial
  · intro left i t o h t' stop _ _ _ hl hb _ hq
    obtain ⟨h1, h2, h3, h4, h5, h6, h7⟩ := hq
    refine ⟨by simpa using h1, ?_, ?_, ?_, ?_, ?_, ?_⟩
    · intro k hk
      cases k with
      | zero => exact hl
      | succ k =>
        have := h2 k (by simpa using hk)
        rwa [show i + 1 + k = i + (k + 1) by omega] at this
    · intro hs; simpa using h3 hs
    · intro hs
      have := h4 hs
      rw [show i + 1 + h.length = i + (h.length + 1) by omega] at this
      exact ⟨by simpa using this.1, by simpa using this.2⟩
    · intro hs
      have := h5 hs
      rw [show i + 1 + h.length - 1 = i + (h.length + 1) - 1 by omega] at this
      exact ⟨by simp, by simpa using this.2⟩
    · intro hs
      obtain ⟨before, o', he, hr, hbk⟩ := h6 hs
      refine ⟨o :: before, o', by simp [he], hr, ?_⟩
      rwa [show i + 1 + before.length = i + (before.length + 1) by omega] at hbk
    · intro k o' hk hret hbr
      cases k with
      | zero =>
        simp only [List.getElem?_cons_zero, Option.some.injEq] at hk
        subst hk
        have : (o.returned && (ticks i).breaks o.leaf) = true := by simpa [hret] using hbr
        rw [hb] at this; cases this
      | succ k =>
        have := h7 k o' (by simpa using hk) hret (by rwa [show i + 1 + k = i + (k + 1) by omega])
        exact ⟨this.1, by simpa using this.2⟩

end Verif.Explore
