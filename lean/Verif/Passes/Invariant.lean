import Verif.Passes.Lemmas
/-
What holds throughout the life of a watcher.
-/
namespace Verif.Passes

open Verif.Watch (Pool Worker Times checkChanged prune spawn isWorking killed)

variable {F M : Type} [DecidableEq F]

/-- About the pool and the results given out.  `b` is the number of items handed out before the pool was made. -/
structure Core (b : Nat) (s : St F M) : Prop where
  inv : Verif.Watch.Inv s.pool
  made : Made s.pool
  range : ∀ i ∈ s.pool.submitted, b ≤ i.serial ∧ i.serial < s.serial
  once : s.pool.submitted.Nodup
  base : b ≤ s.serial
  shown : ∃ old, s.shown = old ++ s.pool.delivered ∧ (∀ r ∈ old, r.1.serial < b) ∧ (old.map Prod.fst).Nodup

/-- A step of the pool that hands out nothing and takes no result. -/
def Still (p q : Pool (Item F) (Item F × M)) : Prop := q.submitted = p.submitted ∧ q.delivered = p.delivered ∧ q.max = p.max

theorem Core.pool {b : Nat} {s t : St F M} (h : Core b s) (hi : Verif.Watch.Inv t.pool) (hm : Made t.pool) (hs : Still s.pool t.pool)
    (h1 : t.serial = s.serial) (h2 : t.shown = s.shown) : Core b t :=
  ⟨hi, hm, by rw [hs.1, h1]; exact h.range, by rw [hs.1]; exact h.once, by rw [h1]; exact h.base, by rw [h2, hs.2.1]; exact h.shown⟩

omit [DecidableEq F] in
theorem garden_still (now : Int) (late : Item F → Option M) (p : Pool (Item F) (Item F × M)) :
    Still p (Verif.Watch.step Item.deadline p (.garden now (named late))) := by
  dsimp only [Verif.Watch.step]
  rw [spawn_exact _ _ (Nat.le_refl _)]
  exact ⟨rfl, rfl, rfl⟩

theorem garden_core {b : Nat} {s : St F M} (h : Core b s) (now : Int) (late : Item F → Option M) : Core b (garden now late s) :=
  h.pool (Verif.Watch.step_inv Item.deadline s.pool _ h.inv).1 (garden_made now late h.made) (garden_still now late s.pool) rfl rfl

theorem terminate_core {b : Nat} {s : St F M} (h : Core b s) (late : Item F → Option M) : Core b (terminate late s) :=
  h.pool (Verif.Watch.step_inv Item.deadline s.pool _ h.inv).1 (terminate_made late h.made) ⟨rfl, rfl, rfl⟩ rfl rfl

theorem submit_core {b : Nat} {s : St F M} (h : Core b s) (d : Int) (f : F) : Core b (submit d s f) := by
  refine ⟨(Verif.Watch.step_inv Item.deadline s.pool _ h.inv).1, ?_, ?_, ?_, Nat.le_succ_of_le h.base, h.shown⟩
  · intro i
    have := h.made i
    dsimp only [submit, Verif.Watch.step]
    rw [List.count_append, List.count_append]
    omega
  · intro i hi
    dsimp only [submit, Verif.Watch.step] at hi ⊢
    rcases List.mem_append.mp hi with hi | hi
    · have := h.range i hi
      omega
    · rw [List.mem_singleton] at hi
      subst hi
      exact ⟨h.base, Nat.lt_succ_self _⟩
  · dsimp only [submit, Verif.Watch.step]
    rw [List.nodup_append]
    refine ⟨h.once, List.nodup_singleton _, ?_⟩
    intro a ha c hc hac
    rw [List.mem_singleton] at hc
    have := (h.range a ha).2
    rw [hac, hc] at this
    exact Nat.lt_irrefl _ this

theorem submits_core {b : Nat} (d : Int) (fs : List F) : ∀ {s : St F M}, Core b s → Core b (fs.foldl (submit d) s) := by
  induction fs with
  | nil => exact fun h => h
  | cons f fs ih => exact fun h => ih (submit_core h d f)

theorem made_mem {p : Pool (Item F) (Item F × M)} (h : Made p) (r : Item F × M) (hr : r ∈ p.produced) : r.1 ∈ p.submitted := by
  have h1 := h r.1
  have h2 : 0 < (p.produced.map Prod.fst).count r.1 := List.count_pos_iff.mpr (List.mem_map_of_mem hr)
  exact List.count_pos_iff.mp (by omega)

/-- Every result given out is for an item handed out. -/
theorem Core.shown_lt {b : Nat} {s : St F M} (h : Core b s) : ∀ r ∈ s.shown, r.1.serial < s.serial := by
  intro r hr
  obtain ⟨old, h1, h2, _⟩ := h.shown
  rw [h1] at hr
  rcases List.mem_append.mp hr with hr | hr
  · exact Nat.lt_of_lt_of_le (h2 r hr) h.base
  · exact (h.range _ (made_mem h.made r (by rw [h.inv.2.2]; exact List.mem_append_left _ hr))).2

theorem Core.shown_once {b : Nat} {s : St F M} (h : Core b s) : (s.shown.map Prod.fst).Nodup := by
  obtain ⟨old, h1, h2, h3⟩ := h.shown
  rw [h1, List.map_append, List.nodup_append]
  refine ⟨h3, ?_, ?_⟩
  · have : (s.pool.produced.map Prod.fst).Nodup := by
      rw [List.nodup_iff_count]
      intro i
      have ha := h.made i
      have hb := List.nodup_iff_count.mp h.once i
      omega
    rw [h.inv.2.2, List.map_append] at this
    exact this.of_append_left
  · intro a ha c hc hac
    obtain ⟨r, hr, rfl⟩ := List.mem_map.mp ha
    obtain ⟨q, hq, rfl⟩ := List.mem_map.mp hc
    have := (h.range _ (made_mem h.made q (by rw [h.inv.2.2]; exact List.mem_append_left _ hq))).1
    have h4 := h2 r hr
    rw [hac] at h4
    omega

theorem new_core {b : Nat} {s : St F M} (h : Core b s) : Core s.serial { s with pool := Pool.new _ _ s.pool.max, fresh := [] } := by
  refine ⟨⟨Nat.zero_le _, List.Perm.refl _, rfl⟩, ?_, ?_, List.nodup_nil, Nat.le_refl _, s.shown, ?_, h.shown_lt, h.shown_once⟩
  · intro i
    exact Nat.le_refl _
  · intro i hi
    cases hi
  · exact (List.append_nil _).symm

theorem Core.congr {b : Nat} {s t : St F M} (h : Core b s) (h1 : t.pool = s.pool) (h2 : t.serial = s.serial) (h3 : t.shown = s.shown) :
    Core b t := by
  obtain ⟨a1, a2, a3, a4, a5, a6⟩ := h
  exact ⟨by rwa [h1], by rwa [h1], by rwa [h1, h2], by rwa [h1], by rwa [h2], by rwa [h1, h3]⟩

/-- What a step of the watcher does to the pool's beginning: it stays, or a change was noticed and a new pool made. -/
def Renewed (b b' : Nat) (s t : St F M) : Prop :=
  (b' = b ∧ t.changes = s.changes) ∨ (b' = t.serial ∧ b ≤ b' ∧ t.changes = s.changes + 1 ∧ t.shown = s.shown)

theorem periodic_core {b : Nat} {s : St F M} (h : Core b s) (now : Int) (disk : List (F × Option Int)) (late : Item F → Option M) :
    ∃ b', Core b' (handlePeriodic now disk late s).1 ∧ Renewed b b' s (handlePeriodic now disk late s).1 ∧
      (handlePeriodic now disk late s).1.shown = s.shown ∧ (handlePeriodic now disk late s).1.serial = s.serial := by
  unfold handlePeriodic
  split
  · exact ⟨b, terminate_core h late, Or.inl ⟨rfl, rfl⟩, rfl, rfl⟩
  · split
    · dsimp only
      split
      · refine ⟨s.serial, ?_, Or.inr ⟨rfl, h.base, rfl, rfl⟩, rfl, rfl⟩
        exact (new_core (terminate_core h late)).congr rfl rfl rfl
      · exact ⟨b, h.congr rfl rfl rfl, Or.inl ⟨rfl, rfl⟩, rfl, rfl⟩
    · exact ⟨b, h, Or.inl ⟨rfl, rfl⟩, rfl, rfl⟩

omit [DecidableEq F] in
theorem submits_keep (d : Int) (fs : List F) : ∀ s : St F M, (fs.foldl (submit d) s).changes = s.changes ∧
    (fs.foldl (submit d) s).shown = s.shown ∧ s.serial ≤ (fs.foldl (submit d) s).serial ∧ (fs.foldl (submit d) s).checks = s.checks ∧
    (fs.foldl (submit d) s).next = s.next ∧ (fs.foldl (submit d) s).stop = s.stop ∧ (fs.foldl (submit d) s).ending = s.ending ∧
    (fs.foldl (submit d) s).place = s.place ∧ (fs.foldl (submit d) s).known = s.known := by
  induction fs with
  | nil => exact fun s => ⟨rfl, rfl, Nat.le_refl _, rfl, rfl, rfl, rfl, rfl, rfl⟩
  | cons f fs ih =>
    intro s
    obtain ⟨h1, h2, h3, h4⟩ := ih (submit d s f)
    exact ⟨h1, h2, Nat.le_trans (Nat.le_succ _) h3, h4⟩

/-- Every action keeps the pool in order; results given out by it are for items handed out since the pool was made. -/
theorem act_core {b : Nat} {s : St F M} (h : Core b s) (a : Act F M) :
    ∃ b', Core b' (act s a) ∧ Renewed b b' s (act s a) ∧ s.serial ≤ (act s a).serial ∧
      ∃ new, (act s a).shown = s.shown ++ new ∧ ∀ r ∈ new, b ≤ r.1.serial := by
  cases a with
  | start k =>
    refine ⟨b, ?_, Or.inl ⟨rfl, rfl⟩, Nat.le_refl _, [], (List.append_nil _).symm, fun _ hr => nomatch hr⟩
    refine h.pool (Verif.Watch.step_inv Item.deadline s.pool _ h.inv).1 ?_ ⟨rfl, rfl, rfl⟩ rfl rfl
    intro i
    have := h.made i
    dsimp only [act, Verif.Watch.step]
    rw [live_start]
    exact this
  | exit k out =>
    refine ⟨b, ?_, ?_, ?_, [], ?_, fun _ hr => nomatch hr⟩
    · dsimp only [act]
      unfold exit
      split
      · rename_i w hw
        refine h.pool (Verif.Watch.step_inv Item.deadline s.pool _ h.inv).1 (exit_made k out w hw h.made) ?_ rfl rfl
        dsimp only [Verif.Watch.step]
        rw [hw]
        dsimp only
        split <;> exact ⟨rfl, rfl, rfl⟩
      · exact h
    · dsimp only [act]
      unfold exit
      split <;> exact Or.inl ⟨rfl, rfl⟩
    · dsimp only [act]
      unfold exit
      split <;> exact Nat.le_refl _
    · dsimp only [act]
      unfold exit
      split <;> exact (List.append_nil _).symm
  | shutdown => exact ⟨b, h.congr rfl rfl rfl, Or.inl ⟨rfl, rfl⟩, Nat.le_refl _, [], (List.append_nil _).symm, fun _ hr => nomatch hr⟩
  | begin n now disk late =>
    dsimp only [act]
    split
    · unfold begin
      dsimp only
      have hk := submits_keep (now + workerTimeout n) ((byTime s.known).map Prod.fst) s
      have hc := garden_core (submits_core (now + workerTimeout n) ((byTime s.known).map Prod.fst) h) now late
      have hg : ∀ t : St F M, (garden now late t).changes = t.changes ∧ (garden now late t).shown = t.shown ∧
        (garden now late t).serial = t.serial := fun t => ⟨rfl, rfl, rfl⟩
      obtain ⟨g1, g2, g3⟩ := hg (((byTime s.known).map Prod.fst).foldl (submit (now + workerTimeout n)) s)
      rw [hk.1] at g1
      rw [hk.2.1] at g2
      have g3' := hk.2.2.1
      rw [← g3] at g3'
      generalize garden now late (((byTime s.known).map Prod.fst).foldl (submit (now + workerTimeout n)) s) = u at *
      split
      · exact ⟨b, hc.congr rfl rfl rfl, Or.inl ⟨rfl, g1⟩, g3', [], by simpa using g2, fun _ hr => nomatch hr⟩
      · obtain ⟨b', c1, c2, c3, c4⟩ := periodic_core hc (now + 1500) disk late
        refine ⟨b', c1.congr rfl rfl rfl, ?_, ?_, [], ?_, fun _ hr => nomatch hr⟩
        · rcases c2 with ⟨c5, c6⟩ | ⟨c5, c6, c7, c8⟩
          · exact Or.inl ⟨c5, c6.trans g1⟩
          · exact Or.inr ⟨c5, c6, by rw [← g1]; exact c7, c8.trans g2⟩
        · dsimp only
          rw [c4]
          exact g3'
        · dsimp only
          rw [c3, g2, List.append_nil]
    · exact ⟨b, h, Or.inl ⟨rfl, rfl⟩, Nat.le_refl _, [], (List.append_nil _).symm, fun _ hr => nomatch hr⟩
  | go now disk late =>
    dsimp only [act]
    unfold go
    split
    · exact ⟨b, h, Or.inl ⟨rfl, rfl⟩, Nat.le_refl _, [], (List.append_nil _).symm, fun _ hr => nomatch hr⟩
    · split
      · split
        · exact ⟨b, h.congr rfl rfl rfl, Or.inl ⟨rfl, rfl⟩, Nat.le_refl _, [], (List.append_nil _).symm, fun _ hr => nomatch hr⟩
        · rename_i r rest hr
          have hmem : r ∈ s.pool.produced := by rw [h.inv.2.2, hr]; simp
          refine ⟨b, ?_, Or.inl ⟨rfl, rfl⟩, Nat.le_refl _, [r], rfl, ?_⟩
          · refine ⟨(Verif.Watch.step_inv Item.deadline s.pool _ h.inv).1, ?_, ?_, ?_, h.base, ?_⟩
            · intro i
              have := h.made i
              dsimp only [Verif.Watch.step]
              rw [hr]
              exact this
            · dsimp only [Verif.Watch.step]
              rw [hr]
              exact h.range
            · dsimp only [Verif.Watch.step]
              rw [hr]
              exact h.once
            · obtain ⟨old, h1, h2, h3⟩ := h.shown
              refine ⟨old, ?_, h2, h3⟩
              dsimp only [Verif.Watch.step]
              rw [hr]
              dsimp only
              rw [h1, List.append_assoc]
          · intro q hq
            rw [List.mem_singleton] at hq
            subst hq
            exact (h.range _ (made_mem h.made q hmem)).1
      · exact ⟨b, h.congr rfl rfl rfl, Or.inl ⟨rfl, rfl⟩, Nat.le_refl _, [], (List.append_nil _).symm, fun _ hr => nomatch hr⟩
    · split <;> exact ⟨b, h.congr rfl rfl rfl, Or.inl ⟨rfl, rfl⟩, Nat.le_refl _, [], (List.append_nil _).symm, fun _ hr => nomatch hr⟩
    · obtain ⟨b', c1, c2, c3, c4⟩ := periodic_core h now disk late
      generalize handlePeriodic now disk late s = u at *
      obtain ⟨u, d⟩ := u
      dsimp only at *
      refine ⟨b', ?_, ?_, ?_, [], ?_, fun _ hr => nomatch hr⟩
      · split <;> exact c1.congr rfl rfl rfl
      · split <;> exact c2
      · split <;> exact Nat.le_of_eq c4.symm
      · split <;> simpa using c3
    · exact ⟨b, (garden_core h now late).congr rfl rfl rfl, Or.inl ⟨rfl, rfl⟩, Nat.le_refl _, [], (List.append_nil _).symm, fun _ hr => nomatch hr⟩

/-! ### Times of checks -/

/-- The checks are a second apart, and the next is due a second after the last. -/
structure Timing (s : St F M) : Prop where
  apart : s.checks.Pairwise fun a b => a + 1000 ≤ b
  next : ∀ c ∈ s.checks, c + 1000 ≤ s.next
  due : s.next = 0 ∨ ∃ c ∈ s.checks, s.next = c + 1000

omit [DecidableEq F] in
theorem Timing.congr {s t : St F M} (h : Timing s) (h1 : t.checks = s.checks) (h2 : t.next = s.next) : Timing t := by
  obtain ⟨a, b, c⟩ := h
  exact ⟨by rwa [h1], by rwa [h1, h2], by rwa [h1, h2]⟩

theorem periodic_timing {s : St F M} (h : Timing s) (now : Int) (disk : List (F × Option Int)) (late : Item F → Option M) :
    Timing (handlePeriodic now disk late s).1 := by
  unfold handlePeriodic
  split
  · exact h.congr rfl rfl
  · split
    · rename_i hnow
      have : Timing { s with next := now + 1000, checks := s.checks ++ [now] } := by
        refine ⟨?_, ?_, Or.inr ⟨now, by simp, rfl⟩⟩
        · rw [List.pairwise_append]
          refine ⟨h.apart, List.pairwise_singleton _ _, ?_⟩
          intro a ha b hb
          rw [List.mem_singleton] at hb
          subst hb
          exact Int.le_trans (h.next a ha) hnow
        · intro c hc
          rcases List.mem_append.mp hc with hc | hc
          · have := h.next c hc
            dsimp only
            omega
          · rw [List.mem_singleton] at hc
            subst hc
            exact Int.le_refl _
      dsimp only
      split <;> exact this.congr rfl rfl
    · exact h

theorem act_timing {s : St F M} (h : Timing s) (a : Act F M) : Timing (act s a) := by
  cases a with
  | start k => exact h.congr rfl rfl
  | exit k out =>
    dsimp only [act]
    unfold exit
    split
    · exact h.congr rfl rfl
    · exact h
  | shutdown => exact h.congr rfl rfl
  | begin n now disk late =>
    dsimp only [act]
    split
    · unfold begin
      dsimp only
      have hk := submits_keep (now + workerTimeout n) ((byTime s.known).map Prod.fst) s
      have hc : Timing (garden now late (((byTime s.known).map Prod.fst).foldl (submit (now + workerTimeout n)) s)) :=
        h.congr hk.2.2.2.1 hk.2.2.2.2.1
      split
      · exact hc.congr rfl rfl
      · exact (periodic_timing hc (now + 1500) disk late).congr rfl rfl
    · exact h
  | go now disk late =>
    dsimp only [act]
    unfold go
    split
    · exact h
    · split
      · split <;> exact h.congr rfl rfl
      · exact h.congr rfl rfl
    · split <;> exact h.congr rfl rfl
    · have := periodic_timing h now disk late
      generalize handlePeriodic now disk late s = u at *
      obtain ⟨u, d⟩ := u
      dsimp only at *
      split <;> exact this.congr rfl rfl
    · exact h.congr rfl rfl

/-! ### What is left in the queue -/

/-- Where the loop stands and what the queue then holds. -/
structure Where (s : St F M) : Prop where
  resumed : s.place = .resumed → isWorking s.pool = true
  top : s.place = .top → isWorking s.pool = true ∨ s.pool.results = s.fresh
  later : s.place = .periodic ∨ s.place = .garden → s.pool.results = s.fresh
  complete : s.place = .idle → s.ending = .complete → s.pool.results = s.fresh ∧ isWorking s.pool = false

omit [DecidableEq F] in
theorem Where.env {s t : St F M} (h : Where s) (hp : t.place = s.place) (he : t.ending = s.ending)
    (hw : isWorking t.pool = isWorking s.pool) (hf : s.pool.results = s.fresh → t.pool.results = t.fresh) : Where t := by
  obtain ⟨h1, h2, h3, h4⟩ := h
  refine ⟨by rwa [hp, hw], ?_, ?_, ?_⟩
  · rw [hp, hw]
    exact fun h => (h2 h).imp id hf
  · rw [hp]
    exact fun h => hf (h3 h)
  · rw [hp, he, hw]
    exact fun h h' => ⟨hf (h4 h h').1, (h4 h h').2⟩

theorem act_where {s : St F M} (h : Where s) (a : Act F M) : Where (act s a) := by
  cases a with
  | start k =>
    refine h.env rfl rfl ?_ id
    dsimp only [act, Verif.Watch.step, isWorking]
    cases hw : s.pool.workers with
    | nil => cases k <;> rfl
    | cons x xs => cases k <;> rfl
  | exit k out =>
    dsimp only [act]
    unfold exit
    split
    · refine h.env rfl rfl (exit_working k _ s.pool) ?_
      intro hf
      dsimp only
      rw [(exit_grows k _ s.pool).drop, hf]
    · exact h
  | shutdown => exact h.env rfl rfl rfl id
  | begin n now disk late =>
    dsimp only [act]
    split
    · rename_i hidle
      unfold begin
      dsimp only
      have hk := submits_keep (now + workerTimeout n) ((byTime s.known).map Prod.fst) s
      split
      · rename_i hw
        exact ⟨nofun, fun _ => Or.inl hw, nofun, nofun⟩
      · have hplace : ∀ u : St F M, (handlePeriodic (now + 1500) disk late u).1.place = u.place := by
          intro u
          unfold handlePeriodic
          split
          · rfl
          · split
            · dsimp only
              split <;> rfl
            · rfl
        have : (handlePeriodic (now + 1500) disk late (garden now late (((byTime s.known).map Prod.fst).foldl
            (submit (now + workerTimeout n)) s))).1.place = .idle := by
          rw [hplace]
          exact hk.2.2.2.2.2.2.2.1.trans hidle
        refine ⟨?_, ?_, ?_, ?_⟩
        · exact fun h => nomatch this.symm.trans h
        · exact fun h => nomatch this.symm.trans h
        · rintro (h | h) <;> exact nomatch this.symm.trans h
        · exact nofun
    · exact h
  | go now disk late =>
    dsimp only [act]
    unfold go
    split
    · exact h
    · rename_i htop
      split
      · rename_i hw
        split
        · rename_i hr
          exact ⟨nofun, nofun, fun _ => hr, nofun⟩
        · rename_i r rest hr
          refine ⟨fun _ => ?_, nofun, nofun, nofun⟩
          dsimp only [Verif.Watch.step]
          rw [hr]
          exact hw
      · rename_i hw
        refine ⟨nofun, nofun, nofun, fun _ _ => ⟨?_, by simpa using hw⟩⟩
        exact (h.top htop).resolve_left hw
    · rename_i hres
      split
      · rename_i hr
        exact ⟨nofun, nofun, fun _ => List.isEmpty_iff.mp hr, nofun⟩
      · exact ⟨nofun, fun _ => Or.inl (h.resumed hres), nofun, nofun⟩
    · rename_i hper
      have h3 := h.later (Or.inl hper)
      have hpool : (handlePeriodic now disk late s).2 = false → (handlePeriodic now disk late s).1.pool = s.pool ∧
          (handlePeriodic now disk late s).1.fresh = s.fresh := by
        unfold handlePeriodic
        split
        · exact nofun
        · split
          · dsimp only
            split
            · exact nofun
            · exact fun _ => ⟨rfl, rfl⟩
          · exact fun _ => ⟨rfl, rfl⟩
      generalize handlePeriodic now disk late s = u at *
      obtain ⟨u, d⟩ := u
      dsimp only at *
      split
      · exact ⟨nofun, nofun, nofun, nofun⟩
      · rename_i hd
        obtain ⟨p1, p2⟩ := hpool (by simpa using hd)
        exact ⟨nofun, nofun, fun _ => by rw [p1, p2]; exact h3, nofun⟩
    · rename_i hg
      have h3 := h.later (Or.inr hg)
      refine ⟨nofun, fun _ => Or.inr ?_, nofun, nofun⟩
      unfold garden
      dsimp only
      rw [(garden_grows now late s.pool).drop, h3]

/-! ### Histories -/

/-- The start. -/
def first (F M : Type) [DecidableEq F] (max : Nat) (disk : List (F × Option Int)) : St F M :=
  { St.new F M max with known := (checkChanged disk []).1 }

theorem first_core (max : Nat) (disk : List (F × Option Int)) : Core 0 (first F M max disk) :=
  ⟨⟨Nat.zero_le _, List.Perm.refl _, rfl⟩, fun _ => Nat.le_refl _, fun _ hi => (nomatch hi), List.nodup_nil, Nat.le_refl _,
    [], rfl, fun _ hr => (nomatch hr), List.nodup_nil⟩

theorem acts_core (acts : List (Act F M)) : ∀ {b : Nat} {s : St F M}, Core b s → ∃ b', b ≤ b' ∧ Core b' (acts.foldl act s) ∧
    s.changes ≤ (acts.foldl act s).changes ∧
    ∃ new, (acts.foldl act s).shown = s.shown ++ new ∧ ∀ r ∈ new, b ≤ r.1.serial := by
  induction acts with
  | nil => exact fun h => ⟨_, Nat.le_refl _, h, Nat.le_refl _, [], (List.append_nil _).symm, fun _ hr => nomatch hr⟩
  | cons a as ih =>
    intro b s h
    obtain ⟨b1, h1, h2, h3, n1, h4, h5⟩ := act_core h a
    obtain ⟨b2, k0, k1, k2, n2, k3, k4⟩ := ih h1
    have hb : b ≤ b1 ∧ s.changes ≤ (act s a).changes := by
      rcases h2 with ⟨e1, e2⟩ | ⟨e1, e2, e3, _⟩
      · omega
      · omega
    refine ⟨b2, Nat.le_trans hb.1 k0, k1, Nat.le_trans hb.2 k2, n1 ++ n2, ?_, ?_⟩
    · rw [List.foldl_cons, k3, h4, List.append_assoc]
    · intro r hr
      rcases List.mem_append.mp hr with hr | hr
      · exact h5 r hr
      · exact Nat.le_trans hb.1 (k4 r hr)

theorem acts_timing (acts : List (Act F M)) : ∀ {s : St F M}, Timing s → Timing (acts.foldl act s) := by
  induction acts with
  | nil => exact fun h => h
  | cons a as ih => exact fun h => ih (act_timing h a)

theorem acts_where (acts : List (Act F M)) : ∀ {s : St F M}, Where s → Where (acts.foldl act s) := by
  induction acts with
  | nil => exact fun h => h
  | cons a as ih => exact fun h => ih (act_where h a)

theorem run_core (max : Nat) (disk : List (F × Option Int)) (acts : List (Act F M)) : ∃ b, Core b (run max disk acts) := by
  obtain ⟨b, _, h, _⟩ := acts_core acts (first_core (F := F) (M := M) max disk)
  exact ⟨b, h⟩

theorem run_timing (max : Nat) (disk : List (F × Option Int)) (acts : List (Act F M)) : Timing (run max disk acts) :=
  acts_timing acts ⟨List.Pairwise.nil, fun _ hc => (nomatch hc), Or.inl rfl⟩

theorem run_where (max : Nat) (disk : List (F × Option Int)) (acts : List (Act F M)) : Where (run max disk acts) :=
  acts_where acts ⟨nofun, nofun, nofun, nofun⟩

end Verif.Passes
