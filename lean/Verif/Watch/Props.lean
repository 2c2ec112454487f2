import Verif.Watch.Model
import Verif.Report.Props
import Mathlib.Tactic.Linarith
/-
Property theorems about noticing changes (C12) and the worker pool (C13).
-/
namespace Verif.Watch

open Verif.Report (Msg State merge)

/-! ### C12: changed files -/

theorem lookup_put {P T : Type} [DecidableEq P] (d : Times P T) (k : P) (v : T) (x : P) :
    (put d k v).lookup x = if x = k then some v else d.lookup x := by
  induction d with
  | nil =>
    rw [put, List.lookup_cons]
    by_cases h : x = k
    · simp [h]
    · have : (x == k) = false := by simpa using h
      simp [this, h]
  | cons e rest ih =>
    obtain ⟨k', v'⟩ := e
    rw [put]
    by_cases hk : k' = k
    · subst hk
      rw [if_pos rfl, List.lookup_cons, List.lookup_cons]
      by_cases h : x = k'
      · simp [h]
      · have : (x == k') = false := by simpa using h
        simp [this, h]
    · rw [if_neg hk, List.lookup_cons, List.lookup_cons, ih]
      by_cases h : x = k'
      · subst h
        simp [hk]
      · have : (x == k') = false := by simpa using h
        simp [this]

theorem lookup_remove {P T : Type} [DecidableEq P] (d : Times P T) (k x : P) :
    (remove d k).lookup x = if x = k then none else d.lookup x := by
  unfold remove
  induction d with
  | nil => simp
  | cons e rest ih =>
    obtain ⟨k', v'⟩ := e
    rw [List.filter_cons]
    by_cases hk : k' = k
    · subst hk
      simp only [ne_eq, not_true_eq_false, decide_false, Bool.false_eq_true, if_false]
      rw [ih, List.lookup_cons]
      by_cases h : x = k'
      · simp [h]
      · have : (x == k') = false := by simpa using h
        simp [this]
    · simp only [ne_eq, hk, not_false_eq_true, decide_true, if_true]
      rw [List.lookup_cons, List.lookup_cons, ih]
      by_cases h : x = k'
      · subst h
        simp [hk]
      · have : (x == k') = false := by simpa using h
        simp [this]

/-- The time of a file now: that of its (last) appearance with a time. -/
def timeNow {P T : Type} [DecidableEq P] : List (P × Option T) → P → Option T
  | [], _ => none
  | (g, t) :: rest, f =>
    match timeNow rest f with
    | some t' => some t'
    | none => if g = f then t else none

theorem timeNow_none {P T : Type} [DecidableEq P] (files : List (P × Option T)) (f : P) :
    timeNow files f = none ↔ ∀ t, (f, some t) ∉ files := by
  induction files with
  | nil => simp [timeNow]
  | cons e rest ih =>
    obtain ⟨g, t⟩ := e
    rw [timeNow]
    cases h : timeNow rest f with
    | some t' =>
      constructor
      · intro hh; cases hh
      · intro hh
        have : ∀ t, (f, some t) ∉ rest := fun t ht => hh t (by simp [ht])
        rw [ih.mpr this] at h
        cases h
    | none =>
      have hr := ih.mp h
      dsimp only
      split
      · rename_i hg
        subst hg
        constructor
        · rintro rfl t'
          simp [hr t']
        · intro hh
          cases t with
          | none => rfl
          | some t' => exact absurd (by simp) (hh t')
      · rename_i hg
        constructor
        · intro _ t' ht
          rcases List.mem_cons.mp ht with ht | ht
          · injection ht with ht _
            exact hg ht.symm
          · exact hr t' ht
        · intro _; rfl

theorem timeNow_mem {P T : Type} [DecidableEq P] (files : List (P × Option T)) (f : P) (t : T) (h : timeNow files f = some t) :
    (f, some t) ∈ files := by
  induction files with
  | nil => simp [timeNow] at h
  | cons e rest ih =>
    obtain ⟨g, u⟩ := e
    rw [timeNow] at h
    cases hr : timeNow rest f with
    | some t' =>
      rw [hr] at h
      injection h with h
      subst h
      simp [ih hr]
    | none =>
      rw [hr] at h
      dsimp only at h
      split at h
      · rename_i hg
        subst hg
        rw [h]
        simp
      · cases h

/-- The known times and the unchecked ones, after a scan. -/
theorem scan_known {P T : Type} [DecidableEq P] [DecidableEq T] (files : List (P × Option T)) :
    ∀ (known unchecked : Times P T) (changed : Bool),
      (∀ f t, unchecked.lookup f = some t → known.lookup f = some t) →
      (∀ f, (scan files known unchecked changed).1.lookup f = (timeNow files f).or (known.lookup f)) ∧
      (∀ f, (scan files known unchecked changed).2.1.lookup f = if timeNow files f = none then unchecked.lookup f else none) := by
  induction files with
  | nil =>
    intro known unchecked changed _
    exact ⟨fun f => rfl, fun f => rfl⟩
  | cons e rest ih =>
    obtain ⟨g, t⟩ := e
    intro known unchecked changed hsub
    cases t with
    | none =>
      rw [scan]
      have h := ih known unchecked changed hsub
      have e : ∀ f, timeNow ((g, none) :: rest) f = timeNow rest f := by
        intro f
        rw [timeNow]
        cases timeNow rest f <;> simp
      simp only [e]
      exact h
    | some t =>
      rw [scan]
      have hsub' : ∀ f u, (remove unchecked g).lookup f = some u → (f ≠ g ∧ unchecked.lookup f = some u) := by
        intro f u hu
        rw [lookup_remove] at hu
        split at hu
        · cases hu
        · rename_i hfg
          exact ⟨hfg, hu⟩
      have hnow : ∀ f, timeNow ((g, some t) :: rest) f =
          (timeNow rest f).or (if g = f then some t else none) := by
        intro f
        rw [timeNow]
        cases timeNow rest f <;> rfl
      split
      · rename_i hl
        have h := ih known (remove unchecked g) changed fun f u hu => hsub f u (hsub' f u hu).2
        refine ⟨?_, ?_⟩
        · intro f
          rw [h.1, hnow]
          cases hr : timeNow rest f with
          | some u => rfl
          | none =>
            by_cases hg : g = f
            · subst hg
              simp [hsub g t hl]
            · simp [hg]
        · intro f
          rw [h.2, hnow, lookup_remove]
          cases hr : timeNow rest f with
          | some u => simp
          | none =>
            by_cases hg : g = f
            · subst hg
              simp
            · have : ¬ f = g := fun h => hg h.symm
              simp [hg, this]
      · have h := ih (put known g t) (remove unchecked g) true (by
          intro f u hu
          rw [lookup_put, if_neg (hsub' f u hu).1]
          exact hsub f u (hsub' f u hu).2)
        refine ⟨?_, ?_⟩
        · intro f
          rw [h.1, hnow, lookup_put]
          cases hr : timeNow rest f with
          | some u => rfl
          | none =>
            by_cases hg : g = f
            · subst hg
              simp
            · have : ¬ f = g := fun h => hg h.symm
              simp [hg, this]
        · intro f
          rw [h.2, hnow, lookup_remove]
          cases hr : timeNow rest f with
          | some u => simp
          | none =>
            by_cases hg : g = f
            · subst hg
              simp
            · have : ¬ f = g := fun h => hg h.symm
              simp [hg, this]

/-- A scan reports a change if there was one before, or if a file's time is not the unchecked one. -/
theorem scan_changed {P T : Type} [DecidableEq P] [DecidableEq T] (files : List (P × Option T)) :
    ∀ (known unchecked : Times P T) (changed : Bool),
      ((changed = true ∨ ∃ f t, (f, some t) ∈ files ∧ unchecked.lookup f ≠ some t) → (scan files known unchecked changed).2.2 = true) ∧
      ((files.map Prod.fst).Nodup → (scan files known unchecked changed).2.2 = true →
        changed = true ∨ ∃ f t, (f, some t) ∈ files ∧ unchecked.lookup f ≠ some t) := by
  induction files with
  | nil =>
    intro known unchecked changed
    simp [scan]
  | cons e rest ih =>
    obtain ⟨g, t⟩ := e
    intro known unchecked changed
    cases t with
    | none =>
      rw [scan]
      obtain ⟨h1, h2⟩ := ih known unchecked changed
      refine ⟨?_, ?_⟩
      · rintro (h | ⟨f, t, hm, hl⟩)
        · exact h1 (Or.inl h)
        · rcases List.mem_cons.mp hm with hm | hm
          · injection hm with _ hm; cases hm
          · exact h1 (Or.inr ⟨f, t, hm, hl⟩)
      · intro hn hc
        rw [List.map_cons, List.nodup_cons] at hn
        rcases h2 hn.2 hc with h | ⟨f, t, hm, hl⟩
        · exact Or.inl h
        · exact Or.inr ⟨f, t, by simp [hm], hl⟩
    | some t =>
      rw [scan]
      split
      · rename_i hl0
        obtain ⟨h1, h2⟩ := ih known (remove unchecked g) changed
        refine ⟨?_, ?_⟩
        · rintro (h | ⟨f, u, hm, hl⟩)
          · exact h1 (Or.inl h)
          · rcases List.mem_cons.mp hm with hm | hm
            · injection hm with hm1 hm2
              injection hm2 with hm2
              subst hm1 hm2
              exact absurd hl0 hl
            · refine h1 (Or.inr ⟨f, u, hm, ?_⟩)
              rw [lookup_remove]
              split
              · simp
              · exact hl
        · intro hn hc
          rw [List.map_cons, List.nodup_cons] at hn
          rcases h2 hn.2 hc with h | ⟨f, u, hm, hl⟩
          · exact Or.inl h
          · have hfg : f ≠ g := by
              rintro rfl
              exact hn.1 (List.mem_map.mpr ⟨_, hm, rfl⟩)
            rw [lookup_remove, if_neg hfg] at hl
            exact Or.inr ⟨f, u, by simp [hm], hl⟩
      · rename_i hl0
        obtain ⟨h1, h2⟩ := ih (put known g t) (remove unchecked g) true
        exact ⟨fun _ => h1 (Or.inl rfl), fun _ _ => Or.inr ⟨g, t, by simp, hl0⟩⟩

theorem foldl_remove {P T : Type} [DecidableEq P] (del d : Times P T) (f : P) :
    (del.foldl (fun d e => remove d e.1) d).lookup f = if del.lookup f = none then d.lookup f else none := by
  induction del generalizing d with
  | nil => simp
  | cons e rest ih =>
    obtain ⟨k, v⟩ := e
    rw [List.foldl_cons, ih, lookup_remove, List.lookup_cons]
    by_cases h : f = k
    · subst h
      simp
    · have : (f == k) = false := by simpa using h
      simp only [this, if_neg h]

theorem lookup_all_none {P T : Type} [DecidableEq P] (d : Times P T) : d = [] ↔ ∀ f, d.lookup f = none := by
  cases d with
  | nil => simp
  | cons e rest =>
    constructor
    · intro h; cases h
    · intro h
      have := h e.1
      rw [List.lookup_cons] at this
      simp at this

/-- C12: after a check, the times known are exactly those of the files there now. -/
theorem check_records {P T : Type} [DecidableEq P] [DecidableEq T] (files : List (P × Option T)) (known : Times P T) (f : P) :
    (checkChanged files known).1.lookup f = timeNow files f := by
  obtain ⟨h1, h2⟩ := scan_known files known known false fun _ _ h => h
  unfold checkChanged
  generalize hs : scan files known known false = s at *
  obtain ⟨k, u, c⟩ := s
  dsimp only at *
  split
  · rename_i hu
    have h2f := h2 f
    rw [hu] at h2f
    rw [h1]
    cases ht : timeNow files f with
    | some t => rfl
    | none =>
      rw [ht] at h2f
      simp only [if_true, List.lookup_nil] at h2f
      rw [← h2f]
      rfl
  · rw [foldl_remove, h1, h2]
    cases ht : timeNow files f with
    | some t => simp
    | none =>
      cases hk : known.lookup f <;> simp

/-- C12: no change is missed: if the time of any file differs from the known one, or a file has appeared or vanished, the
check says so. -/
theorem check_notices {P T : Type} [DecidableEq P] [DecidableEq T] (files : List (P × Option T)) (known : Times P T)
    (f : P) (h : known.lookup f ≠ timeNow files f) : (checkChanged files known).2 = true := by
  obtain ⟨h1, h2⟩ := scan_known files known known false fun _ _ h => h
  have h3 := (scan_changed files known known false).1
  unfold checkChanged
  generalize hs : scan files known known false = s at *
  obtain ⟨k, u, c⟩ := s
  dsimp only at *
  split
  · rename_i hu
    apply h3
    right
    cases ht : timeNow files f with
    | some t => exact ⟨f, t, timeNow_mem files f t ht, by rw [← ht]; exact h⟩
    | none =>
      exfalso
      have h2f := h2 f
      rw [hu, ht] at h2f
      simp only [if_true, List.lookup_nil] at h2f
      rw [ht, ← h2f] at h
      exact h rfl
  · rfl

/-- C12: if no file is listed twice, a change is reported only if there is one. -/
theorem check_exact {P T : Type} [DecidableEq P] [DecidableEq T] (files : List (P × Option T)) (known : Times P T)
    (hn : (files.map Prod.fst).Nodup) :
    (checkChanged files known).2 = true ↔ ∃ f, known.lookup f ≠ timeNow files f := by
  constructor
  · intro hc
    obtain ⟨h1, h2⟩ := scan_known files known known false fun _ _ h => h
    have h3 := (scan_changed files known known false).2 hn
    unfold checkChanged at hc
    generalize hs : scan files known known false = s at *
    obtain ⟨k, u, c⟩ := s
    dsimp only at *
    split at hc
    · rcases h3 hc with h | ⟨f, t, hm, hl⟩
      · cases h
      · refine ⟨f, ?_⟩
        intro he
        rw [he] at hl
        -- the only entry for the file
        cases ht : timeNow files f with
        | none => exact (timeNow_none files f).mp ht t hm
        | some t' =>
          have hm' := timeNow_mem files f t' ht
          have : t = t' := by
            clear hs h1 h2 h3 hc he hl ht
            induction files with
            | nil => simp at hm
            | cons e rest ih =>
              rw [List.map_cons, List.nodup_cons] at hn
              rcases List.mem_cons.mp hm with rfl | hm2
              · rcases List.mem_cons.mp hm' with hh | hm2'
                · injection hh with _ hh
                  injection hh with hh
                  exact hh.symm
                · exact absurd (List.mem_map.mpr ⟨_, hm2', rfl⟩) hn.1
              · rcases List.mem_cons.mp hm' with rfl | hm2'
                · exact absurd (List.mem_map.mpr ⟨_, hm2, rfl⟩) hn.1
                · exact ih hn.2 hm2 hm2'
          rw [ht, this] at hl
          exact hl rfl
    · rename_i hu
      have : ∃ f, u.lookup f ≠ none := by
        apply Classical.byContradiction
        intro hall
        apply hu
        rw [lookup_all_none]
        intro f
        apply Classical.byContradiction
        intro hf
        exact hall ⟨f, hf⟩
      obtain ⟨f, hf⟩ := this
      refine ⟨f, ?_⟩
      rw [h2] at hf
      split at hf
      · rename_i hnow
        rw [hnow]
        exact hf
      · exact absurd rfl hf
  · rintro ⟨f, hf⟩
    exact check_notices files known f hf

example : (checkChanged [("a", some 1), ("b", some 5), ("c", none)] [("a", 1), ("b", 4)]).2 = true ∧
    (checkChanged [("a", some 1), ("b", some 4), ("c", none)] [("a", 1), ("b", 4)]).2 = false ∧
    (checkChanged [("a", some 1)] [("a", 1), ("b", 4)]) = ([("a", 1)], true) := by decide

/-- C12 fails if a file is listed twice, as it is when a directory and a file in it are watched: an unchanged file counts
as changed, in every check. -/
theorem listed_twice_always_changed {P T : Type} [DecidableEq P] [DecidableEq T] (f : P) (t : T) :
    checkChanged [(f, some t), (f, some t)] [(f, t)] = ([(f, t)], true) := by
  simp [checkChanged, scan, put, remove]

/-! ### C13: the pool -/

theorem spawn_spec {I R : Type} (fuel : Nat) : ∀ p : Pool I R, p.workers.length ≤ p.max → p.work.length ≤ fuel →
    (spawn fuel p).workers.length ≤ p.max ∧
    ((spawn fuel p).work = [] ∨ (spawn fuel p).workers.length = p.max) ∧
    ((spawn fuel p).work ++ (spawn fuel p).workers.map Worker.item).Perm (p.work ++ p.workers.map Worker.item) ∧
    (∃ new, (spawn fuel p).workers = p.workers ++ new ∧ ∀ w ∈ new, w.alive = true) ∧
    (spawn fuel p).max = p.max ∧ (spawn fuel p).results = p.results ∧ (spawn fuel p).submitted = p.submitted ∧
    (spawn fuel p).ended = p.ended ∧ (spawn fuel p).dropped = p.dropped ∧ (spawn fuel p).produced = p.produced ∧
    (spawn fuel p).delivered = p.delivered := by
  induction fuel with
  | zero =>
    intro p h1 h2
    have : p.work = [] := List.length_eq_zero_iff.mp (by omega)
    exact ⟨h1, Or.inl this, List.Perm.refl _, ⟨[], by simp [spawn], by simp⟩, rfl, rfl, rfl, rfl, rfl, rfl, rfl⟩
  | succ fuel ih =>
    intro p h1 h2
    rw [spawn]
    cases hl : p.work.getLast? with
    | none =>
      have : p.work = [] := List.getLast?_eq_none_iff.mp hl
      exact ⟨h1, Or.inl this, List.Perm.refl _, ⟨[], by simp, by simp⟩, rfl, rfl, rfl, rfl, rfl, rfl, rfl⟩
    | some i =>
      dsimp only
      have hw : p.work = p.work.dropLast ++ [i] := by
        obtain ⟨ys, hys⟩ := List.getLast?_eq_some_iff.mp hl
        rw [hys, List.dropLast_concat]
      split
      · rename_i hlt
        have := ih { p with work := p.work.dropLast, workers := p.workers ++ [⟨i, true, false⟩] } (by
          dsimp only; rw [List.length_append, List.length_singleton]; omega) (by
          dsimp only; rw [List.length_dropLast]; omega)
        dsimp only at this
        obtain ⟨a1, a2, a3, ⟨new, a4, a5⟩, a6, a7⟩ := this
        refine ⟨a1, a2, ?_, ⟨⟨i, true, false⟩ :: new, by rw [a4]; simp, ?_⟩, a6, a7⟩
        · refine a3.trans ?_
          conv_rhs => rw [hw]
          rw [List.map_append, List.map_singleton, List.append_assoc]
          refine List.Perm.append_left _ ?_
          exact List.perm_append_comm
        · intro w hw'
          rcases List.mem_cons.mp hw' with rfl | hw'
          · rfl
          · exact a5 w hw'
      · rename_i hge
        exact ⟨h1, Or.inr (by omega), List.Perm.refl _, ⟨[], by simp, by simp⟩, rfl, rfl, rfl, rfl, rfl, rfl, rfl⟩

theorem killed_item {I R : Type} (deadline : I → Int) (now : Option Int) (late : I → Option R) (w : Worker I) :
    (killed deadline now late w).1.item = w.item := by
  unfold killed
  split <;> rfl

/-- The invariant of a pool. -/
def Inv {I R : Type} (p : Pool I R) : Prop :=
  p.workers.length ≤ p.max ∧
  p.submitted.Perm (p.work ++ p.workers.map Worker.item ++ p.ended ++ p.dropped) ∧
  p.produced = p.delivered ++ p.results

theorem filter_split {α : Type} (q : α → Bool) (l : List α) : (l.filter q ++ l.filter fun x => !q x).Perm l := by
  induction l with
  | nil => exact List.Perm.refl _
  | cons x xs ih =>
    rw [List.filter_cons, List.filter_cons]
    cases q x
    · simp only [Bool.false_eq_true, if_false, Bool.not_false, if_true]
      exact List.perm_middle.trans (List.Perm.cons x ih)
    · simp only [if_true, Bool.not_true, Bool.false_eq_true, if_false, List.cons_append]
      exact List.Perm.cons x ih

theorem prune_inv {I R : Type} (deadline : I → Int) (now : Option Int) (late : I → Option R) (p : Pool I R) (h : Inv p) :
    Inv (prune deadline now late p) ∧ (prune deadline now late p).max = p.max ∧ (prune deadline now late p).work = p.work := by
  obtain ⟨h1, h2, h3⟩ := h
  refine ⟨⟨?_, ?_, ?_⟩, rfl, rfl⟩
  · unfold prune
    dsimp only
    refine Nat.le_trans (List.length_filter_le _ _) ?_
    simpa using h1
  · unfold prune
    dsimp only
    refine h2.trans ?_
    have hitems : ((p.workers.map (killed deadline now late)).map Prod.fst).map Worker.item = p.workers.map Worker.item := by
      rw [List.map_map, List.map_map]
      apply List.map_congr_left
      intro w _
      exact killed_item deadline now late w
    have hsplit := filter_split (fun w : Worker I => w.alive) ((p.workers.map (killed deadline now late)).map Prod.fst)
    have hsplit := hsplit.map Worker.item
    rw [hitems, List.map_append] at hsplit
    generalize ((p.workers.map (killed deadline now late)).map Prod.fst) = ws at hsplit ⊢
    generalize (ws.filter fun w => w.alive).map Worker.item = A at hsplit ⊢
    generalize (ws.filter fun w => !w.alive).map Worker.item = B at hsplit ⊢
    have step1 : (p.work ++ p.workers.map Worker.item ++ p.ended ++ p.dropped).Perm (p.work ++ (A ++ B) ++ p.ended ++ p.dropped) :=
      ((hsplit.symm.append_left p.work).append_right p.ended).append_right p.dropped
    refine step1.trans ?_
    rw [show p.work ++ (A ++ B) ++ p.ended ++ p.dropped = (p.work ++ A) ++ (B ++ p.ended) ++ p.dropped by simp,
      show p.work ++ A ++ (p.ended ++ B) ++ p.dropped = (p.work ++ A) ++ (p.ended ++ B) ++ p.dropped by simp]
    exact ((List.perm_append_comm (l₁ := B) (l₂ := p.ended)).append_left (p.work ++ A)).append_right p.dropped
  · unfold prune
    dsimp only
    rw [h3, List.append_assoc]

theorem modify_length {I : Type} (l : List (Worker I)) (k : Nat) (f : Worker I → Worker I) : (l.modify k f).length = l.length :=
  List.length_modify ..

theorem modify_items {I : Type} (l : List (Worker I)) (k : Nat) (f : Worker I → Worker I) (hf : ∀ w, (f w).item = w.item) :
    (l.modify k f).map Worker.item = l.map Worker.item := by
  induction l generalizing k with
  | nil => cases k <;> rfl
  | cons w ws ih =>
    cases k with
    | zero => simp [hf]
    | succ k => simp [ih]

theorem step_inv {I R : Type} (deadline : I → Int) (p : Pool I R) (e : Event I R) (h : Inv p) :
    Inv (step deadline p e) ∧ (step deadline p e).max = p.max := by
  cases e with
  | submit i =>
    refine ⟨⟨h.1, ?_, h.2.2⟩, rfl⟩
    dsimp only [step]
    have := h.2.1.append_right [i]
    refine this.trans ?_
    rw [show p.work ++ p.workers.map Worker.item ++ p.ended ++ p.dropped ++ [i] =
      p.work ++ ((p.workers.map Worker.item ++ p.ended ++ p.dropped) ++ [i]) by simp,
      show p.work ++ [i] ++ p.workers.map Worker.item ++ p.ended ++ p.dropped =
      p.work ++ ([i] ++ (p.workers.map Worker.item ++ p.ended ++ p.dropped)) by simp]
    exact List.perm_append_comm.append_left p.work
  | start k =>
    refine ⟨⟨?_, ?_, h.2.2⟩, rfl⟩
    · dsimp only [step]; rw [modify_length]; exact h.1
    · dsimp only [step]; rw [modify_items p.workers k (fun w => { w with started := w.started || w.alive }) (fun _ => rfl)]; exact h.2.1
  | exit k out =>
    dsimp only [step]
    cases hk : p.workers[k]? with
    | none => exact ⟨h, rfl⟩
    | some w =>
      dsimp only
      split
      · refine ⟨⟨?_, ?_, ?_⟩, rfl⟩
        · dsimp only; rw [modify_length]; exact h.1
        · dsimp only; rw [modify_items p.workers k (fun w => { w with alive := false }) (fun _ => rfl)]; exact h.2.1
        · dsimp only; rw [h.2.2, List.append_assoc]
      · exact ⟨h, rfl⟩
  | garden now late =>
    dsimp only [step]
    obtain ⟨hp, hm, _⟩ := prune_inv deadline (some now) late p h
    generalize prune deadline (some now) late p = p' at hp hm
    obtain ⟨a1, a2, a3, _, a6, a7, a8, a9, a10, a11, a12⟩ := spawn_spec p'.work.length p' hp.1 (Nat.le_refl _)
    refine ⟨⟨by rw [a6]; exact a1, ?_, by rw [a11, a12, a7]; exact hp.2.2⟩, by rw [a6, hm]⟩
    rw [a8, a9, a10]
    exact hp.2.1.trans ((a3.symm.append_right p'.ended).append_right p'.dropped)
  | terminate late =>
    dsimp only [step]
    obtain ⟨hp, hm, _⟩ := prune_inv deadline none late p h
    generalize prune deadline none late p = p' at hp hm
    refine ⟨⟨hp.1, ?_, hp.2.2⟩, hm⟩
    dsimp only
    refine hp.2.1.trans ?_
    rw [List.nil_append, show p'.work ++ p'.workers.map Worker.item ++ p'.ended ++ p'.dropped =
      p'.work ++ (p'.workers.map Worker.item ++ p'.ended ++ p'.dropped) by simp,
      show p'.workers.map Worker.item ++ p'.ended ++ (p'.dropped ++ p'.work) =
      (p'.workers.map Worker.item ++ p'.ended ++ p'.dropped) ++ p'.work by simp]
    exact List.perm_append_comm
  | get =>
    dsimp only [step]
    cases hr : p.results with
    | nil => exact ⟨h, rfl⟩
    | cons r rest =>
      dsimp only
      refine ⟨⟨h.1, h.2.1, ?_⟩, rfl⟩
      dsimp only
      rw [h.2.2, hr]
      simp

theorem run_inv {I R : Type} (deadline : I → Int) (max : Nat) (events : List (Event I R)) :
    Inv (run deadline max events) ∧ (run deadline max events).max = max := by
  have : ∀ (es : List (Event I R)) (p : Pool I R), Inv p → p.max = max →
      Inv (es.foldl (step deadline) p) ∧ (es.foldl (step deadline) p).max = max := by
    intro es
    induction es with
    | nil => intro p h hm; exact ⟨h, hm⟩
    | cons e es ih =>
      intro p h hm
      obtain ⟨h1, h2⟩ := step_inv deadline p e h
      exact ih _ h1 (h2.trans hm)
  exact this events _ ⟨Nat.zero_le _, List.Perm.refl _, rfl⟩ rfl

/-- C13: whatever happens, there are never more workers than processes allowed. -/
theorem pool_bounded {I R : Type} (deadline : I → Int) (max : Nat) (events : List (Event I R)) :
    (run deadline max events).workers.length ≤ max := by
  have := run_inv deadline max events
  exact Nat.le_trans this.1.1 (Nat.le_of_eq this.2)

/-- C13: nothing is lost and nothing is done twice: every item submitted is exactly one of waiting, with a worker, ended,
or dropped by termination. -/
theorem pool_conserves {I R : Type} (deadline : I → Int) (max : Nat) (events : List (Event I R)) :
    (run deadline max events).submitted.Perm ((run deadline max events).work ++
      (run deadline max events).workers.map Worker.item ++ (run deadline max events).ended ++ (run deadline max events).dropped) :=
  (run_inv deadline max events).1.2.1

/-- C13: results are delivered in the order in which the workers produced them, each once. -/
theorem pool_results {I R : Type} (deadline : I → Int) (max : Nat) (events : List (Event I R)) :
    (run deadline max events).produced = (run deadline max events).delivered ++ (run deadline max events).results :=
  (run_inv deadline max events).1.2.2

/-- C13: when the pool says it is not working, every item submitted has ended or was dropped. -/
theorem pool_idle {I R : Type} (deadline : I → Int) (max : Nat) (events : List (Event I R))
    (h : isWorking (run deadline max events) = false) :
    (run deadline max events).submitted.Perm ((run deadline max events).ended ++ (run deadline max events).dropped) := by
  have hc := pool_conserves deadline max events
  unfold isWorking at h
  simp only [Bool.or_eq_false_iff, Bool.not_eq_false', List.isEmpty_iff] at h
  rw [h.1, h.2] at hc
  simpa using hc

/-- C13: after gardening, no item waits while there is room for a worker; and every worker is alive. -/
theorem garden_busy {I R : Type} (deadline : I → Int) (max : Nat) (events : List (Event I R)) (now : Int) (late : I → Option R) :
    ((run deadline max (events ++ [.garden now late])).work = [] ∨
      (run deadline max (events ++ [.garden now late])).workers.length = max) ∧
    ∀ w ∈ (run deadline max (events ++ [.garden now late])).workers, w.alive = true := by
  unfold run
  rw [List.foldl_append]
  have h := run_inv deadline max events
  unfold run at h
  generalize events.foldl (step deadline) (Pool.new I R max) = p at h
  rw [List.foldl_cons, List.foldl_nil]
  dsimp only [step]
  obtain ⟨hp, hm, _⟩ := prune_inv deadline (some now) late p h.1
  have halive : ∀ w ∈ (prune deadline (some now) late p).workers, w.alive = true := by
    intro w hw
    unfold prune at hw
    exact (List.mem_filter.mp hw).2
  generalize prune deadline (some now) late p = p' at hp hm halive
  obtain ⟨a1, a2, a3, ⟨new, a4, a5⟩, a6, _⟩ := spawn_spec p'.work.length p' hp.1 (Nat.le_refl _)
  refine ⟨?_, ?_⟩
  · rw [hm, h.2] at a2
    exact a2
  · intro w hw
    rw [a4] at hw
    rcases List.mem_append.mp hw with hw | hw
    · exact halive w hw
    · exact a5 w hw

example : ((run (R := Nat) (fun _ => 100) 2 [.submit 'a', .submit 'b', .submit 'c', .garden 0 (fun _ => none),
    .exit 0 (some 7), .garden 1 (fun _ => none), .get]).work, (run (R := Nat) (fun _ => 100) 2 [.submit 'a', .submit 'b', .submit 'c',
    .garden 0 (fun _ => none), .exit 0 (some 7), .garden 1 (fun _ => none), .get]).workers.map Worker.item,
    (run (R := Nat) (fun _ => 100) 2 [.submit 'a', .submit 'b', .submit 'c', .garden 0 (fun _ => none),
    .exit 0 (some 7), .garden 1 (fun _ => none), .get]).delivered) = ([], ['b', 'a'], [7]) := by decide

/-- C13: a worker over its deadline is ended by gardening, if its process exists. -/
theorem garden_kills {I R : Type} (deadline : I → Int) (p : Pool I R) (now : Int) (late : I → Option R) (w : Worker I)
    (hw : w ∈ (prune deadline (some now) late p).workers) : w.alive = true ∧ (deadline w.item < now → w.started = false) := by
  unfold prune at hw
  dsimp only at hw
  rw [List.mem_filter, List.mem_map] at hw
  obtain ⟨⟨x, hx, rfl⟩, halive⟩ := hw
  rw [List.mem_map] at hx
  obtain ⟨w0, _, rfl⟩ := hx
  refine ⟨halive, ?_⟩
  intro hd
  unfold killed at halive hd ⊢
  split at halive
  · cases halive
  · rename_i hc
    rw [if_neg hc] at hd
    rw [if_neg hc]
    dsimp only at halive
    simp only [overdue, halive, Bool.true_and, Bool.and_eq_true, decide_eq_true_eq, not_and, Bool.not_eq_true] at hc
    exact hc hd

example : (prune (R := Nat) (fun _ => 5) (some 9) (fun _ => none) ⟨[⟨'a', true, true⟩, ⟨'b', true, false⟩], [], [], 2, [], [], [], [], []⟩).workers.map
    Worker.item = ['b'] := by decide

/-- C13, in part: termination ends every worker that has a process, and drops the waiting work. -/
theorem terminate_partial {I R : Type} (deadline : I → Int) (p : Pool I R) (late : I → Option R) :
    (step deadline p (.terminate late)).work = [] ∧
    ∀ w ∈ (step deadline p (.terminate late)).workers, w.started = false := by
  refine ⟨rfl, ?_⟩
  intro w hw
  dsimp only [step] at hw
  unfold prune at hw
  dsimp only at hw
  rw [List.mem_filter, List.mem_map] at hw
  obtain ⟨⟨x, hx, rfl⟩, halive⟩ := hw
  rw [List.mem_map] at hx
  obtain ⟨w0, _, rfl⟩ := hx
  unfold killed at halive ⊢
  split at halive
  · cases halive
  · rename_i hc
    rw [if_neg hc]
    dsimp only at halive
    simpa [halive, overdue] using hc

/-- C13 fails for workers that have not created their process yet: termination leaves them, and they go on to run. -/
theorem terminate_leaves_starting {I R : Type} (deadline : I → Int) (i : I) (r : R) (late : I → Option R) :
    (run deadline 1 [.submit i, .garden 0 (fun _ => none), .terminate late, .start 0, .exit 0 (some r), .get]).delivered = [r] := by
  simp [run, step, prune, killed, overdue, spawn, Pool.new]

/-- C13 fails on a machine with one processor, where the pool is created for no processes: once an item is submitted, the pool
is forever working on it, without any result, unless it is terminated. -/
theorem no_processes_never_finishes {I R : Type} (deadline : I → Int) (i : I) (events : List (Event I R))
    (h : ∀ late, Event.terminate late ∉ events) :
    isWorking (run deadline 0 (.submit i :: events)) = true ∧ (run deadline 0 (.submit i :: events)).produced = [] := by
  have key : ∀ (es : List (Event I R)) (p : Pool I R), (∀ late, Event.terminate late ∉ es) →
      p.max = 0 → p.workers = [] → p.work ≠ [] → p.produced = [] →
      (es.foldl (step deadline) p).work ≠ [] ∧ (es.foldl (step deadline) p).produced = [] := by
    intro es
    induction es with
    | nil => intro p _ _ _ hw hp; exact ⟨hw, hp⟩
    | cons e es ih =>
      intro p hno hmax hws hw hp
      rw [List.foldl_cons]
      have hno' : ∀ late, Event.terminate late ∉ es := fun late hh => hno late (by simp [hh])
      cases e with
      | submit j => exact ih _ hno' hmax hws (by simp [step]) hp
      | start k => exact ih _ hno' hmax (by simp [step, hws]) hw hp
      | exit k out => exact ih _ hno' (by simp [step, hws, hmax]) (by simp [step, hws]) (by simpa [step, hws] using hw) (by simpa [step, hws] using hp)
      | garden now late =>
        have hpr : ∀ n, spawn n (prune deadline (some now) late p) = prune deadline (some now) late p := by
          intro n
          cases n with
          | zero => rfl
          | succ n =>
            rw [spawn]
            cases (prune deadline (some now) late p).work.getLast? with
            | none => rfl
            | some i =>
              dsimp only
              rw [if_neg]
              simp [prune, hmax]
        refine ih _ hno' ?_ ?_ ?_ ?_
        · simp only [step, hpr]; simpa [prune] using hmax
        · simp only [step, hpr]; simp [prune, hws]
        · simp only [step, hpr]; simpa [prune] using hw
        · simp only [step, hpr]; simp [prune, hws, hp]
      | terminate late => exact absurd (by simp) (hno late)
      | get =>
        refine ih _ hno' ?_ ?_ ?_ ?_ <;> (simp only [step]; cases hr : p.results <;> simp_all)
  have := key events (step deadline (Pool.new I R 0) (.submit i)) h rfl rfl (by simp [step, Pool.new]) rfl
  refine ⟨?_, this.2⟩
  unfold isWorking
  have h1 : (run deadline 0 (.submit i :: events)).work ≠ [] := this.1
  cases hh : (run deadline 0 (.submit i :: events)).work with
  | nil => exact absurd hh h1
  | cons => simp

/-! ### C71: restarting -/

theorem batches_spec {F : Type} [DecidableEq F] (batches : List (List (Msg F))) : ∀ s : Loop F, s.flag = false →
    (batches.foldl (batchStep true) s).flag = false ∧ (batches.foldl (batchStep true) s).restart = s.restart ∧
    (batches.foldl (batchStep true) s).limit = s.limit ∧
    (batches.foldl (batchStep true) s).active =
      batches.foldl (fun d b => (merge d (b.filter fun m => State.lt .preUnsat m.state)).1) s.active := by
  induction batches with
  | nil => intro s h; exact ⟨h, rfl, rfl, rfl⟩
  | cons b bs ih =>
    intro s h
    rw [List.foldl_cons, List.foldl_cons]
    have e : (batchStep true s b).flag = false ∧ (batchStep true s b).restart = s.restart ∧ (batchStep true s b).limit = s.limit ∧
        (batchStep true s b).active = (merge s.active (b.filter fun m => State.lt .preUnsat m.state)).1 := by
      unfold batchStep
      simp [h]
    obtain ⟨a1, a2, a3, a4⟩ := ih (batchStep true s b) e.1
    refine ⟨a1, a2.trans e.2.1, a3.trans e.2.2.1, ?_⟩
    rw [a4, e.2.2.2]

theorem pass_spec {F : Type} [DecidableEq F] (initial : Nat) (s : Loop F) (pass : List (List (Msg F)) × Bool) (h : s.flag = false) :
    (passStep true initial s pass).flag = false ∧ (passStep true initial s pass).restart = pass.2 ∧
    (passStep true initial s pass).limit = (if s.restart then initial else min (s.limit * 2) 100000000) ∧
    (passStep true initial s pass).active = pass.1.foldl (fun d b => (merge d (b.filter fun m => State.lt .preUnsat m.state)).1)
      (if s.restart then [] else s.active) := by
  have hempty : ∀ t : Loop F, batchStep true { t with flag := true } [] = { t with flag := false, restart := true } := by
    intro t
    simp [batchStep, merge]
  unfold passStep
  dsimp only
  cases hr : s.restart
  · obtain ⟨a1, a2, a3, a4⟩ := batches_spec pass.1 { s with restart := false, limit := min (s.limit * 2) 100000000 } h
    simp only [Bool.false_eq_true, if_false]
    cases hp : pass.2
    · simp only [Bool.false_eq_true, if_false]
      exact ⟨a1, a2, a3, a4⟩
    · simp only [if_true, hempty]
      exact ⟨trivial, trivial, a3, a4⟩
  · obtain ⟨a1, a2, a3, a4⟩ := batches_spec pass.1 { s with restart := false, limit := initial, active := [] } h
    simp only [if_true]
    cases hp : pass.2
    · simp only [Bool.false_eq_true, if_false]
      exact ⟨a1, a2, a3, a4⟩
    · simp only [if_true, hempty]
      exact ⟨trivial, trivial, a3, a4⟩

/-- C71: the display shows exactly what was found since the files last changed, one message for each line, and the limit has
been doubled in each pass since: `before` are the passes up to the change, `since` the ones after it. -/
theorem watch_since_change {F : Type} [DecidableEq F] (initial : Nat) (before since : List (List (List (Msg F)) × Bool))
    (last : List (List (Msg F)) × Bool)
    (hb : before = [] ∨ ∃ b p, before = b ++ [p] ∧ p.2 = true) (hs : ∀ p ∈ since, p.2 = false) :
    ((watch true initial (before ++ since ++ [last])).active = Report.watchBatches ((since ++ [last]).flatMap Prod.fst)) ∧
    (watch true initial (before ++ since ++ [last])).limit = Report.watchLimit initial since.length := by
  -- the state after the passes before the change
  have h0 : (watch true initial before).flag = false ∧ (watch true initial before).restart = true := by
    have hflag : ∀ l : List (List (List (Msg F)) × Bool), (watch true initial l).flag = false := by
      intro l
      unfold watch
      have : ∀ (l : List (List (List (Msg F)) × Bool)) (s : Loop F), s.flag = false →
          (l.foldl (passStep true initial) s).flag = false := by
        intro l
        induction l with
        | nil => intro s h; exact h
        | cons p ps ih => intro s h; exact ih _ (pass_spec initial s p h).1
      exact this l _ rfl
    refine ⟨hflag before, ?_⟩
    rcases hb with rfl | ⟨b, p, rfl, hp⟩
    · rfl
    · have := (pass_spec initial (watch true initial b) p (hflag b)).2.1
      unfold watch at this ⊢
      rw [List.foldl_append, List.foldl_cons, List.foldl_nil, this, hp]
  have hw : watch true initial (before ++ since ++ [last]) = (since ++ [last]).foldl (passStep true initial) (watch true initial before) := by
    unfold watch
    rw [List.append_assoc, List.foldl_append]
  rw [hw]
  generalize watch true initial before = s at h0
  clear hw hb
  -- the later passes
  have key : ∀ (l : List (List (List (Msg F)) × Bool)) (k : Nat) (done : List (List (Msg F))) (s : Loop F), s.flag = false →
      (∀ p ∈ l, p.2 = false) → s.restart = false → s.active = Report.watchBatches done → s.limit = Report.watchLimit initial k →
      ((l ++ [last]).foldl (passStep true initial) s).active = Report.watchBatches (done ++ (l ++ [last]).flatMap Prod.fst) ∧
      ((l ++ [last]).foldl (passStep true initial) s).limit = Report.watchLimit initial (k + l.length + 1) := by
    intro l
    induction l with
    | nil =>
      intro k done s h1 _ h2 h3 h4
      obtain ⟨_, _, a3, a4⟩ := pass_spec initial s last h1
      rw [List.nil_append, List.foldl_cons, List.foldl_nil, a3, a4, h2, h3, h4]
      refine ⟨?_, rfl⟩
      simp [Report.watchBatches, List.foldl_append]
    | cons p l ih =>
      intro k done s h1 hl h2 h3 h4
      obtain ⟨a1, a2, a3, a4⟩ := pass_spec initial s p h1
      rw [hl p (by simp)] at a2
      rw [h2] at a3 a4
      have := ih (k + 1) (done ++ p.1) (passStep true initial s p) a1 (fun q hq => hl q (by simp [hq])) a2
        (by rw [a4, h3]; simp [Report.watchBatches, List.foldl_append]) (by rw [a3, h4]; rfl)
      rw [List.cons_append, List.foldl_cons]
      refine ⟨?_, ?_⟩
      · rw [this.1]
        simp
      · rw [this.2, List.length_cons]
        congr 1
        omega
  cases since with
  | nil =>
    obtain ⟨_, _, a3, a4⟩ := pass_spec initial s last h0.1
    rw [List.nil_append, List.foldl_cons, List.foldl_nil, a3, a4, h0.2]
    refine ⟨?_, rfl⟩
    simp [Report.watchBatches]
  | cons p l =>
    obtain ⟨a1, a2, a3, a4⟩ := pass_spec initial s p h0.1
    rw [hs p (by simp)] at a2
    rw [h0.2] at a3 a4
    have := key l 0 p.1 (passStep true initial s p) a1 (fun q hq => hs q (by simp [hq])) a2
      (by rw [a4]; simp [Report.watchBatches]) (by rw [a3]; rfl)
    rw [List.cons_append, List.foldl_cons]
    refine ⟨?_, ?_⟩
    · rw [this.1]
      simp
    · rw [this.2, List.length_cons]
      congr 1
      omega

/-- Two messages on one line of a file. -/
def sampleMsg (text : String) : Msg Nat := ⟨.postFail, text.toList, 0, 3, 0⟩

example : ((watch true 5 [([[sampleMsg "a"]], true), ([[sampleMsg "b"], []], false), ([], false)]).active.map Prod.snd =
    [sampleMsg "b"]) ∧ (watch true 5 [([[sampleMsg "a"]], true), ([[sampleMsg "b"], []], false), ([], false)]).limit = 10 := by
  decide +kernel

/-- C71 fails on terminals that cannot rewrite lines: a change does not restart the analysis, so messages about the old files
stay on display, and the new message on that line is not shown. -/
theorem no_restart_without_rewriting :
    (watch false 5 [([[sampleMsg "old"]], true), ([[sampleMsg "new"]], false)]).active.map Prod.snd = [sampleMsg "old"] ∧
    (watch false 5 [([[sampleMsg "old"]], true), ([[sampleMsg "new"]], false)]).screens = [[sampleMsg "old"]] := by
  decide +kernel

/-- C71: each display printed shows a message that was not on display before. -/
theorem screens_show_news {F : Type} [DecidableEq F] (rewritable : Bool) (s : Loop F) (msgs : List (Msg F)) :
    (batchStep rewritable s msgs).screens = s.screens ∧ (∀ m ∈ msgs, m.state.isProblem = true → ∃ e ∈ s.active, e.1 = (m.file, m.line)) ∨
    (batchStep rewritable s msgs).screens = s.screens ++ [(batchStep rewritable s msgs).active.map Prod.snd] ∧
      ∃ m ∈ msgs, m.state.isProblem = true ∧ ∀ e ∈ s.active, e.1 ≠ (m.file, m.line) := by
  have hprob : ∀ m : Msg F, m.state.isProblem = State.lt .preUnsat m.state := fun m => Report.state_order.2.2.2.2.2.1 m.state
  have hm : ∀ (l : List (Msg F)) (d : List ((F × Nat) × Msg F)), (merge d l).2 = true ↔ ∃ m ∈ l, ∀ e ∈ d, e.1 ≠ (m.file, m.line) := by
    intro l
    induction l with
    | nil => intro d; simp [merge]
    | cons m l ih =>
      intro d
      rw [merge]
      split
      · rename_i hany
        rw [ih]
        rw [List.any_eq_true] at hany
        obtain ⟨e, he, heq⟩ := hany
        constructor
        · rintro ⟨x, hx, hh⟩
          exact ⟨x, by simp [hx], hh⟩
        · rintro ⟨x, hx, hh⟩
          rcases List.mem_cons.mp hx with rfl | hx
          · exact absurd (by simpa using heq) (hh e he)
          · exact ⟨x, hx, hh⟩
      · rename_i hany
        refine ⟨fun _ => ⟨m, by simp, ?_⟩, fun _ => rfl⟩
        intro e he heq
        apply hany
        rw [List.any_eq_true]
        exact ⟨e, he, by simpa using heq⟩
  have hs : (batchStep rewritable s msgs).screens =
      (if (merge s.active (msgs.filter fun m => State.lt .preUnsat m.state)).2 = true then
        s.screens ++ [(merge s.active (msgs.filter fun m => State.lt .preUnsat m.state)).1.map Prod.snd] else s.screens) ∧
      (batchStep rewritable s msgs).active = (merge s.active (msgs.filter fun m => State.lt .preUnsat m.state)).1 := by
    unfold batchStep
    dsimp only
    split
    · exact ⟨rfl, rfl⟩
    · split <;> exact ⟨rfl, rfl⟩
  rw [hs.1, hs.2]
  by_cases hany : (merge s.active (msgs.filter fun m => State.lt .preUnsat m.state)).2 = true
  · right
    rw [if_pos hany]
    refine ⟨rfl, ?_⟩
    obtain ⟨m, hm1, hm2⟩ := (hm _ _).mp hany
    rw [List.mem_filter] at hm1
    exact ⟨m, hm1.1, by rw [hprob]; exact hm1.2, hm2⟩
  · left
    rw [if_neg hany]
    refine ⟨rfl, ?_⟩
    intro m hmem hp
    apply Classical.byContradiction
    intro hno
    apply hany
    rw [hm]
    refine ⟨m, List.mem_filter.mpr ⟨hmem, by rw [← hprob]; exact hp⟩, ?_⟩
    intro e he heq
    exact hno ⟨e, he, heq⟩

example : (batchStep true (⟨false, false, 5, [((0, 3), sampleMsg "a")], []⟩ : Loop Nat) [sampleMsg "b", { sampleMsg "c" with line := 4 }]).screens =
    [[sampleMsg "a", { sampleMsg "c" with line := 4 }]] := by decide +kernel

end Verif.Watch
