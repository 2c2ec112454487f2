import Verif.Passes.Model
import Verif.Watch.Props
/-
Lemmas about the passes of the watcher.
-/
namespace Verif.Passes

open Verif.Watch (Pool Worker Times checkChanged prune spawn isWorking killed)

variable {F M : Type}

/-! ### One pool -/

/-- How often an item has a live worker. -/
def live [DecidableEq F] (ws : List (Worker (Item F))) (i : Item F) : Nat := ((ws.filter (fun w => w.alive)).map Worker.item).count i

/-- Items waiting or with a live worker have no result yet, and every other item submitted at most one. -/
def Made [DecidableEq F] (p : Pool (Item F) (Item F × M)) : Prop :=
  ∀ i, (p.produced.map Prod.fst).count i + live p.workers i + p.work.count i ≤ p.submitted.count i

/-- What a step adds to the queue is what it adds to the results produced. -/
def Grows (p q : Pool (Item F) (Item F × M)) : Prop :=
  ∃ out, q.produced = p.produced ++ out ∧ q.results = p.results ++ out

theorem Grows.drop {p q : Pool (Item F) (Item F × M)} (h : Grows p q) :
    q.results = p.results ++ q.produced.drop p.produced.length := by
  obtain ⟨out, h1, h2⟩ := h
  rw [h1, h2, List.drop_left]

theorem killed_live [DecidableEq F] (now : Option Int) (late : Item F → Option M) (i : Item F) (ws : List (Worker (Item F))) :
    (((ws.map (killed Item.deadline now (named late))).filterMap Prod.snd).map Prod.fst).count i +
      live ((ws.map (killed Item.deadline now (named late))).map Prod.fst |>.filter fun w => w.alive) i ≤ live ws i := by
  induction ws with
  | nil => exact Nat.le_refl _
  | cons w ws ih =>
    obtain ⟨item, alive, started⟩ := w
    unfold live at ih ⊢
    rw [List.filter_filter] at ih ⊢
    simp only [List.map_cons, List.filterMap_cons, List.filter_cons, Bool.and_self] at ih ⊢
    generalize hk : killed Item.deadline now (named late) ⟨item, alive, started⟩ = k
    unfold killed at hk
    split at hk
    · rename_i hc
      have ha : alive = true := by cases alive <;> simp_all
      subst ha
      subst hk
      cases hl : late item with
      | none =>
        simp only [named, hl, Option.map_none, Bool.false_eq_true, if_false, if_true, List.map_cons, List.count_cons]
        omega
      | some m =>
        simp only [named, hl, Option.map_some, Bool.false_eq_true, if_false, if_true, List.map_cons, List.count_cons]
        omega
    · subst hk
      cases alive <;> simp only [Bool.false_eq_true, if_false, if_true, List.map_cons, List.count_cons] <;> omega

theorem prune_made [DecidableEq F] (now : Option Int) (late : Item F → Option M) {p : Pool (Item F) (Item F × M)} (h : Made p) :
    Made (prune Item.deadline now (named late) p) := by
  intro i
  have h0 := h i
  have h1 := killed_live now late i p.workers
  unfold prune
  dsimp only
  rw [List.map_append, List.count_append]
  omega

theorem prune_grows (now : Option Int) (late : Item F → Option M) (p : Pool (Item F) (Item F × M)) :
    Grows p (prune Item.deadline now (named late) p) := ⟨_, rfl, rfl⟩

theorem spawn_exact (fuel : Nat) : ∀ (p : Pool (Item F) (Item F × M)), p.work.length ≤ fuel →
    (spawn fuel p) = { p with
      workers := p.workers ++ (p.work.reverse.take (p.max - p.workers.length)).map (fun i => ⟨i, true, false⟩)
      work := (p.work.reverse.drop (p.max - p.workers.length)).reverse } := by
  induction fuel with
  | zero =>
    intro p h
    have : p.work = [] := List.length_eq_zero_iff.mp (by omega)
    obtain ⟨ws, work, _⟩ := p
    dsimp only at this
    subst this
    simp [spawn]
  | succ fuel ih =>
    intro p h
    rw [spawn]
    cases hl : p.work.getLast? with
    | none =>
      have : p.work = [] := List.getLast?_eq_none_iff.mp hl
      obtain ⟨ws, work, _⟩ := p
      dsimp only at this
      subst this
      simp
    | some i =>
      obtain ⟨ys, hys⟩ := List.getLast?_eq_some_iff.mp hl
      dsimp only
      split
      · rename_i hlt
        rw [ih _ (by dsimp only; rw [List.length_dropLast]; omega)]
        dsimp only
        rw [hys, List.dropLast_concat, List.reverse_append, List.reverse_singleton, List.length_append, List.length_singleton,
          show p.max - p.workers.length = (p.max - (p.workers.length + 1)) + 1 by omega, List.singleton_append, List.take_succ_cons,
          List.drop_succ_cons, List.map_cons, List.append_assoc, List.singleton_append]
      · rename_i hge
        rw [show p.max - p.workers.length = 0 by omega]
        simp

theorem spawn_made [DecidableEq F] {p : Pool (Item F) (Item F × M)} (h : Made p) : Made (spawn p.work.length p) := by
  rw [spawn_exact _ _ (Nat.le_refl _)]
  intro i
  have h0 := h i
  unfold live at h0 ⊢
  dsimp only
  have hsplit : p.work.count i = (p.work.reverse.take (p.max - p.workers.length)).count i +
      (p.work.reverse.drop (p.max - p.workers.length)).count i := by
    rw [← List.count_append, List.take_append_drop, List.count_reverse]
  have hnew : ∀ l : List (Item F), ((l.map fun i => (⟨i, true, false⟩ : Worker (Item F))).filter (fun w => w.alive)).map Worker.item = l := by
    intro l
    induction l with
    | nil => rfl
    | cons x xs ih => simp only [List.map_cons, List.filter_cons, if_true, ih]
  rw [List.filter_append, List.map_append, hnew, List.count_append, List.count_reverse]
  omega

theorem garden_made [DecidableEq F] (now : Int) (late : Item F → Option M) {p : Pool (Item F) (Item F × M)} (h : Made p) :
    Made (Verif.Watch.step Item.deadline p (.garden now (named late))) := spawn_made (prune_made (some now) late h)

theorem garden_grows (now : Int) (late : Item F → Option M) (p : Pool (Item F) (Item F × M)) :
    Grows p (Verif.Watch.step Item.deadline p (.garden now (named late))) := by
  dsimp only [Verif.Watch.step]
  rw [spawn_exact _ _ (Nat.le_refl _)]
  exact prune_grows (some now) late p

theorem terminate_made [DecidableEq F] (late : Item F → Option M) {p : Pool (Item F) (Item F × M)} (h : Made p) :
    Made (Verif.Watch.step Item.deadline p (.terminate (named late))) := by
  intro i
  have := prune_made none late h i
  dsimp only [Verif.Watch.step]
  rw [List.count_nil]
  omega

theorem terminate_grows (late : Item F → Option M) (p : Pool (Item F) (Item F × M)) :
    Grows p (Verif.Watch.step Item.deadline p (.terminate (named late))) := prune_grows none late p

theorem live_start [DecidableEq F] (ws : List (Worker (Item F))) (k : Nat) (i : Item F) :
    live (ws.modify k fun w => { w with started := w.started || w.alive }) i = live ws i := by
  unfold live
  induction ws generalizing k with
  | nil => cases k <;> rfl
  | cons w ws ih =>
    cases k with
    | zero =>
      simp only [List.modify_zero_cons, List.filter_cons]
      cases w.alive <;> simp
    | succ k =>
      simp only [List.modify_succ_cons, List.filter_cons]
      cases w.alive
      · simpa using ih k
      · simp only [if_true, List.map_cons, List.count_cons, ih k]

theorem live_exit [DecidableEq F] (ws : List (Worker (Item F))) (k : Nat) (w : Worker (Item F)) (hk : ws[k]? = some w)
    (ha : w.alive = true) (i : Item F) :
    live (ws.modify k fun w => { w with alive := false }) i + (if w.item = i then 1 else 0) = live ws i := by
  unfold live
  induction ws generalizing k with
  | nil => cases hk
  | cons x ws ih =>
    cases k with
    | zero =>
      rw [List.getElem?_cons_zero] at hk
      cases hk
      simp only [List.modify_zero_cons, List.filter_cons, Bool.false_eq_true, if_false, ha, if_true, List.map_cons, List.count_cons,
        beq_iff_eq]
    | succ k =>
      rw [List.getElem?_cons_succ] at hk
      simp only [List.modify_succ_cons, List.filter_cons]
      have := ih k hk
      cases x.alive
      · simpa using this
      · simp only [if_true, List.map_cons, List.count_cons]
        omega

theorem exit_made [DecidableEq F] (k : Nat) (out : Option M) {p : Pool (Item F) (Item F × M)} (w : Worker (Item F))
    (hk : p.workers[k]? = some w) (h : Made p) :
    Made (Verif.Watch.step Item.deadline p (.exit k (out.map fun m => (w.item, m)))) := by
  intro i
  have h0 := h i
  dsimp only [Verif.Watch.step]
  rw [hk]
  dsimp only
  cases ha : w.alive with
  | false => simpa using h0
  | true =>
    have h1 := live_exit p.workers k w hk ha i
    rw [if_pos rfl]
    dsimp only
    rw [List.map_append, List.count_append]
    have : ((((out.map fun m => (w.item, m)).toList).map Prod.fst).count i) ≤ if w.item = i then 1 else 0 := by
      cases out with
      | none => simp
      | some m =>
        simp only [Option.map_some, Option.toList_some, List.map_cons, List.map_nil, List.count_cons, List.count_nil, beq_iff_eq]
        omega
    omega

theorem exit_grows (k : Nat) (out : Option (Item F × M)) (p : Pool (Item F) (Item F × M)) :
    Grows p (Verif.Watch.step Item.deadline p (.exit k out)) := by
  dsimp only [Verif.Watch.step]
  split
  · split
    · exact ⟨_, rfl, rfl⟩
    · exact ⟨[], by simp, by simp⟩
  · exact ⟨[], by simp, by simp⟩

theorem exit_working (k : Nat) (out : Option (Item F × M)) (p : Pool (Item F) (Item F × M)) :
    isWorking (Verif.Watch.step Item.deadline p (.exit k out)) = isWorking p := by
  dsimp only [Verif.Watch.step]
  split
  · split
    · unfold isWorking
      dsimp only
      cases hw : p.workers with
      | nil => cases k <;> rfl
      | cons x xs => cases k <;> rfl
    · rfl
  · rfl

end Verif.Passes
