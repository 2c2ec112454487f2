import Verif.Editor.Lemmas
namespace Verif.Editor

open Verif.Watch (put remove lookup_put lookup_remove)

/-- Nothing happens in the editor while the other thread publishes or starts again; and that thread does one thing at a time. -/
def Calm (st : State) : List Ev → Prop
  | [] => True
  | e :: es => (e.editor = true → st.phase = .analyzing ∨ st.phase = .dead) ∧
      (e.editor = false → e ≠ .tick → st.phase = .analyzing) ∧ Calm (step st e) es

/-- The items still to be published or reset. -/
def Phase.todo : Phase → List (Nat × Option Found)
  | .publishing t | .forgetting _ t | .resetting t => t
  | .analyzing | .dead => []

/-- The files still to be reset. -/
def Phase.stale : Phase → List Nat
  | .resetting t => t.map (·.1)
  | _ => []

/-- What is recorded for a file. -/
def State.entry (st : State) (u : Nat) : Found :=
  match st.active.lookup u with
  | some (some fs) => fs
  | _ => []

/-- What holds after each step of a calm run; `evs` is what happened, the last one first. -/
structure Inv (evs : List Ev) (st : State) : Prop where
  nodup : (st.active.map (·.1)).Nodup
  unsaved : ∀ u, Unsaved u evs → st.active.lookup u = some none ∧ st.shown u = []
  saved : ∀ u, ¬Unsaved u evs → st.active.lookup u ≠ some none
  absent : ∀ u, st.active.lookup u = none → st.shown u = []
  keyed : ∀ u fs, st.active.lookup u = some (some fs) → Keyed fs
  best : ∀ u, ¬Unsaved u evs → u ∉ st.phase.stale → Best (foundSince u evs) (st.entry u)
  reset : ∀ t, st.phase = .resetting t → ∀ u, foundSince u evs = []
  items : ∀ e ∈ st.phase.todo, st.active.lookup e.1 = some e.2
  todoOnce : (st.phase.todo.map (·.1)).Nodup
  forget : ∀ u t, st.phase = .forgetting u t → u ∉ t.map (·.1) ∧ st.shown u = [] ∧ ∃ fs, st.active.lookup u = some (some fs) ∧ toShow fs = []

theorem keyed_nil : Keyed [] := ⟨fun _ h => (by cases h), List.nodup_nil⟩

theorem entry_put (st : State) (u w : Nat) (v : Option Found) :
    ({ st with active := put st.active u v } : State).entry w = if w = u then v.getD [] else st.entry w := by
  unfold State.entry
  simp only [lookup_put]
  by_cases hw : w = u
  · rw [if_pos hw, if_pos hw]
    cases v <;> rfl
  · rw [if_neg hw, if_neg hw]

/-- The editor's events: the entry is replaced. -/
theorem inv_put (evs : List Ev) (e : Ev) (st : State) (h : Inv evs st) (hp : st.phase = .analyzing ∨ st.phase = .dead) (u : Nat)
    (v : Option Found) (hv : v = none ∨ v = some []) (shown : Nat → List Msg) (hs : ∀ w, w ≠ u → shown w = st.shown w)
    (hu : Unsaved u (e :: evs) ↔ v = none) (hun : v = none → shown u = []) (hothers : ∀ w, w ≠ u → (Unsaved w (e :: evs) ↔ Unsaved w evs))
    (hf : foundSince u (e :: evs) = []) (hfo : ∀ w, w ≠ u → foundSince w (e :: evs) = foundSince w evs) :
    Inv (e :: evs) ⟨put st.active u v, shown, st.phase⟩ := by
  have htodo : st.phase.todo = [] := by rcases hp with hp | hp <;> rw [hp] <;> rfl
  have hl : ∀ w, (put st.active u v).lookup w = if w = u then some v else st.active.lookup w := lookup_put st.active u v
  constructor
  · exact put_nodup _ _ _ h.nodup
  · intro w hw
    simp only [hl]
    by_cases hwu : w = u
    · subst hwu
      rw [if_pos rfl]
      have := hu.1 hw
      exact ⟨by rw [this], hun this⟩
    · rw [if_neg hwu, hs w hwu]
      exact h.unsaved w ((hothers w hwu).1 hw)
  · intro w hw
    simp only [hl]
    by_cases hwu : w = u
    · subst hwu
      rw [if_pos rfl]
      intro e
      exact hw (hu.2 (Option.some.inj e))
    · rw [if_neg hwu]
      exact h.saved w fun h' => hw ((hothers w hwu).2 h')
  · intro w hw
    simp only [hl] at hw
    by_cases hwu : w = u
    · rw [if_pos hwu] at hw
      cases hw
    · rw [if_neg hwu] at hw
      exact (hs w hwu).trans (h.absent w hw)
  · intro w fs hw
    simp only [hl] at hw
    by_cases hwu : w = u
    · rw [if_pos hwu] at hw
      rcases hv with rfl | rfl
      · cases hw
      · cases hw
        exact keyed_nil
    · rw [if_neg hwu] at hw
      exact h.keyed w fs hw
  · intro w hw hst
    have he := entry_put ⟨st.active, shown, st.phase⟩ u w v
    simp only at he
    rw [he]
    by_cases hwu : w = u
    · subst hwu
      rw [if_pos rfl, hf]
      rcases hv with rfl | rfl
      · exact best_nil
      · exact best_nil
    · rw [if_neg hwu, hfo w hwu]
      exact h.best w (fun h' => hw ((hothers w hwu).2 h')) hst
  · intro t ht
    rcases hp with hp | hp <;> rw [hp] at ht <;> cases ht
  · intro e he
    simp only [htodo] at he
    cases he
  · simp only [htodo]
    exact List.nodup_nil
  · intro w t ht
    rcases hp with hp | hp <;> rw [hp] at ht <;> cases ht

/-- A step that leaves the events as they are for the file: only the phase changes. -/
theorem inv_phase (evs : List Ev) (e : Ev) (st : State) (h : Inv evs st) (he1 : ∀ u, Unsaved u (e :: evs) ↔ Unsaved u evs)
    (he2 : ∀ u, foundSince u (e :: evs) = foundSince u evs) (p : Phase) (hstale : ∀ u, u ∈ st.phase.stale → u ∈ p.stale)
    (hreset : ∀ t, p = .resetting t → ∃ t', st.phase = .resetting t') (hitems : ∀ x ∈ p.todo, st.active.lookup x.1 = some x.2)
    (honce : (p.todo.map (·.1)).Nodup)
    (hforget : ∀ u t, p = .forgetting u t → u ∉ t.map (·.1) ∧ st.shown u = [] ∧ ∃ fs, st.active.lookup u = some (some fs) ∧ toShow fs = []) :
    Inv (e :: evs) { st with phase := p } := by
  constructor
  · exact h.nodup
  · exact fun u hu => h.unsaved u ((he1 u).1 hu)
  · exact fun u hu => h.saved u fun h' => hu ((he1 u).2 h')
  · exact h.absent
  · exact h.keyed
  · intro u hu hs
    rw [he2]
    exact h.best u (fun h' => hu ((he1 u).2 h')) fun h' => hs (hstale u h')
  · intro t ht u
    obtain ⟨t', ht'⟩ := hreset t ht
    rw [he2]
    exact h.reset t' ht' u
  · exact hitems
  · exact honce
  · exact hforget

theorem items_of_active {evs : List Ev} {st : State} (h : Inv evs st) : ∀ x ∈ st.active, st.active.lookup x.1 = some x.2 :=
  fun x hx => (mem_lookup st.active h.nodup x.1 x.2).1 hx

theorem remove_nodup {V : Type} (d : List (Nat × V)) (k : Nat) (h : (d.map (·.1)).Nodup) : ((remove d k).map (·.1)).Nodup :=
  List.Nodup.sublist (List.Sublist.map _ List.filter_sublist) h

theorem tick_inv (evs : List Ev) (st : State) (h : Inv evs st) : Inv (.tick :: evs) st.tick := by
  have he1 : ∀ u, Unsaved u (.tick :: evs) ↔ Unsaved u evs := fun u => Iff.rfl
  have he2 : ∀ u, foundSince u (.tick :: evs) = foundSince u evs := fun u => rfl
  obtain ⟨active, shown, phase⟩ := st
  cases phase with
  | analyzing => exact inv_phase evs .tick _ h he1 he2 .analyzing (fun _ h => h) (fun _ e => by cases e) h.items h.todoOnce (fun _ _ e => by cases e)
  | dead => exact inv_phase evs .tick _ h he1 he2 .dead (fun _ h => h) (fun _ e => by cases e) h.items h.todoOnce (fun _ _ e => by cases e)
  | forgetting u todo =>
    obtain ⟨hnot, hsh, fs, hfs, hts⟩ := h.forget u todo rfl
    have hl : ∀ w, (remove active u).lookup w = if w = u then none else active.lookup w := lookup_remove active u
    have hnu : ¬Unsaved u evs := fun hu => by
      have := (h.unsaved u hu).1
      simp only [hfs] at this
      cases this
    simp only [State.tick]
    constructor
    · exact remove_nodup _ _ h.nodup
    · intro w hw
      have hwu : w ≠ u := fun e => hnu (e ▸ hw)
      simp only [hl, if_neg hwu]
      exact h.unsaved w hw
    · intro w hw
      simp only [hl]
      split
      · exact fun e => by cases e
      · exact h.saved w hw
    · intro w hw
      simp only [hl] at hw
      by_cases hwu : w = u
      · rw [hwu]; exact hsh
      · rw [if_neg hwu] at hw; exact h.absent w hw
    · intro w fs' hw
      simp only [hl] at hw
      split at hw
      · cases hw
      · exact h.keyed w fs' hw
    · intro w hw _
      have hb := h.best w hw (fun h' => by cases h')
      unfold State.entry at hb ⊢
      simp only [hl]
      by_cases hwu : w = u
      · rw [if_pos hwu]
        subst hwu
        simp only [hfs] at hb
        intro m hm
        constructor
        · intro e; simp at e
        · intro hfw
          have := (hb m hm).2 hfw
          exfalso
          have hmem : m ∈ toShow fs := by
            unfold toShow
            rw [List.mem_filter]
            refine ⟨List.mem_map.2 ⟨(m.line, m), (mem_lookup fs (h.keyed w fs hfs).2 _ _).2 this, rfl⟩, ?_⟩
            rw [Bool.not_eq_true', decide_eq_false_iff_not, show Kind.preUnsat.rank = 2 from rfl, Nat.not_lt]
            exact hm
          rw [hts] at hmem
          cases hmem
      · rw [if_neg hwu]
        exact hb
    · exact fun t ht => by cases ht
    · intro x hx
      have hx' : x.1 ≠ u := fun e => hnot (e ▸ List.mem_map_of_mem (f := Prod.fst) hx)
      simp only [hl, if_neg hx']
      exact h.items x hx
    · exact h.todoOnce
    · exact fun _ _ e => by cases e
  | publishing todo =>
    cases todo with
    | nil => exact inv_phase evs .tick _ h he1 he2 .analyzing (fun _ h => h) (fun _ e => by cases e) (fun _ e => by cases e) List.nodup_nil (fun _ _ e => by cases e)
    | cons x todo =>
      obtain ⟨u, v⟩ := x
      have hitem : active.lookup u = some v := h.items (u, v) List.mem_cons_self
      have honce := h.todoOnce
      simp only [Phase.todo, List.map_cons, List.nodup_cons] at honce
      cases v with
      | none => exact inv_phase evs .tick _ h he1 he2 (.publishing todo) (fun _ h => h) (fun _ e => by cases e) (fun x hx => h.items x (List.mem_cons_of_mem _ hx)) honce.2 (fun _ _ e => by cases e)
      | some fs =>
        have hnu : ¬Unsaved u evs := fun hu => by
          have := (h.unsaved u hu).1
          simp only [hitem] at this
          cases this
        have hsent : Inv evs ⟨active, fun w => if w = u then toShow fs else shown w, .publishing ((u, some fs) :: todo)⟩ := by
          constructor
          · exact h.nodup
          · intro w hw
            have hwu : w ≠ u := fun e => hnu (e ▸ hw)
            simp only [if_neg hwu]
            exact h.unsaved w hw
          · exact h.saved
          · intro w hw
            have hwu : w ≠ u := fun e => by
              subst e
              simp only [hitem] at hw
              cases hw
            simp only [if_neg hwu]
            exact h.absent w hw
          · exact h.keyed
          · exact h.best
          · exact h.reset
          · exact h.items
          · exact h.todoOnce
          · exact fun _ _ e => by cases e
        simp only [State.tick, State.send]
        split
        · rename_i hemp
          refine inv_phase evs .tick _ hsent he1 he2 (.forgetting u todo) (fun _ h => h) (fun _ e => by cases e) (fun x hx => h.items x (List.mem_cons_of_mem _ hx)) honce.2 ?_
          intro w t e
          cases e
          rw [List.isEmpty_iff] at hemp
          exact ⟨honce.1, by simp only [if_true]; exact hemp, fs, hitem, hemp⟩
        · exact inv_phase evs .tick _ hsent he1 he2 (.publishing todo) (fun _ h => h) (fun _ e => by cases e) (fun x hx => h.items x (List.mem_cons_of_mem _ hx)) honce.2 (fun _ _ e => by cases e)
  | resetting todo =>
    cases todo with
    | nil => exact inv_phase evs .tick _ h he1 he2 .analyzing (fun _ h => h) (fun _ e => by cases e) (fun _ e => by cases e) List.nodup_nil (fun _ _ e => by cases e)
    | cons x todo =>
      obtain ⟨u, v⟩ := x
      have hitem : active.lookup u = some v := h.items (u, v) List.mem_cons_self
      have honce := h.todoOnce
      simp only [Phase.todo, List.map_cons, List.nodup_cons] at honce
      have hreset := h.reset _ rfl
      have main : ∀ v' : Option Found, (v = none ↔ v' = none) → (v' = none ∨ v' = some []) →
          Inv (.tick :: evs) ⟨put active u v', shown, .resetting todo⟩ := by
        intro v' hvv hv'
        have hl : ∀ w, (put active u v').lookup w = if w = u then some v' else active.lookup w := lookup_put active u v'
        constructor
        · exact put_nodup _ _ _ h.nodup
        · intro w hw
          have := h.unsaved w hw
          refine ⟨?_, this.2⟩
          simp only [hl]
          by_cases hwu : w = u
          · rw [if_pos hwu]
            subst hwu
            simp only [hitem] at this
            rw [hvv.1 (Option.some.inj this.1)]
          · rw [if_neg hwu]; exact this.1
        · intro w hw
          have := h.saved w hw
          simp only [hl]
          by_cases hwu : w = u
          · rw [if_pos hwu]
            subst hwu
            simp only [hitem] at this
            intro e
            exact this (by rw [hvv.2 (Option.some.inj e)])
          · rw [if_neg hwu]; exact this
        · intro w hw
          simp only [hl] at hw
          split at hw
          · cases hw
          · exact h.absent w hw
        · intro w fs hw
          simp only [hl] at hw
          split at hw
          · rcases hv' with rfl | rfl
            · cases hw
            · cases hw; exact keyed_nil
          · exact h.keyed w fs hw
        · intro w hw hst
          have he := entry_put ⟨active, shown, .resetting todo⟩ u w v'
          simp only at he
          rw [he, he2, hreset w]
          by_cases hwu : w = u
          · rw [if_pos hwu]
            rcases hv' with rfl | rfl <;> exact best_nil
          · rw [if_neg hwu]
            have := h.best w hw (by
              simp only [Phase.stale, List.map_cons, List.mem_cons]
              rintro (e | e)
              · exact hwu e
              · exact hst e)
            rw [hreset w] at this
            exact this
        · exact fun t _ w => (he2 w).trans (hreset w)
        · intro x hx
          have hx' : x.1 ≠ u := fun e => honce.1 (e ▸ List.mem_map_of_mem (f := Prod.fst) hx)
          simp only [hl, if_neg hx']
          exact h.items x (List.mem_cons_of_mem _ hx)
        · exact honce.2
        · exact fun _ _ e => by cases e
      cases v with
      | none => exact main none Iff.rfl (.inl rfl)
      | some fs => exact main (some []) (by simp) (.inr rfl)

theorem found_inv (evs : List Ev) (st : State) (m : Msg) (h : Inv evs st) (hp : st.phase = .analyzing) : Inv (.found m :: evs) (st.record m) := by
  have he1 : ∀ u, Unsaved u (.found m :: evs) ↔ Unsaved u evs := fun u => Iff.rfl
  obtain ⟨active, shown, phase⟩ := st
  subst hp
  cases hu : m.uri with
  | none =>
    have he2 : ∀ u, foundSince u (.found m :: evs) = foundSince u evs := fun u => by simp [foundSince, hu]
    simp only [State.record, hu]
    exact inv_phase evs (.found m) _ h he1 he2 .dead (fun _ h => h) (fun _ e => by cases e) (fun _ e => by cases e) List.nodup_nil (fun _ _ e => by cases e)
  | some u =>
    have hf : foundSince u (.found m :: evs) = foundSince u evs ++ [m] := by simp [foundSince, hu]
    have hfo : ∀ w, w ≠ u → foundSince w (.found m :: evs) = foundSince w evs := fun w hw => by
      have : ¬u = w := fun e => hw e.symm
      simp [foundSince, hu, this]
    have main : ∀ fs, Keyed fs → (⟨active, shown, .analyzing⟩ : State).entry u = fs → active.lookup u ≠ some none →
        Inv (.found m :: evs) ⟨put active u (some (record fs m)), shown, .analyzing⟩ := by
      intro fs hk hent hne
      have hl : ∀ w, (put active u (some (record fs m))).lookup w = if w = u then some (some (record fs m)) else active.lookup w :=
        lookup_put active u _
      have hnu : ¬Unsaved u evs := fun h' => hne (h.unsaved u h').1
      constructor
      · exact put_nodup _ _ _ h.nodup
      · intro w hw
        have hwu : w ≠ u := fun e => hnu (e ▸ hw)
        simp only [hl, if_neg hwu]
        exact h.unsaved w hw
      · intro w hw
        simp only [hl]
        split
        · exact fun e => by cases e
        · exact h.saved w hw
      · intro w hw
        simp only [hl] at hw
        split at hw
        · cases hw
        · exact h.absent w hw
      · intro w fs' hw
        simp only [hl] at hw
        split at hw
        · cases hw; exact record_keyed fs m hk
        · exact h.keyed w fs' hw
      · intro w hw hst
        have he := entry_put ⟨active, shown, .analyzing⟩ u w (some (record fs m))
        simp only at he
        rw [he]
        by_cases hwu : w = u
        · subst hwu
          rw [if_pos rfl, hf]
          have := h.best w hw hst
          rw [hent] at this
          exact record_best _ _ _ hk this
        · rw [if_neg hwu, hfo w hwu]
          exact h.best w hw hst
      · exact fun _ e => by cases e
      · exact fun _ e => by cases e
      · exact List.nodup_nil
      · exact fun _ _ e => by cases e
    simp only [State.record, hu]
    cases hl : active.lookup u with
    | none => exact main [] keyed_nil (by simp [State.entry, hl]) (by simp [hl])
    | some v =>
      cases v with
      | some fs => exact main fs (h.keyed u fs hl) (by simp [State.entry, hl]) (by simp [hl])
      | none =>
        have hun : Unsaved u evs := by
          by_contra h'
          exact h.saved u h' hl
        constructor
        · exact h.nodup
        · exact h.unsaved
        · exact h.saved
        · exact h.absent
        · exact h.keyed
        · intro w hw hst
          have hwu : w ≠ u := fun e => hw (e ▸ hun)
          rw [hfo w hwu]
          exact h.best w hw hst
        · exact fun _ e => by cases e
        · exact h.items
        · exact h.todoOnce
        · exact fun _ _ e => by cases e

theorem step_inv (evs : List Ev) (st : State) (e : Ev) (h : Inv evs st) (hed : e.editor = true → st.phase = .analyzing ∨ st.phase = .dead)
    (hlo : e.editor = false → e ≠ .tick → st.phase = .analyzing) : Inv (e :: evs) (step st e) := by
  cases e with
  | change u =>
    refine inv_put evs (.change u) st h (hed rfl) u none (.inl rfl) _ (fun w hw => if_neg hw) ?_ (fun _ => if_pos rfl) ?_ ?_ ?_
    · simp [Unsaved]
    · intro w hw; simp [Unsaved, Ne.symm hw]
    · simp [foundSince]
    · intro w hw; simp [foundSince, Ne.symm hw]
  | close u =>
    refine inv_put evs (.close u) st h (hed rfl) u none (.inl rfl) _ (fun w hw => if_neg hw) ?_ (fun _ => if_pos rfl) ?_ ?_ ?_
    · simp [Unsaved]
    · intro w hw; simp [Unsaved, Ne.symm hw]
    · simp [foundSince]
    · intro w hw; simp [foundSince, Ne.symm hw]
  | opened u =>
    refine inv_put evs (.opened u) st h (hed rfl) u (some []) (.inr rfl) st.shown (fun w _ => rfl) ?_ (fun e => by cases e) ?_ ?_ ?_
    · simp [Unsaved]
    · intro w hw; simp [Unsaved, Ne.symm hw]
    · simp [foundSince]
    · intro w hw; simp [foundSince, Ne.symm hw]
  | save u =>
    refine inv_put evs (.save u) st h (hed rfl) u (some []) (.inr rfl) _ (fun w hw => if_neg hw) ?_ (fun e => by cases e) ?_ ?_ ?_
    · simp [Unsaved]
    · intro w hw; simp [Unsaved, Ne.symm hw]
    · simp [foundSince]
    · intro w hw; simp [foundSince, Ne.symm hw]
  | found m =>
    have hp := hlo rfl (by simp)
    simp only [step, if_pos hp]
    exact found_inv evs st m h hp
  | publish =>
    have hp := hlo rfl (by simp)
    simp only [step, if_pos hp]
    exact inv_phase evs .publish st h (fun _ => Iff.rfl) (fun _ => rfl) (.publishing st.active) (fun u hu => by rw [hp] at hu; cases hu)
      (fun _ e => by cases e) (items_of_active h) h.nodup (fun _ _ e => by cases e)
  | restart =>
    have hp := hlo rfl (by simp)
    simp only [step, if_pos hp]
    constructor
    · exact h.nodup
    · exact h.unsaved
    · exact h.saved
    · exact h.absent
    · exact h.keyed
    · intro u _ hst
      have : st.active.lookup u = none := by
        cases hl : st.active.lookup u with
        | none => rfl
        | some v => exact absurd (List.mem_map_of_mem (f := Prod.fst) ((mem_lookup st.active h.nodup u v).2 hl)) hst
      unfold State.entry
      simp only [this, foundSince]
      exact best_nil
    · exact fun _ _ _ => rfl
    · exact items_of_active h
    · exact h.nodup
    · exact fun _ _ e => by cases e
  | tick => exact tick_inv evs st h

theorem run_inv (evs : List Ev) : ∀ (before : List Ev) (st : State), Inv before st → Calm st evs → Inv (evs.reverse ++ before) (run st evs) := by
  induction evs with
  | nil => exact fun before st h _ => h
  | cons e evs ih =>
    intro before st h hc
    have := ih (e :: before) (step st e) (step_inv before st e h hc.1 hc.2.1) hc.2.2
    simpa [run] using this

theorem start_inv : Inv [] .start := by
  constructor
  · exact List.nodup_nil
  · exact fun _ h => h.elim
  · exact fun _ _ e => by cases e
  · exact fun _ _ => rfl
  · exact fun _ _ e => by cases e
  · exact fun _ _ _ => best_nil
  · exact fun _ _ _ => rfl
  · exact fun _ e => by cases e
  · exact List.nodup_nil
  · exact fun _ _ e => by cases e

/-! ### Publishing -/

/-- What is shown is what is recorded. -/
def UpToDate (st : State) (u : Nat) : Prop := st.active.lookup u ≠ some none → st.shown u = toShow (st.entry u)

/-- During publishing, the files that are done are up to date. -/
def Published (st : State) : Prop :=
  match st.phase with
  | .analyzing => ∀ u, UpToDate st u
  | .publishing t => ∀ u, u ∉ t.map (·.1) → UpToDate st u
  | .forgetting _ t => ∀ u, u ∉ t.map (·.1) → UpToDate st u
  | _ => False

theorem tick_published (evs : List Ev) (st : State) (h : Inv evs st) (hp : Published st) : Published st.tick := by
  obtain ⟨active, shown, phase⟩ := st
  cases phase with
  | analyzing => exact hp
  | dead => exact hp
  | resetting t => exact hp.elim
  | forgetting u todo =>
    obtain ⟨hnot, hsh, fs, hfs, hts⟩ := h.forget u todo rfl
    have hl : ∀ w, (remove active u).lookup w = if w = u then none else active.lookup w := lookup_remove active u
    intro w hw hne
    simp only [State.tick] at hne ⊢
    unfold State.entry
    simp only [hl] at hne ⊢
    by_cases hwu : w = u
    · subst hwu
      rw [if_pos rfl]
      exact hsh
    · rw [if_neg hwu] at hne ⊢
      exact hp w hw hne
  | publishing todo =>
    cases todo with
    | nil => exact fun u => hp u (by simp)
    | cons x todo =>
      obtain ⟨u, v⟩ := x
      have hitem : active.lookup u = some v := h.items (u, v) List.mem_cons_self
      cases v with
      | none =>
        intro w hw hne
        by_cases hwu : w = u
        · subst hwu
          exact absurd hitem hne
        · exact hp w (by simpa using ⟨hwu, by simpa using hw⟩) hne
      | some fs =>
        have key : ∀ p, ∀ w, w ∉ todo.map (·.1) → UpToDate ⟨active, fun w => if w = u then toShow fs else shown w, p⟩ w := by
          intro p w hw hne
          unfold State.entry
          simp only at hne ⊢
          by_cases hwu : w = u
          · subst hwu
            rw [if_pos rfl, hitem]
          · rw [if_neg hwu]
            exact hp w (by simpa using ⟨hwu, by simpa using hw⟩) hne
        simp only [State.tick, State.send]
        split
        · exact key _
        · exact key _

theorem ticks_published (n : Nat) : ∀ (evs : List Ev) (st : State), Inv evs st → Published st →
    ∃ evs', Inv evs' (run st (List.replicate n .tick)) ∧ Published (run st (List.replicate n .tick)) := by
  induction n with
  | zero => exact fun evs st h hp => ⟨evs, h, hp⟩
  | succ n ih => exact fun evs st h hp => ih _ _ (tick_inv evs st h) (tick_published evs st h hp)

/-- How many steps there are still to do. -/
def Phase.work : Phase → Nat
  | .analyzing | .dead => 0
  | .publishing t | .resetting t => 2 * t.length + 1
  | .forgetting _ t => 2 * t.length + 2

theorem tick_work (st : State) : st.tick.phase.work ≤ st.phase.work - 1 := by
  obtain ⟨active, shown, phase⟩ := st
  cases phase with
  | analyzing => exact Nat.le_refl _
  | dead => exact Nat.le_refl _
  | forgetting u t => simp [State.tick, Phase.work]
  | publishing t =>
    cases t with
    | nil => simp [State.tick, Phase.work]
    | cons x t =>
      obtain ⟨u, v⟩ := x
      cases v with
      | none => simp [State.tick, Phase.work]; omega
      | some fs =>
        simp only [State.tick]
        split <;> simp [Phase.work] <;> omega
  | resetting t =>
    cases t with
    | nil => simp [State.tick, Phase.work]
    | cons x t =>
      obtain ⟨u, v⟩ := x
      cases v <;> simp [State.tick, Phase.work] <;> omega

theorem ticks_work (n : Nat) : ∀ st : State, (run st (List.replicate n .tick)).phase.work ≤ st.phase.work - n := by
  induction n with
  | zero => exact fun st => Nat.le_refl _
  | succ n ih =>
    intro st
    have h1 := ih st.tick
    have h2 := tick_work st
    have : run st (List.replicate (n + 1) .tick) = run st.tick (List.replicate n .tick) := rfl
    rw [this]
    omega

end Verif.Editor
