import Verif.Editor.Calm
/-
Properties of the language server.
-/
namespace Verif.Editor

open Verif.Watch (put remove lookup_put lookup_remove)

/-! ### Unsaved files -/

/-- C229: as long as a file has changes that are not saved (or is closed), nothing is marked in it, whatever the analysis finds and
however often it publishes and starts again. Partial: while the analysis publishes or starts again, nothing happens in the editor (see
`publish_race`, `forget_race` and `restart_race`). -/
theorem unsaved_unmarked_partial (evs : List Ev) (hc : Calm .start evs) (u : Nat) (h : Unsaved u evs.reverse) : (run .start evs).shown u = [] := by
  have := run_inv evs [] .start start_inv hc
  rw [List.append_nil] at this
  exact (this.unsaved u h).2

/-- A failure on line 3 of file 7. -/
def fail7 : Msg := ⟨some 7, 3, 0, .postFail, 0⟩

example : Calm .start [.opened 7, .found fail7, .publish, .tick, .tick, .change 7, .found fail7, .publish, .tick, .tick] ∧
    Unsaved 7 [Ev.change 7, .opened 7] ∧
    (run .start [.opened 7, .found fail7, .publish, .tick, .tick]).shown 7 = [fail7] ∧
    (run .start [.opened 7, .found fail7, .publish, .tick, .tick, .change 7, .found fail7, .publish, .tick, .tick]).shown 7 = [] := by
  refine ⟨?_, ?_, by decide, by decide⟩
  · simp [Calm, Ev.editor, step, State.start, State.record, State.tick, State.send, put, List.lookup, fail7, record, toShow, Kind.rank]
  · simp [Unsaved]

/-- A file that is marked as unsaved, while nothing about it is being published. -/
structure Stuck (u : Nat) (st : State) : Prop where
  active : st.active.lookup u = some none
  items : ∀ e ∈ st.phase.todo, e.1 = u → e.2 = none
  forget : ∀ t, st.phase ≠ .forgetting u t
  nodup : (st.active.map (·.1)).Nodup

theorem stuck_step (u : Nat) (st : State) (e : Ev) (h : Stuck u st) (he : e.about u = false) :
    Stuck u (step st e) ∧ (step st e).shown u = st.shown u := by
  have hput : ∀ w v p sh, w ≠ u → p = st.phase → Stuck u ⟨put st.active w v, sh, p⟩ := by
    rintro w v p sh hw rfl
    exact ⟨by simp only [lookup_put, if_neg (Ne.symm hw)]; exact h.active, h.items, h.forget, put_nodup _ _ _ h.nodup⟩
  cases e with
  | change w =>
    have hw : w ≠ u := by simpa [Ev.about] using he
    exact ⟨hput w none _ _ hw rfl, if_neg (Ne.symm hw)⟩
  | close w =>
    have hw : w ≠ u := by simpa [Ev.about] using he
    exact ⟨hput w none _ _ hw rfl, if_neg (Ne.symm hw)⟩
  | opened w =>
    have hw : w ≠ u := by simpa [Ev.about] using he
    exact ⟨hput w _ _ _ hw rfl, rfl⟩
  | save w =>
    have hw : w ≠ u := by simpa [Ev.about] using he
    exact ⟨hput w _ _ _ hw rfl, if_neg (Ne.symm hw)⟩
  | found m =>
    simp only [step]
    split
    · rename_i hp
      unfold State.record
      cases hu : m.uri with
      | none => exact ⟨⟨h.active, fun _ e => (by cases e), fun _ e => (by cases e), h.nodup⟩, rfl⟩
      | some w =>
        simp only
        cases hl : st.active.lookup w with
        | none =>
          have hw : w ≠ u := fun e => by rw [e, h.active] at hl; cases hl
          exact ⟨hput w _ _ _ hw rfl, rfl⟩
        | some v =>
          cases v with
          | none => exact ⟨h, rfl⟩
          | some fs =>
            have hw : w ≠ u := fun e => by rw [e, h.active] at hl; cases hl
            exact ⟨hput w _ _ _ hw rfl, rfl⟩
    · exact ⟨h, rfl⟩
  | publish =>
    simp only [step]
    split
    · refine ⟨⟨h.active, fun e he hu => ?_, fun _ e => (by cases e), h.nodup⟩, rfl⟩
      have := (mem_lookup st.active h.nodup e.1 e.2).1 he
      rw [hu, h.active] at this
      exact (Option.some.inj this).symm
    · exact ⟨h, rfl⟩
  | restart =>
    simp only [step]
    split
    · refine ⟨⟨h.active, fun e he hu => ?_, fun _ e => (by cases e), h.nodup⟩, rfl⟩
      have := (mem_lookup st.active h.nodup e.1 e.2).1 he
      rw [hu, h.active] at this
      exact (Option.some.inj this).symm
    · exact ⟨h, rfl⟩
  | tick =>
    simp only [step]
    obtain ⟨active, shown, phase⟩ := st
    obtain ⟨ha, hi, hf, hn⟩ := h
    cases phase with
    | analyzing => exact ⟨⟨ha, hi, hf, hn⟩, rfl⟩
    | dead => exact ⟨⟨ha, hi, hf, hn⟩, rfl⟩
    | forgetting w t =>
      have hw : w ≠ u := fun e => hf t (by rw [e])
      refine ⟨⟨?_, hi, fun _ e => (by cases e), remove_nodup _ _ hn⟩, rfl⟩
      simp only [State.tick, lookup_remove, if_neg (Ne.symm hw)]
      exact ha
    | publishing t =>
      cases t with
      | nil => exact ⟨⟨ha, fun _ e => (by cases e), fun _ e => (by cases e), hn⟩, rfl⟩
      | cons x t =>
        obtain ⟨w, v⟩ := x
        have hi' : ∀ e ∈ t, e.1 = u → e.2 = none := fun e he => hi e (List.mem_cons_of_mem _ he)
        cases v with
        | none => exact ⟨⟨ha, hi', fun _ e => (by cases e), hn⟩, rfl⟩
        | some fs =>
          have hw : w ≠ u := fun e => by
            have := hi (w, some fs) List.mem_cons_self e
            cases this
          simp only [State.tick, State.send]
          split
          · refine ⟨⟨ha, hi', fun t e => ?_, hn⟩, if_neg (Ne.symm hw)⟩
            exact hw (Phase.forgetting.inj e).1
          · exact ⟨⟨ha, hi', fun _ e => (by cases e), hn⟩, if_neg (Ne.symm hw)⟩
    | resetting t =>
      cases t with
      | nil => exact ⟨⟨ha, fun _ e => (by cases e), fun _ e => (by cases e), hn⟩, rfl⟩
      | cons x t =>
        obtain ⟨w, v⟩ := x
        have hi' : ∀ e ∈ t, e.1 = u → e.2 = none := fun e he => hi e (List.mem_cons_of_mem _ he)
        have key : ∀ v', (w = u → v' = none) → Stuck u ⟨put active w v', shown, .resetting t⟩ := by
          intro v' hv'
          refine ⟨?_, hi', fun _ e => (by cases e), put_nodup _ _ _ hn⟩
          simp only [lookup_put]
          by_cases hw : u = w
          · rw [if_pos hw, hv' hw.symm]
          · rw [if_neg hw]; exact ha
        cases v with
        | none => exact ⟨key none fun _ => rfl, rfl⟩
        | some fs => exact ⟨key (some []) fun e => (by have := hi (w, some fs) List.mem_cons_self e; cases this), rfl⟩

theorem stuck_stays (u : Nat) (evs : List Ev) (he : ∀ e ∈ evs, e.about u = false) : ∀ st, Stuck u st → (run st evs).shown u = st.shown u := by
  induction evs with
  | nil => exact fun _ _ => rfl
  | cons e evs ih =>
    intro st h
    obtain ⟨h1, h2⟩ := stuck_step u st e h (he e List.mem_cons_self)
    exact (ih (fun e' h' => he e' (List.mem_cons_of_mem _ h')) _ h1).trans h2

/-- Disagreement: if a file is changed while the analysis publishes, messages about the old text are marked in the changed file; and
there they stay, whatever the analysis does, until something happens to this file in the editor again. -/
theorem publish_race (more : List Ev) (hm : ∀ e ∈ more, e.about 7 = false) :
    (run .start ([.opened 7, .found fail7, .publish, .change 7, .tick, .tick] ++ more)).shown 7 = [fail7] := by
  have hrun : run .start ([.opened 7, .found fail7, .publish, .change 7, .tick, .tick] ++ more)
      = run (run .start [.opened 7, .found fail7, .publish, .change 7, .tick, .tick]) more := List.foldl_append ..
  rw [hrun, stuck_stays 7 more hm]
  · decide
  · refine ⟨by decide, fun e he => ?_, fun t e => ?_, by decide⟩
    · have : (run .start [.opened 7, .found fail7, .publish, .change 7, .tick, .tick]).phase = .analyzing := by decide
      rw [this] at he
      cases he
    · have : (run .start [.opened 7, .found fail7, .publish, .change 7, .tick, .tick]).phase = .analyzing := by decide
      rw [this] at e
      cases e

example : (run .start ([.opened 7, .found fail7, .publish, .change 7, .tick, .tick] ++ [.restart, .tick, .tick, .publish, .tick, .tick])).shown 7
    = [fail7] := publish_race _ (by decide)

/-- Disagreement: if a file without messages is changed just before the analysis forgets it, it is no longer known to be changed: what is
found in the old text is marked in the changed file. -/
theorem forget_race :
    (run .start [.save 7, .publish, .tick, .change 7, .tick, .tick, .found fail7, .publish, .tick, .tick]).shown 7 = [fail7] ∧
    Unsaved 7 [.tick, .tick, .publish, .found fail7, .tick, .tick, .change 7, .tick, .publish, .save 7] := by
  refine ⟨by decide, by simp [Unsaved]⟩

/-- Disagreement: the same if it is changed while the analysis starts again. -/
theorem restart_race :
    (run .start [.save 7, .restart, .change 7, .tick, .tick, .found fail7, .publish, .tick, .tick]).shown 7 = [fail7] ∧
    Unsaved 7 [.tick, .tick, .publish, .found fail7, .tick, .tick, .change 7, .restart, .save 7] := by
  refine ⟨by decide, by simp [Unsaved]⟩

/-! ### What is marked -/

/-- C230: when the analysis has published, exactly this is marked in a file whose text is saved: on each line where something was found
since the analysis started again (or the file was opened or saved), the first one of the worst messages, unless it is harmless. Partial:
as for `unsaved_unmarked_partial`. -/
theorem marks_exact_partial (evs : List Ev) (hc : Calm .start evs) (hp : (run .start evs).phase = .analyzing) (n : Nat)
    (hend : (run .start (evs ++ .publish :: List.replicate n .tick)).phase = .analyzing) (u : Nat) (hu : ¬Unsaved u evs.reverse) :
    Marks (foundSince u evs.reverse) ((run .start (evs ++ .publish :: List.replicate n .tick)).shown u) := by
  have hinv := run_inv evs [] .start start_inv hc
  rw [List.append_nil] at hinv
  generalize hst : run .start evs = st at hinv hp
  have hrun : run .start (evs ++ .publish :: List.replicate n .tick) = run (step st .publish) (List.replicate n .tick) := by
    rw [← hst]; exact List.foldl_append ..
  rw [hrun] at hend ⊢
  have h1 := step_inv evs.reverse st .publish hinv (fun e => by cases e) (fun _ _ => hp)
  have hpub : Published (step st .publish) := by
    simp only [step, if_pos hp, Published]
    intro w hw hne
    have hl : st.active.lookup w = none := by
      cases hl : st.active.lookup w with
      | none => rfl
      | some v => exact absurd (List.mem_map_of_mem (f := Prod.fst) ((mem_lookup st.active hinv.nodup w v).2 hl)) hw
    unfold State.entry
    simp only [hl]
    exact hinv.absent w hl
  have hev : ∀ k : Nat, ∀ (es : List Ev) (s : State), Inv es s → Inv (List.replicate k .tick ++ es) (run s (List.replicate k .tick)) := by
    intro k
    induction k with
    | zero => exact fun es s h => h
    | succ k ih =>
      intro es s h
      have := ih (.tick :: es) s.tick (tick_inv es s h)
      rw [show List.replicate (k + 1) Ev.tick ++ es = List.replicate k Ev.tick ++ (.tick :: es) by
        rw [List.replicate_succ']; simp]
      exact this
  have hfin := hev n _ _ h1
  obtain ⟨_, _, hpf⟩ := ticks_published n _ _ h1 hpub
  generalize run (step st .publish) (List.replicate n .tick) = fin at hend hfin hpf
  have hf1 : ∀ k : Nat, foundSince u (List.replicate k .tick ++ .publish :: evs.reverse) = foundSince u evs.reverse := by
    intro k
    induction k with
    | zero => rfl
    | succ k ih => exact ih
  have hf2 : ∀ k : Nat, Unsaved u (List.replicate k .tick ++ .publish :: evs.reverse) ↔ Unsaved u evs.reverse := by
    intro k
    induction k with
    | zero => exact Iff.rfl
    | succ k ih => exact ih
  have hu' : ¬Unsaved u (List.replicate n .tick ++ .publish :: evs.reverse) := fun h => hu ((hf2 n).1 h)
  have hsaved := hfin.saved u hu'
  unfold Published at hpf
  rw [hend] at hpf
  rw [hpf u hsaved, ← hf1 n]
  refine toShow_marks _ _ ?_ (hfin.best u hu' (by rw [hend]; exact fun h => by cases h))
  unfold State.entry
  split
  · rename_i fs hfs
    exact hfin.keyed u fs hfs
  · exact keyed_nil

theorem ticks_alive (n : Nat) : ∀ st : State, st.phase ≠ .dead → (run st (List.replicate n .tick)).phase ≠ .dead := by
  induction n with
  | zero => exact fun _ h => h
  | succ n ih =>
    intro st h
    refine ih st.tick ?_
    obtain ⟨active, shown, phase⟩ := st
    cases phase with
    | analyzing => exact h
    | dead => exact h
    | forgetting w t => exact fun e => by cases e
    | publishing t =>
      cases t with
      | nil => exact fun e => by cases e
      | cons x t =>
        obtain ⟨w, v⟩ := x
        cases v with
        | none => exact fun e => by cases e
        | some fs =>
          simp only [State.tick]
          split <;> exact fun e => by cases e
    | resetting t =>
      cases t with
      | nil => exact fun e => by cases e
      | cons x t =>
        obtain ⟨w, v⟩ := x
        cases v <;> exact fun e => by cases e

/-- C230: publishing always ends: after two steps for each file and one more. -/
theorem publish_ends (st : State) (hp : st.phase = .analyzing) (n : Nat) (hn : 2 * st.active.length + 1 ≤ n) :
    (run st (.publish :: List.replicate n .tick)).phase = .analyzing := by
  have h := ticks_work n (step st .publish)
  have hw : (step st .publish).phase.work = 2 * st.active.length + 1 := by simp [step, hp, Phase.work]
  have : (run (step st .publish) (List.replicate n .tick)).phase.work = 0 := by omega
  have hd := ticks_alive n (step st .publish) (by simp [step, hp])
  rw [show run st (.publish :: List.replicate n .tick) = run (step st .publish) (List.replicate n .tick) from rfl]
  generalize (run (step st .publish) (List.replicate n .tick)).phase = p at this hd
  cases p with
  | analyzing => rfl
  | dead => exact absurd rfl hd
  | publishing t => simp [Phase.work] at this
  | forgetting u t => simp [Phase.work] at this
  | resetting t => simp [Phase.work] at this

/-- Two messages on one line, and one on another. -/
def warn7 : Msg := ⟨some 7, 3, 0, .preUnsat, 1⟩
def other7 : Msg := ⟨some 7, 9, 0, .cannotConfirm, 2⟩

example : (run .start [.opened 7, .found warn7, .found other7, .found fail7, .publish, .tick, .tick]).shown 7 = [fail7] ∧
    (run .start [.opened 7, .found warn7, .found other7, .found fail7, .publish, .tick, .tick]).phase = .analyzing := by decide
example : Calm .start [.opened 7, .found warn7, .found other7, .found fail7] := by
  simp [Calm, Ev.editor, step, State.start, State.record, put, List.lookup, fail7, warn7, other7, record]

/-- Disagreement: a message about code that is in no file (as `<string>`) ends the thread that analyses: nothing is ever marked again. -/
theorem nameless_file_ends (m : Msg) (hm : m.uri = none) (before after : List Ev) (hp : (run .start before).phase = .analyzing) :
    (run .start (before ++ .found m :: after)).phase = .dead ∧
    ∀ u, (∀ e ∈ after, e.about u = false) → (run .start (before ++ .found m :: after)).shown u = (run .start before).shown u := by
  have hrun : run .start (before ++ .found m :: after) = run (step (run .start before) (.found m)) after := List.foldl_append ..
  have hs : step (run .start before) (.found m) = { run .start before with phase := .dead } := by
    simp [step, hp, State.record, hm]
  rw [hrun, hs]
  generalize run .start before = st
  have main : ∀ (after : List Ev) (st : State), st.phase = .dead → (run st after).phase = .dead ∧
      ∀ u, (∀ e ∈ after, e.about u = false) → (run st after).shown u = st.shown u := by
    intro after
    induction after with
    | nil => exact fun st h => ⟨h, fun _ _ => rfl⟩
    | cons e es ih =>
      intro st h
      have hd : (step st e).phase = .dead := by
        cases e with
        | found m => simp [step, h]
        | publish => simp [step, h]
        | restart => simp [step, h]
        | tick => simp [step, State.tick, h]
        | change u => exact h
        | close u => exact h
        | opened u => exact h
        | save u => exact h
      obtain ⟨h1, h2⟩ := ih (step st e) hd
      refine ⟨h1, fun u hu => (h2 u fun e' he' => hu e' (List.mem_cons_of_mem _ he')).trans ?_⟩
      have hau := hu e List.mem_cons_self
      cases e with
      | found m => simp [step, h]
      | publish => simp [step, h]
      | restart => simp [step, h]
      | tick => simp [step, State.tick, h]
      | opened u => rfl
      | change w =>
        have hw : w ≠ u := by simpa [Ev.about] using hau
        exact if_neg (Ne.symm hw)
      | close w =>
        have hw : w ≠ u := by simpa [Ev.about] using hau
        exact if_neg (Ne.symm hw)
      | save w =>
        have hw : w ≠ u := by simpa [Ev.about] using hau
        exact if_neg (Ne.symm hw)
  exact main after _ rfl

example : (run .start ([.opened 7] ++ .found ⟨none, 1, 0, .execErr, 0⟩ :: [.found fail7, .publish, .tick, .tick])).shown 7 = [] := by decide

/-! ### Positions -/

theorem units_plain (l : List Nat) (h : ∀ c ∈ l, c < 65536) : units l = l.length := by
  induction l with
  | nil => rfl
  | cons c l ih =>
    rw [units, if_pos (h c List.mem_cons_self), ih fun d hd => h d (List.mem_cons_of_mem _ hd), List.length_cons]
    omega

theorem dropWhile_head {p : Nat → Bool} (l : List Nat) (c : Nat) (h : (l.dropWhile p).head? = some c) : p c = false := by
  induction l with
  | nil => cases h
  | cons a l ih =>
    rw [List.dropWhile_cons] at h
    split at h
    · exact ih h
    · rename_i hp
      cases h
      simpa using hp

theorem drop_takeWhile (p : Nat → Bool) (l : List Nat) : l.drop (l.takeWhile p).length = l.dropWhile p := by
  induction l with
  | nil => rfl
  | cons a l ih =>
    rw [List.takeWhile_cons, List.dropWhile_cons]
    split
    · exact ih
    · rfl

theorem all_takeWhile (p : Nat → Bool) (l : List Nat) : (l.takeWhile p).all p = true := by
  induction l with
  | nil => rfl
  | cons a l ih =>
    rw [List.takeWhile_cons]
    split
    · rename_i h
      rw [List.all_cons, h, ih]
      rfl
    · rfl

/-- C231: a mark for a message without a column covers the text of its line, without the spaces around it; marks are warnings for
conditions that cannot be met, and errors for all other messages that are shown. Partial: the line exists, and has only characters that
are one unit in UTF-16 (see `wide_characters` and `line_zero`). -/
theorem mark_covers_partial (space : Nat → Bool) (m : Msg) (lines : List (List Nat)) (line : List Nat) (hcol : m.column = 0)
    (hpos : 1 ≤ m.line) (hline : lines[(m.line - 1).toNat]? = some line) (hplain : ∀ c ∈ line, c < 65536) (hnl : space 10 = true)
    (hone : ∀ a b, line = a ++ 10 :: b → b = []) :
    (getDiagnostic space m lines).line = m.line - 1 ∧
      Covers space line (getDiagnostic space m lines).start (getDiagnostic space m lines).stop ∧
      (2 ≤ m.kind.rank → (getDiagnostic space m lines).severity = if m.kind = .preUnsat then .warning else .error) := by
  have hlen : m.line - 1 < lines.length := by
    obtain ⟨h, _⟩ := List.getElem?_eq_some_iff.1 hline
    omega
  have hat : lineAt lines (m.line - 1) = some line := by
    unfold lineAt
    rw [if_neg (by omega), hline]
  obtain ⟨before, hb⟩ : ∃ b, b = line.takeWhile space := ⟨_, rfl⟩
  obtain ⟨rest, hr⟩ : ∃ r, r = line.dropWhile space := ⟨_, rfl⟩
  obtain ⟨mid, hm⟩ : ∃ r, r = (rest.reverse.dropWhile space).reverse := ⟨_, rfl⟩
  obtain ⟨after, ha⟩ : ∃ r, r = (rest.reverse.takeWhile space).reverse := ⟨_, rfl⟩
  have h1 : line = before ++ rest := by rw [hb, hr, List.takeWhile_append_dropWhile]
  have h2 : rest = mid ++ after := by
    rw [hm, ha, ← List.reverse_append, List.takeWhile_append_dropWhile, List.reverse_reverse]
  have hlast : ∀ c, mid.getLast? = some c → space c = false := by
    intro c hc
    rw [hm, List.getLast?_reverse] at hc
    exact dropWhile_head _ c hc
  have hhead : ∀ c, mid.head? = some c → space c = false := by
    intro c hc
    refine dropWhile_head line c ?_
    rw [← hr, h2, List.head?_append, hc]
    rfl
  have hno : mid.contains 10 = false := by
    cases h : mid.contains 10 with
    | false => rfl
    | true =>
      obtain ⟨x, y, hxy⟩ := List.append_of_mem (List.contains_iff_mem.1 h)
      have := hone (before ++ x) (y ++ after) (by rw [h1, h2, hxy]; simp)
      obtain ⟨rfl, -⟩ := List.append_eq_nil_iff.1 this
      have := hlast 10 (by rw [hxy]; simp)
      rw [hnl] at this
      cases this
  have hstrip : strip space line = some (before.length, before.length + mid.length) := by
    unfold strip
    have hmid : ((line.drop (line.takeWhile space).length).reverse.dropWhile space).reverse = mid := by rw [drop_takeWhile, ← hr, hm]
    simp only [hmid]
    rw [hno, hb]
    rfl
  have hd : (getDiagnostic space m lines).start = before.length ∧ (getDiagnostic space m lines).stop = before.length + mid.length := by
    unfold getDiagnostic
    simp only [hcol, if_true, if_pos hlen, hat, Option.bind_some, hstrip, and_self]
  refine ⟨rfl, ⟨before, mid, after, by rw [h1, h2, List.append_assoc], ?_, ?_, hhead, hlast, ?_, ?_⟩, fun hk => ?_⟩
  · rw [hb]; exact all_takeWhile _ _
  · rw [ha, List.all_reverse]; exact all_takeWhile _ _
  · rw [hd.1, units_plain before fun c hc => hplain c (by rw [h1]; exact List.mem_append_left _ hc)]
  · rw [hd.2, units_plain (before ++ mid) fun c hc => hplain c (by rw [h1, h2, ← List.append_assoc]; exact List.mem_append_left _ hc),
      List.length_append]
  · unfold getDiagnostic
    simp only
    rw [if_neg (show ¬m.kind.rank < Kind.preUnsat.rank from Nat.not_lt.2 hk)]

/-- The white space of the examples. -/
def blank (c : Nat) : Bool := c = 32 ∨ c = 9 ∨ c = 10

-- `    x = 1` and a line break
example : getDiagnostic blank ⟨some 7, 2, 0, .postFail, 0⟩ [[100, 10], [32, 32, 120, 32, 61, 10]] = ⟨1, 2, 5, .error⟩ := by decide
example : Covers blank [32, 32, 120, 32, 61, 10] 2 5 :=
  (mark_covers_partial blank ⟨some 7, 2, 0, .postFail, 0⟩ [[100, 10], [32, 32, 120, 32, 61, 10]] _ rfl (by decide) rfl (by decide) (by decide)
    (by
      intro a b h
      rcases a with _ | ⟨_, _ | ⟨_, _ | ⟨_, _ | ⟨_, _ | ⟨_, _ | ⟨_, a⟩⟩⟩⟩⟩⟩ <;> simp_all)).2.1
example : (getDiagnostic blank ⟨some 7, 2, 0, .preUnsat, 0⟩ []).severity = .warning := by decide

/-- Disagreement: the columns are numbers of characters, but the protocol counts units of UTF-16: on a line with characters like emoji,
the mark ends too early. -/
theorem wide_characters : (getDiagnostic blank ⟨some 7, 1, 0, .postFail, 0⟩ [[32, 128512, 120]]) = ⟨0, 1, 3, .error⟩ ∧
    ¬Covers blank [32, 128512, 120] 1 3 := by
  refine ⟨by decide, ?_⟩
  rintro ⟨before, mid, after, h, hb, ha, h1, h2, e1, e2⟩
  have hu : units [32, 128512, 120] = 4 := by decide
  have happ : ∀ a b, units (a ++ b) = units a + units b := by
    intro a b
    induction a with
    | nil => simp [units]
    | cons c a ih => simp only [List.cons_append, units, ih]; omega
  have hafter : units after = 1 := by
    rw [h, happ, ← e2] at hu
    omega
  have : after.getLast? = some 120 := by
    have hne : after ≠ [] := fun e => by rw [e] at hafter; cases hafter
    obtain ⟨x, c, rfl⟩ := List.eq_nil_or_concat after |>.resolve_left hne
    have h3 := congrArg List.getLast? h
    simp at h3 ⊢
    exact h3.symm
  have hmem : 120 ∈ after := List.mem_of_getLast? this
  have := List.all_eq_true.1 ha 120 hmem
  exact absurd this (by decide)

/-- Disagreement: a message on line 0 (code whose line is unknown) is put on line -1, with the columns of the last line. -/
theorem line_zero : getDiagnostic blank ⟨some 7, 0, 0, .postFail, 0⟩ [[120], [32, 32, 121, 122]] = ⟨-1, 2, 4, .error⟩ := by decide

end Verif.Editor
