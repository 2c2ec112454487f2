import Verif.Passes.Invariant
import Verif.B64.Props
/-
Property theorems about the passes of `crosshair watch` (C248-C252).
-/
namespace Verif.Passes

open Verif.Watch (Pool Worker Times checkChanged prune spawn isWorking killed timeNow)

variable {F M : Type} [DecidableEq F]

/-! ### C248: no results from before a change -/

/-- **C248.** Once a change of the files has been noticed, every result given out is for an analysis asked for after that: whatever
the workers do, and whenever they do it, no result of an earlier analysis appears. -/
theorem nothing_stale (max : Nat) (disk : List (F × Option Int)) (before after : List (Act F M)) (a : Act F M)
    (h : (run max disk before).changes < (run max disk (before ++ [a])).changes) :
    ∃ new, (run max disk (before ++ [a] ++ after)).shown = (run max disk before).shown ++ new ∧
      ∀ r ∈ new, (run max disk (before ++ [a])).serial ≤ r.1.serial := by
  obtain ⟨b, hb⟩ := run_core max disk before
  unfold run at *
  rw [List.foldl_append, List.foldl_append, List.foldl_cons, List.foldl_nil] at *
  generalize before.foldl act { St.new F M max with known := (checkChanged disk []).1 } = s at *
  obtain ⟨b1, h1, h2, _, _⟩ := act_core hb a
  rcases h2 with ⟨_, e⟩ | ⟨e1, _, _, e4⟩
  · omega
  · subst e1
    obtain ⟨_, _, _, _, new, k1, k2⟩ := acts_core after h1
    exact ⟨new, by rw [k1, e4], k2⟩

example : (run (M := Nat) 1 [('a', some 1)] [.begin 5 0 [] (fun _ => none), .start 0, .go 0 [('a', some 1)] (fun _ => none)]).changes <
    (run (M := Nat) 1 [('a', some 1)] [.begin 5 0 [] (fun _ => none), .start 0, .go 0 [('a', some 1)] (fun _ => none),
      .go 0 [('a', some 2)] (fun _ => some 7)]).changes := by decide

/-! ### C249: every result once -/

/-- **C249.** Nothing is given out twice: each analysis asked for yields at most one result, in every history. -/
theorem shown_once (max : Nat) (disk : List (F × Option Int)) (acts : List (Act F M)) :
    ((run max disk acts).shown.map Prod.fst).Nodup ∧ ∀ r ∈ (run max disk acts).shown, r.1.serial < (run max disk acts).serial := by
  obtain ⟨b, hb⟩ := run_core max disk acts
  exact ⟨hb.shown_once, hb.shown_lt⟩

/-- **C249, in part.** When a pass is complete, every file handed to the pool was dealt with, and every result that came in was
given out, unless it came in after the loop had last looked at the queue.  Missing: those late results, see `result_missed`. -/
theorem pass_complete_partial (max : Nat) (disk : List (F × Option Int)) (acts : List (Act F M))
    (hp : (run max disk acts).place = .idle) (he : (run max disk acts).ending = .complete) :
    (run max disk acts).pool.submitted.Perm ((run max disk acts).pool.ended ++ (run max disk acts).pool.dropped) ∧
    ∀ r ∈ (run max disk acts).pool.produced, r ∈ (run max disk acts).shown ∨ r ∈ (run max disk acts).fresh := by
  obtain ⟨b, hb⟩ := run_core max disk acts
  obtain ⟨h1, h2⟩ := (run_where max disk acts).complete hp he
  refine ⟨?_, ?_⟩
  · have hc := hb.inv.2.1
    unfold isWorking at h2
    simp only [Bool.or_eq_false_iff, Bool.not_eq_false', List.isEmpty_iff] at h2
    rw [h2.1, h2.2] at hc
    simpa using hc
  · intro r hr
    rw [hb.inv.2.2] at hr
    rcases List.mem_append.mp hr with hr | hr
    · obtain ⟨old, h3, _⟩ := hb.shown
      rw [h3]
      exact Or.inl (List.mem_append_right _ hr)
    · rw [h1] at hr
      exact Or.inr hr

example : (run (M := Nat) 1 [('a', some 1)] [.begin 5 0 [] (fun _ => none), .start 0, .exit 0 (some 7), .go 0 [] (fun _ => none),
      .go 0 [] (fun _ => none), .go 0 [('a', some 1)] (fun _ => none), .go 0 [] (fun _ => none), .go 0 [] (fun _ => none)]).ending = .complete ∧
    (run (M := Nat) 1 [('a', some 1)] [.begin 5 0 [] (fun _ => none), .start 0, .exit 0 (some 7), .go 0 [] (fun _ => none),
      .go 0 [] (fun _ => none), .go 0 [('a', some 1)] (fun _ => none), .go 0 [] (fun _ => none), .go 0 [] (fun _ => none)]).shown.map
      (fun r => (r.1.file, r.2)) = [('a', 7)] := by decide

/-- Disagreement: a pass can be complete although a result has not been given out.  If the last worker ends after the loop has
looked at the queue and before it removes workers that have ended, the loop stops with the result in the queue; it is given out
in the next pass, if there is one. -/
theorem result_missed :
    let acts : List (Act Char Nat) := [.begin 5 0 [] (fun _ => none), .start 0, .go 0 [] (fun _ => none),
      .go 0 [('a', some 1)] (fun _ => none), .exit 0 (some 7), .go 0 [] (fun _ => none), .go 0 [] (fun _ => none)]
    (run 1 [('a', some 1)] acts).ending = .complete ∧ (run 1 [('a', some 1)] acts).place = .idle ∧
    (run 1 [('a', some 1)] acts).shown = [] ∧ (run 1 [('a', some 1)] acts).pool.produced.map Prod.snd = [7] ∧
    ((run 1 [('a', some 1)] (acts ++ [.begin 10 500 [] (fun _ => none), .go 500 [] (fun _ => none)])).shown.map
      fun r => (r.1.serial, r.2)) = [(0, 7)] := by
  decide

/-! ### C250: the order of files -/

omit [DecidableEq F] in
theorem submits_pool (d : Int) (fs : List F) : ∀ s : St F M,
    ∃ is : List (Item F), is.map Item.file = fs ∧ (fs.foldl (submit d) s).pool.work = s.pool.work ++ is ∧
      (fs.foldl (submit d) s).pool.workers = s.pool.workers ∧ (fs.foldl (submit d) s).pool.max = s.pool.max ∧
      ∀ i ∈ is, i.deadline = d := by
  induction fs with
  | nil => exact fun s => ⟨[], rfl, (List.append_nil _).symm, rfl, rfl, fun _ hi => nomatch hi⟩
  | cons f fs ih =>
    intro s
    obtain ⟨is, h1, h2, h3, h4, h5⟩ := ih (submit d s f)
    refine ⟨⟨s.serial, f, d⟩ :: is, by rw [List.map_cons, h1], ?_, h3, h4, ?_⟩
    · rw [List.foldl_cons, h2]
      dsimp only [submit, Verif.Watch.step]
      rw [List.append_assoc, List.singleton_append]
    · intro i hi
      rcases List.mem_cons.mp hi with rfl | hi
      · rfl
      · exact h5 i hi

/-- **C250.** A pass that starts with an idle pool hands out every known file once.  Workers are started for the files changed
longest ago, as many as there may be workers; the others wait, the next to be started being the oldest of them.  Each has the time the pass allows: a thousand seconds for each
uninteresting iteration, and ten seconds at least. -/
theorem oldest_first (s : St F M) (n : Nat) (now : Int) (disk : List (F × Option Int)) (late : Item F → Option M)
    (hidle : s.place = .idle) (hw : s.pool.workers = []) (hq : s.pool.work = []) (hk : s.known ≠ []) :
    ∃ order : List (F × Int), order.Perm s.known ∧ order.Pairwise (fun a b => a.2 ≤ b.2) ∧
      (act s (.begin n now disk late)).pool.workers.map (fun w => w.item.file) = (order.take s.pool.max).map Prod.fst ∧
      (act s (.begin n now disk late)).pool.work.map Item.file = ((order.drop s.pool.max).map Prod.fst).reverse ∧
      (∀ w ∈ (act s (.begin n now disk late)).pool.workers, w.item.deadline = now + max 10000 (1000000 * (n : Int))) ∧
      (act s (.begin n now disk late)).place = .top := by
  have hperm : (byTime s.known).Perm s.known := List.perm_insertionSort _ _
  have hsort : (byTime s.known).Pairwise fun a b => -a.2 ≤ -b.2 := by
    have : Std.Total (fun a b : F × Int => -a.2 ≤ -b.2) := ⟨fun a b => by omega⟩
    have : IsTrans (F × Int) (fun a b => -a.2 ≤ -b.2) := ⟨fun a b c => by omega⟩
    exact List.pairwise_insertionSort _ _
  obtain ⟨is, h1, h2, h3, h4, h5⟩ := submits_pool (M := M) (now + workerTimeout n) ((byTime s.known).map Prod.fst) s
  have hact : act s (.begin n now disk late) = begin n now disk late s := if_pos hidle
  have hg : (garden now late (((byTime s.known).map Prod.fst).foldl (submit (now + workerTimeout n)) s)).pool.workers =
      (is.reverse.take s.pool.max).map (fun i => ⟨i, true, false⟩) ∧
      (garden now late (((byTime s.known).map Prod.fst).foldl (submit (now + workerTimeout n)) s)).pool.work =
      (is.reverse.drop s.pool.max).reverse := by
    unfold garden
    dsimp only [Verif.Watch.step]
    rw [spawn_exact _ _ (Nat.le_refl _)]
    unfold prune
    dsimp only
    rw [h2, h3, h4, hw, hq]
    exact ⟨rfl, rfl⟩
  have hne : is ≠ [] := by
    intro hnil
    rw [hnil, List.map_nil] at h1
    have := List.map_eq_nil_iff.mp h1.symm
    rw [this] at hperm
    exact hk (List.nil_perm.mp hperm)
  have hbegin : begin n now disk late s =
      { garden now late (((byTime s.known).map Prod.fst).foldl (submit (now + workerTimeout n)) s) with place := .top } := by
    unfold begin
    dsimp only
    rw [if_pos]
    unfold isWorking
    rw [hg.1, hg.2]
    cases hr : is.reverse with
    | nil => exact absurd (List.reverse_eq_nil_iff.mp hr) hne
    | cons x xs => cases s.pool.max <;> simp
  have hfiles : is.reverse.map Item.file = (byTime s.known).reverse.map Prod.fst := by
    rw [List.map_reverse, h1, List.map_reverse]
  refine ⟨(byTime s.known).reverse, (List.reverse_perm _).trans hperm, ?_, ?_, ?_, ?_, ?_⟩
  · rw [List.pairwise_reverse]
    exact hsort.imp fun {a b} h => by omega
  · rw [hact, hbegin]
    dsimp only
    rw [hg.1, List.map_map, List.map_take, List.map_take, ← hfiles]
    rfl
  · rw [hact, hbegin]
    dsimp only
    rw [hg.2, List.map_reverse, List.map_drop, hfiles, List.map_drop]
  · intro w hwm
    rw [hact, hbegin] at hwm
    dsimp only at hwm
    rw [hg.1, List.mem_map] at hwm
    obtain ⟨i, hi, rfl⟩ := hwm
    dsimp only
    rw [h5 i (List.mem_reverse.mp (List.mem_of_mem_take hi)), workerTimeout, Int.mul_comm]
  · rw [hact, hbegin]

/-- Disagreement: files are put in order with those changed last in front, but the pool takes work from the back: with one
worker, the file just changed is analysed last. -/
theorem newest_last :
    (run (M := Nat) 1 [('a', some 1), ('b', some 9), ('c', some 5)] [.begin 5 0 [] (fun _ => none)]).pool.workers.map (fun w => w.item.file) =
      ['a'] ∧
    (run (M := Nat) 1 [('a', some 1), ('b', some 9), ('c', some 5)] [.begin 5 0 [] (fun _ => none)]).pool.work.map Item.file = ['b', 'c'] := by
  decide

/-! ### C251: noticing changes and stopping -/

/-- **C251.** Two checks for changes are never less than a second apart. -/
theorem checks_apart (max : Nat) (disk : List (F × Option Int)) (acts : List (Act F M)) :
    (run max disk acts).checks.Pairwise fun a b => a + 1000 ≤ b := (run_timing max disk acts).apart

/-- **C251.** A change is not overlooked: between results, if the last check is at least a second ago and the time of a file differs
from the one known (or a file appeared or vanished), the pass ends; the loop is told to start over, what is known of the files is
what there is now, and the next pass starts with a new pool. -/
theorem change_ends_pass (max : Nat) (disk now_disk : List (F × Option Int)) (acts : List (Act F M)) (now : Int) (late : Item F → Option M)
    (hp : (run max disk acts).place = .periodic) (hs : (run max disk acts).stop = false) (h0 : 0 ≤ now)
    (hc : ∀ c ∈ (run max disk acts).checks, c + 1000 ≤ now) (f : F)
    (hf : (run max disk acts).known.lookup f ≠ timeNow now_disk f) :
    let t := run max disk (acts ++ [.go now now_disk late])
    t.place = .idle ∧ t.ending = .aborted ∧ t.flag = true ∧ t.changes = (run max disk acts).changes + 1 ∧
    t.blanks = (run max disk acts).blanks + 1 ∧ isWorking t.pool = false ∧ t.pool.results = [] ∧
    ∀ g, t.known.lookup g = timeNow now_disk g := by
  have hdue := (run_timing max disk acts).due
  have hrun : run max disk (acts ++ [.go now now_disk late]) = go now now_disk late (run max disk acts) := by
    unfold run
    rw [List.foldl_append]
    rfl
  dsimp only
  rw [hrun]
  generalize run max disk acts = s at *
  have hnext : now ≥ s.next := by
    rcases hdue with h | ⟨c, h1, h2⟩
    · omega
    · have := hc c h1
      omega
  have hchg := Verif.Watch.check_notices now_disk s.known f hf
  have hrec := Verif.Watch.check_records now_disk s.known
  have hper : (handlePeriodic now now_disk late s).2 = true ∧ (handlePeriodic now now_disk late s).1.flag = true ∧
      (handlePeriodic now now_disk late s).1.changes = s.changes + 1 ∧ (handlePeriodic now now_disk late s).1.blanks = s.blanks ∧
      isWorking (handlePeriodic now now_disk late s).1.pool = false ∧ (handlePeriodic now now_disk late s).1.pool.results = [] ∧
      (handlePeriodic now now_disk late s).1.known = (checkChanged now_disk s.known).1 := by
    unfold handlePeriodic
    rw [if_neg (show ¬ s.stop = true by rw [hs]; decide)]
    simp only [if_pos hnext, if_pos hchg]
    refine ⟨?_, ?_, ?_, ?_, ?_, ?_, ?_⟩ <;> trivial
  unfold go
  rw [hp]
  dsimp only
  obtain ⟨k1, k2, k3, k4, k5, k6, k7⟩ := hper
  simp only [if_pos k1]
  exact ⟨trivial, trivial, k2, k3, by rw [k4], k5, k6, by rw [k7]; exact hrec⟩

example : (run (M := Nat) 1 [('a', some 1)] [.begin 5 0 [] (fun _ => none), .start 0, .go 0 [] (fun _ => none)]).place = .periodic ∧
    (run (M := Nat) 1 [('a', some 1)] [.begin 5 0 [] (fun _ => none), .start 0, .go 0 [] (fun _ => none)]).known.lookup 'a' ≠
      timeNow [('a', some 2)] 'a' := by decide

/-- How many steps a pass can still take when asked to stop. -/
def stepsLeft (s : St F M) : Nat :=
  match s.place with
  | .idle => 0
  | .top => 2 * s.pool.results.length + 2
  | .resumed => 2 * s.pool.results.length + 3
  | .periodic => 1
  | .garden => 2 * (s.pool.results.length + s.pool.workers.length) + 3

omit [DecidableEq F] in
theorem garden_results (now : Int) (late : Item F → Option M) (s : St F M) :
    (garden now late s).pool.results.length ≤ s.pool.results.length + s.pool.workers.length := by
  unfold garden
  dsimp only [Verif.Watch.step]
  rw [spawn_exact _ _ (Nat.le_refl _)]
  unfold prune
  dsimp only
  rw [List.length_append]
  have := List.length_filterMap_le Prod.snd (s.pool.workers.map (killed Item.deadline (some now) (named late)))
  rw [List.length_map] at this
  omega

theorem go_steps (now : Int) (disk : List (F × Option Int)) (late : Item F → Option M) (s : St F M) (hs : s.stop = true)
    (hp : s.place ≠ .idle) : stepsLeft (go now disk late s) < stepsLeft s ∧ (go now disk late s).stop = true := by
  unfold go
  cases hpl : s.place with
  | idle => exact absurd hpl hp
  | top =>
    dsimp only
    split
    · split
      · rename_i hr
        refine ⟨?_, hs⟩
        simp only [stepsLeft, hpl]
        omega
      · rename_i r rest hr
        refine ⟨?_, hs⟩
        simp only [stepsLeft, hpl, Verif.Watch.step, hr, List.length_cons]
        omega
    · refine ⟨?_, hs⟩
      simp only [stepsLeft, hpl]
      omega
  | resumed =>
    dsimp only
    split
    · refine ⟨?_, hs⟩
      simp only [stepsLeft, hpl]
      omega
    · refine ⟨?_, hs⟩
      simp only [stepsLeft, hpl]
      omega
  | periodic =>
    dsimp only
    unfold handlePeriodic
    rw [if_pos hs]
    dsimp only
    rw [if_pos rfl]
    refine ⟨?_, hs⟩
    simp only [stepsLeft, hpl]
    omega
  | garden =>
    dsimp only
    refine ⟨?_, hs⟩
    have := garden_results now late s
    simp only [stepsLeft, hpl]
    omega

/-- **C251.** After a request to stop, a pass ends: from wherever it stands, within about two steps for each result waiting and each worker,
whatever is on disk and whatever killed workers still send. -/
theorem shutdown_ends (s : St F M) (hs : s.stop = true) (steps : List (Int × List (F × Option Int) × (Item F → Option M)))
    (hlen : 2 * (s.pool.results.length + s.pool.workers.length) + 3 ≤ steps.length) :
    (steps.foldl (fun s x => act s (.go x.1 x.2.1 x.2.2)) s).place = .idle := by
  have key : ∀ (l : List (Int × List (F × Option Int) × (Item F → Option M))) (s : St F M), s.stop = true →
      stepsLeft s ≤ l.length → (l.foldl (fun s x => act s (.go x.1 x.2.1 x.2.2)) s).place = .idle := by
    intro l
    induction l with
    | nil =>
      intro s _ h
      rw [List.foldl_nil]
      unfold stepsLeft at h
      cases hp : s.place <;> simp only [hp, List.length_nil] at h <;> first | rfl | omega
    | cons x xs ih =>
      intro s hs h
      rw [List.foldl_cons]
      by_cases hp : s.place = .idle
      · have hsame : act s (.go x.1 x.2.1 x.2.2) = s := by
          dsimp only [act]
          unfold go
          rw [hp]
        rw [hsame]
        refine ih s hs ?_
        unfold stepsLeft
        rw [hp]
        exact Nat.zero_le _
      · obtain ⟨h1, h2⟩ := go_steps x.1 x.2.1 x.2.2 s hs hp
        refine ih _ h2 ?_
        rw [List.length_cons] at h
        exact Nat.le_of_lt_succ (Nat.lt_of_lt_of_le h1 h)
  refine key steps s hs (Nat.le_trans ?_ hlen)
  unfold stepsLeft
  cases s.place <;> dsimp only <;> omega

example : (run (M := Nat) 1 [('a', some 1)] [.begin 5 0 [] (fun _ => none), .start 0, .shutdown, .go 0 [] (fun _ => none),
    .go 0 [] (fun _ => none)]).place = .idle := by decide

/-! ### C252: what analysed code prints -/

theorem splitlines_line (enc : List Nat) (hne : enc ≠ []) (hl : ∀ c ∈ enc, c ≠ 10 ∧ c ≠ 13) : splitlines (enc ++ [10]) = [enc] := by
  induction enc with
  | nil => exact absurd rfl hne
  | cons c rest ih =>
    have hc := hl c (List.mem_cons_self ..)
    cases rest with
    | nil =>
      show splitlines [c, 10] = [[c]]
      rw [splitlines, if_neg (by omega), if_neg (by omega)]
      rfl
    | cons d rest =>
      have := ih (by simp) (fun x hx => hl x (List.mem_cons_of_mem _ hx))
      rw [List.cons_append, List.cons_append] at *
      rw [splitlines, if_neg (by omega), if_neg (by omega), this]

/-- Text that ends with the end of a line, or is empty. -/
def Terminated (noise : List Nat) : Prop := ∀ c, noise.getLast? = some c → c = 10 ∨ c = 13

theorem splitlines_after (rest e : List Nat) (hr : ∃ d ds, rest = d :: ds ∧ d ≠ 10) (he : (splitlines rest).getLast? = some e) :
    ∀ noise : List Nat, noise ≠ [] → Terminated noise → ∃ l ls, splitlines (noise ++ rest) = l :: ls ∧ ls.getLast? = some e := by
  obtain ⟨d0, ds, hrest, hd0⟩ := hr
  intro noise
  induction noise using splitlines.induct with
  | case1 => exact fun h => absurd rfl h
  | case2 c hc =>
    intro _ _
    refine ⟨[], splitlines rest, ?_, he⟩
    rw [hrest]
    show splitlines (c :: d0 :: ds) = _
    rw [splitlines, if_neg (by omega), if_pos hc]
  | case3 c hc => exact fun _ ht => absurd (ht c rfl) hc
  | case4 c d r hcd ih =>
    intro _ ht
    by_cases hnil : r = []
    · subst hnil
      refine ⟨[], splitlines rest, ?_, he⟩
      show splitlines (c :: d :: rest) = _
      rw [splitlines, if_pos hcd]
    · obtain ⟨l, ls, h1, h2⟩ := ih hnil (by
        intro x hx
        refine ht x ?_
        rw [List.getLast?_cons, List.getLast?_cons, hx]
        rfl)
      refine ⟨[], l :: ls, ?_, ?_⟩
      · rw [List.cons_append, List.cons_append, splitlines, if_pos hcd, h1]
      · rw [List.getLast?_cons, h2]
        rfl
  | case5 c d r hcd hc ih =>
    intro _ ht
    obtain ⟨l, ls, h1, h2⟩ := ih (by simp) (by
      intro x hx
      refine ht x ?_
      rw [List.getLast?_cons, hx]
      rfl)
    refine ⟨[], l :: ls, ?_, ?_⟩
    · rw [List.cons_append] at h1
      rw [List.cons_append, List.cons_append, splitlines, if_neg hcd, if_pos hc, h1]
    · rw [List.getLast?_cons, h2]
      rfl
  | case6 c d r hcd hc hs ih =>
    intro _ ht
    obtain ⟨l, ls, h1, h2⟩ := ih (by simp) (by
      intro x hx
      refine ht x ?_
      rw [List.getLast?_cons, hx]
      rfl)
    refine ⟨c :: l, ls, ?_, h2⟩
    rw [List.cons_append] at h1
    rw [List.cons_append, List.cons_append, splitlines, if_neg hcd, if_neg hc, h1]
  | case7 c d r hcd hc l0 ls0 hs ih =>
    intro _ ht
    obtain ⟨l, ls, h1, h2⟩ := ih (by simp) (by
      intro x hx
      refine ht x ?_
      rw [List.getLast?_cons, hx]
      rfl)
    refine ⟨c :: l, ls, ?_, h2⟩
    rw [List.cons_append] at h1
    rw [List.cons_append, List.cons_append, splitlines, if_neg hcd, if_neg hc, h1]

/-- **C252, in part.** The result of an analysis arrives whatever the analysed code prints, provided that what it prints ends with the end of a line (or it
prints nothing).  `pack` and `unpack` stand for pickling with compression and the reverse.  Missing: text that does not end
with the end of a line, see `unfinished_line_loses_result`. -/
theorem result_arrives_partial {A : Type} (pack : A → List Nat) (unpack : List Nat → Option A) (x : A) (noise : List Nat)
    (hb : ∀ b ∈ pack x, b < 256) (hne : pack x ≠ []) (hu : unpack (pack x) = some x) (ht : Terminated noise) :
    received unpack (workerOutput pack noise x) = some x := by
  have hser : serialize pack x = Verif.B64.encoded (Verif.B64.charOf Verif.B64.stdAlphabet) (pack x) := by
    unfold serialize
    rw [Verif.B64.encode_rfc _ _ _ hb]
    simp
  have hchars : ∀ c ∈ serialize pack x, c ≠ 10 ∧ c ≠ 13 := by
    rw [hser]
    intro c hc
    unfold Verif.B64.encoded at hc
    rcases List.mem_append.mp hc with hc | hc
    · obtain ⟨v, hv, rfl⟩ := List.mem_map.mp hc
      have := Verif.B64.charOf_mem Verif.B64.std_is_alphabet (Verif.B64.sextets_lt hb v hv)
      have hall : ∀ c ∈ Verif.B64.stdAlphabet, c ≠ 10 ∧ c ≠ 13 := by decide +kernel
      exact hall _ this
    · unfold Verif.B64.padding at hc
      rw [List.eq_of_mem_replicate hc]
      decide
  have hsne : serialize pack x ≠ [] := by
    rw [hser]
    unfold Verif.B64.encoded
    cases hp : pack x with
    | nil => exact absurd hp hne
    | cons a l =>
      have hlen := Verif.B64.sextets_length (a :: l)
      intro hnil
      have h1 := (List.append_eq_nil_iff.mp hnil).1
      rw [List.map_eq_nil_iff] at h1
      rw [h1, List.length_nil, List.length_cons] at hlen
      omega
  have hline := splitlines_line _ hsne hchars
  have hlast : (splitlines (workerOutput pack noise x)).getLast? = some (serialize pack x) := by
    unfold workerOutput
    rw [List.append_assoc]
    by_cases hn : noise = []
    · rw [hn, List.nil_append, hline]
      rfl
    · obtain ⟨l, ls, h1, h2⟩ := splitlines_after (serialize pack x ++ [10]) (serialize pack x) (by
        cases hs : serialize pack x with
        | nil => exact absurd hs hsne
        | cons d ds => exact ⟨d, ds ++ [10], rfl, (hchars d (by rw [hs]; exact List.mem_cons_self ..)).1⟩) (by
        rw [hline]; rfl) noise hn ht
      rw [h1, List.getLast?_cons, h2]
      rfl
  unfold received
  rw [hlast]
  dsimp only
  unfold deserialize serialize
  rw [Verif.B64.decode_encode Verif.B64.std_is_alphabet hb false true false 0 (by simp) true (by simp)]
  exact hu

example : received (fun l => some l) (workerOutput (fun l : List Nat => l) [104, 105, 10, 13, 10] [120, 156, 0]) = some [120, 156, 0] := by
  decide +kernel

/-- Disagreement: if the analysed code prints something without ending the line, the result is attached to it and is not read:
the analysis of the file is lost. -/
theorem unfinished_line_loses_result {A : Type} (unpack : List Nat → Option A) (x : A) :
    received unpack (workerOutput (fun _ => [120, 156, 0]) [104] x) = none := by
  have h1 : (splitlines (workerOutput (fun _ : A => [120, 156, 0]) [104] x)) = [[104, 101, 74, 119, 65]] := by
    show splitlines ([104] ++ Verif.B64.b2a Verif.B64.stdAlphabet false true 0 [120, 156, 0] ++ [10]) = _
    decide +kernel
  have h2 : Verif.B64.a2b Verif.B64.stdAlphabet false true [104, 101, 74, 119, 65] = none := by decide +kernel
  unfold received
  rw [h1]
  show (Verif.B64.a2b Verif.B64.stdAlphabet false true [104, 101, 74, 119, 65]).bind unpack = none
  rw [h2]
  rfl

end Verif.Passes
