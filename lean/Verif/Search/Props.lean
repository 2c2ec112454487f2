import Verif.Search.Hist
import Verif.Search.Demo
/-
Properties of the path search.
-/
namespace Verif.Search
variable {W : World}

/-! ### C01 -/

/-- C01. When the analysis says CONFIRMED, every concrete input has a run of the program that
ends, and ends well: confirmed, ignored (a precondition is not met), or found to be no legal
input at all.  `scripts` ranges over every schedule: any number of iterations, any random draws,
any solver answers and model values, any timeouts, as long as `unsat` answers are right. -/
theorem confirmed_covers_every_input (P : Prog W) (hd : DetachUniform P) (s0 : P.S)
    (pre0 : Option FailPre) (scripts : List (List (Env W)))
    (henv : ∀ sc ∈ scripts, ∀ env ∈ sc, env.UnsatSound)
    (v : Verdict) (hv : analyzeCalltree P s0 pre0 scripts = .ok v)
    (hc : v.status = .confirmed) :
    ∀ i : W.Inp, ∃ o, Runs P i s0 o ∧ Fine o := by
  unfold analyzeCalltree at hv
  rw [map_ok_iff] at hv
  obtain ⟨l, hl, rfl⟩ := hv
  obtain ⟨g, st⟩ := explore_good hd s0 scripts henv _ _ (by trivial) (by trivial) hl
  have hs : l.root.result.status = some .confirmed := by
    simp only [conclude] at hc
    split at hc
    · exact absurd hc (by simp)
    · cases h : l.root.result.status <;> simp_all
  have hf : Fine (some l.root.result) := Or.inr hs
  intro i
  exact g.claim (st.top hf) hf i (by simp [Meets])

/-- A run is determined by the input when the program never forks into alternative strategies. -/
theorem runs_deterministic (P : Prog W) (hnf : ∀ s k, P.act s ≠ .fork k) (i : W.Inp) (s : P.S)
    (o1 o2 : Option Analysis) (h1 : Runs P i s o1) (h2 : Runs P i s o2) : o1 = o2 := by
  induction h1 with
  | done ha => cases h2 <;> simp_all
  | ask ha _ ih =>
    cases h2 with
    | ask ha' h => rw [ha] at ha'; simp only [Action.ask.injEq] at ha'; obtain ⟨rfl, rfl⟩ := ha'; exact ih h
    | _ => simp_all
  | realize ha _ ih =>
    cases h2 with
    | realize ha' h => rw [ha] at ha'; simp only [Action.realize.injEq] at ha'; obtain ⟨rfl, rfl⟩ := ha'; exact ih h
    | _ => simp_all
  | fork b ha => exact absurd ha (hnf _ _)
  | assume ha hh _ ih =>
    cases h2 with
    | assume ha' hh' h => rw [ha] at ha'; simp only [Action.assume.injEq] at ha'; obtain ⟨rfl, rfl⟩ := ha'; exact ih h
    | excluded ha' hh' => rw [ha] at ha'; simp only [Action.assume.injEq] at ha'; obtain ⟨rfl, rfl⟩ := ha'; rw [hh] at hh'; simp at hh'
    | _ => simp_all
  | excluded ha hh =>
    cases h2 with
    | excluded => rfl
    | assume ha' hh' h => rw [ha] at ha'; simp only [Action.assume.injEq] at ha'; obtain ⟨rfl, rfl⟩ := ha'; rw [hh] at hh'; simp at hh'
    | _ => simp_all
  | cap ha _ ih =>
    cases h2 with
    | cap ha' h => rw [ha] at ha'; simp only [Action.cap.injEq] at ha'; subst ha'; exact ih h
    | _ => simp_all
  | detach ha _ ih =>
    cases h2 with
    | detach ha' h => rw [ha] at ha'; simp only [Action.detach.injEq] at ha'; subst ha'; exact ih h
    | _ => simp_all

/-- C01, for programs that do not fork into alternative strategies: after CONFIRMED no input at
all reaches a refuted or undecided end. -/
theorem confirmed_excludes_failures (P : Prog W) (hnf : ∀ s k, P.act s ≠ .fork k)
    (hd : DetachUniform P) (s0 : P.S)
    (pre0 : Option FailPre) (scripts : List (List (Env W)))
    (henv : ∀ sc ∈ scripts, ∀ env ∈ sc, env.UnsatSound)
    (v : Verdict) (hv : analyzeCalltree P s0 pre0 scripts = .ok v)
    (hc : v.status = .confirmed) (i : W.Inp) (o : Option Analysis) (hr : Runs P i s0 o) :
    Fine o := by
  obtain ⟨o', h1, h2⟩ := confirmed_covers_every_input P hd s0 pre0 scripts henv v hv hc i
  rwa [runs_deterministic P hnf i s0 o o' hr h1]

/-- The program `guarded (fun _ => false)` is confirmed after exploring all six of its paths. -/
example : ∃ v, analyzeCalltree (Demo.guarded fun _ => false) (.inl none) (some ⟨1, ""⟩)
      (List.replicate 6 (Demo.path true)) = .ok v ∧ v.status = .confirmed :=
  ⟨_, rfl, rfl⟩

/-- ... and not after five. -/
example : ∃ v, analyzeCalltree (Demo.guarded fun _ => false) (.inl none) (some ⟨1, ""⟩)
      (List.replicate 5 (Demo.path true)) = .ok v ∧ v.status = .unknown :=
  ⟨_, rfl, rfl⟩

/-- A program that always asks for its result to be capped at UNKNOWN
(`cap_result_at_unknown`, statespace.py:1315-1318, used at builtinslib.py:1677) on one side. -/
def cappedProg : Prog Demo.world where
  S := Option Bool × Bool
  act
    | (none, _) => .ask (Demo.Ex.lt 3) fun b => (some b, false)
    | (some true, false) => .cap (some true, true)
    | (some _, _) => .done true { status := some .confirmed }

/-- The cap on the root result is forgotten: it is applied to the root's stored analysis
(statespace.py:1342-1346) which the next iteration recomputes, so a program one of whose paths
asked for UNKNOWN is still reported CONFIRMED.  (The source has a TODO about this at 1316.) -/
theorem cap_does_not_prevent_confirmed :
    ∃ v, analyzeCalltree cappedProg (none, false) none
      [Demo.path true, Demo.path true] = .ok v ∧ v.status = .confirmed :=
  ⟨_, rfl, rfl⟩

/-! ### C02 -/

/-- C02. When the analysis says REFUTED, either no path met the preconditions (PRE_UNSAT), or
there is a concrete input on which the program really fails; and every message reported is
produced by the run of some concrete input.  The solver's answers must be right, and the
constraints the program adds by itself must be consistent. -/
theorem refuted_is_real (P : Prog W) (s0 : P.S) (hadd : AddsConsistent P s0)
    (hne : Nonempty W.Inp) (pre0 : Option FailPre) (scripts : List (List (Env W)))
    (hu : ∀ sc ∈ scripts, ∀ env ∈ sc, env.UnsatSound)
    (hs : ∀ sc ∈ scripts, ∀ env ∈ sc, env.SatSound)
    (v : Verdict) (hv : analyzeCalltree P s0 pre0 scripts = .ok v) :
    (v.status = .refuted → v.preUnsat.isSome ∨
      ∃ (i : W.Inp) (a : Analysis), Runs P i s0 (some a) ∧ a.status = some .refuted) ∧
    (∀ m ∈ v.messages, ∃ (i : W.Inp) (a : Analysis), Runs P i s0 (some a) ∧ m ∈ a.messages) := by
  unfold analyzeCalltree at hv
  rw [map_ok_iff] at hv
  obtain ⟨l, hl, rfl⟩ := hv
  obtain ⟨h, hh⟩ := explore_history s0 scripts _ _ hl
  have hk := (history_owed s0 hadd hne scripts hu hs _ h _ (loopOK_stem s0)
    (by simp [AllRes]) hh).top (owed_closed s0)
  refine ⟨?_, hk.2⟩
  intro hr
  simp only [conclude] at hr ⊢
  split at hr
  · left; assumption
  · right
    apply hk.1
    cases h : l.root.result.status <;> simp_all

/-- The failing input 5 of `guarded (· == 5)` is found. -/
example : ∃ v, analyzeCalltree (Demo.guarded (· == 5)) (.inl none) (some ⟨1, ""⟩)
      (List.replicate 6 (Demo.path false)) = .ok v ∧ v.status = .refuted ∧ v.preUnsat = none ∧
      v.messages = ["post failed"] :=
  ⟨_, rfl, rfl, rfl, rfl⟩

example (bad : Nat → Bool) : AddsConsistent (Demo.guarded bad) (.inl none) := by
  intro s pc e s' _ h
  exfalso
  revert h
  rcases s with (_ | v) | (_ | _) <;> simp [Demo.guarded]

/-! ### C03 -/

/-- C03. For a deterministic program, no iteration repeats a finished one: the decisions of an
earlier iteration are never a prefix of those of a later one.  No assumption on the solver. -/
theorem iterations_never_repeat (P : Prog W) (s0 : P.S) (hna : ∀ s, P.act s ≠ .abort)
    (scripts : List (List (Env W))) (h : List (Out W.E W.V)) (t : Tree W.E W.V)
    (hh : history P s0 scripts .stem = .ok (h, t)) :
    h.Pairwise fun earlier later => ¬ earlier.trace <+: later.trace :=
  (history_fresh s0 hna scripts .stem h t (loopOK_stem s0) hh).1

/-- C03. For a deterministic program the search never runs into a node with no open branch: the
assertion in `choose` (statespace.py:531) cannot fail. -/
theorem search_never_stuck (P : Prog W) (s0 : P.S) (pre0 : Option FailPre)
    (scripts : List (List (Env W))) :
    analyzeCalltree P s0 pre0 scripts ≠ .error .assertion := by
  have h := explore_no_assertion (P := P) s0 scripts
    { root := .stem, failPre := pre0, confirmedPaths := 0 } (loopOK_stem s0)
  unfold analyzeCalltree
  cases he : explore P s0 scripts { root := .stem, failPre := pre0, confirmedPaths := 0 } with
  | ok l => simp [Except.map]
  | error e => rw [he] at h; simpa [Except.map] using h

example : ∃ h t, history (Demo.guarded fun _ => false) (.inl none)
    (List.replicate 9 (Demo.path true)) .stem = .ok (h, t) ∧
    h.map (·.trace) = [[true], [false, true], [false, false, true], [false, false, false, true],
      [false, false, false, false, true], [false, false, false, false, false, true]] ∧ t.exhausted :=
  ⟨_, _, rfl, rfl, rfl⟩

/-- C03. Once part of the tree is finished it never changes again: continuing the exploration
with `more` iterations keeps every exhausted subtree exactly as it was. -/
theorem finished_parts_never_change (P : Prog W) (s0 : P.S) (scripts more : List (List (Env W)))
    (h h' : List (Out W.E W.V)) (t t' : Tree W.E W.V)
    (h1 : history P s0 scripts .stem = .ok (h, t))
    (h2 : history P s0 (scripts ++ more) .stem = .ok (h', t'))
    (q : List Bool) (u : Tree W.E W.V) (hq : below t q = some u) (hu : u.exhausted = true) :
    below t' q = some u := by
  rcases history_append s0 scripts more _ _ _ _ _ (loopOK_stem s0) h1 h2 with
    ⟨-, rfl⟩ | ⟨hl, h3, hm, -⟩
  · exact hq
  · exact history_frozen s0 more t _ _ hl hm q u hq hu

/-! ### C04 -/

/-- C04. If the program has at most `n` decision paths, the loop stops by itself after at most
`n` iterations, however many it would be allowed and whatever it draws. -/
theorem exploration_terminates (P : Prog W) (s0 : P.S) (hna : ∀ s, P.act s ≠ .abort)
    (n : Nat) (hn : PathBound P s0 (fun _ => True) n) (scripts : List (List (Env W)))
    (hs : ∀ sc ∈ scripts, ∀ env ∈ sc, env.SatSound)
    (h : List (Out W.E W.V)) (t : Tree W.E W.V)
    (hh : history P s0 scripts .stem = .ok (h, t)) : h.length ≤ n :=
  history_count s0 hna scripts hs .stem h t n rfl
    ⟨_, _, _, n, .refl, Nat.le_refl _, hn.mono fun _ _ => trivial⟩ hh

/-- `guarded` has a path bound. -/
example (bad : Nat → Bool) : PathBound (Demo.guarded bad) (.inl none) (fun _ => True) 10 := by
  have h2 : PathBound (Demo.guarded bad) (.inr false)
      (fun i => True ∧ Demo.world.holds (Demo.Ex.lt 3) i = false) 9 :=
    PathBound.realize (P := Demo.guarded bad) (x := ()) (k := fun v => .inl (some v))
      (List.range 8) (fun _ => 1) rfl (fun i _ => List.mem_range.2 (Fin.isLt i))
      (fun v _ => .done rfl)
  exact PathBound.ask (P := Demo.guarded bad) (s := .inl none) (A := fun _ => True)
    (e := Demo.Ex.lt 3) (k := Sum.inr) (m := 1) (n := 9) rfl (.done rfl) h2

/-! ### C07 -/

/-- C07, first half: a deterministic program is never reported as nondeterministic.  Every
iteration ends either in an analysis the program itself produced or UNKNOWN. -/
theorem deterministic_never_flagged (P : Prog W) (s0 : P.S) (scripts : List (List (Env W)))
    (h : List (Out W.E W.V)) (t : Tree W.E W.V)
    (hh : history P s0 scripts .stem = .ok (h, t)) :
    ∀ o ∈ h, Reach P s0 o.leaf ∨ o.leaf = .unknown :=
  history_leaf s0 scripts .stem h t (loopOK_stem s0) hh

/-- C07, second half: a program that, at a point where a question was recorded, asks another
question (or forks, or realizes a value) is refuted with the nondeterminism message; the recorded
subtrees are not touched. -/
theorem different_question_detected (P : Prog W) (env : Env W) (rest : List (Env W))
    (s : P.S) (kn pc : List (W.E × Bool)) (det : Bool)
    (mv : Option W.V) (e e' : W.E) (k : Bool → P.S) (f p n r x)
    (ha : P.act s = .ask e k) (hk : known? kn e = none) (hne : e' ≠ e) :
    iter P (env :: rest) (.worst mv e' f p n r x) s kn pc det =
      .ok { tree := .worst mv e' f p n .notDet true, leaf := .notDet } := by
  simp [iter, ha, hk, nodeForAsk, hne, finish]

/-- C07: so does one that forks into strategies where a question was recorded ... -/
theorem fork_for_question_detected (P : Prog W) (env : Env W) (rest : List (Env W))
    (s : P.S) (kn pc : List (W.E × Bool)) (det : Bool)
    (mv : Option W.V) (e' : W.E) (k : Bool → P.S) (f p n r x) (ha : P.act s = .fork k) :
    iter P (env :: rest) (.worst mv e' f p n r x) s kn pc det =
      .ok { tree := .worst mv e' f p n .notDet true, leaf := .notDet } := by
  simp [iter, ha, nodeForFork, finish]

/-- ... or asks where it forked before ... -/
theorem question_for_fork_detected (P : Prog W) (env : Env W) (rest : List (Env W))
    (s : P.S) (kn pc : List (W.E × Bool)) (det : Bool) (e : W.E) (k : Bool → P.S) (p n r x)
    (ha : P.act s = .ask e k) (hk : known? kn e = none) :
    iter P (env :: rest) (.par p n r x) s kn pc det =
      .ok { tree := .par p n .notDet true, leaf := .notDet } := by
  simp [iter, ha, hk, nodeForAsk, finish]

/-- ... or realizes a value where it asked a yes/no question. -/
theorem realize_for_question_detected (P : Prog W) (env : Env W) (rest : List (Env W))
    (s : P.S) (kn pc : List (W.E × Bool)) (det : Bool) (e' : W.E) (y : W.X) (k : W.V → P.S)
    (f p n r x) (ha : P.act s = .realize y k) :
    iter P (env :: rest) (.worst none e' f p n r x) s kn pc det =
      .ok { tree := .worst none e' f p n .notDet true, leaf := .notDet } := by
  simp [iter, ha, nodeForRealize, finish]

/-- A world with two symbolic bits that can be realized. -/
def bits : World where
  E := Bool × Bool
  X := Bool
  V := Bool
  Inp := Bool × Bool
  holds e i := decide ((if e.1 then i.1 else i.2) = e.2)
  value x i := if x then i.1 else i.2
  eqE x v := (x, v)
  eqE_spec := by intro x v i; simp

/-- Realizes the first or the second bit, depending on hidden state. -/
def fickle (hidden : Bool) : Prog bits where
  S := Option Bool
  act
    | none => .realize hidden some
    | some b => .done true { status := some (if b then .confirmed else .refuted) }

/-- C07 is not true of realized values: a program that realizes one expression in the first
iteration and a different one in the second, at the same point, goes unnoticed
(statespace.py:1078-1094 does not compare the expression with the recorded one), and is given the
recorded value although its own expression need not have that value. -/
theorem different_realization_undetected :
    ∃ (env : Env bits) (o1 o2 : Out bits.E bits.V),
      iter (fickle true) [env, env, env] .stem none [] [] false = .ok o1 ∧
      iter (fickle false) [env, env, env] o1.tree none [] [] false = .ok o2 ∧
      o2.leaf ≠ .notDet ∧ (fickle true).act none ≠ (fickle false).act none :=
  ⟨⟨true, fun _ => .sat, fun _ _ => true⟩, _, _, rfl, rfl,
    by decide, fun h => Bool.noConfusion (Action.realize.inj h).1⟩

/-- A program that ends where it asked a question before also goes unnoticed: the recorded node
is simply overwritten as finished. -/
theorem early_end_undetected (P : Prog W) (env : Env W) (rest : List (Env W))
    (s : P.S) (kn pc : List (W.E × Bool)) (det : Bool)
    (mv : Option W.V) (e' : W.E) (f p n r x ret a) (ha : P.act s = .done ret a) :
    iter P (env :: rest) (.worst mv e' f p n r x) s kn pc det =
      .ok { tree := .worst mv e' f p n a true, leaf := a, returned := ret } := by
  simp [iter, ha, finish]

/-! ### C05 -/

section
variable {E V : Type}

/-- C05: the merged status is the worst of the two. -/
theorem merge_takes_worst (l : Analysis) (x : Bool) (n : Tree E V) :
    (mergeNodeResults l x n).1.status = worst l.status n.result.status := by
  unfold mergeNodeResults
  simp only []
  split
  · rename_i h; rw [h]; rfl
  · rename_i h2 _
    rw [h2]
    cases hl : l.status with
    | none => rfl
    | some s => cases s <;> rfl
  · rename_i a b h1 h2
    rw [h1, h2]
    cases a <;> cases b <;> rfl

theorem worst_comm (a b : Option Status) : worst a b = worst b a := by
  rcases a with _ | _ | _ | _ <;> rcases b with _ | _ | _ | _ <;> rfl

theorem worst_assoc (a b c : Option Status) : worst (worst a b) c = worst a (worst b c) := by
  rcases a with _ | _ | _ | _ <;> rcases b with _ | _ | _ | _ <;> rcases c with _ | _ | _ | _ <;> rfl

/-- C05: the merge is exhausted exactly when both sides are. -/
theorem merge_exhausted (l : Analysis) (x : Bool) (n : Tree E V) :
    (mergeNodeResults l x n).2 = (x && n.exhausted) := by
  unfold mergeNodeResults
  simp only []
  split <;> cases x <;> cases n.exhausted <;> rfl

/-- C05: no message of a side that counts is lost, and left messages come first. -/
theorem merge_messages (l : Analysis) (x : Bool) (n : Tree E V)
    (hl : l.status = none → l.messages = [])
    (hn : n.result.status = none → n.result.messages = []) :
    (mergeNodeResults l x n).1.messages = l.messages ++ n.result.messages := by
  unfold mergeNodeResults
  simp only []
  split
  · rename_i h; rw [hl h]; rfl
  · rename_i h2 _; rw [hn h2]; simp
  · rfl

/-- C05: of two failing preconditions the one furthest down the file is remembered. -/
theorem merge_failing_precondition (l : Analysis) (x : Bool) (n : Tree E V)
    (hl : l.status ≠ none) (hn : n.result.status ≠ none) :
    (∀ c, (mergeNodeResults l x n).1.failPre = some c →
      (l.failPre = some c ∨ n.result.failPre = some c) ∧
      (∀ d, l.failPre = some d ∨ n.result.failPre = some d → d.line ≤ c.line)) ∧
    ((mergeNodeResults l x n).1.failPre = none ↔ l.failPre = none ∧ n.result.failPre = none) := by
  unfold mergeNodeResults
  simp only []
  cases hls : l.status with
  | none => exact absurd hls hl
  | some ls =>
    cases hns : n.result.status with
    | none => exact absurd hns hn
    | some ns =>
      simp only []
      cases hlf : l.failPre <;> cases hnf : n.result.failPre <;> simp
      split
      · simp
        rintro d (rfl | rfl) <;> omega
      · simp
        rintro d (rfl | rfl) <;> omega

/-- C05: a fork whose direction is open is the worst of both sides; a refuted side, or the only
possible side, decides alone. -/
theorem fork_status (f : Option Bool) (p n : Tree E V) :
    (worstCompute f p n).1.status =
      match f with
      | some true => p.status
      | some false => if p.status = some .refuted then p.status else n.status
      | none => worst p.status n.status := by
  unfold worstCompute
  cases f with
  | some b =>
    cases b with
    | true => simp; rfl
    | false =>
      by_cases h : p.status = some .refuted
      · simp [h]; exact h
      · simp [h]; rfl
  | none =>
    simp only [reduceCtorEq, or_false]
    split
    · rename_i h
      show p.status = _
      rw [h]; cases n.status <;> rfl
    · split
      · rename_i h
        show n.status = _
        rw [h, worst_comm]; cases p.status <;> rfl
      · exact merge_takes_worst _ _ _

/-! ### C06 -/

/-- C06: the status of a parallel node is the status of a finished strategy, or the worst
of both. -/
theorem parallel_status_justified (p n : Tree E V) (s : Status)
    (h : (parCompute p n).1.status = some s) :
    (p.exhausted = true ∧ p.status = some s) ∨ (n.exhausted = true ∧ n.status = some s) ∨
      worst p.status n.status = some s := by
  unfold parCompute at h
  split at h
  · rename_i hp; exact Or.inl ⟨hp.1, h⟩
  · split at h
    · rename_i hn; exact Or.inr (Or.inl ⟨hn.1, h⟩)
    · rw [merge_takes_worst] at h
      exact Or.inr (Or.inr h)

/-- C06: a strategy that finished with CONFIRMED or REFUTED decides, and the node is finished;
if both finished the first one does. -/
theorem parallel_finished_decides (p n : Tree E V) (s : Status) (hs : s ≠ .unknown)
    (hp : p.exhausted = true) (hst : p.status = some s) :
    (parCompute p n).1 = p.result ∧ (parCompute p n).2 = true := by
  have : ¬ p.status = some .unknown := by rw [hst]; simpa using hs
  simp [parCompute, hp, this]

theorem parallel_second_decides (p n : Tree E V) (s : Status) (hs : s ≠ .unknown)
    (hp : p.exhausted = false) (hn : n.exhausted = true) (hst : n.status = some s) :
    (parCompute p n).1 = n.result ∧ (parCompute p n).2 = true := by
  have : ¬ n.status = some .unknown := by rw [hst]; simpa using hs
  simp [parCompute, hp, hn, this]

/-- A strategy all of whose paths were ignored also finishes the node, and hides a
counterexample the other strategy has already found (statespace.py:558-565 asks
`status != UNKNOWN`, which `None` satisfies). -/
theorem parallel_ignored_hides_refuted :
    ∃ p n : Tree E V, p.exhausted = true ∧ n.status = some .refuted ∧
      (parCompute p n).1.status = none ∧ (parCompute p n).2 = true :=
  ⟨.leaf {} true, .leaf { status := some .refuted } false, rfl, rfl, rfl, rfl⟩

end

/-! ### C08 -/

/-- C08. The verdict of a whole analysis.
* CONFIRMED: the tree was explored completely, with no failing or undecided path, and if there
  are preconditions some path got past them.
* "precondition never met" is reported exactly when there are preconditions and no path that
  returned got past them. -/
theorem calltree_verdict (P : Prog W) (s0 : P.S)
    (pre0 : Option FailPre) (scripts : List (List (Env W)))
    (v : Verdict) (hv : analyzeCalltree P s0 pre0 scripts = .ok v) :
    ∃ h t, history P s0 scripts .stem = .ok (h, t) ∧
      (v.preUnsat.isSome ↔ pre0.isSome ∧ ∀ o ∈ h, ¬ PassedPre o) ∧
      (v.status = .confirmed ↔ v.preUnsat = none ∧ t.status = some .confirmed) ∧
      (v.status = .refuted ↔ v.preUnsat.isSome ∨ t.status = some .refuted) ∧
      v.messages = t.result.messages := by
  unfold analyzeCalltree at hv
  rw [map_ok_iff] at hv
  obtain ⟨l, hl, rfl⟩ := hv
  obtain ⟨h, hh, hfp, -⟩ := explore_history' s0 scripts _ _ hl
  refine ⟨h, l.root, hh, ?_, ?_, ?_, rfl⟩
  · simp only [conclude, hfp]
    cases pre0 with
    | none => simp [foldPre_none]
    | some fp => simpa using foldPre_isSome h fp
  · simp only [conclude, Tree.status]
    cases l.failPre <;> cases l.root.result.status <;> simp
  · simp only [conclude, Tree.status]
    cases l.failPre <;> cases l.root.result.status <;> simp

/-- C08: a CONFIRMED verdict is only given once the whole tree is exhausted. -/
theorem confirmed_only_when_exhausted (P : Prog W) (s0 : P.S)
    (pre0 : Option FailPre) (scripts : List (List (Env W)))
    (v : Verdict) (hv : analyzeCalltree P s0 pre0 scripts = .ok v) (hc : v.status = .confirmed) :
    ∃ h t, history P s0 scripts .stem = .ok (h, t) ∧ t.exhausted = true := by
  obtain ⟨h, t, hh, -, h1, -⟩ := calltree_verdict P s0 pre0 scripts v hv
  have hs : Settled t := history_settled s0 scripts .stem h t (by simp [Settled]) hh
  exact ⟨h, t, hh, hs.top (Or.inr (h1.1 hc).2)⟩

/-- C08: the internal check `num_confirmed_paths == 0` (core.py:1363) never fails when
"precondition never met" is reported. -/
theorem preUnsat_no_confirmed_path (P : Prog W) (hP : Honest P) (s0 : P.S)
    (pre0 : Option FailPre) (scripts : List (List (Env W)))
    (v : Verdict) (hv : analyzeCalltree P s0 pre0 scripts = .ok v) (hp : v.preUnsat.isSome) :
    v.confirmedPaths = 0 := by
  unfold analyzeCalltree at hv
  rw [map_ok_iff] at hv
  obtain ⟨l, hl, rfl⟩ := hv
  obtain ⟨h, hh, hfp, hcp⟩ := explore_history' s0 scripts _ _ hl
  have hnp : ∀ o ∈ h, ¬ PassedPre o := by
    simp only [conclude, hfp] at hp
    cases pre0 with
    | none => simp [foldPre_none] at hp
    | some fp => exact (foldPre_isSome h fp).1 hp
  simp only [conclude, hcp, Nat.zero_add, List.countP_eq_zero, decide_eq_true_eq]
  intro o ho hc
  apply hnp o ho
  rcases history_ends s0 scripts _ h _ hh o ho with ⟨s, hs⟩ | hu | hu
  · obtain ⟨h1, h2⟩ := hP s _ _ hs
    refine ⟨?_, ?_, by simp [hc]⟩
    · cases hr : o.returned with
      | true => rfl
      | false => exact absurd hc (h2 hr)
    · cases hf : o.leaf.failPre with
      | none => rfl
      | some c => have := h1 (by simp [hf]); rw [hc] at this; simp at this
  · rw [hu] at hc; simp [Analysis.unknown] at hc
  · rw [hu] at hc; simp [Analysis.notDet] at hc

example (bad : Nat → Bool) : Honest (Demo.guarded bad) := by
  intro s r a h
  rcases s with (_ | v) | (_ | _) <;> simp [Demo.guarded] at h <;>
    obtain ⟨rfl, rfl⟩ := h
  · refine ⟨?_, by simp⟩
    split <;> simp
  · simp

/-- No input of `guarded` below 3 and nothing else: all preconditions fail. -/
example : ∃ v, analyzeCalltree (Demo.guarded fun _ => false) (.inl none) (some ⟨1, ""⟩)
      [Demo.path true] = .ok v ∧ v.preUnsat = some ⟨1, ""⟩ ∧ v.status = .refuted :=
  ⟨_, rfl, rfl, rfl⟩

/-- "Unable to meet precondition" is also reported when the only path tried timed out before
returning: the paths that raise do not touch the bookkeeping (core.py:1292-1333), so the message
does not mean that preconditions were found to fail. -/
theorem preUnsat_after_timeout :
    (∃ v, analyzeCalltree (Demo.guarded fun _ => false) (.inl none) (some ⟨1, ""⟩)
      [[]] = .ok v ∧ v.preUnsat.isSome ∧ v.status = .refuted) ∧
    ∃ (i : Demo.world.Inp) (a : Analysis), Runs (Demo.guarded fun _ => false) i (.inl none) (some a) ∧
      a.failPre = none ∧ a.status = some .confirmed :=
  ⟨⟨_, rfl, rfl, rfl⟩, (5 : Fin 8), _, .ask rfl (.realize rfl (.done rfl)), rfl, rfl⟩

end Verif.Search
