import Verif.Explore.Pair
import Verif.Search.Demo
import Verif.Pick.Props
/-
Properties of the commands that explore paths without a contract: `cover`, `search` and `diffbehavior`.
-/
namespace Verif.Explore
open Verif.Search
variable {W : World}

/-! ### Concrete cases -/

/-- Rounds that always draw the same side, never late, with an exact solver. -/
def steady (coin : Bool) : Nat → Tick Demo.world := fun _ => { script := Demo.path coin }

theorem steady_unsat (c : Bool) (i : Nat) : ∀ env ∈ (steady c i).script, env.UnsatSound := by
  intro env he
  obtain rfl := List.eq_of_mem_replicate he
  exact Demo.exact_unsatSound c

theorem steady_sat (c : Bool) (i : Nat) : ∀ env ∈ (steady c i).script, env.SatSound := by
  intro env he
  obtain rfl := List.eq_of_mem_replicate he
  exact Demo.exact_satSound c

/-- A function of the symbolic number `x`: it returns `x < n`. -/
def below (n : Nat) : Fun Demo.world Unit Bool where
  S := Option Bool
  start _ := none
  act
    | none => .ask (Demo.Ex.lt n) some
    | some b => .ret b

/-- A comparison of two functions of `x`; `tellable` says whether `repr` works. -/
def compare (fn1 fn2 : Fun Demo.world Unit Bool) (tellable : Bool := true) : Pair Demo.world where
  A := Unit
  R := Bool
  gen := { S := Unit, start := id, act := fun _ => .ret () }
  fn1 := fn1
  fn2 := fn2
  same := { S := Option Bool × Option Bool, start := id, act := fun r => .ret (r.1 == r.2) }
  tell :=
    { S := Option Nat, start := fun _ => none
      act := fun
        | none => .realize () some
        | some v => if tellable then .ret s!"x={v}" else .fail }

/-! ### C152 -/

/-- C152. When the exploration of paths for `cover` or `search` says that all paths are exhausted, every input is accounted for by
the paths that were reported: its run ends the way one of them did, or it is no legal input, or some path was cut short.  Any number
of rounds, any random draws, any callbacks and any solver, as long as `unsat` answers are right. -/
theorem exhausted_accounts (P : Prog W) (s0 : P.S) (maxStale : Option Nat) (maxIterations : Nat) (ticks : Nat → Tick W)
    (hu : ∀ i, ∀ env ∈ (ticks i).script, env.UnsatSound) (r : Explored W)
    (hr : explorePaths P s0 maxStale maxIterations ticks = .ok r) (hx : r.stop = .exhausted) (i : W.Inp) :
    Accounted P (fun a => ∃ o ∈ r.outs, o.leaf = a) i s0 :=
  rounds_account s0 maxStale ticks hu _ _ _ _ r (by simp [Cov]) hr (fun o ho => ⟨o, ho, rfl⟩) hx i

/-- C152. In particular, for a program that never detaches, and when no path was cut short, every input's run ends as one of the
reported paths did, or it is no legal input. -/
theorem exhausted_covers (P : Prog W) (s0 : P.S) (hnd : ∀ s s', P.act s ≠ .detach s') (maxStale : Option Nat)
    (maxIterations : Nat) (ticks : Nat → Tick W) (hu : ∀ i, ∀ env ∈ (ticks i).script, env.UnsatSound) (r : Explored W)
    (hr : explorePaths P s0 maxStale maxIterations ticks = .ok r) (hx : r.stop = .exhausted)
    (hk : ∀ o ∈ r.outs, o.leaf ≠ .unknown) (i : W.Inp) :
    Runs P i s0 none ∨ ∃ o ∈ r.outs, Runs P i s0 (some o.leaf) := by
  have h := exhausted_accounts P s0 maxStale maxIterations ticks hu r hr hx i
  clear hr
  induction h with
  | cut hu => obtain ⟨o, ho, he⟩ := hu; exact absurd he (hk o ho)
  | done ha hK => obtain ⟨o, ho, rfl⟩ := hK; exact Or.inr ⟨o, ho, .done ha⟩
  | ask ha _ ih => exact ih.imp (.ask ha) fun ⟨o, ho, h⟩ => ⟨o, ho, .ask ha h⟩
  | realize ha _ ih => exact ih.imp (.realize ha) fun ⟨o, ho, h⟩ => ⟨o, ho, .realize ha h⟩
  | fork b ha _ ih => exact ih.imp (.fork b ha) fun ⟨o, ho, h⟩ => ⟨o, ho, .fork b ha h⟩
  | assume ha hh _ ih => exact ih.imp (.assume ha hh) fun ⟨o, ho, h⟩ => ⟨o, ho, .assume ha hh h⟩
  | excluded ha hh => exact Or.inl (.excluded ha hh)
  | cap ha _ ih => exact ih.imp (.cap ha) fun ⟨o, ho, h⟩ => ⟨o, ho, .cap ha h⟩
  | detached ha _ _ => exact absurd ha (hnd _ _)

/-- `guarded` has six paths: they are all found, and then the search is exhausted. -/
example : ∃ r, explorePaths (Demo.guarded (· == 5)) (.inl none) none 9 (steady true) = .ok r ∧ r.stop = .exhausted ∧
    r.outs.length = 6 ∧ r.yields = ["post failed"] := ⟨_, rfl, rfl, rfl, rfl⟩

example (bad : Nat → Bool) : ∀ s s', (Demo.guarded bad).act s ≠ .detach s' := by
  intro s s'
  rcases s with (_ | v) | (_ | _) <;> simp [Demo.guarded]

/-! ### C153 -/

/-- C153. Everything that is handed over (a path to cover, an example) belongs to the run of a concrete input that ends with it.
The solver's answers must be right, and the constraints the program adds by itself consistent. -/
theorem found_are_real (P : Prog W) (s0 : P.S) (hadd : AddsConsistent P s0) (hne : Nonempty W.Inp) (maxStale : Option Nat)
    (maxIterations : Nat) (ticks : Nat → Tick W) (hu : ∀ i, ∀ env ∈ (ticks i).script, env.UnsatSound)
    (hs : ∀ i, ∀ env ∈ (ticks i).script, env.SatSound) (r : Explored W)
    (hr : explorePaths P s0 maxStale maxIterations ticks = .ok r) :
    (∀ o ∈ r.outs, o.leaf = .unknown ∨ ∃ i : W.Inp, Runs P i s0 (some o.leaf)) ∧
    ∀ text ∈ r.yields, ∃ (i : W.Inp) (a : Analysis), Runs P i s0 (some a) ∧ text ∈ a.messages := by
  have h := rounds_real s0 hadd hne maxStale ticks hu hs _ _ _ r (loopOK_stem s0) hr
  refine ⟨h, ?_⟩
  intro text ht
  simp only [Explored.yields, List.mem_flatMap] at ht
  obtain ⟨o, ho, ht⟩ := ht
  rcases h o ho with he | ⟨i, hi⟩
  · rw [he] at ht; simp [Analysis.unknown] at ht
  · exact ⟨i, _, hi, ht⟩

example : ∃ r, explorePaths (Demo.guarded (· == 5)) (.inl none) none 4 (steady false) = .ok r ∧ r.stop = .iterations ∧
    r.outs.length = 4 ∧ r.yields = ["post failed"] := ⟨_, rfl, rfl, rfl, rfl⟩

/-- C153. No path is explored twice: the decisions of an earlier path are never a prefix of those of a later one.  No assumption on the
solver. -/
theorem paths_never_repeat (P : Prog W) (s0 : P.S) (hna : ∀ s, P.act s ≠ .abort) (maxStale : Option Nat) (maxIterations : Nat)
    (ticks : Nat → Tick W) (r : Explored W) (hr : explorePaths P s0 maxStale maxIterations ticks = .ok r) :
    r.outs.Pairwise fun earlier later => ¬ earlier.trace <+: later.trace :=
  (rounds_fresh s0 hna maxStale ticks _ _ _ r (loopOK_stem s0) hr).1

/-- C153. Exploring does not fail by itself: a deterministic program, which does not itself claim to be nondeterministic, never makes
the loop end with an assertion or with `NotDeterministic`. -/
theorem exploring_never_fails (P : Prog W) (s0 : P.S) (hown : ∀ a, Reach P s0 a → a ≠ .notDet) (maxStale : Option Nat)
    (maxIterations : Nat) (ticks : Nat → Tick W) :
    explorePaths P s0 maxStale maxIterations ticks ≠ .error .notDeterministic ∧
    explorePaths P s0 maxStale maxIterations ticks ≠ .error (.search .assertion) := by
  have key : ∀ left i t, LoopOK P NoFact s0 t → rounds P s0 maxStale ticks left i t ≠ .error .notDeterministic ∧
      rounds P s0 maxStale ticks left i t ≠ .error (.search .assertion) := by
    intro left
    induction left with
    | zero => intro i t _; simp [rounds]
    | succ left ih =>
      intro i t hl
      rw [rounds]
      split
      · simp
      · have ha := iter_after (P := P) (F := NoFact) (ticks i).script (fun e _ => noFact_ok e) t s0 [] [] false
          (by simp) hl.openR hl.shape
        cases hi : iter P (ticks i).script t s0 [] [] false with
        | error e =>
          rw [hi] at ha
          have ha : e ≠ .assertion := ha
          simp [ha]
        | ok o =>
          rw [hi] at ha
          have hnd : o.leaf ≠ .notDet := by
            rcases ha.2.2 with h | h
            · exact hown _ h.1
            · rw [h.1]; simp [Analysis.unknown, Analysis.notDet]
          simp only [if_neg hnd]
          split
          · simp
          · split
            · simp
            · rename_i hx
              split
              · simp
              · have := ih (i + 1) _ (bubble_loopOK (fun e _ => noFact_ok e) hl hi (by simpa using hx))
                cases hr : rounds P s0 maxStale ticks left (i + 1) (bubble t o).1 with
                | error e => rw [hr] at this; simpa [Except.map] using this
                | ok r => simp [Except.map]
  exact key _ _ _ (loopOK_stem s0)

/-- C153. There are no more rounds than allowed, no round begins after the time is over, and the loop does not stop without a
reason: it made all the rounds allowed, or the time was over, or too many paths brought nothing new, or the callback ended it at the
last path; and a path for which the callback asks to stop is the last one. -/
theorem stops_for_a_reason (P : Prog W) (s0 : P.S) (maxStale : Option Nat) (maxIterations : Nat) (ticks : Nat → Tick W)
    (r : Explored W) (hr : explorePaths P s0 maxStale maxIterations ticks = .ok r) :
    r.outs.length ≤ maxIterations ∧ (∀ k < r.outs.length, (ticks (k + 1)).late = false) ∧
    (r.stop = .iterations → r.outs.length = maxIterations) ∧
    (r.stop = .timeLimit → r.outs.length < maxIterations ∧ (ticks (r.outs.length + 1)).late = true) ∧
    (r.stop = .uninteresting → 0 < r.outs.length ∧ ∃ m, maxStale = some m ∧ m < (ticks r.outs.length).stale) ∧
    (r.stop = .breakout → ∃ before o, r.outs = before ++ [o] ∧ o.returned = true ∧ (ticks r.outs.length).breaks o.leaf = true) ∧
    (∀ k (o : Out W.E W.V), r.outs[k]? = some o → o.returned = true → (ticks (k + 1)).breaks o.leaf = true →
      r.stop = .breakout ∧ k + 1 = r.outs.length) := by
  obtain ⟨h1, h2, h3, h4, h5, h6, h7⟩ := rounds_stop s0 maxStale ticks _ _ _ r hr
  refine ⟨h1, ?_, h3, ?_, ?_, ?_, ?_⟩
  · intro k hk
    have := h2 k hk
    rwa [Nat.add_comm] at this
  · intro hs
    have := h4 hs
    rwa [Nat.add_comm 1] at this
  · intro hs
    have := h5 hs
    rw [show 1 + r.outs.length - 1 = r.outs.length by omega] at this
    refine ⟨this.1, ?_⟩
    cases hm : maxStale with
    | none => rw [hm] at this; simp [tooStale] at this
    | some m => rw [hm] at this; exact ⟨m, rfl, by simpa [tooStale] using this.2⟩
  · intro hs
    obtain ⟨before, o, he, hret, hb⟩ := h6 hs
    refine ⟨before, o, he, hret, ?_⟩
    rw [he, List.length_append, List.length_singleton, Nat.add_comm]
    exact hb
  · intro k o hk hret hb
    exact h7 k o hk hret (by rwa [Nat.add_comm])

/-- Out of time after two rounds. -/
example : ∃ r, explorePaths (Demo.guarded (· == 5)) (.inl none) none 9
      (fun i => { script := Demo.path true, late := decide (i > 2) }) = .ok r ∧ r.stop = .timeLimit ∧ r.outs.length = 2 :=
  ⟨_, rfl, rfl, rfl⟩

/-- C153. A program with at most `n` paths is exhausted after at most `n` of them, if it may make that many rounds, time is not short,
and nothing stops it early. -/
theorem small_programs_are_exhausted (P : Prog W) (s0 : P.S) (hna : ∀ s, P.act s ≠ .abort) (n : Nat)
    (hn : PathBound P s0 (fun _ => True) n) (maxIterations : Nat) (ticks : Nat → Tick W)
    (hs : ∀ i, ∀ env ∈ (ticks i).script, env.SatSound) (r : Explored W)
    (hr : explorePaths P s0 none maxIterations ticks = .ok r) :
    r.outs.length ≤ n ∧ (n ≤ maxIterations → (∀ i, (ticks i).late = false) → (∀ i a, (ticks i).breaks a = false) →
      r.stop = .exhausted) := by
  obtain ⟨h1, h2⟩ := rounds_count s0 hna none ticks hs _ _ .stem r n rfl
    ⟨_, _, _, n, .refl, Nat.le_refl _, hn.mono fun _ _ => trivial⟩ hr
  refine ⟨h1, ?_⟩
  intro hm hl hb
  obtain ⟨-, -, -, g4, g5, g6, -⟩ := stops_for_a_reason P s0 none maxIterations ticks r hr
  cases hst : r.stop with
  | exhausted => rfl
  | iterations => exact absurd hst (h2 hm)
  | timeLimit => have := (g4 hst).2; rw [hl] at this; cases this
  | uninteresting => obtain ⟨_, m, hm, _⟩ := g5 hst; cases hm
  | breakout => obtain ⟨_, o, _, _, h⟩ := g6 hst; rw [hb] at h; cases h

/-! ### C154 -/

/-- C154. If a half of `diffbehavior` is exhausted without a difference, and no path was cut short, then for every input that is legal
and not ignored the comparison of the two calls says that they are the same, or it fails, or a difference cannot be described. -/
theorem exhausted_half (M : Pair W) (maxStale : Option Nat) (maxIterations : Nat) (ticks : Nat → Tick W)
    (hu : ∀ i, ∀ env ∈ (ticks i).script, env.UnsatSound) (r : Explored W)
    (hr : diffHalf (runIteration M) (begin M) maxStale maxIterations ticks = .ok r) (hx : r.stop = .exhausted)
    (hy : r.yields = []) (hk : ∀ o ∈ r.outs, o.leaf ≠ .unknown) (i : W.Inp) :
    Illegal M i ∨ Ignored M i ∨ ∃ a r1 r2, Calls M i a r1 r2 ∧ (Does M.same i (M.same.start (r1, r2)) (.ret true) ∨
      Does M.same i (M.same.start (r1, r2)) .fail ∨
      Does M.same i (M.same.start (r1, r2)) (.ret false) ∧ MayFail M.tell (M.tell.start (a, r1, r2))) := by
  have h := rounds_account (begin M) maxStale (fun i => { ticks i with breaks := fun _ => false }) hu
    (fun a => ∃ o ∈ r.outs, o.leaf = a) _ _ _ r (by simp [Cov]) hr (fun o ho => ⟨o, ho, rfl⟩) hx i
  rcases acc_pair h with ⟨o, ho, he⟩ | ⟨text, o, ho, he⟩ | h
  · exact absurd he (hk o ho)
  · have : text ∈ r.yields := by
      simp only [Explored.yields, List.mem_flatMap]
      exact ⟨o, ho, by rw [he]; simp⟩
    rw [hy] at this; cases this
  · exact h

/-- C154 (partial: it needs that no path was cut short, that comparing and describing do not fail, and that a found difference
executed an instruction; see below).  If `diffbehavior` finds no difference and says that all paths are exhausted, then the two
functions agree on every legal input of one of the two signatures. `same` decides `agree`. -/
theorem likely_the_same_partial (ops1 ops2 : List Nat) (diff : String → Pick.Diff) (M1 M2 : Pair W) (maxStale : Option Nat)
    (max1 max2 : Nat) (ticks1 ticks2 : Nat → Tick W) (hu1 : ∀ i, ∀ env ∈ (ticks1 i).script, env.UnsatSound)
    (hu2 : ∀ i, ∀ env ∈ (ticks2 i).script, env.UnsatSound) (h1 h2 : Explored W)
    (hr1 : diffHalf (runIteration M1) (begin M1) maxStale max1 ticks1 = .ok h1)
    (hr2 : diffHalf (runIteration M2) (begin M2) maxStale max2 ticks2 = .ok h2)
    (agree1 : W.Inp → Option M1.R → Option M1.R → Prop) (agree2 : W.Inp → Option M2.R → Option M2.R → Prop)
    (hag1 : ∀ i r1 r2, Does M1.same i (M1.same.start (r1, r2)) (.ret true) → agree1 i r1 r2)
    (hag2 : ∀ i r1 r2, Does M2.same i (M2.same.start (r1, r2)) (.ret true) → agree2 i r1 r2)
    (hf1 : ∀ i r1 r2, ¬ Does M1.same i (M1.same.start (r1, r2)) .fail)
    (hf2 : ∀ i r1 r2, ¬ Does M2.same i (M2.same.start (r1, r2)) .fail)
    (ht1 : ∀ x, ¬ MayFail M1.tell (M1.tell.start x)) (ht2 : ∀ x, ¬ MayFail M2.tell (M2.tell.start x))
    (hk1 : ∀ o ∈ h1.outs, o.leaf ≠ .unknown) (hk2 : ∀ o ∈ h2.outs, o.leaf ≠ .unknown)
    (hc1 : ∀ x ∈ h1.yields, (∃ o ∈ (diff x).cover1, o ∈ ops1) ∨ ∃ o ∈ (diff x).cover2, o ∈ ops2)
    (hc2 : ∀ x ∈ h2.yields, (∃ o ∈ (diff x).cover2, o ∈ ops1) ∨ ∃ o ∈ (diff x).cover1, o ∈ ops2)
    (n : Nat) (hd : diffbehavior ops1 ops2 diff h1 h2 = .noDifference n true) :
    (∀ i, Illegal M1 i ∨ Ignored M1 i ∨ ∃ a r1 r2, Calls M1 i a r1 r2 ∧ agree1 i r1 r2) ∨
    (∀ i, Illegal M2 i ∨ Ignored M2 i ∨ ∃ a r1 r2, Calls M2 i a r1 r2 ∧ agree2 i r1 r2) := by
  unfold diffbehavior at hd
  simp only at hd
  split at hd
  · rename_i he
    have he : Pick.diffReport ops1 ops2 (h1.yields.map diff) (h2.yields.map diff) = [] := by simpa using he
    have hnone := fun h => (Pick.diff_reported ops1 ops2 (h1.yields.map diff) (h2.yields.map diff)).2 h he
    have hy1 : h1.yields = [] := by
      rw [List.eq_nil_iff_forall_not_mem]
      intro x hx
      exact hnone ⟨diff x, by simp only [List.mem_append, List.mem_map]; exact Or.inl ⟨x, hx, rfl⟩, hc1 x hx⟩
    have hy2 : h2.yields = [] := by
      rw [List.eq_nil_iff_forall_not_mem]
      intro x hx
      exact hnone ⟨(diff x).reverse, by simp only [List.mem_append, List.mem_map]; exact Or.inr ⟨diff x, ⟨x, hx, rfl⟩, rfl⟩,
        hc2 x hx⟩
    injection hd with _ hd
    have : h1.stop = .exhausted ∨ h2.stop = .exhausted := by
      by_contra hcon
      simp only [not_or] at hcon
      simp [hcon.1, hcon.2] at hd
    rcases this with hx | hx
    · left
      intro i
      rcases exhausted_half M1 maxStale max1 ticks1 hu1 h1 hr1 hx hy1 hk1 i with h | h | ⟨a, r1, r2, hc, h | h | h⟩
      · exact Or.inl h
      · exact Or.inr (Or.inl h)
      · exact Or.inr (Or.inr ⟨a, r1, r2, hc, hag1 i r1 r2 h⟩)
      · exact absurd h (hf1 i r1 r2)
      · exact absurd h.2 (ht1 _)
    · right
      intro i
      rcases exhausted_half M2 maxStale max2 ticks2 hu2 h2 hr2 hx hy2 hk2 i with h | h | ⟨a, r1, r2, hc, h | h | h⟩
      · exact Or.inl h
      · exact Or.inr (Or.inl h)
      · exact Or.inr (Or.inr ⟨a, r1, r2, hc, hag2 i r1 r2 h⟩)
      · exact absurd h (hf2 i r1 r2)
      · exact absurd h.2 (ht2 _)
  · cases hd

/-- The two halves of `x < 4` against itself are exhausted, and nothing was cut short. -/
example : ∃ h, diffHalf (runIteration (compare (below 4) (below 4))) (begin _) none 10 (steady false) = .ok h ∧
    h.stop = .exhausted ∧ h.yields = [] ∧ h.outs.length = 2 ∧ (∀ o ∈ h.outs, o.leaf ≠ .unknown) ∧
    ∃ n, diffbehavior [1] [1] (fun _ => ⟨0, [1], [1], 1⟩) h h = .noDifference n true :=
  ⟨_, rfl, rfl, rfl, rfl, by simp [Analysis.unknown], 4, rfl⟩

/-- The comparison used there is right, and does not fail. -/
example (i : Fin 8) (r1 r2 : Option Bool) (e : End Bool)
    (h : Does (compare (below 4) (below 4)).same i ((compare (below 4) (below 4)).same.start (r1, r2)) e) :
    e = .ret (r1 == r2) := by
  generalize hs : (compare (below 4) (below 4)).same.start (r1, r2) = s at h
  have hs' : (compare (below 4) (below 4)).same.act s = .ret (r1 == r2) := by rw [← hs]; rfl
  cases h <;> simp_all

/-- Rounds that draw the second side, of which the round `k` has only time for two steps. -/
def hurried (k : Nat) : Nat → Tick Demo.world := fun i =>
  { script := if i = k then (Demo.path false).take 2 else Demo.path false }

/-- Disagreement: "All paths exhausted, functions are likely the same!" is also printed when the only path on which the functions
differ was cut short (`--per_path_timeout`): a path that ends UNKNOWN counts as explored (statespace.py 1320-1347), and only the
exhaustion is looked at (diff_behavior.py 221-224, main.py 692-697).  `x < 3` and `x < 4` differ for `x = 3`. -/
theorem exhausted_although_cut_short :
    (∃ h1 h2, diffHalf (runIteration (compare (below 3) (below 4))) (begin _) none 10 (hurried 2) = .ok h1 ∧
      diffHalf (runIteration (compare (below 4) (below 3))) (begin _) none 10 (hurried 2) = .ok h2 ∧
      diffbehavior [1] [1] (fun _ => ⟨0, [1], [1], 1⟩) h1 h2 = .noDifference 6 true) ∧
    Calls (compare (below 3) (below 4)) (3 : Fin 8) () (some false) (some true) :=
  ⟨⟨_, _, rfl, rfl, rfl⟩, .ret rfl, ⟨.ret false, .ask rfl (.ret rfl), rfl⟩, ⟨.ret true, .ask rfl (.ret rfl), rfl⟩⟩

/-- Disagreement: it is also printed when a difference was found and could not be described: an exception in a `__repr__` discards
the difference (diff_behavior.py 288-317). -/
theorem exhausted_although_untold :
    (∃ h1 h2, diffHalf (runIteration (compare (below 3) (below 4) false)) (begin _) none 10 (steady false) = .ok h1 ∧
      diffHalf (runIteration (compare (below 4) (below 3) false)) (begin _) none 10 (steady false) = .ok h2 ∧
      (∀ o ∈ h1.outs ++ h2.outs, o.leaf ≠ .unknown) ∧
      diffbehavior [1] [1] (fun _ => ⟨0, [1], [1], 1⟩) h1 h2 = .noDifference 6 true) ∧
    Calls (compare (below 3) (below 4) false) (3 : Fin 8) () (some false) (some true) :=
  ⟨⟨_, _, rfl, rfl, by simp [Analysis.unknown], rfl⟩, .ret rfl, ⟨.ret false, .ask rfl (.ret rfl), rfl⟩,
    ⟨.ret true, .ask rfl (.ret rfl), rfl⟩⟩

/-- A comparison whose arguments are restricted by the signature to `x < n`. -/
def narrow (n : Nat) (M : Pair Demo.world) (h : M.A = Unit) : Pair Demo.world :=
  { M with gen := { S := Bool, start := fun _ => false, act := fun b => if b then .ret (h ▸ ()) else .assume (Demo.Ex.lt n) true } }

/-- Disagreement: it is also printed when only one of the two halves is exhausted, here that of the narrower signature, while the
time of the other is over at once. -/
theorem exhausted_although_half :
    (∃ h1 h2, diffHalf (runIteration (narrow 3 (compare (below 3) (below 4)) rfl)) (begin _) none 10 (steady false) = .ok h1 ∧
      diffHalf (runIteration (compare (below 4) (below 3))) (begin _) none 10
        (fun _ => { script := Demo.path false, late := true }) = .ok h2 ∧
      h2.outs = [] ∧ diffbehavior [1] [1] (fun _ => ⟨0, [1], [1], 1⟩) h1 h2 = .noDifference 1 true) ∧
    Calls (compare (below 4) (below 3)) (3 : Fin 8) () (some true) (some false) :=
  ⟨⟨_, _, rfl, rfl, rfl, rfl⟩, .ret rfl, ⟨.ret true, .ask rfl (.ret rfl), rfl⟩, ⟨.ret false, .ask rfl (.ret rfl), rfl⟩⟩

/-- C154. A half makes at most one iteration fewer than it is allowed, and each begins in time. -/
theorem half_rounds (P : Prog W) (s0 : P.S) (maxStale : Option Nat) (maxIterations : Nat) (ticks : Nat → Tick W)
    (r : Explored W) (hr : diffHalf P s0 maxStale maxIterations ticks = .ok r) :
    r.outs.length ≤ maxIterations - 1 ∧ (r.stop = .iterations → r.outs.length = maxIterations - 1) ∧ r.stop ≠ .breakout ∧
    ∀ k < r.outs.length, (ticks (k + 1)).late = false := by
  obtain ⟨h1, h2, h3, -, -, h6, -⟩ := rounds_stop s0 maxStale _ _ _ _ r hr
  refine ⟨h1, h3, ?_, ?_⟩
  · intro h
    obtain ⟨_, _, _, _, hb⟩ := h6 h
    cases hb
  · intro k hk
    have := h2 k hk
    rwa [Nat.add_comm] at this

/-- Disagreement: with a limit of one iteration, `explore_paths` makes one, and `diffbehavior` none: "attempted 0 iterations". -/
theorem one_iteration_is_none :
    ∃ h1 h2, diffHalf (runIteration (compare (below 3) (below 4))) (begin _) none 1 (steady false) = .ok h1 ∧
      explorePaths (runIteration (compare (below 3) (below 4))) (begin _) none 1 (steady false) = .ok h2 ∧
      h1.outs.length = 0 ∧ h2.outs.length = 1 := ⟨_, _, rfl, rfl, rfl, rfl⟩

/-! ### C155 -/

/-- C155. Every difference that a half finds is real: there is one concrete input, on which the arguments are made, both functions
are called with them, the comparison says that the outcomes are not the same, and the text is the description of those outcomes. -/
theorem differences_are_real (M : Pair W) (hadd : AddsConsistent (runIteration M) (begin M)) (hne : Nonempty W.Inp)
    (maxStale : Option Nat) (maxIterations : Nat) (ticks : Nat → Tick W) (hu : ∀ i, ∀ env ∈ (ticks i).script, env.UnsatSound)
    (hs : ∀ i, ∀ env ∈ (ticks i).script, env.SatSound) (r : Explored W)
    (hr : diffHalf (runIteration M) (begin M) maxStale maxIterations ticks = .ok r) :
    ∀ text ∈ r.yields, ∃ (i : W.Inp) (a : M.A) (r1 r2 : Option M.R), Calls M i a r1 r2 ∧
      Does M.same i (M.same.start (r1, r2)) (.ret false) ∧ Does M.tell i (M.tell.start (a, r1, r2)) (.ret text) := by
  have h := rounds_real (begin M) hadd hne maxStale (fun i => { ticks i with breaks := fun _ => false }) hu hs _ _ _ r
    (loopOK_stem _) hr
  intro text ht
  simp only [Explored.yields, List.mem_flatMap] at ht
  obtain ⟨o, ho, ht⟩ := ht
  rcases h o ho with he | ⟨i, hi⟩
  · rw [he] at ht; simp [Analysis.unknown] at ht
  · exact ⟨i, (runs_pair hi ht).2⟩

/-- `x < 3` and `x < 4`: one difference is found, `x = 3`. -/
example : ∃ r, diffHalf (runIteration (compare (below 3) (below 4))) (begin _) none 10 (steady false) = .ok r ∧
    r.yields = ["x=3"] := ⟨_, rfl, rfl⟩

example : AddsConsistent (runIteration (compare (below 3) (below 4))) (begin _) := by
  intro s pc e s' _ h
  exfalso
  revert h
  rcases s with s | ⟨a, s⟩ | ⟨a, r1, s⟩ | ⟨a, r1, r2, s⟩ | _ | s
  · simp [runIteration, actGen, actOne, actTwo, lift, compare, below]
  · rcases s with _ | b <;> simp [runIteration, actOne, actTwo, lift, compare, below]
  · rcases s with _ | b
    · simp [runIteration, actTwo, lift, compare, below]
    · simp only [runIteration, actTwo, lift, compare, below, actCmp]; split <;> simp
  · simp only [runIteration, lift, compare, actCmp]; split <;> simp
  · simp [runIteration]
  · rcases s with _ | v <;> simp [runIteration, actTell, lift, compare]

/-- C155. What is printed comes from the halves: the differences reported are found by the first half, or by the second one with the
functions exchanged; the exit code is 1 just when one is reported, else 0; and "All paths exhausted" is said just when a half was
exhausted. -/
theorem report_from_halves (ops1 ops2 : List Nat) (diff : String → Pick.Diff) (h1 h2 : Explored W) :
    (∀ ds, diffbehavior ops1 ops2 diff h1 h2 = .differences ds → ds ≠ [] ∧ ∀ d ∈ ds,
      (∃ text ∈ h1.yields, d = diff text) ∨ ∃ text ∈ h2.yields, d = (diff text).reverse) ∧
    (∀ n b, diffbehavior ops1 ops2 diff h1 h2 = .noDifference n b → n = h1.outs.length + h2.outs.length ∧
      (b = true ↔ h1.stop = .exhausted ∨ h2.stop = .exhausted)) ∧
    ((diffbehavior ops1 ops2 diff h1 h2).code = 1 ↔
      ∃ text, (text ∈ h1.yields ∧ ((∃ o ∈ (diff text).cover1, o ∈ ops1) ∨ ∃ o ∈ (diff text).cover2, o ∈ ops2)) ∨
        (text ∈ h2.yields ∧ ((∃ o ∈ (diff text).cover2, o ∈ ops1) ∨ ∃ o ∈ (diff text).cover1, o ∈ ops2))) ∧
    ((diffbehavior ops1 ops2 diff h1 h2).code = 0 ∨ (diffbehavior ops1 ops2 diff h1 h2).code = 1) := by
  have hrep := Pick.diff_reported ops1 ops2 (h1.yields.map diff) (h2.yields.map diff)
  obtain ⟨⟨rest, hperm⟩, -, -⟩ := Pick.diff_covers ops1 ops2 (h1.yields.map diff) (h2.yields.map diff)
  have hcode : (diffbehavior ops1 ops2 diff h1 h2).code =
      if Pick.diffReport ops1 ops2 (h1.yields.map diff) (h2.yields.map diff) = [] then 0 else 1 := by
    unfold diffbehavior
    simp only [List.isEmpty_iff]
    split <;> rfl
  refine ⟨?_, ?_, ?_, ?_⟩
  · intro ds hd
    unfold diffbehavior at hd
    simp only [List.isEmpty_iff] at hd
    split at hd
    · cases hd
    · rename_i hne
      injection hd with hd
      subst hd
      refine ⟨hne, ?_⟩
      intro d hd
      have hm := hperm.mem_iff.mp (List.mem_append_left _ hd)
      simp only [List.mem_append, List.mem_map] at hm
      rcases hm with ⟨x, hx, rfl⟩ | ⟨d', ⟨x, hx, rfl⟩, rfl⟩
      · exact Or.inl ⟨x, hx, rfl⟩
      · exact Or.inr ⟨x, hx, rfl⟩
  · intro n b hd
    unfold diffbehavior at hd
    simp only [List.isEmpty_iff] at hd
    split at hd
    · injection hd with h h'
      refine ⟨h.symm, ?_⟩
      rw [← h']
      by_cases a : h1.stop = .exhausted <;> by_cases b : h2.stop = .exhausted <;> simp [a, b]
    · cases hd
  · rw [hcode]
    rw [show ((if Pick.diffReport ops1 ops2 (h1.yields.map diff) (h2.yields.map diff) = [] then 0 else 1) = 1 ↔
        Pick.diffReport ops1 ops2 (h1.yields.map diff) (h2.yields.map diff) ≠ []) by split <;> simp_all, hrep]
    constructor
    · rintro ⟨d, hd, hc⟩
      simp only [List.mem_append, List.mem_map] at hd
      rcases hd with ⟨x, hx, rfl⟩ | ⟨d', ⟨x, hx, rfl⟩, rfl⟩
      · exact ⟨x, Or.inl ⟨hx, hc⟩⟩
      · exact ⟨x, Or.inr ⟨hx, hc⟩⟩
    · rintro ⟨x, ⟨hx, hc⟩ | ⟨hx, hc⟩⟩
      · exact ⟨diff x, by simp only [List.mem_append, List.mem_map]; exact Or.inl ⟨x, hx, rfl⟩, hc⟩
      · exact ⟨(diff x).reverse, by simp only [List.mem_append, List.mem_map]; exact Or.inr ⟨diff x, ⟨x, hx, rfl⟩, rfl⟩, hc⟩
  · rw [hcode]; split <;> simp

example : ∃ h1 h2, diffHalf (runIteration (compare (below 3) (below 4))) (begin _) none 10 (steady false) = .ok h1 ∧
    diffHalf (runIteration (compare (below 4) (below 3))) (begin _) none 10 (steady false) = .ok h2 ∧
    (diffbehavior [1] [1] (fun _ => ⟨0, [1], [1], 1⟩) h1 h2).code = 1 := ⟨_, _, rfl, rfl, rfl⟩

/-! ### C156 -/

/-- What an iteration of `search` that ends with an example does. -/
theorem runs_trial {T : Trial W} {i : W.Inp} {x : Analysis}
    (hrun : Runs (trial T) i (TPhase.gen (T.gen.start ())) (some x)) {text : String} (ht : text ∈ x.messages) :
    ∃ a l, Does T.gen i (T.gen.start ()) (.ret a) ∧ Does T.call i (T.call.start a) (.ret l) ∧ l ≠ .raised ∧
      Does T.format i (T.format.start a) (.ret text) := by
  have hno : ∀ {p : Prop}, some x = some Analysis.unknown → p := by
    intro p h
    injection h with h
    subst h
    simp [Analysis.unknown] at ht
  have hdone : ∀ {p : Prop} (s : (trial T).S) r (a : Analysis), a.messages = [] → (trial T).act s = .done r a →
      Runs (trial T) i s (some x) → p := by
    intro p s r a ha hs hr
    have := runs_done hs hr
    injection this with this
    subst this
    rw [ha] at ht
    cases ht
  rcases runs_part (P := trial T) T.gen TPhase.gen _ _ (fun _ => rfl) hrun _ rfl with
    h | h | ⟨a, s', hg, hs', h'⟩ | ⟨s', h, hs', h'⟩
  · exact hno h.1
  · exact absurd h.1 (by simp)
  · have h' : Runs (trial T) i (TPhase.call a (T.call.start a)) (some x) := runs_congr hs' h'
    rcases runs_part (P := trial T) T.call (TPhase.call a) _ _ (fun _ => rfl) h' _ rfl with
      h | h | ⟨l, s', hc, hs', h'⟩ | ⟨s', h, hs', h'⟩
    · exact hno h.1
    · exact absurd h.1 (by simp)
    · by_cases hl : l = .raised
      · simp only [hl, if_true] at hs'
        exact hdone _ _ _ rfl hs' h'
      · simp only [hl, if_false] at hs'
        have h' : Runs (trial T) i (TPhase.format (T.format.start a)) (some x) := runs_congr hs' h'
        rcases runs_part (P := trial T) T.format TPhase.format _ _ (fun _ => rfl) h' _ rfl with
          h | h | ⟨v, s2, hf, hs2, h3⟩ | ⟨s2, h, hs2, h3⟩
        · exact hno h.1
        · exact absurd h.1 (by simp)
        · have := runs_done hs2 h3
          injection this with this
          subst this
          simp only [List.mem_singleton] at ht
          subst ht
          exact ⟨a, l, hg, hc, hl, hf⟩
        · exact hdone _ _ _ rfl hs2 h3
    · exact hdone _ _ _ rfl hs' h'
  · exact hdone _ _ _ rfl hs' h'

/-- C156 (partial: the call returned, or the path was one to be ignored; see `search_reports_an_ignored_path`).  An example printed by `crosshair search` is the text of
the arguments of one concrete input, and the call with them did not raise. -/
theorem search_example_is_real_partial (T : Trial W) (hadd : AddsConsistent (trial T) (TPhase.gen (T.gen.start ())))
    (hne : Nonempty W.Inp) (maxStale : Option Nat) (maxIterations : Nat) (ticks : Nat → Tick W)
    (hu : ∀ i, ∀ env ∈ (ticks i).script, env.UnsatSound) (hs : ∀ i, ∀ env ∈ (ticks i).script, env.SatSound) (r : Explored W)
    (hr : searchFirst T maxStale maxIterations ticks = .ok r) (all : Bool) (printed : List String)
    (hp : search all r = .found printed) :
    printed ≠ [] ∧ ∀ text ∈ printed, ∃ (i : W.Inp) (a : T.A) (l : Left), Does T.gen i (T.gen.start ()) (.ret a) ∧
      Does T.call i (T.call.start a) (.ret l) ∧ (l = .returned ∨ l = .ignored) ∧
      Does T.format i (T.format.start a) (.ret text) := by
  have h := (found_are_real (trial T) _ hadd hne maxStale maxIterations
    (fun i => { ticks i with breaks := fun a => !a.messages.isEmpty }) hu hs r hr).2
  unfold search at hp
  cases hl : r.yields.getLast? with
  | none => rw [hl] at hp; cases hp
  | some final =>
    rw [hl] at hp
    simp only [SearchReport.found.injEq] at hp
    have hmem : final ∈ r.yields := List.mem_of_getLast? hl
    have hsub : printed ≠ [] ∧ ∀ text ∈ printed, text ∈ r.yields := by
      subst hp
      cases all with
      | true => exact ⟨by simpa using List.ne_nil_of_mem hmem, by simp⟩
      | false => exact ⟨by simp, by simpa using hmem⟩
    refine ⟨hsub.1, ?_⟩
    intro text ht
    obtain ⟨i, x, hi, hx⟩ := h text (hsub.2 text ht)
    obtain ⟨a, l, hg, hc, hl, hf⟩ := runs_trial hi hx
    refine ⟨i, a, l, hg, hc, ?_, hf⟩
    cases l <;> simp_all

/-- C156. If `search` finds no input although it exhausted all paths, none of which was cut short, then for every legal input for
which arguments are made the call raises, unless the text of the arguments cannot be made. -/
theorem search_finds_all (T : Trial W) (maxStale : Option Nat) (maxIterations : Nat) (ticks : Nat → Tick W)
    (hu : ∀ i, ∀ env ∈ (ticks i).script, env.UnsatSound) (r : Explored W)
    (hr : searchFirst T maxStale maxIterations ticks = .ok r) (hx : r.stop = .exhausted)
    (hk : ∀ o ∈ r.outs, o.leaf ≠ .unknown) (all : Bool) (hp : search all r = .notFound) (i : W.Inp) :
    Does T.gen i (T.gen.start ()) .illegal ∨ Does T.gen i (T.gen.start ()) .fail ∨
    ∃ a, Does T.gen i (T.gen.start ()) (.ret a) ∧ (Does T.call i (T.call.start a) .illegal ∨
      Does T.call i (T.call.start a) .fail ∨ Does T.call i (T.call.start a) (.ret .raised) ∨
      Does T.format i (T.format.start a) .illegal ∨ Does T.format i (T.format.start a) .fail) := by
  have hy : r.yields = [] := by
    unfold search at hp
    cases hl : r.yields.getLast? with
    | none => exact List.getLast?_eq_none_iff.1 hl
    | some final => rw [hl] at hp; cases hp
  have h := exhausted_accounts (trial T) _ maxStale maxIterations
    (fun i => { ticks i with breaks := fun a => !a.messages.isEmpty }) hu r hr hx i
  have hku : ∀ {p : Prop}, (∃ o ∈ r.outs, o.leaf = Analysis.unknown) → p := fun ⟨o, ho, he⟩ => absurd he (hk o ho)
  rcases acc_part (P := trial T) T.gen TPhase.gen _ _ (fun _ => rfl) h _ rfl with
    h | h | ⟨a, s', hg, hs', h'⟩ | ⟨s', h, hs', h'⟩
  · exact hku h
  · exact Or.inl h
  · refine Or.inr (Or.inr ⟨a, hg, ?_⟩)
    have h' : Accounted (trial T) (fun a => ∃ o ∈ r.outs, o.leaf = a) i (TPhase.call a (T.call.start a)) := acc_congr hs' h'
    rcases acc_part (P := trial T) T.call (TPhase.call a) _ _ (fun _ => rfl) h' _ rfl with
      h | h | ⟨l, s', hc, hs', h'⟩ | ⟨s', h, hs', h'⟩
    · exact hku h
    · exact Or.inl h
    · by_cases hl : l = .raised
      · subst hl; exact Or.inr (Or.inr (Or.inl hc))
      · simp only [hl, if_false] at hs'
        have h' : Accounted (trial T) (fun a => ∃ o ∈ r.outs, o.leaf = a) i (TPhase.format (T.format.start a)) :=
          acc_congr hs' h'
        rcases acc_part (P := trial T) T.format TPhase.format _ _ (fun _ => rfl) h' _ rfl with
          h | h | ⟨v, s2, hf, hs2, h3⟩ | ⟨s2, h, hs2, h3⟩
        · exact hku h
        · exact Or.inr (Or.inr (Or.inr (Or.inl h)))
        · rcases acc_done hs2 h3 with hK | ⟨o, ho, he⟩
          · exact hku hK
          · have : v ∈ r.yields := by
              simp only [Explored.yields, List.mem_flatMap]
              exact ⟨o, ho, by rw [he]; simp⟩
            rw [hy] at this; cases this
        · exact Or.inr (Or.inr (Or.inr (Or.inr h)))
    · exact Or.inr (Or.inl h)
  · exact Or.inr (Or.inl h)

/-- A call that ends in some way for `x < n`, and raises otherwise. -/
def trialBelow (n : Nat) (l : Left) : Trial Demo.world where
  A := Unit
  gen := { S := Unit, start := id, act := fun _ => .ret () }
  call :=
    { S := Option Bool, start := fun _ => none
      act := fun
        | none => .ask (Demo.Ex.lt n) some
        | some b => .ret (if b then l else .raised) }
  format :=
    { S := Option Nat, start := fun _ => none
      act := fun
        | none => .realize () some
        | some v => .ret s!"{v}" }

example : ∃ r, searchFirst (trialBelow 3 .returned) none 10 (steady false) = .ok r ∧ search true r = .found ["2"] ∧
    r.outs.length = 2 ∧ r.stop = .breakout ∧ (search true r).code = 0 := ⟨_, rfl, rfl, rfl, rfl, rfl⟩

example : ∃ r, searchFirst (trialBelow 0 .returned) none 10 (steady false) = .ok r ∧ search true r = .notFound ∧
    r.stop = .exhausted ∧ (∀ o ∈ r.outs, o.leaf ≠ .unknown) := ⟨_, rfl, rfl, rfl, by simp [Analysis.unknown]⟩

/-- Disagreement: a path that is to be ignored, because `IgnoreAttempt` was raised in the call (for instance a symbolic dictionary
turned out to be inconsistent, builtinslib.py 1911) or because a function called violates its own postcondition, is swallowed by
`ExceptionFilter` (core.py 239-250) and then taken for one that succeeded (core.py 1456-1463): `crosshair search` prints an example
although the call succeeds on no input. -/
theorem search_reports_an_ignored_path :
    (∃ r, searchFirst (trialBelow 3 .ignored) none 10 (steady false) = .ok r ∧ search true r = .found ["2"]) ∧
    ∀ i : Fin 8, ¬ Does (trialBelow 3 .ignored).call i ((trialBelow 3 .ignored).call.start ()) (.ret .returned) := by
  refine ⟨⟨_, rfl, rfl⟩, ?_⟩
  have hb : ∀ (i : Fin 8) (s : (trialBelow 3 .ignored).call.S) (b : Bool) e, s = some b →
      Does (trialBelow 3 .ignored).call i s e → e ≠ .ret .returned := by
    intro i s b e hs h
    have ha : (trialBelow 3 .ignored).call.act s = .ret (if b then .ignored else .raised) := by subst hs; rfl
    cases b <;> cases h <;> simp_all <;> (rintro rfl; simp_all)
  intro i h
  generalize hs : (trialBelow 3 .ignored).call.start () = s at h
  have ha : (trialBelow 3 .ignored).call.act s = .ask (Demo.Ex.lt 3) some := by rw [← hs]; rfl
  cases h with
  | ask h1 h2 =>
    rw [ha] at h1
    injection h1 with h3 h4
    subst h3 h4
    exact hb i _ _ _ rfl h2 rfl
  | _ => simp_all

end Verif.Explore
