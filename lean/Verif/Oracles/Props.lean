import Verif.Oracles.Runs
import Verif.Pick.Props
import Mathlib.Tactic.NormNum
import Mathlib.Algebra.Order.Field.Rat
/-
Properties of the heuristics for choosing branches.
-/
namespace Verif.Oracles

section coverage
variable {L E : Type} [DecidableEq L] [DecidableEq E]

/-! ### C198: uninteresting iterations -/

/-- The number that `--max_uninteresting_iterations` is compared with (core.py 1344-1349) exceeds `n` exactly if the last `n + 1` paths
only came to places that earlier paths had come to; and places are counted once for each visit.  Partial: for paths that are detached
right after a decision, if at all (see `detached_ignored`), and as long as addresses of expressions are not used again (see
`number_reused`). -/
theorem uninteresting_partial (events : List (Event L E)) (s : Coverage L E) (hf : Faithful (objectsOf events))
    (hd : ∀ p ∈ pathsOf events, detachOk false p = true) (hr : run {} events = some s) :
    (∀ n, n < s.itersSinceDiscovery ↔ ∃ old new, (pathsOf events).map places = old ++ new ∧ new.length = n + 1 ∧
      ∀ ls ∈ new, ∀ l ∈ ls, l ∈ old.flatten) ∧
    ∀ l, s.visits.get l = ((pathsOf events).map fun p => (places p).count l).sum := by
  obtain ⟨-, h2, -, h4, -, -⟩ := run_spec (objectsOf events) hf events s (fun o h => h) hd hr
  refine ⟨?_, h2⟩
  obtain ⟨old, new, g1, g2, g3, g4⟩ := h4
  intro n
  constructor
  · intro hn
    refine ⟨old ++ new.take (new.length - (n + 1)), new.drop (new.length - (n + 1)), ?_, ?_, ?_⟩
    · rw [g1, List.append_assoc, List.take_append_drop]
    · rw [List.length_drop]; omega
    · intro ls hls l hl
      rw [List.flatten_append, List.mem_append]
      exact Or.inl (g3 ls (List.mem_of_mem_drop hls) l hl)
  · rintro ⟨old', new', e1, e2, e3⟩
    by_contra hn
    rcases g4 with rfl | ⟨earlier, ls, rfl, l, hl, hnl⟩
    · rw [List.nil_append] at g1
      have hlen : ((pathsOf events).map places).length = old'.length + new'.length := by rw [e1]; simp
      rw [g1] at hlen
      omega
    · -- the discovering path is among the last `n + 1`
      have hlen : (earlier ++ [ls] ++ new).length = (old' ++ new').length := by rw [← g1, ← e1]
      simp only [List.length_append, List.length_singleton] at hlen
      have hle : old'.length ≤ earlier.length := by omega
      have heq : earlier ++ ([ls] ++ new) = old' ++ new' := by rw [← List.append_assoc, ← g1, ← e1]
      obtain ⟨d, hd1⟩ : ∃ d, earlier = old' ++ d := by
        refine ⟨earlier.drop old'.length, ?_⟩
        have h := congrArg (List.take old'.length) heq
        rw [List.take_append_of_le_length hle, List.take_left] at h
        rw [← List.take_append_drop old'.length earlier, h]
        simp
      subst hd1
      rw [List.append_assoc] at heq
      have heq := List.append_cancel_left heq
      have hmem : ls ∈ new' := by rw [← heq]; simp
      apply hnl
      rw [List.flatten_append, List.mem_append]
      exact Or.inl (e3 ls hmem l hl)

/-- Three paths: the second finds place 2, the third nothing new. -/
def exampleEvents : List (Event Nat Nat) :=
  [.asked ⟨10, 5⟩,
   .path [.decision 1 false true ⟨10, 5⟩ (some false), .detached],
   .path [.other, .decision 1 false true ⟨10, 5⟩ (some true), .decision 2 false false ⟨11, 6⟩ (some true), .decision 2 false true ⟨12, 7⟩ none],
   .asked ⟨13, 6⟩,
   .path [.decision 1 false true ⟨10, 5⟩ (some true), .decision 2 false false ⟨11, 6⟩ (some false), .decision 1 true true ⟨12, 7⟩ (some true), .detached]]

example : Faithful (objectsOf exampleEvents) ∧ (∀ p ∈ pathsOf exampleEvents, detachOk false p = true) ∧
    ∃ s, run {} exampleEvents = some s ∧ s.itersSinceDiscovery = 1 ∧ s.visits.get 1 = 4 ∧ s.visits.get 2 = 2 := by
  refine ⟨⟨by decide, by decide⟩, by decide, ?_⟩
  exact ⟨_, rfl, by decide, by decide, by decide⟩

/-- Disagreement: decisions made after the path was detached count, if no decision comes right before. -/
theorem detached_ignored :
    ∃ path : List (PathNode Nat Nat), places path = [] ∧
      ∃ s, run {} [.path path, .path path] = some s ∧ s.visits.get 7 = 2 ∧ s.itersSinceDiscovery = 1 := by
  exact ⟨[.detached, .decision 7 false true ⟨10, 5⟩ (some true), .other], by decide, _, rfl, by decide, by decide⟩

/-! ### C199: what led to a place -/

/-- For each place, the heuristic has counted how often each expression was true, and how often false, on the way to the first
decision there, and nothing else: the number under which the expression is asked about, with the sign for its truth, counts these
paths.  Partial: for paths that are detached right after a decision (see `detached_ignored`), and as long as addresses of expressions
are not used again (see `number_reused`). -/
theorem conditions_recorded_partial (events : List (Event L E)) (s : Coverage L E) (hf : Faithful (objectsOf events))
    (hd : ∀ p ∈ pathsOf events, detachOk false p = true) (hr : run {} events = some s) (l : L) :
    ((s.summarized.lookup l).isSome = true ↔ ∃ p ∈ pathsOf events, reaches l (counted p) = true) ∧
    (∀ o ∈ objectsOf events, ∀ b, (summaryOf s.summarized l).get (signed b (internalize s.interned o).1) =
      ((pathsOf events).map fun p => (leading l (counted p)).count (o.expr, b)).sum) ∧
    ∀ o ∈ objectsOf events, ∀ b, signed b (internalize s.interned o).1 ∈ (summaryOf s.summarized l).map Prod.fst ↔
      ∃ p ∈ pathsOf events, (o.expr, b) ∈ leading l (counted p) := by
  obtain ⟨h1, -, -, -, h5, h6⟩ := run_spec (objectsOf events) hf events s (fun o h => h) hd hr
  refine ⟨h5 l, ?_, ?_⟩
  all_goals
    intro o ho b
    obtain ⟨F, hF1, hF2, hF3⟩ := numbers (objectsOf events) hf s.interned h1 o ho
    have hinj : ∀ p ∈ pathsOf events, ∀ x ∈ leading l (counted p), signed x.2 (F x.1) = signed b (F o.expr) → x = (o.expr, b) := by
      intro p hp x hx he
      obtain ⟨a, ha, hae⟩ := leading_objects l p x hx
      have ha' := objectsOf_path events p hp a ha
      obtain ⟨c, hc, hce, hca⟩ := hF3 a ha'
      obtain ⟨d, hdm, hde, hda⟩ := hF3 o ho
      rw [← hae, ← hca, ← hda] at he
      obtain ⟨hb, hn⟩ := signed_inj _ _ _ _ (hf.1 c hc) he
      have := hf.2 c hc d hdm hn
      rw [hce, hde, hae] at this
      exact Prod.ext this hb
    rw [← hF2]
  · rw [(h6 F hF1 l _).1]
    congr 1
    apply List.map_congr_left
    intro p hp
    exact count_map_of_inj (fun x : E × Bool => signed x.2 (F x.1)) _ (o.expr, b) (fun x hx he => hinj p hp x hx he)
  · rw [(h6 F hF1 l _).2]
    constructor
    · rintro ⟨p, hp, hk⟩
      refine ⟨p, hp, ?_⟩
      unfold signs at hk
      obtain ⟨x, hx, he⟩ := List.mem_map.mp hk
      rw [← hinj p hp x hx he]
      exact hx
    · rintro ⟨p, hp, hx⟩
      exact ⟨p, hp, List.mem_map.mpr ⟨_, hx, rfl⟩⟩

example : ∃ s, run {} exampleEvents = some s ∧ (internalize s.interned ⟨10, 5⟩).1 = 10 ∧
    (summaryOf s.summarized 2).get (signed true 10) = 2 ∧ (summaryOf s.summarized 2).get (signed false 10) = 0 := by
  exact ⟨_, rfl, by decide, by decide, by decide⟩

/-- When a place is the target, an expression that was always true on the way to its first decision is made true in nine cases of
ten, one that was always false is made false in nine cases of ten; with both, it is made true in one case of four; others are left to
the default.  (`isPositive` tells whether the branch is about the expression or about its negation; in hundredths.)  Partial as
`conditions_recorded_partial`. -/
theorem bias_partial (events : List (Event L E)) (s : Coverage L E) (hf : Faithful (objectsOf events))
    (hd : ∀ p ∈ pathsOf events, detachOk false p = true) (hr : run {} events = some s) (l : L) (o : Obj E) (ho : o ∈ objectsOf events)
    (isPositive : Bool) :
    Pick.decideProbability ((summaryOf s.summarized l).map Prod.fst) isPositive (internalize s.interned o).1 none =
      some (if ∃ p ∈ pathsOf events, (o.expr, true) ∈ leading l (counted p) then
          if ∃ p ∈ pathsOf events, (o.expr, false) ∈ leading l (counted p) then (if isPositive then 25 else 75)
          else (if isPositive then 90 else 10)
        else if ∃ p ∈ pathsOf events, (o.expr, false) ∈ leading l (counted p) then (if isPositive then 10 else 90)
        else 25) := by
  obtain ⟨-, -, h⟩ := conditions_recorded_partial events s hf hd hr l
  have ht := h o ho true
  have hfa := h o ho false
  obtain ⟨hz, hu⟩ := zero_run events s hf hd hr l o ho
  have hn := nodup_run events {} s (by intro j; simp [summaryOf]) hr l
  simp only [← ht, ← hfa]
  generalize (summaryOf s.summarized l).map Prod.fst = keys at *
  generalize (internalize s.interned o).1 = u at *
  simp only [signed, if_true, Bool.false_eq_true, if_false]
  unfold Pick.decideProbability Pick.pathProbability
  rw [Pick.tweak_range keys hn hz u (by omega)]
  have hany : (keys.any fun k => decide (k = (u : Int) ∨ -k = (u : Int))) = decide ((u : Int) ∈ keys ∨ -(u : Int) ∈ keys) := by
    rw [Bool.eq_iff_iff, List.any_eq_true, decide_eq_true_eq]
    constructor
    · rintro ⟨k, hk, h⟩
      rw [decide_eq_true_eq] at h
      rcases h with rfl | h
      · exact Or.inl hk
      · exact Or.inr (by rw [← h, neg_neg]; exact hk)
    · rintro (h | h)
      · exact ⟨_, h, by simp⟩
      · exact ⟨_, h, by simp⟩
  rw [hany]
  by_cases h1 : (u : Int) ∈ keys <;> by_cases h2 : -(u : Int) ∈ keys <;> cases isPositive <;>
    simp [h1, h2, Pick.deltaProbability]

example : ∃ s, run {} exampleEvents = some s ∧
    Pick.decideProbability ((summaryOf s.summarized 2).map Prod.fst) true (internalize s.interned ⟨10, 5⟩).1 none = some 90 := by
  exact ⟨_, rfl, by decide⟩

/-- Disagreement: an expression that came back at another address is not kept, but its address is; another expression at that address
then gets its number, and what is known about the one is used for the other. -/
theorem number_reused :
    ∃ (a b copy : Obj Nat), a.expr = copy.expr ∧ a.expr ≠ b.expr ∧ b.addr = copy.addr ∧
      ∃ s, run {} [(.asked a : Event Nat Nat), .asked copy, .asked b] = some s ∧
        (internalize s.interned a).1 = (internalize s.interned b).1 := by
  exact ⟨⟨10, 5⟩, ⟨11, 6⟩, ⟨11, 5⟩, rfl, by decide, rfl, _, rfl, by decide⟩

end coverage

/-! ### C200: decisions are probabilities -/

/-- All the heuristics answer with probabilities, if the engine asks with one and the inner heuristic answers with one. -/
theorem probabilities (pos neg : Nat) (engine : Option Rat) (he : ∀ p, engine = some p → IsProbability p) {M : Type}
    (possible : List (M → Bool) → Bool) (prefer : List (M → Bool)) (expr : M → Bool) (inner : Rat) (hi : IsProbability inner) :
    IsProbability (breadthFirst pos neg engine) ∧ IsProbability (preferNegative engine) ∧
    IsProbability (constrained possible prefer expr inner) := by
  have hp : IsProbability (engine.getD (1 / 4)) := by
    cases engine with
    | none => exact ⟨by norm_num, by norm_num⟩
    | some p => exact he p rfl
  refine ⟨?_, hp, ?_⟩
  · unfold breadthFirst
    generalize engine.getD (1 / 4) = p at hp
    obtain ⟨h0, h1⟩ := hp
    split
    · split <;> exact ⟨by norm_num, by norm_num⟩
    · simp only
      split
      · split
        · exact ⟨by linarith, by linarith⟩
        · split
          · exact ⟨by linarith, by linarith⟩
          · exact ⟨h0, h1⟩
      · exact ⟨h0, h1⟩
  · unfold constrained
    split
    · exact hi
    · split
      · exact ⟨by norm_num, by norm_num⟩
      · split
        · exact ⟨by norm_num, by norm_num⟩
        · exact hi

example : breadthFirst 9 3 none = 1 / 8 ∧ breadthFirst 3 9 (some (1 / 2)) = 3 / 4 ∧ breadthFirst 3 4 (some (1 / 3)) = 1 / 3 := by
  refine ⟨?_, ?_, ?_⟩ <;> simp [breadthFirst] <;> norm_num

/-- A branch that the engine asks for with certainty stays certain.  Partial: not with preferred constraints (see
`certainty_overridden`). -/
theorem certainty_partial (pos neg : Nat) (p : Rat) (h : p = 0 ∨ p = 1) {M : Type} (possible : List (M → Bool) → Bool) (expr : M → Bool) :
    breadthFirst pos neg (some p) = p ∧ preferNegative (some p) = p ∧ constrained possible [] expr p = p := by
  refine ⟨?_, rfl, rfl⟩
  unfold breadthFirst
  rcases h with rfl | rfl <;> simp

example : breadthFirst 0 7 (some 0) = 0 ∧ breadthFirst 7 0 (some 1) = 1 := by
  constructor <;> norm_num [breadthFirst]

/-- Disagreement: preferred constraints win over a branch that the engine asks for with certainty. -/
theorem certainty_overridden :
    ∃ (possible : List (Bool → Bool) → Bool) (prefer : List (Bool → Bool)) (expr : Bool → Bool),
      (∀ es, possible es = true ↔ ∃ m, ∀ e ∈ es, e m = true) ∧
      constrained possible prefer expr (preferNegative (some 1)) = 0 ∧ constrained possible prefer (fun m => !expr m) (preferNegative (some 0)) = 1 := by
  refine ⟨fun es => es.all (fun e => e true) || es.all (fun e => e false), [fun m => !m], fun m => m, ?_, ?_, ?_⟩
  · intro es
    simp only [Bool.or_eq_true, List.all_eq_true]
    constructor
    · rintro (h | h)
      · exact ⟨true, h⟩
      · exact ⟨false, h⟩
    · rintro ⟨m, h⟩
      cases m
      · exact Or.inr h
      · exact Or.inl h
  · simp [constrained]
  · simp [constrained]

/-! ### C201: breadth first -/

/-- If only one of the branches has been taken at a location, breadth first takes the other one when both are open; if both have been
taken about equally often (neither more than twice as often plus one), it leaves the probability as it is; otherwise it makes the
branch that has been taken more often less probable, but not impossible. -/
theorem breadth_first (pos neg : Nat) (engine : Option Rat) (he : ∀ p, engine = some p → 0 < p ∧ p < 1) {M : Type}
    (possible : List (M → Bool) → Bool) (expr : M → Bool) (rand : Rat) (hr : 0 < rand ∧ rand < 1)
    (h1 : possible [expr] = true) (h2 : possible [fun m => !expr m] = true) :
    (0 < pos → neg = 0 → choose possible expr true true (breadthFirst pos neg engine) rand = false) ∧
    (pos = 0 → 0 < neg → choose possible expr true true (breadthFirst pos neg engine) rand = true) ∧
    ((pos = 0 ↔ neg = 0) → pos ≤ 2 * neg + 1 → neg ≤ 2 * pos + 1 → breadthFirst pos neg engine = engine.getD (1 / 4)) ∧
    (0 < neg → 2 * neg + 1 < pos → 0 < breadthFirst pos neg engine ∧ breadthFirst pos neg engine < engine.getD (1 / 4)) ∧
    (0 < pos → 2 * pos + 1 < neg → engine.getD (1 / 4) < breadthFirst pos neg engine ∧ breadthFirst pos neg engine < 1) := by
  have hp : 0 < engine.getD (1 / 4) ∧ engine.getD (1 / 4) < 1 := by
    cases engine with
    | none => exact ⟨by norm_num, by norm_num⟩
    | some p => exact he p rfl
  have h0 : engine ≠ some 0 := fun h => absurd (he 0 h).1 (lt_irrefl _)
  have h1' : engine ≠ some 1 := fun h => absurd (he 1 h).2 (lt_irrefl _)
  have hp0 : engine.getD (1 / 4) ≠ 0 := ne_of_gt hp.1
  have hp1 : engine.getD (1 / 4) ≠ 1 := ne_of_lt hp.2
  unfold choose breadthFirst
  generalize engine.getD (1 / 4) = p at *
  refine ⟨?_, ?_, ?_, ?_, ?_⟩
  · intro a b
    subst b
    have : pos ≠ 0 := by omega
    simp only [h1, h2, if_true, Bool.true_eq_false, if_false, Bool.and_true, h0, h1', ne_eq, not_false_eq_true, and_true,
      not_true_eq_false, this, decide_eq_false_iff_not, not_lt, iff_false]
    exact le_of_lt hr.1
  · intro a b
    subst a
    have : neg ≠ 0 := by omega
    simp only [h1, h2, if_true, Bool.true_eq_false, if_false, Bool.and_true, h0, h1', ne_eq, not_false_eq_true, and_true,
      not_true_eq_false, this, decide_eq_true_eq, iff_true]
    exact hr.2
  · intro a b c
    have : ¬ ¬ (pos ≠ 0 ↔ neg ≠ 0) := by
      rw [not_not]; exact not_congr a
    rw [if_neg (fun h => this h.1)]
    simp only [hp0, hp1, ne_eq, not_false_eq_true, and_self, if_true]
    rw [if_neg (by omega), if_neg (by omega)]
  · intro a b
    have hn : neg ≠ 0 := by omega
    have hpos : pos ≠ 0 := by omega
    have : ¬ ¬ (pos ≠ 0 ↔ neg ≠ 0) := by simp [hpos, hn]
    rw [if_neg (fun h => this h.1)]
    simp only [hp0, hp1, ne_eq, not_false_eq_true, and_self, if_true]
    rw [if_pos (by omega)]
    constructor <;> linarith [hp.1]
  · intro a b
    have hn : neg ≠ 0 := by omega
    have hpos : pos ≠ 0 := by omega
    have : ¬ ¬ (pos ≠ 0 ↔ neg ≠ 0) := by simp [hpos, hn]
    rw [if_neg (fun h => this h.1)]
    simp only [hp0, hp1, ne_eq, not_false_eq_true, and_self, if_true]
    rw [if_neg (by omega), if_pos (by omega)]
    constructor <;> linarith [hp.2]

example : breadthFirst 0 7 none = 1 ∧ breadthFirst 7 0 none = 0 ∧ breadthFirst 0 0 none = 1 / 4 := by
  refine ⟨?_, ?_, ?_⟩ <;> simp [breadthFirst]

/-! ### C202: preferred constraints -/

/-- A path on which the preferred constraints are possible stays such a path, for any decisions at nodes with two open branches,
whatever the inner heuristic says and whatever the random numbers are. -/
theorem preferred_kept {M : Type} (sat : List (M → Bool) → Bool) (hs : ∀ es, sat es = true ↔ ∃ m, ∀ e ∈ es, e m = true)
    (prefer known : List (M → Bool)) (choices : List (Choice M)) (hr : ∀ c ∈ choices, 0 < c.rand ∧ c.rand < 1)
    (h : ∃ m, ∀ e ∈ prefer ++ known, e m = true) :
    ∃ m, ∀ e ∈ prefer ++ constrainedPath sat prefer known choices, e m = true := by
  induction choices generalizing known with
  | nil => exact h
  | cons c rest ih =>
    simp only [constrainedPath]
    apply ih _ (fun d hd => hr d (by simp [hd]))
    obtain ⟨hr0, hr1⟩ := hr c (by simp)
    by_cases hpre : prefer = []
    · subst hpre
      -- whichever branch is chosen is possible
      obtain ⟨m, hm⟩ := h
      simp only [List.nil_append] at hm ⊢
      unfold choose
      by_cases hneg : sat ([fun m => !c.expr m] ++ known) = true
      · simp only [hneg, if_true]
        by_cases hpos : sat ([c.expr] ++ known) = false
        · simp only [hpos, if_true, Bool.false_eq_true, if_false]
          exact (hs _).mp hneg
        · have hpos : sat ([c.expr] ++ known) = true := by simpa using hpos
          simp only [hpos, Bool.and_self, if_true, Bool.true_eq_false, if_false]
          by_cases hlt : c.rand < constrained (fun es => sat (es ++ known)) [] c.expr c.inner
          · simp only [hlt, decide_true, if_true]; exact (hs _).mp hpos
          · simp only [hlt, decide_false, Bool.false_eq_true, if_false]; exact (hs _).mp hneg
      · simp only [hneg, Bool.false_eq_true, if_false, if_true]
        refine ⟨m, fun e he => ?_⟩
        rcases List.mem_cons.mp he with rfl | he
        · by_contra hc
          exact hneg ((hs _).mpr ⟨m, fun e he => by
            rcases List.mem_append.mp he with he | he
            · rw [List.mem_singleton] at he; subst he; simpa using hc
            · exact hm e he⟩)
        · exact hm e he
    · have hne : prefer.isEmpty = false := by simpa using hpre
      -- there is a model of everything; it takes one of the branches
      have split2 : (∃ m, ∀ e ∈ prefer ++ c.expr :: known, e m = true) ∨ ∃ m, ∀ e ∈ prefer ++ (fun m => !c.expr m) :: known, e m = true := by
        obtain ⟨m, hm⟩ := h
        cases hc : c.expr m with
        | true =>
          left
          refine ⟨m, fun e he => ?_⟩
          simp only [List.mem_append, List.mem_cons] at he
          rcases he with he | rfl | he
          · exact hm e (by simp [he])
          · exact hc
          · exact hm e (by simp [he])
        | false =>
          right
          refine ⟨m, fun e he => ?_⟩
          simp only [List.mem_append, List.mem_cons] at he
          rcases he with he | rfl | he
          · exact hm e (by simp [he])
          · simp [hc]
          · exact hm e (by simp [he])
      have pos_iff : sat ((c.expr :: prefer) ++ known) = true ↔ ∃ m, ∀ e ∈ prefer ++ c.expr :: known, e m = true := by
        rw [hs]
        constructor
        · rintro ⟨m, hm⟩
          refine ⟨m, fun e he => hm e ?_⟩
          simp only [List.mem_append, List.mem_cons] at he ⊢
          tauto
        · rintro ⟨m, hm⟩
          refine ⟨m, fun e he => hm e ?_⟩
          simp only [List.mem_append, List.mem_cons] at he ⊢
          tauto
      have neg_iff : sat (((fun m => !c.expr m) :: prefer) ++ known) = true ↔
          ∃ m, ∀ e ∈ prefer ++ (fun m => !c.expr m) :: known, e m = true := by
        rw [hs]
        constructor
        · rintro ⟨m, hm⟩
          refine ⟨m, fun e he => hm e ?_⟩
          simp only [List.mem_append, List.mem_cons] at he ⊢
          tauto
        · rintro ⟨m, hm⟩
          refine ⟨m, fun e he => hm e ?_⟩
          simp only [List.mem_append, List.mem_cons] at he ⊢
          tauto
      have pos_one : (∃ m, ∀ e ∈ prefer ++ c.expr :: known, e m = true) → sat ([c.expr] ++ known) = true := by
        rintro ⟨m, hm⟩
        rw [hs]
        refine ⟨m, fun e he => hm e ?_⟩
        simp only [List.mem_append, List.mem_cons, List.not_mem_nil, or_false] at he ⊢
        tauto
      have neg_one : (∃ m, ∀ e ∈ prefer ++ (fun m => !c.expr m) :: known, e m = true) → sat ([fun m => !c.expr m] ++ known) = true := by
        rintro ⟨m, hm⟩
        rw [hs]
        refine ⟨m, fun e he => hm e ?_⟩
        simp only [List.mem_append, List.mem_cons, List.not_mem_nil, or_false] at he ⊢
        tauto
      by_cases hp : ∃ m, ∀ e ∈ prefer ++ c.expr :: known, e m = true
      · by_cases hn : ∃ m, ∀ e ∈ prefer ++ (fun m => !c.expr m) :: known, e m = true
        · split
          · exact hp
          · exact hn
        · -- only the positive branch
          have hc : constrained (fun es => sat (es ++ known)) prefer c.expr c.inner = 1 := by
            unfold constrained
            have e1 : sat ((fun m => !c.expr m) :: prefer ++ known) = false := by
              rw [Bool.eq_false_iff]; exact fun h => hn (neg_iff.mp h)
            simp only [hne, Bool.false_eq_true, if_false, pos_iff.mpr hp, Bool.true_eq_false, e1, if_true]
          have : choose (fun es => sat (es ++ known)) c.expr true true 1 c.rand = true := by
            unfold choose
            simp only [pos_one hp, Bool.true_eq_false, if_false, Bool.and_self, hr1, decide_true, ite_self]
          rw [hc, if_pos this]
          exact hp
      · have hn := split2.resolve_left hp
        have hc : constrained (fun es => sat (es ++ known)) prefer c.expr c.inner = 0 := by
          unfold constrained
          have e1 : sat (c.expr :: prefer ++ known) = false := by
            rw [Bool.eq_false_iff]; exact fun h => hp (pos_iff.mp h)
          simp only [hne, Bool.false_eq_true, if_false, e1, if_true]
        have : ¬ choose (fun es => sat (es ++ known)) c.expr true true 0 c.rand = true := by
          unfold choose
          simp only [neg_one hn, if_true, Bool.and_self]
          split
          · simp
          · simp only [decide_eq_true_eq, not_lt]
            exact le_of_lt hr0
        rw [hc, if_neg this]
        exact hn

/-- Preferring an even number above 2 among 0 … 7, with an inner heuristic and random numbers that always want the other branch. -/
def exampleSat (es : List (Nat → Bool)) : Bool := (List.range 8).any fun m => es.all fun e => e m

example : ((constrainedPath exampleSat [fun m => m % 2 == 0, fun m => decide (2 < m)] []
    [⟨fun m => m % 2 == 1, 1, 1 / 2⟩, ⟨fun m => decide (m < 3), 1, 1 / 2⟩, ⟨fun m => decide (m < 5), 1, 1 / 2⟩]).map fun f =>
      (List.range 8).filter f) = [[0, 1, 2, 3, 4], [3, 4, 5, 6, 7], [0, 2, 4, 6]] := by decide +kernel

/-! ### C203: taking turns -/

/-- Heuristics that take turns: each is told of every path, and the `i`-th path is decided by heuristic `i` modulo their number, in the
state it has from its own turns. -/
theorem rotation {O P N : Type} (ops : Oracle O P N) (oracles : List O) (h0 : oracles ≠ []) (history : List (List (N × Option Rat) × P)) :
    ∃ r answers, Rotating.paths ops { oracles := oracles } history = some (r, answers) ∧
      r.oracles.length = oracles.length ∧ answers.length = history.length ∧
      (∀ (j : Nat) (o : O), oracles[j]? = some o → r.oracles[j]? = some (alone ops oracles.length j 0 o history)) ∧
      ∀ (i : Nat) (q : List (N × Option Rat) × P) (o : O), history[i]? = some q → oracles[i % oracles.length]? = some o →
        answers[i]? = some (askAll ops (ops.pre (alone ops oracles.length (i % oracles.length) 0 o (history.take i))) q.1).2 := by
  have key : ∀ (history : List (List (N × Option Rat) × P)) (k : Nat) (r : Rotating O), r.oracles ≠ [] →
      Int.fmod (r.index + 1) r.oracles.length = ((k % r.oracles.length : Nat) : Int) →
      ∃ r' answers, Rotating.paths ops r history = some (r', answers) ∧
        r'.oracles.length = r.oracles.length ∧ answers.length = history.length ∧
        (∀ (j : Nat) (o : O), r.oracles[j]? = some o → r'.oracles[j]? = some (alone ops r.oracles.length j k o history)) ∧
        ∀ (i : Nat) (q : List (N × Option Rat) × P) (o : O), history[i]? = some q → r.oracles[(k + i) % r.oracles.length]? = some o →
          answers[i]? = some (askAll ops (ops.pre (alone ops r.oracles.length ((k + i) % r.oracles.length) k o (history.take i))) q.1).2 := by
    intro history
    induction history with
    | nil =>
      intro k r _ _
      exact ⟨r, [], rfl, rfl, rfl, fun j o h => h, fun i q o h => by simp at h⟩
    | cons q history ih =>
      intro k r hne hk
      obtain ⟨questions, path⟩ := q
      have hn : r.oracles.length ≠ 0 := fun h => hne (List.length_eq_zero_iff.mp h)
      have hlt : k % r.oracles.length < r.oracles.length := Nat.mod_lt _ (by omega)
      obtain ⟨o, ho⟩ : ∃ o, r.oracles[k % r.oracles.length]? = some o := ⟨_, List.getElem?_eq_getElem hlt⟩
      have hpos : position r.oracles.length ((k % r.oracles.length : Nat) : Int) = k % r.oracles.length := by
        unfold position
        rw [if_pos (Int.natCast_nonneg _), Int.toNat_natCast]
      -- after the hook and the questions
      have hpre : Rotating.pre ops r = some { index := ((k % r.oracles.length : Nat) : Int), oracles := r.oracles.map ops.pre } := by
        unfold Rotating.pre
        rw [if_neg hn, hk]
      have hdec := decideAll_eq ops questions { index := ((k % r.oracles.length : Nat) : Int), oracles := r.oracles.map ops.pre }
        (ops.pre o) (by simp only [List.length_map, hpos, List.getElem?_map, ho]; rfl)
      simp only [List.length_map, hpos] at hdec
      generalize hset : (r.oracles.map ops.pre).set (k % r.oracles.length) (askAll ops (ops.pre o) questions).1 = os at hdec
      have hosl : os.length = r.oracles.length := by rw [← hset]; simp
      obtain ⟨r', answers, e1, e2, e3, e4, e5⟩ := ih (k + 1)
        { index := ((k % r.oracles.length : Nat) : Int), oracles := os.map fun o => ops.post o path }
        (by
          intro h
          have := congrArg List.length h
          simp only [List.length_map, List.length_nil] at this
          omega)
        (by
          simp only [List.length_map, hosl]
          rw [Int.fmod_eq_emod_of_nonneg _ (by omega)]
          push_cast
          rw [Int.emod_add_emod])
      simp only [List.length_map, hosl] at e1 e2 e4 e5
      refine ⟨r', (askAll ops (ops.pre o) questions).2 :: answers, ?_, e2, by simp [e3], ?_, ?_⟩
      · simp only [Rotating.paths, hpre, hdec, Rotating.post, e1]
      · intro j oj hj
        rw [e4 j (ops.post (if k % r.oracles.length = j then (askAll ops (ops.pre oj) questions).1 else ops.pre oj) path) ?_]
        · rfl
        · rw [List.getElem?_map, ← hset]
          by_cases hjk : k % r.oracles.length = j
          · subst hjk
            rw [ho] at hj
            cases hj
            rw [List.getElem?_set_self (by simpa using hlt), if_pos rfl]
            rfl
          · rw [List.getElem?_set_ne hjk, List.getElem?_map, hj, if_neg hjk]
            rfl
      · intro i q oi hq hoi
        cases i with
        | zero =>
          simp only [List.getElem?_cons_zero, Option.some.injEq] at hq
          subst hq
          rw [Nat.add_zero, ho] at hoi
          cases hoi
          rfl
        | succ i =>
          simp only [List.getElem?_cons_succ] at hq ⊢
          have hidx : k + (i + 1) = k + 1 + i := by omega
          rw [hidx] at hoi ⊢
          rw [e5 i q (ops.post (if k % r.oracles.length = (k + 1 + i) % r.oracles.length then
            (askAll ops (ops.pre oi) questions).1 else ops.pre oi) path) hq ?_]
          · rfl
          · rw [List.getElem?_map, ← hset]
            by_cases hjk : k % r.oracles.length = (k + 1 + i) % r.oracles.length
            · rw [← hjk] at hoi ⊢
              rw [ho] at hoi
              cases hoi
              rw [List.getElem?_set_self (by simpa using hlt), if_pos rfl]
              rfl
            · rw [List.getElem?_set_ne hjk, List.getElem?_map, hoi, if_neg hjk]
              rfl
  obtain ⟨r, answers, h1, h2, h3, h4, h5⟩ := key history 0 { oracles := oracles } h0 (by
    have : 0 < oracles.length := List.length_pos_iff.mpr h0
    simp)
  refine ⟨r, answers, h1, h2, h3, h4, ?_⟩
  intro i q o hq ho
  have := h5 i q o hq (by simpa using ho)
  simpa using this

/-- Heuristics that count what they are told and asked. -/
def exampleOps : Oracle (Nat × Nat × Nat) Unit Unit where
  pre o := (o.1 + 1, o.2)
  post o _ := (o.1, o.2.1 + 1, o.2.2)
  decide o _ _ := ((o.1, o.2.1, o.2.2 + 1), o.2.2)

example : (Rotating.paths exampleOps { oracles := [(0, 0, 0), (0, 0, 0)] }
    [([((), none)], ()), ([((), none), ((), none)], ()), ([((), none)], ())]).map (fun x => (x.1.oracles, x.2)) =
      some ([(3, 3, 2), (3, 3, 2)], [[0], [0, 1], [1]]) := by decide +kernel

end Verif.Oracles
