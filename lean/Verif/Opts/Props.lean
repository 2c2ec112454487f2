import Verif.Opts.Lemmas
import Mathlib.Tactic.Ring
import Mathlib.Data.List.Induction
/-
Property theorems about options (C35), the division of limits (C36) and directives (C37).
-/
namespace Verif.Opts

/-! ### C35: overlaying options -/

theorem foldl_overlay {V : Type} (sets : List (OptSet V)) (a : OptSet V) (f : Field) :
    (sets.foldl OptSet.overlay a) f = lastSet (a f :: sets.map fun s => s f) := by
  induction sets generalizing a with
  | nil => rfl
  | cons s rest ih =>
    rw [List.foldl_cons, ih, List.map_cons]
    simp only [lastSet, OptSet.overlay]
    cases lastSet (rest.map fun s => s f) with
    | some v => rfl
    | none => cases h : s f <;> rfl

/-- C35: when option sets are laid over one another, every option has the value from the last set that gives one. -/
theorem overlay_last {V : Type} (sets : List (OptSet V)) (f : Field) :
    (sets.foldl OptSet.overlay .empty) f = lastSet (sets.map fun s => s f) := by
  rw [foldl_overlay]
  simp only [lastSet, OptSet.empty]
  cases lastSet (sets.map fun s => s f) <;> rfl

example : ([fun _ => some 1, fun f => if f = .enabled then some 2 else none, fun _ => none].foldl OptSet.overlay .empty :
    OptSet Nat) .enabled = some 2 := by decide

/-- C35: overlaying is associative. -/
theorem overlay_assoc {V : Type} (a b c : OptSet V) : (a.overlay b).overlay c = a.overlay (b.overlay c) := by
  funext f
  unfold OptSet.overlay
  cases c f <;> cases b f <;> rfl

/-- C35: the empty set changes nothing, on either side. -/
theorem overlay_empty {V : Type} (a : OptSet V) : a.overlay .empty = a ∧ OptSet.empty.overlay a = a := by
  constructor
  · funext f
    rfl
  · funext f
    unfold OptSet.overlay
    cases h : a f <;> rfl

/-- C35: laying sets over complete options, one after the other: the last set that gives a value wins, and the original
value stays if none does. -/
theorem full_overlay_last {V : Type} (d : Full V) (sets : List (OptSet V)) (f : Field) :
    (sets.foldl Full.overlay d) f = (lastSet (sets.map fun s => s f)).getD (d f) := by
  induction sets generalizing d with
  | nil => rfl
  | cons s rest ih =>
    rw [List.foldl_cons, ih, List.map_cons]
    simp only [lastSet, Full.overlay]
    cases lastSet (rest.map fun s => s f) with
    | some v => rfl
    | none => cases h : s f <;> rfl

/-- C35: so laying two sets one after the other is laying their combination. -/
theorem full_overlay_overlay {V : Type} (d : Full V) (a b : OptSet V) :
    (d.overlay a).overlay b = d.overlay (a.overlay b) := by
  funext f
  unfold Full.overlay OptSet.overlay
  cases h : b f with
  | none => rfl
  | some v => rfl

example : Full.overlay (Full.overlay (fun _ => 0) fun _ => some 1) (fun _ => none) .timeout = 1 := by decide

/-- C35: the options taken from the command line are exactly eight, each present when it was given. -/
theorem fromDict_exact {V : Type} (source : Field → Option V) (f : Field) :
    fromDict source f =
      if f = .analysisKind ∨ f = .specsComplete ∨ f = .perPathTimeout ∨ f = .perConditionTimeout ∨ f = .maxUninteresting ∨
        f = .reportAll ∨ f = .reportVerbose ∨ f = .unblock then source f else none := by
  have step : ∀ (l : List Field) (o : OptSet V), (l.foldl (fun o f => setIf o f (source f)) o) f =
      if f ∈ l ∧ (source f).isSome then source f else o f := by
    intro l
    induction l with
    | nil => intro o; simp
    | cons x xs ih =>
      intro o
      rw [List.foldl_cons, ih]
      by_cases hx : f = x
      · subst hx
        cases h : source f with
        | none => simp [setIf]
        | some v => simp [setIf]
      · have hxf : ¬ f = x := hx
        cases h : source x with
        | none => simp [setIf, hxf]
        | some v => simp [setIf, hxf]
  unfold fromDict
  rw [step]
  cases h : source f <;> cases f <;> simp [dictFields, OptSet.empty]

example : fromDict (fun _ => some 3) .unblock = some 3 ∧ fromDict (fun _ => some 3) .maxIterations = none := by decide

/-! ### C36: dividing limits -/

/-- What is assumed of floating point rounding: it is monotone and keeps zero and one. -/
structure Rounding (fl : Rat → Rat) : Prop where
  mono : ∀ x y, x ≤ y → fl x ≤ fl y
  zero : fl 0 = 0
  one : fl 1 = 1

theorem roundHalfEven_bounds (x : Rat) (n : Int) (h0 : 0 ≤ x) (hn : x ≤ n) : 0 ≤ roundHalfEven x ∧ roundHalfEven x ≤ n := by
  have f0 : 0 ≤ ⌊x⌋ := Int.floor_nonneg.mpr h0
  have fn : ⌊x⌋ ≤ n := by
    have := Int.floor_le x
    have h2 : ((⌊x⌋ : Int) : Rat) ≤ n := le_trans this hn
    exact_mod_cast h2
  unfold roundHalfEven
  dsimp only
  by_cases he : ⌊x⌋ = n
  · have hx : x - (⌊x⌋ : Rat) < 1 / 2 := by
      rw [he]; linarith
    rw [if_pos hx]
    exact ⟨f0, fn⟩
  · split
    · exact ⟨f0, fn⟩
    · split
      · constructor <;> omega
      · split <;> constructor <;> omega

theorem roundHalfEven_int (n : Int) : roundHalfEven n = n := by
  unfold roundHalfEven
  simp

/-- C36: the iterations of the two stages add up to the whole, whatever the priority and the rounding. -/
theorem split_iterations_sum (fl : Rat → Rat) (o : Limits) (p : Rat) :
    (splitLimits fl o p).1.maxIterations + (splitLimits fl o p).2.maxIterations = o.maxIterations := by
  unfold splitLimits
  dsimp only
  omega

/-- C36, in part: for priorities between zero and one, each stage gets a number of iterations between zero and the whole,
if the number of iterations is exactly a floating point number.  Without that it is not so: `split_negative_iterations`. -/
theorem split_iterations_bounds_partial (fl : Rat → Rat) (hfl : Rounding fl) (o : Limits) (p : Rat) (hp0 : 0 ≤ p) (hp1 : p ≤ 1)
    (hn : 0 ≤ o.maxIterations) (hrep : fl o.maxIterations = o.maxIterations) :
    (0 ≤ (splitLimits fl o p).1.maxIterations ∧ (splitLimits fl o p).1.maxIterations ≤ o.maxIterations) ∧
    (0 ≤ (splitLimits fl o p).2.maxIterations ∧ (splitLimits fl o p).2.maxIterations ≤ o.maxIterations) := by
  have hn' : (0 : Rat) ≤ o.maxIterations := by exact_mod_cast hn
  have h0 : 0 ≤ fl (fl o.maxIterations * p) := by
    rw [← hfl.zero]
    apply hfl.mono
    rw [hrep]
    exact mul_nonneg hn' hp0
  have h1 : fl (fl o.maxIterations * p) ≤ (o.maxIterations : Rat) := by
    conv_rhs => rw [← hrep]
    apply hfl.mono
    rw [hrep]
    exact mul_le_of_le_one_right hn' hp1
  have := roundHalfEven_bounds _ _ h0 h1
  unfold splitLimits
  dsimp only
  omega

example : (splitLimits id ⟨.inf, .nan, 7, 0⟩ (1 / 2)).1.maxIterations = 4 ∧
    (splitLimits id ⟨.inf, .nan, 7, 0⟩ (1 / 2)).2.maxIterations = 3 := by decide +kernel

/-- C36 fails in general: with the default number of iterations, which is not a floating point number, and priority one,
the second stage gets -1 iterations. -/
theorem split_negative_iterations (fl : Rat → Rat) (h1 : fl (maxsize : Int) = 2 ^ 63) (h2 : fl (2 ^ 63) = 2 ^ 63)
    (o : Limits) (ho : o.maxIterations = maxsize) : (splitLimits fl o 1).2.maxIterations = -1 := by
  unfold splitLimits
  dsimp only
  rw [ho, h1, mul_one, h2]
  have : roundHalfEven (2 ^ 63) = 2 ^ 63 := by
    have := roundHalfEven_int (2 ^ 63)
    push_cast at this
    exact this
  rw [this]
  decide

/-- Each of two timeouts divides into finite parts that are no larger than the whole. -/
theorem split_timeouts_bounds (fl : Rat → Rat) (hfl : Rounding fl) (o : Limits) (p t : Rat) (hp0 : 0 ≤ p) (hp1 : p ≤ 1)
    (ht : 0 ≤ t) (hrep : fl t = t) :
    (o.perCondition = .fin t → ∃ t1 t2, (splitLimits fl o p).1.perCondition = .fin t1 ∧
      (splitLimits fl o p).2.perCondition = .fin t2 ∧ 0 ≤ t1 ∧ t1 ≤ t ∧ 0 ≤ t2 ∧ t2 ≤ t) ∧
    (o.perPath = .fin t → ∃ t1 t2, (splitLimits fl o p).1.perPath = .fin t1 ∧
      (splitLimits fl o p).2.perPath = .fin t2 ∧ 0 ≤ t1 ∧ t1 ≤ t ∧ 0 ≤ t2 ∧ t2 ≤ t) := by
  have bound : ∀ q : Rat, 0 ≤ q → q ≤ 1 → 0 ≤ fl (t * q) ∧ fl (t * q) ≤ t := by
    intro q h0 h1
    constructor
    · rw [← hfl.zero]
      exact hfl.mono _ _ (mul_nonneg ht h0)
    · conv_rhs => rw [← hrep]
      exact hfl.mono _ _ (mul_le_of_le_one_right ht h1)
  have hi0 : 0 ≤ fl (1 - p) := by
    rw [← hfl.zero]; exact hfl.mono _ _ (by linarith)
  have hi1 : fl (1 - p) ≤ 1 := by
    conv_rhs => rw [← hfl.one]
    exact hfl.mono _ _ (by linarith)
  have b1 := bound p hp0 hp1
  have b2 := bound _ hi0 hi1
  constructor
  · intro h
    refine ⟨fl (t * p), fl (t * fl (1 - p)), ?_, ?_, b1.1, b1.2, b2.1, b2.2⟩
    · unfold splitLimits; dsimp only; rw [h]; rfl
    · unfold splitLimits; dsimp only; rw [h]; rfl
  · intro h
    refine ⟨fl (t * p), fl (t * fl (1 - p)), ?_, ?_, b1.1, b1.2, b2.1, b2.2⟩
    · unfold splitLimits; dsimp only; rw [h]; rfl
    · unfold splitLimits; dsimp only; rw [h]; rfl

/-- C36: where the arithmetic involved is exact (as it is for priority one half), the timeouts of the stages add up to the
whole. -/
theorem split_timeouts_sum (fl : Rat → Rat) (o : Limits) (p t : Rat) (h1 : fl (1 - p) = 1 - p) (h2 : fl (t * p) = t * p)
    (h3 : fl (t * (1 - p)) = t * (1 - p)) (h : o.perCondition = .fin t) :
    ∃ t1 t2, (splitLimits fl o p).1.perCondition = .fin t1 ∧ (splitLimits fl o p).2.perCondition = .fin t2 ∧ t1 + t2 = t := by
  refine ⟨t * p, t * (1 - p), ?_, ?_, by ring⟩
  · unfold splitLimits; dsimp only; rw [h]; simp only [Num.mul, h2]
  · unfold splitLimits; dsimp only; rw [h, h1]; simp only [Num.mul, h3]

example : (splitLimits id ⟨.fin 10, .nan, 7, 0⟩ (1 / 4)).1.perCondition = .fin (5 / 2) ∧
    (splitLimits id ⟨.fin 10, .nan, 7, 0⟩ (1 / 4)).2.perCondition = .fin (15 / 2) := by decide +kernel

/-- C36: an absent timeout stays absent in both stages, for priorities strictly between zero and one. -/
theorem split_no_timeout (fl : Rat → Rat) (o : Limits) (p : Rat) (hp0 : 0 < p) (hinv : 0 < fl (1 - p)) :
    (o.perCondition = .inf → (splitLimits fl o p).1.perCondition = .inf ∧ (splitLimits fl o p).2.perCondition = .inf) ∧
    (o.perPath = .nan → (splitLimits fl o p).1.perPath = .nan ∧ (splitLimits fl o p).2.perPath = .nan) := by
  constructor
  · intro h
    unfold splitLimits
    dsimp only
    rw [h]
    simp only [Num.mul]
    rw [if_neg (ne_of_gt hp0), if_neg (ne_of_gt hinv)]
    exact ⟨rfl, rfl⟩
  · intro h
    unfold splitLimits
    dsimp only
    rw [h]
    exact ⟨rfl, rfl⟩

example : (splitLimits id ⟨.inf, .nan, 7, 0⟩ (1 / 4)).1.perCondition = .inf := by decide +kernel

/-- C36 fails at the ends: an absent timeout (infinity) becomes "not a number" for a stage with priority zero. -/
theorem split_zero_priority (fl : Rat → Rat) (o : Limits) (h : o.perCondition = .inf) :
    (splitLimits fl o 0).1.perCondition = .nan := by
  unfold splitLimits
  dsimp only
  rw [h]
  simp [Num.mul]

/-- The limit on uninteresting iterations in force: as given; zero means none; and five where neither it nor a timeout was
given. -/
theorem maxUninteresting_exact (o : Limits) :
    (o.maxUninteresting = 0 → getMaxUninteresting o = maxsize) ∧
    (o.maxUninteresting ≠ 0 → o.maxUninteresting ≠ maxsize → getMaxUninteresting o = o.maxUninteresting) ∧
    (o.maxUninteresting = maxsize → (∃ t, o.perCondition = .fin t) → getMaxUninteresting o = maxsize) ∧
    (o.maxUninteresting = maxsize → (¬ ∃ t, o.perCondition = .fin t) → getMaxUninteresting o = 5) := by
  have hm : maxsize ≠ 0 := by decide
  unfold getMaxUninteresting
  refine ⟨?_, ?_, ?_, ?_⟩
  · intro h
    rw [if_neg (by rw [h]; exact fun hh => hm hh.1.symm), if_pos h]
  · intro h1 h2
    rw [if_neg (fun hh => h2 hh.1), if_neg h1]
  · rintro h ⟨t, ht⟩
    rw [if_neg (by rw [ht]; simp [Num.isfinite]), if_neg (by rw [h]; exact hm), h]
  · intro h hn
    rw [if_pos]
    refine ⟨h, ?_⟩
    cases hc : o.perCondition with
    | fin t => exact absurd ⟨t, hc⟩ hn
    | inf => rfl
    | nan => rfl

example : getMaxUninteresting ⟨.inf, .nan, maxsize, maxsize⟩ = 5 := by decide +kernel

/-- The time limit of a path: as given; and where it was not given, a number that is no larger than the time limit of the
condition.  (`root` is the square root: at most its argument, above one.) -/
theorem perPath_exact (root : Rat → Rat) (hroot : ∀ t, 1 < t → root t ≤ t) (o : Limits) :
    (o.perPath ≠ .nan → getPerPathTimeout root o = o.perPath) ∧
    (o.perPath = .nan → ∀ t, o.perCondition = .fin t →
      ∃ q, getPerPathTimeout root o = .fin q ∧ q ≤ t ∧ (t ≤ 1 → q = t) ∧ (1 < t → q = root t)) ∧
    (o.perPath = .nan → (¬ ∃ t, o.perCondition = .fin t) →
      (o.maxUninteresting = maxsize → getPerPathTimeout root o = .fin 5) ∧
      (o.maxUninteresting = 0 → getPerPathTimeout root o = .inf) ∧
      (0 < o.maxUninteresting → o.maxUninteresting < maxsize → getPerPathTimeout root o = .fin o.maxUninteresting)) := by
  have hmu := maxUninteresting_exact o
  refine ⟨?_, ?_, ?_⟩
  · intro h
    unfold getPerPathTimeout
    rw [if_neg]
    cases hp : o.perPath with
    | nan => exact absurd hp h
    | fin q => simp [Num.isnan]
    | inf => simp [Num.isnan]
  · intro h t ht
    unfold getPerPathTimeout
    rw [h, ht, if_pos (by rfl)]
    dsimp only
    by_cases h1 : t > 1
    · rw [if_pos h1]
      exact ⟨_, rfl, hroot t h1, fun h2 => absurd h1 (not_lt.mpr h2), fun _ => rfl⟩
    · rw [if_neg h1]
      exact ⟨_, rfl, le_refl t, fun _ => rfl, fun h2 => absurd h2 h1⟩
  · intro h hn
    have hval : getPerPathTimeout root o =
        if getMaxUninteresting o < maxsize then .fin (max (getMaxUninteresting o) 1 : Int) else .inf := by
      unfold getPerPathTimeout
      rw [h, if_pos (by rfl)]
      cases hc : o.perCondition with
      | fin t => exact absurd ⟨t, hc⟩ hn
      | inf => rfl
      | nan => rfl
    rw [hval]
    refine ⟨?_, ?_, ?_⟩
    · intro hm
      rw [hmu.2.2.2 hm hn]
      decide +kernel
    · intro hm
      rw [hmu.1 hm]
      simp
    · intro h1 h2
      rw [hmu.2.1 (by omega) (by omega), if_pos h2, max_eq_left (by omega)]

example : getPerPathTimeout id ⟨.inf, .nan, maxsize, 9⟩ = .fin 9 := by decide +kernel

/-! ### C37: directives -/

/-- C37: the directives of a scope are accepted exactly if they are settings separated by whitespace, of options that
directives may set, each with a value of the right kind, and no option set twice; the result has exactly those settings. -/
theorem parse_exact {V : Type} (sp : Char → Bool) (hs : Space sp) (parseField : Field → List Char → Option V)
    (hempty : ∀ f, parseField f [] = none) (texts : List (List Char)) (r : OptSet V) :
    parseDirectives sp parseField texts = some r ↔
      ∃ (settings : List (List Setting)) (values : List (Field × V)),
        List.Forall₂ (Directive sp) settings texts ∧
        List.Forall₂ (fun x kv => directiveFields.lookup x.keyValue.1 = some kv.1 ∧
          parseField kv.1 x.keyValue.2 = some kv.2) settings.flatten values ∧
        (values.map Prod.fst).Nodup ∧ r = fun f => values.lookup f := by
  unfold parseDirectives
  rw [parseParts_iff]
  constructor
  · rintro ⟨kvs, h1, _, h3, h4⟩
    -- every part is a written setting
    have key : ∀ (texts : List (List Char)) (kvs : List (Field × V)),
        List.Forall₂ (fun p kv => ∃ k v, item sp p = some (k, v) ∧ directiveFields.lookup k = some kv.1 ∧
          parseField kv.1 v = some kv.2) (texts.flatMap fun t => findall sp t.length t) kvs →
        ∃ settings : List (List Setting), List.Forall₂ (Directive sp) settings texts ∧
          List.Forall₂ (fun x kv => directiveFields.lookup x.keyValue.1 = some kv.1 ∧
            parseField kv.1 x.keyValue.2 = some kv.2) settings.flatten kvs := by
      intro texts
      induction texts with
      | nil =>
        intro kvs h
        cases h
        exact ⟨[], .nil, .nil⟩
      | cons t ts ih =>
        intro kvs h
        rw [List.flatMap_cons] at h
        obtain ⟨k1, k2, e, ha, hb⟩ : ∃ k1 k2, kvs = k1 ++ k2 ∧
            List.Forall₂ (fun p (kv : Field × V) => ∃ k v, item sp p = some (k, v) ∧ directiveFields.lookup k = some kv.1 ∧
              parseField kv.1 v = some kv.2) (findall sp t.length t) k1 ∧
            List.Forall₂ (fun p (kv : Field × V) => ∃ k v, item sp p = some (k, v) ∧ directiveFields.lookup k = some kv.1 ∧
              parseField kv.1 v = some kv.2) (ts.flatMap fun t => findall sp t.length t) k2 := by
          generalize findall sp t.length t = l1 at h ⊢
          generalize (ts.flatMap fun t => findall sp t.length t) = l2 at h ⊢
          clear ih
          induction l1 generalizing kvs with
          | nil => exact ⟨[], kvs, rfl, .nil, h⟩
          | cons p ps ihp =>
            cases h with
            | cons hp hps =>
              obtain ⟨k1, k2, e, ha, hb⟩ := ihp _ hps
              exact ⟨_ :: k1, k2, by rw [e]; rfl, .cons hp ha, hb⟩
        obtain ⟨ss, hss, hvs⟩ := ih k2 hb
        -- the parts of the first text
        have hparts : ∀ p ∈ findall sp t.length t, IsPart sp p := by
          have : ∀ (n : Nat) (s : List Char), s.length ≤ n → ∀ p ∈ findall sp s.length s, IsPart sp p := by
            intro n
            induction n with
            | zero =>
              intro s hl p hp
              have : s = [] := List.length_eq_zero_iff.mp (by omega)
              subst this
              simp [findall] at hp
            | succ n ihn =>
              intro s hl p hp
              rcases findall_shape sp s.length s (Nat.le_refl _) with ⟨_, h2⟩ | ⟨a, q, rest, e1, _, e3, e4, _, e6⟩
              · rw [h2] at hp; simp at hp
              · rw [e6] at hp
                rcases List.mem_cons.mp hp with rfl | hp
                · exact e3
                · have := List.length_pos_iff.mpr e4
                  exact ihn rest (by rw [e1] at hl; simp only [List.length_append] at hl; omega) p hp
          exact this t.length t (Nat.le_refl _)
        obtain ⟨xs, hw, hx⟩ : ∃ xs, List.Forall₂ (Written sp) xs (findall sp t.length t) ∧
            List.Forall₂ (fun x (kv : Field × V) => directiveFields.lookup x.keyValue.1 = some kv.1 ∧
              parseField kv.1 x.keyValue.2 = some kv.2) xs k1 := by
          generalize findall sp t.length t = l1 at ha hparts
          clear e
          induction ha with
          | nil => exact ⟨[], .nil, .nil⟩
          | cons hp hps ihp =>
            obtain ⟨k, v, hi, hf, hv⟩ := hp
            obtain ⟨xs, hw, hx⟩ := ihp fun q hq => hparts q (by simp [hq])
            obtain ⟨x, hwx, hkv⟩ := written_item sp hs _ k v (hparts _ (by simp)) hi (lookup_nonempty k _ hf) (by
              intro hh
              rw [hh, hempty] at hv
              cases hv)
            exact ⟨x :: xs, .cons hwx hw, .cons (by rw [hkv]; exact ⟨hf, hv⟩) hx⟩
        refine ⟨xs :: ss, .cons (directive_findall sp t.length t xs (Nat.le_refl _) hw) hss, ?_⟩
        rw [List.flatten_cons, e]
        exact List.rel_append hx hvs
    obtain ⟨settings, hd, hv⟩ := key texts kvs h1
    refine ⟨settings, kvs, hd, hv, h3, ?_⟩
    rw [h4]
    funext f
    cases kvs.lookup f <;> rfl
  · rintro ⟨settings, kvs, hd, hv, hn, hr⟩
    refine ⟨kvs, ?_, by simp [OptSet.empty], hn, ?_⟩
    · clear hn hr
      induction hd generalizing kvs with
      | nil =>
        cases hv
        exact .nil
      | cons hx _ ih =>
        rename_i a1 a2 a3 a4
        rw [List.flatten_cons] at hv
        rw [List.flatMap_cons]
        have hw := findall_directive sp hs _ _ hx
        revert hw
        generalize findall sp _ _ = l1
        intro hw
        clear hx
        induction hw generalizing kvs with
        | nil => exact ih kvs hv
        | cons hwx _ ihw =>
          cases hv with
          | cons h1 h2 =>
            refine .cons ?_ (ihw _ h2)
            exact ⟨_, _, item_written sp hs _ _ hwx, h1⟩
    · rw [hr]
      funext f
      cases kvs.lookup f <;> rfl

/-- Blanks and tabs, for the examples. -/
def blank (c : Char) : Bool := c == ' ' || c == '\t'

example : Space blank := ⟨by decide, by decide +kernel⟩

example : (parseDirectives blank (fun _ v => if v = [] then none else some v) ["off  per_path_timeout =  5".toList]).map
    (fun o => (o .enabled, o .perPathTimeout, o .timeout)) = some (some "no".toList, some "5".toList, none) := by
  decide +kernel

example : (parseDirectives blank (fun _ v => if v = [] then none else some v) ["off".toList, "enabled=yes".toList]).isNone = true ∧
    (parseDirectives blank (fun _ v => if v = [] then none else some v) ["timeout=5".toList]).isNone = true ∧
    (parseDirectives blank (fun _ v => if v = [] then none else some v) ["per_path_timeout==5".toList]).isNone = true ∧
    (parseDirectives blank (fun _ v => if v = [] then none else some v) ["per_path_timeout".toList]).isNone = true := by
  decide +kernel

/-- C37: truth values are written in eight ways, in any case. -/
theorem parseBool_exact (s : List Char) :
    (parseBool s = some true ↔ s.map Char.toLower ∈ ["1".toList, "true".toList, "y".toList, "yes".toList]) ∧
    (parseBool s = some false ↔ s.map Char.toLower ∈ ["0".toList, "false".toList, "n".toList, "no".toList]) := by
  have hdis : ∀ t ∈ ["0".toList, "false".toList, "n".toList, "no".toList],
      t ∉ ["1".toList, "true".toList, "y".toList, "yes".toList] := by decide +kernel
  have h1 : (s.map Char.toLower = "1".toList ∨ s.map Char.toLower = "true".toList ∨ s.map Char.toLower = "y".toList ∨
      s.map Char.toLower = "yes".toList) ↔ s.map Char.toLower ∈ ["1".toList, "true".toList, "y".toList, "yes".toList] := by
    simp only [List.mem_cons, List.not_mem_nil, or_false]
  have h2 : (s.map Char.toLower = "0".toList ∨ s.map Char.toLower = "false".toList ∨ s.map Char.toLower = "n".toList ∨
      s.map Char.toLower = "no".toList) ↔ s.map Char.toLower ∈ ["0".toList, "false".toList, "n".toList, "no".toList] := by
    simp only [List.mem_cons, List.not_mem_nil, or_false]
  unfold parseBool
  dsimp only
  simp only [h1, h2]
  constructor
  · split
    · rename_i h; exact ⟨fun _ => h, fun _ => rfl⟩
    · rename_i h
      constructor
      · intro hh
        split at hh <;> cases hh
      · exact fun hh => absurd hh h
  · split
    · rename_i h
      constructor
      · intro hh; cases hh
      · exact fun hh => absurd h (hdis _ hh)
    · split
      · rename_i h; exact ⟨fun _ => h, fun _ => rfl⟩
      · rename_i h
        constructor
        · intro hh; cases hh
        · exact fun hh => absurd hh h

example : parseBool "TRUE".toList = some true ∧ parseBool "No".toList = some false ∧ parseBool "off".toList = none := by
  decide +kernel

theorem splitComma_ne (s : List Char) : splitComma s ≠ [] := by
  cases s with
  | nil => simp [splitComma]
  | cons c r =>
    rw [splitComma]
    split
    · simp
    · split <;> simp

theorem splitComma_join (s : List Char) : joinComma (splitComma s) = s ∧ ∀ p ∈ splitComma s, ',' ∉ p := by
  induction s with
  | nil => exact ⟨rfl, by simp [splitComma]⟩
  | cons c r ih =>
    rw [splitComma]
    split
    · rename_i hc
      subst hc
      cases hr : splitComma r with
      | nil => exact absurd hr (splitComma_ne r)
      | cons p ps =>
        rw [hr] at ih
        refine ⟨?_, ?_⟩
        · rw [joinComma, ih.1]
          · rfl
          · simp
        · intro q hq
          rcases List.mem_cons.mp hq with rfl | hq
          · simp
          · exact ih.2 q hq
    · rename_i hc
      cases hr : splitComma r with
      | nil => exact absurd hr (splitComma_ne r)
      | cons p ps =>
        rw [hr] at ih
        refine ⟨?_, ?_⟩
        · dsimp only
          cases ps with
          | nil =>
            have := ih.1
            simp only [joinComma] at this ⊢
            rw [this]
          | cons q qs =>
            have := ih.1
            simp only [joinComma] at this ⊢
            rw [List.cons_append, this]
        · intro q hq
          rcases List.mem_cons.mp hq with rfl | hq
          · intro hm
            rcases List.mem_cons.mp hm with hh | hm
            · exact hc hh.symm
            · exact ih.2 p (by simp) hm
          · exact ih.2 q (by simp [hq])

theorem splitComma_of_join (ps : List (List Char)) (hne : ps ≠ []) (h : ∀ p ∈ ps, ',' ∉ p) :
    splitComma (joinComma ps) = ps := by
  have one : ∀ (p rest : List Char), ',' ∉ p → splitComma (p ++ ',' :: rest) = p :: splitComma rest := by
    intro p rest hp
    induction p with
    | nil => rw [List.nil_append, splitComma, if_pos rfl]
    | cons c cs ih =>
      rw [List.cons_append, splitComma, if_neg (by intro hh; exact hp (by simp [hh])),
        ih (by intro hh; exact hp (by simp [hh]))]
  have last : ∀ (p : List Char), ',' ∉ p → splitComma p = [p] := by
    intro p hp
    induction p with
    | nil => rfl
    | cons c cs ih =>
      rw [splitComma, if_neg (by intro hh; exact hp (by simp [hh])), ih (by intro hh; exact hp (by simp [hh]))]
  induction ps with
  | nil => exact absurd rfl hne
  | cons p rest ih =>
    cases rest with
    | nil => exact last p (h p (by simp))
    | cons q qs =>
      rw [joinComma, one p _ (h p (by simp)), ih (by simp) fun x hx => h x (by simp [hx])]
      simp

/-- A text is stripped to a word exactly if it is that word between whitespace. -/
theorem strip_iff (sp : Char → Bool) (s w : List Char) (hw : ∀ c ∈ w, sp c = false) :
    strip sp s = w ↔ ∃ a b, (∀ c ∈ a, sp c = true) ∧ (∀ c ∈ b, sp c = true) ∧ s = a ++ w ++ b := by
  constructor
  · intro h
    unfold strip at h
    refine ⟨s.takeWhile sp, ((s.dropWhile sp).reverse.takeWhile sp).reverse, fun c hc => mem_takeWhile _ _ c hc,
      fun c hc => mem_takeWhile sp _ c (by simpa using hc), ?_⟩
    rw [← h, List.append_assoc, ← List.reverse_append, List.takeWhile_append_dropWhile, List.reverse_reverse,
      List.takeWhile_append_dropWhile]
  · rintro ⟨a, b, ha, hb, rfl⟩
    exact strip_pad sp a w b ha hb hw

/-- C37: a list of analysis kinds is accepted exactly if it is the names of kinds, with commas between them and whitespace
around any of them. -/
theorem parseKinds_exact (sp : Char → Bool) (hcomma : sp ',' = false)
    (hletters : ∀ n ∈ kindNames, ∀ c ∈ n.1, sp c = false) (s : List Char) (ks : List Kind) :
    parseKinds sp s = some ks ↔ ks ≠ [] ∧ ∃ pieces, s = joinComma pieces ∧
      List.Forall₂ (fun k p => ∃ name a b, (name, k) ∈ kindNames ∧ (∀ c ∈ a, sp c = true) ∧ (∀ c ∈ b, sp c = true) ∧
        p = a ++ name ++ b) ks pieces := by
  have lookup_iff : ∀ (w : List Char) (k : Kind), kindNames.lookup w = some k ↔ (w, k) ∈ kindNames := by
    intro w k
    constructor
    · intro h
      rw [List.lookup_eq_some_iff] at h
      obtain ⟨l1, l2, e, _⟩ := h
      rw [e]
      simp
    · intro h
      have : ∀ x ∈ kindNames, kindNames.lookup x.1 = some x.2 := by decide +kernel
      exact this _ h
  have mapM_iff : ∀ (l : List (List Char)) (ks : List Kind), l.mapM (fun part => kindNames.lookup (strip sp part)) = some ks ↔
      List.Forall₂ (fun k p => ∃ name a b, (name, k) ∈ kindNames ∧ (∀ c ∈ a, sp c = true) ∧ (∀ c ∈ b, sp c = true) ∧
        p = a ++ name ++ b) ks l := by
    intro l
    induction l with
    | nil =>
      intro ks
      rw [List.mapM_nil]
      constructor
      · intro h
        injection h with h
        rw [← h]
        exact .nil
      · intro h
        cases h
        rfl
    | cons p ps ih =>
      intro ks
      rw [List.mapM_cons]
      constructor
      · intro h
        have h := Option.bind_eq_some_iff.mp h
        obtain ⟨k, hk, h⟩ := h
        have h := Option.bind_eq_some_iff.mp h
        obtain ⟨ks', hks, h⟩ := h
        injection h with h
        rw [← h]
        refine .cons ?_ ((ih ks').mp hks)
        have hmem := (lookup_iff _ _).mp hk
        obtain ⟨a, b, ha, hb, e⟩ := (strip_iff sp p (strip sp p) (hletters _ hmem)).mp rfl
        exact ⟨strip sp p, a, b, hmem, ha, hb, e⟩
      · intro h
        cases h with
        | cons hk hks =>
          obtain ⟨name, a, b, hmem, ha, hb, rfl⟩ := hk
          rw [(strip_iff sp _ name (hletters _ hmem)).mpr ⟨a, b, ha, hb, rfl⟩, (lookup_iff _ _).mpr hmem,
            (ih _).mpr hks]
          rfl
  unfold parseKinds
  rw [mapM_iff]
  constructor
  · intro h
    refine ⟨?_, splitComma s, (splitComma_join s).1.symm, h⟩
    intro hh
    rw [hh] at h
    cases hsp : splitComma s with
    | nil => exact splitComma_ne s hsp
    | cons p ps => rw [hsp] at h; cases h
  · rintro ⟨hne, pieces, rfl, h⟩
    rw [splitComma_of_join]
    · exact h
    · intro hh
      rw [hh] at h
      cases h
      exact hne rfl
    · intro p hp hm
      have : ∀ (ks : List Kind) (pieces : List (List Char)), List.Forall₂ (fun k p => ∃ name a b, (name, k) ∈ kindNames ∧
          (∀ c ∈ a, sp c = true) ∧ (∀ c ∈ b, sp c = true) ∧ p = a ++ name ++ b) ks pieces → ∀ p ∈ pieces, ',' ∉ p := by
        intro ks pieces h
        induction h with
        | nil => simp
        | cons hk _ ih =>
          obtain ⟨name, a, b, hmem, ha, hb, rfl⟩ := hk
          intro q hq
          rcases List.mem_cons.mp hq with rfl | hq
          · intro hm
            simp only [List.mem_append] at hm
            rcases hm with (hm | hm) | hm
            · rw [ha _ hm] at hcomma; cases hcomma
            · exact (by decide +kernel : ∀ n ∈ kindNames, ',' ∉ n.1) _ hmem hm
            · rw [hb _ hm] at hcomma; cases hcomma
          · exact ih q hq
      exact this ks pieces h p hp hm

example : parseKinds blank "PEP316, deal".toList = some [.pep316, .deal] ∧ parseKinds blank "pep316".toList = none ∧
    parseKinds blank [] = none := by decide +kernel

/-- Composition of the options of nested scopes. -/
def nested {V : Type} (own : Thing → Option (OptSet V)) (l : List Thing) : Option (OptSet V) :=
  l.foldl (fun acc s => acc.bind fun parent => (own s).map parent.overlay) (some .empty)

theorem nested_append {V : Type} (own : Thing → Option (OptSet V)) (l : List Thing) (s : Thing) :
    nested own (l ++ [s]) = (nested own l).bind fun parent => (own s).map parent.overlay := by
  unfold nested
  rw [List.foldl_append]
  rfl

theorem collectRev_nested {V : Type} (own : Thing → Option (OptSet V)) (path : List String) :
    collectRev own path = nested own ((List.range path.length).map fun i => .package (path.reverse.take (i + 1))) := by
  induction path with
  | nil => rfl
  | cons x outer ih =>
    rw [collectRev, ih, List.length_cons, List.range_succ, List.map_append, List.map_singleton, nested_append]
    have e1 : (List.range outer.length).map (fun i => Thing.package ((x :: outer).reverse.take (i + 1))) =
        (List.range outer.length).map fun i => .package (outer.reverse.take (i + 1)) := by
      apply List.map_congr_left
      intro i hi
      rw [List.mem_range] at hi
      rw [List.reverse_cons, List.take_append_of_le_length (by rw [List.length_reverse]; omega)]
    have e2 : (x :: outer).reverse.take (outer.length + 1) = (x :: outer).reverse :=
      List.take_of_length_le (by simp)
    rw [e1, e2]

theorem collect_eq_nested {V : Type} (own : Thing → Option (OptSet V)) (t : Thing) : collect own t = nested own (scopes t) := by
  cases t with
  | package path =>
    rw [collect, collectRev_nested, List.length_reverse, List.reverse_reverse, scopes]
  | module pkg name =>
    rw [collect, collectRev_nested, List.length_reverse, List.reverse_reverse, scopes, nested_append]
  | member pkg m q =>
    rw [collect, collectRev_nested, List.length_reverse, List.reverse_reverse, scopes,
      show ∀ (l : List Thing) (a b : Thing), l ++ [a, b] = (l ++ [a]) ++ [b] by simp, nested_append, nested_append]

theorem lastSet_append {V : Type} (l : List (Option V)) (x : Option V) :
    lastSet (l ++ [x]) = if x.isSome then x else lastSet l := by
  induction l with
  | nil => cases x <;> rfl
  | cons y ys ih =>
    rw [List.cons_append, lastSet, ih]
    cases x with
    | some v => rfl
    | none => rfl

theorem nested_iff {V : Type} (own : Thing → Option (OptSet V)) (l : List Thing) : ∀ r, nested own l = some r ↔
    (∀ s ∈ l, (own s).isSome) ∧ r = fun f => lastSet (l.map fun s => (own s).bind fun o => o f) := by
  induction l using List.reverseRecOn with
  | nil =>
    intro r
    constructor
    · intro h
      injection h with h
      exact ⟨by simp, h.symm⟩
    · rintro ⟨_, rfl⟩
      rfl
  | append_singleton l s ih =>
    intro r
    rw [nested_append, Option.bind_eq_some_iff]
    constructor
    · rintro ⟨parent, hp, h⟩
      rw [ih] at hp
      obtain ⟨h1, h2⟩ := hp
      rw [Option.map_eq_some_iff] at h
      obtain ⟨o, ho, h⟩ := h
      refine ⟨?_, ?_⟩
      · intro x hx
        rcases List.mem_append.mp hx with hx | hx
        · exact h1 x hx
        · rw [List.mem_singleton.mp hx, ho]; rfl
      · rw [← h, h2]
        funext f
        rw [List.map_append, List.map_singleton, lastSet_append, ho]
        rfl
    · rintro ⟨h1, h2⟩
      refine ⟨_, (ih _).mpr ⟨fun x hx => h1 x (by simp [hx]), rfl⟩, ?_⟩
      have := h1 s (by simp)
      obtain ⟨o, ho⟩ := Option.isSome_iff_exists.mp this
      rw [ho, Option.map_some, h2]
      congr 1
      funext f
      rw [List.map_append, List.map_singleton, lastSet_append, ho]
      rfl

/-- C37: the directives in force for a function, class, module or package: those of the innermost scope around it that
sets the option; a malformed directive in any scope around it is an error. -/
theorem collect_innermost {V : Type} (own : Thing → Option (OptSet V)) (t : Thing) (r : OptSet V) :
    collect own t = some r ↔ (∀ s ∈ scopes t, (own s).isSome) ∧
      r = fun f => lastSet ((scopes t).map fun s => (own s).bind fun o => o f) := by
  rw [collect_eq_nested]
  exact nested_iff own (scopes t) r

example : scopes (.member ["a", "b"] "m" "f") =
    [.package ["a"], .package ["a", "b"], .module ["a", "b"] "m", .member ["a", "b"] "m" "f"] := by decide

example : ((collect (fun t => some fun f => if t = .package ["a"] ∧ f = .enabled then some 1
    else if t = .module ["a", "b"] "m" then some 2 else none) (.member ["a", "b"] "m" "f")).map
      (fun o => (o .enabled, o .timeout))) = some (some 2, some 2) := by decide

/-- C35 and C37: a function is analysed with the command line's value of an option, else with that of the innermost
directive, else with the default. -/
theorem effective_precedence {V : Type} (defaults : Full V) (own : Thing → Option (OptSet V)) (cli : OptSet V) (t : Thing)
    (hok : ∀ s ∈ scopes t, (own s).isSome) : ∃ r, effective defaults own cli t = some r ∧ ∀ f,
      r f = match cli f with
        | some v => v
        | none => (lastSet ((scopes t).map fun s => (own s).bind fun o => o f)).getD (defaults f) := by
  obtain ⟨d, hd⟩ : ∃ d, collect own t = some d := ⟨_, (collect_innermost own t _).mpr ⟨hok, rfl⟩⟩
  have := ((collect_innermost own t d).mp hd).2
  refine ⟨(defaults.overlay d).overlay cli, ?_, ?_⟩
  · unfold effective
    rw [hd]
    rfl
  · intro f
    unfold Full.overlay
    rw [this]
    cases cli f with
    | some v => rfl
    | none =>
      dsimp only
      cases lastSet ((scopes t).map fun s => (own s).bind fun o => o f) <;> rfl

example : ∀ s ∈ scopes (.member ["a"] "m" "f"), ((fun _ => some fun _ => some 1 : Thing → Option (OptSet Nat)) s).isSome := by
  decide

end Verif.Opts
