import Verif.Rand.Lemmas
import Mathlib.Tactic.Positivity
import Mathlib.Algebra.Order.Field.Basic

/-! Theorems about random generators (C45). -/
namespace Verif.Rand

/-- C45, replay.  Copy a generator at any time.  However the requests to the two, to other copies, and further
copies are interleaved afterwards: as far as the two get the same requests, they give the same answers. -/
theorem copy_replays (o : Oracle) (before after : List Event) (g c : Nat)
    (hc : (step o (run o start before).2 (.copy g)).1 = .made c)
    (h : asked c after <+: asked g after) :
    answers c after (run o (step o (run o start before).2 (.copy g)).2 after).1 <+:
      answers g after (run o (step o (run o start before).2 (.copy g)).2 after).1 := by
  have hw := (run_inv o before inv_start).1
  generalize (run o start before).2 = w at *
  have hw' := (step_inv o hw (.copy g)).1
  cases hg : w.idx[g]? with
  | none => simp [step, hg] at hc
  | some i =>
    have hcl : c = w.idx.length := by simp [step, hg] at hc; exact hc.symm
    have h1 : (step o w (.copy g)).2.idx[g]? = some i := step_idx_other o hw hg _ (by simp)
    have h2 : (step o w (.copy g)).2.idx[c]? = some i := by simp [step, hg, hcl]
    rw [answers_eq o after hw' h1, answers_eq o after hw' h2]
    obtain ⟨t, ht⟩ := h
    rw [← ht]
    exact replayFrom_append _ _ _ _ _

/-- The same requests give the same answers. -/
theorem copy_same (o : Oracle) (before after : List Event) (g c : Nat)
    (hc : (step o (run o start before).2 (.copy g)).1 = .made c)
    (h : asked c after = asked g after) :
    answers c after (run o (step o (run o start before).2 (.copy g)).2 after).1 =
      answers g after (run o (step o (run o start before).2 (.copy g)).2 after).1 := by
  have hw := (run_inv o before inv_start).1
  generalize (run o start before).2 = w at *
  have hw' := (step_inv o hw (.copy g)).1
  cases hg : w.idx[g]? with
  | none => simp [step, hg] at hc
  | some i =>
    have hcl : c = w.idx.length := by simp [step, hg] at hc; exact hc.symm
    have h1 : (step o w (.copy g)).2.idx[g]? = some i := step_idx_other o hw hg _ (by simp)
    have h2 : (step o w (.copy g)).2.idx[c]? = some i := by simp [step, hg, hcl]
    rw [answers_eq o after hw' h1, answers_eq o after hw' h2, h]

/-- An oracle that gives the largest integers and one half. -/
def sampleOracle : Oracle where
  fresh n r := match r with
    | .random => .float (1 / (n + 2 : Nat))
    | .below cap => .int (cap - 1)
  hash _ := 7

example : sampleOracle.Obeys := by
  refine ⟨fun n => ⟨1 / (n + 2 : Nat), rfl, by positivity, ?_⟩, fun n cap h => ⟨cap - 1, rfl, by omega, by omega⟩⟩
  rw [div_lt_one (by positivity)]
  push_cast
  have : (0 : Rat) ≤ n := by positivity
  linarith

/-- A generator that was used, then copied; the two are used in turn. -/
def sampleAfter : List Event :=
  [.ask 0 (.below 5), .ask 0 .random, .ask 1 (.below 5), .copy 1, .ask 1 .random, .ask 2 .random]

example : (step sampleOracle (run sampleOracle start [.ask 0 .random]).2 (.copy 0)).1 = .made 1 ∧
    asked 1 sampleAfter = asked 0 sampleAfter ∧
    (run sampleOracle start (.ask 0 .random :: .copy 0 :: sampleAfter)).1 =
      [.value (1 / 2), .made 1, .value 4, .value (1 / 4), .value 4, .made 2, .value (1 / 4), .value (1 / 4)] := by
  decide +kernel

/-- C45, ranges.  As long as generators that share values ask for the same thing at the same position, every
value is in the requested range. -/
theorem in_range_partial (o : Oracle) (ho : o.Obeys) (R : Nat → Req) (hR : PosCaps R) (es : List Event)
    (hf : Follows o R start es) (n g : Nat) (r : Req) (q : Rat) (he : es[n]? = some (.ask g r))
    (hq : (run o start es).1[n]? = some (.value q)) : InRange r q :=
  follows_run ho hR es inv_start (by intro i v h; simp [start] at h) hf n g r q he hq

example : Follows sampleOracle (fun i => if i = 0 then .below 5 else .random) start
    [.copy 0, .ask 0 (.below 5), .ask 1 (.below 5), .ask 1 .random] := by
  refine ⟨?_, ?_, ?_, ?_, trivial⟩
  · intro g i r h; cases h
  · intro g i r h hi; cases h; simp [step, start] at hi; subst hi; rfl
  · intro g i r h hi; cases h; simp [step, start] at hi; subst hi; rfl
  · intro g i r h hi; cases h; simp [step, start, sampleOracle] at hi; subst hi; rfl

/-- A generator that is never copied: every value is in range, whatever is asked. -/
theorem single_in_range (o : Oracle) (ho : o.Obeys) (rs : List Req) (hr : ∀ cap, Req.below cap ∈ rs → 0 < cap)
    (n : Nat) (r : Req) (q : Rat) (he : rs[n]? = some r)
    (hq : (run o start (rs.map (.ask 0))).1[n]? = some (.value q)) : InRange r q := by
  let R : Nat → Req := fun i => rs.getD i .random
  have hR : PosCaps R := by
    intro i cap h
    refine hr cap ?_
    simp only [R, List.getD] at h
    cases hi : rs[i]? with
    | none => rw [hi] at h; cases h
    | some x =>
      rw [hi] at h
      simp only [Option.getD_some] at h
      rw [← h]
      exact List.mem_of_getElem? hi
  have key : ∀ (k : Nat) (ts : List Req) (w : World), rs.drop k = ts → Inv w → w.idx = [k] →
      Follows o R w (ts.map (.ask 0)) := by
    intro k ts
    induction ts generalizing k with
    | nil => intros; trivial
    | cons t ts ih =>
      intro w hd hw hi
      have hk : rs[k]? = some t := by
        have : (rs.drop k)[0]? = some t := by rw [hd]; rfl
        simpa using this
      refine ⟨?_, ?_⟩
      · intro g i r h hg
        cases h
        rw [hi] at hg
        cases hg
        simp [R, List.getD, hk]
      · have hw0 : w.idx[0]? = some k := by rw [hi]; rfl
        refine ih (k + 1) _ ?_ (step_inv o hw _).1 ?_
        · have := congrArg List.tail hd
          simpa using this
        · rcases ask_eq o hw hw0 t with ⟨v, _, h⟩ | ⟨_, h⟩ <;>
          · rw [h]; simp [hi]
  exact in_range_partial o ho R hR _ (key 0 rs start rfl inv_start rfl) n 0 r q (by simp [he]) hq

example : (run sampleOracle start ([.below 5, .random, .below 3].map (.ask 0))).1 =
    [.value 4, .value (1 / 3), .value 2] := by decide +kernel

/-! ## Disagreements -/

/-- Disagreement: a copy that asks for smaller numbers may be given a number that is too large. -/
theorem replay_out_of_range :
    (run sampleOracle start [.copy 0, .ask 0 (.below 10), .ask 1 (.below 5)]).1 = [.made 1, .value 9, .value 9] ∧
      ¬ InRange (.below 5) 9 := by
  refine ⟨by decide +kernel, ?_⟩
  rintro ⟨_, h, _⟩
  norm_num at h

/-- Disagreement: a copy that asks for `random()` where the original asked for an integer may be given 1.0. -/
theorem replay_random_one :
    (run sampleOracle start [.copy 0, .ask 0 (.below 2), .ask 1 .random]).1 = [.made 1, .value 1, .value 1] ∧
      ¬ InRange .random 1 := by
  refine ⟨by decide +kernel, ?_⟩
  rintro ⟨_, h⟩
  norm_num at h

/-- When generators that share values ask for different things at the same position, an integer replayed by `random()`
gives a number between 0 and 1, and 1 only if the integer is 1 or -1; a float replayed as an integer below a bound
is in range. -/
theorem replay_mixed (o : Oracle) :
    (∀ n : Int, 0 ≤ view o .random (.int n) ∧ view o .random (.int n) ≤ 1 ∧
      (view o .random (.int n) = 1 ↔ n.natAbs = 1)) ∧
    (∀ (cap : Int) (q : Rat), 0 < cap → InRange (.below cap) (view o (.below cap) (.float q))) := by
  constructor
  · intro n
    by_cases h : n = 0
    · subst h; simp [view]
    · have hn : 1 ≤ n.natAbs := by omega
      have h1 : (1 : Rat) ≤ ((n.natAbs : Int) : Rat) := by exact_mod_cast hn
      have h0 : (0 : Rat) < ((n.natAbs : Int) : Rat) := by linarith
      simp only [view, ne_eq, h, not_false_eq_true, if_true]
      refine ⟨div_nonneg (by norm_num) (le_of_lt h0), (div_le_one h0).2 h1, ?_⟩
      rw [div_eq_one_iff_eq (ne_of_gt h0)]
      constructor
      · intro he
        have : (1 : Int) = (n.natAbs : Int) := by exact_mod_cast he
        omega
      · intro he; rw [he]; norm_num
  · intro cap q hc
    refine ⟨?_, ?_, ?_⟩
    · simp only [view]
      exact_mod_cast Int.fmod_nonneg_of_pos _ hc
    · simp only [view]
      exact_mod_cast Int.fmod_lt_of_pos _ hc
    · simp [view]

example : view sampleOracle .random (.int (-4)) = 1 / 4 := by decide +kernel

/-- Disagreement: seeding has no effect, so that a generator seeded twice with the same number goes on with new
values instead of starting over. -/
theorem reseeding_does_not_replay :
    (run sampleOracle start [.seed 0 1, .ask 0 .random, .seed 0 1, .ask 0 .random]).1 =
      [.unit, .value (1 / 2), .unit, .value (1 / 3)] := by decide +kernel

/-! ## The contract of `randrange` -/

/-- With a positive step, the contract of `randrange` allows exactly the members of the range. -/
theorem randrange_forward (ret start stop step : Int) (h : 0 < step) :
    rangePost ret start (some stop) step = true ↔ InPyRange ret start stop step := by
  unfold rangePost InPyRange
  simp only [Bool.and_eq_true, decide_eq_true_eq, Bool.or_eq_true, beq_iff_eq, if_pos h]
  constructor
  · rintro ⟨⟨h1, h2⟩, h3⟩
    have hd : step ∣ ret - start := by
      rcases h3 with h3 | h3
      · rw [h3]; exact Int.one_dvd _
      · rw [Int.fmod_eq_emod_of_nonneg _ (by omega)] at h3
        exact Int.dvd_of_emod_eq_zero h3
    obtain ⟨k, hk⟩ := hd
    have hk0 : 0 ≤ k := by
      by_contra hn
      have : step * k < 0 := by nlinarith
      omega
    refine ⟨k.toNat, ?_, h2⟩
    rw [Int.toNat_of_nonneg hk0]
    linarith
  · rintro ⟨k, hk, h2⟩
    have hk0 : (0 : Int) ≤ k * step := by positivity
    refine ⟨⟨by omega, h2⟩, Or.inr ?_⟩
    rw [Int.fmod_eq_emod_of_nonneg _ (by omega)]
    exact Int.emod_eq_zero_of_dvd ⟨k, by rw [hk]; ring⟩

example : rangePost 7 1 (some 10) 3 = true ∧ rangePost 8 1 (some 10) 3 = false := by decide

/-- `randrange(n)` gives any of `0..n-1`. -/
theorem randrange_one_argument (ret n : Int) (h : rangePre n none 1 = true) :
    (rangePost ret n none 1 = true ↔ 0 ≤ ret ∧ ret < n) ∧ ∃ r, rangePost r n none 1 = true := by
  simp [rangePre] at h
  refine ⟨by simp [rangePost], 0, ?_⟩
  simp [rangePost]
  omega

example : rangePre 4 none 1 = true := by decide

/-- With a positive step and a range that is not empty, there is a value to give. -/
theorem randrange_possible (start stop step : Int) (h : rangePre start (some stop) step = true) (hs : 0 < step) :
    ∃ ret, rangePost ret start (some stop) step = true := by
  simp [rangePre, hs] at h
  refine ⟨start, (randrange_forward start start stop step hs).2 ⟨0, by simp, ?_⟩⟩
  rw [if_pos hs]
  omega

example : rangePre 1 (some 10) 3 = true := by decide

/-- Disagreement: with a negative step the precondition of `randrange` can hold, but no value satisfies the
postcondition, although Python's range has members.  Such calls end every path. -/
theorem randrange_negative_step (start stop step : Int) (hs : step < 0)
    (h : rangePre start (some stop) step = true) :
    (∀ ret, rangePost ret start (some stop) step = false) ∧ InPyRange start start stop step := by
  have hlt : stop < start := by
    simp [rangePre, show ¬ 0 < step by omega] at h
    omega
  refine ⟨fun ret => ?_, 0, by simp, by rw [if_neg (by omega)]; exact hlt⟩
  rw [Bool.eq_false_iff]
  intro hr
  simp [rangePost] at hr
  omega

example : rangePre 10 (some 0) (-3) = true := by decide

end Verif.Rand
