import Verif.Range.Model
import Verif.Range.Spec
import Mathlib.Tactic.Ring
import Mathlib.Tactic.Linarith
namespace Verif.Range

theorem isRange_unique {a b c : Int} {xs ys : List Int} (h : IsRange a b c xs)
    (h' : IsRange a b c ys) : xs = ys := by
  apply List.ext_getElem?
  intro i
  by_cases hp : HasPos a b c i
  · rw [(h i).1 hp, (h' i).1 hp]
  · rw [(h i).2 hp, (h' i).2 hp]

theorem iterUp_isRange (start stop step : Int) (h : 0 < step) :
    IsRange start stop step (iterUp start stop step) := by
  induction start using iterUp.induct (stop := stop) (step := step) with
  | case1 start hc ih =>
    intro i
    rw [iterUp, if_pos hc]
    cases i with
    | zero => simp [HasPos, h, hc.1]
    | succ i =>
      have := ih i
      have e : start + step * ((i + 1 : Nat) : Int) = start + step + step * (i : Int) := by
        push_cast; ring
      simp only [HasPos, if_pos h, e, List.getElem?_cons_succ] at this ⊢
      exact this
  | case2 start hc =>
    intro i
    rw [iterUp, if_neg hc]
    have : 0 ≤ step * (i : Int) := Int.mul_nonneg (by omega) (by omega)
    have hn : ¬ HasPos start stop step i := by
      simp only [HasPos, if_pos h]; omega
    exact ⟨fun hp => absurd hp hn, fun _ => rfl⟩

theorem iterDown_eq_neg (start stop step : Int) :
    iterDown start stop step = (iterUp (-start) (-stop) (-step)).map (- ·) := by
  induction start using iterDown.induct (stop := stop) (step := step) with
  | case1 start hc ih =>
    rw [iterDown, if_pos hc, iterUp, if_pos (by omega), ih]
    simp only [List.map_cons, Int.neg_neg, Int.neg_add]
  | case2 start hc =>
    rw [iterDown, if_neg hc, iterUp, if_neg (by omega)]
    rfl

theorem isRange_neg {a b c : Int} {xs : List Int} (hc : c ≠ 0) (h : IsRange a b c xs) :
    IsRange (-a) (-b) (-c) (xs.map (- ·)) := by
  intro i
  have e : -a + -c * (i : Int) = -(a + c * (i : Int)) := by ring
  have hp : HasPos (-a) (-b) (-c) i ↔ HasPos a b c i := by
    simp only [HasPos, e]
    by_cases h0 : 0 < c
    · rw [if_pos h0, if_neg (by omega)]; omega
    · rw [if_neg h0, if_pos (by omega)]; omega
  rw [hp, List.getElem?_map, e]
  constructor
  · intro h1; rw [(h i).1 h1]; rfl
  · intro h1; rw [(h i).2 h1]; rfl

theorem iter_isRange' (r : Rng) (h : r.step ≠ 0) : IsRange r.start r.stop r.step r.iter := by
  unfold Rng.iter
  split
  · rename_i hs
    rw [iterDown_eq_neg]
    have := isRange_neg (by omega) (iterUp_isRange (-r.start) (-r.stop) (-r.step) (by omega))
    simpa using this
  · exact iterUp_isRange _ _ _ (by omega)

/-- The number of whole and started steps in a positive width. -/
theorem ceil_spec (w s : Int) (hw : 0 ≤ w) (hs : 0 < s) :
    w ≤ (w.fdiv s + min 1 (w.fmod s)) * s ∧ (w.fdiv s + min 1 (w.fmod s) - 1) * s < w + (if w = 0 then 1 else 0)
      ∧ 0 ≤ w.fdiv s + min 1 (w.fmod s) := by
  have h1 := Int.fdiv_mul_add_fmod w s
  have h2 := Int.fmod_nonneg_of_pos w hs
  have h3 := Int.fmod_lt_of_pos w hs
  have h4 : 0 ≤ w.fdiv s := Int.fdiv_nonneg hw (by omega)
  generalize w.fdiv s = q at *
  generalize w.fmod s = m at *
  by_cases hm : m = 0
  · subst hm
    have : min (1 : Int) 0 = 0 := rfl
    rw [this]
    have : (q + 0 - 1) * s = q * s - s := by ring
    refine ⟨by simp; omega, by split <;> omega, by omega⟩
  · have hmin : min 1 m = 1 := by omega
    rw [hmin]
    have e1 : (q + 1) * s = q * s + s := by ring
    have e2 : (q + 1 - 1) * s = q * s := by ring
    refine ⟨by omega, by split <;> omega, by omega⟩

/-- A list with exactly the positions below `n` has length `n`. -/
theorem isRange_length {a b c : Int} {xs : List Int} (h : IsRange a b c xs) (n : Int) (h0 : 0 ≤ n)
    (hin : ∀ i : Nat, (i : Int) < n → HasPos a b c i) (hout : ∀ i : Nat, n ≤ (i : Int) → ¬ HasPos a b c i) :
    (xs.length : Int) = n := by
  have h1 : xs[n.toNat]? = none := (h n.toNat).2 (hout _ (by omega))
  have h1' := List.getElem?_eq_none_iff.1 h1
  rcases Int.lt_or_le (xs.length : Int) n with hlt | hle
  · have h2 := (h xs.length).1 (hin _ hlt)
    have h3 : xs[xs.length]? = none := List.getElem?_eq_none_iff.2 (Nat.le_refl _)
    rw [h3] at h2
    cases h2
  · omega

theorem len_up (start stop step : Int) (hs : 0 < step) :
    ((iterUp start stop step).length : Int) = Rng.len ⟨start, stop, step⟩ := by
  unfold Rng.len
  simp only
  by_cases hlt : start < stop
  · rw [if_neg (by simp [hs, hlt])]
    have hw : ((stop - start).natAbs : Int) = stop - start := by omega
    have hst : (step.natAbs : Int) = step := by omega
    rw [hw, hst]
    obtain ⟨c1, c2, c3⟩ := ceil_spec (stop - start) step (by omega) hs
    have key : ((iterUp start stop step).length : Int) =
        (stop - start).fdiv step + min 1 ((stop - start).fmod step) := by
      apply isRange_length (iterUp_isRange start stop step hs) _ c3
      · intro i hi
        simp only [HasPos, if_pos hs]
        generalize (stop - start).fdiv step + min 1 ((stop - start).fmod step) = n at *
        rw [if_neg (by omega)] at c2
        have : step * (i : Int) ≤ step * (n - 1) := Int.mul_le_mul_of_nonneg_left (by omega) (by omega)
        rw [mul_comm step (n - 1)] at this
        omega
      · intro i hi
        simp only [HasPos, if_pos hs]
        generalize (stop - start).fdiv step + min 1 ((stop - start).fmod step) = n at *
        have : step * n ≤ step * (i : Int) := Int.mul_le_mul_of_nonneg_left (by omega) (by omega)
        rw [mul_comm step n] at this
        omega
    split
    · exact key
    · rename_i h1
      have h1 : step = 1 := by omega
      subst h1
      rw [key]
      have e1 : (stop - start).fmod 1 = 0 := by
        rw [Int.fmod_eq_emod_of_nonneg _ (by omega)]; omega
      have e2 : (stop - start).fdiv 1 = stop - start := by
        rw [Int.fdiv_eq_ediv_of_nonneg _ (by omega)]; omega
      rw [e1, e2]
      have : min (1 : Int) 0 = 0 := rfl
      omega
  · rw [if_pos (by simp [hs, hlt]), iterUp, if_neg (by omega)]
    rfl

theorem len_neg (a b c : Int) (hc : c < 0) :
    Rng.len ⟨a, b, c⟩ = Rng.len ⟨-a, -b, -c⟩ := by
  unfold Rng.len
  simp only
  have d1 : decide (c > 0) = false := by simp; omega
  have d2 : decide (-c > 0) = true := by simp; omega
  by_cases h : b < a
  · have d3 : decide (b > a) = false := by simp; omega
    have d4 : decide (-b > -a) = true := by simp; omega
    rw [if_neg (show ¬ decide (c > 0) ≠ decide (b > a) by rw [d1, d3]; simp),
      if_neg (show ¬ decide (-c > 0) ≠ decide (-b > -a) by rw [d2, d4]; simp)]
    have e1 : (-b - -a).natAbs = (b - a).natAbs := by omega
    have e2 : (-c).natAbs = c.natAbs := by omega
    rw [e1, e2, if_pos (show c ≠ 1 by omega)]
    split
    · rfl
    · rename_i h1
      have h1 : c = -1 := by omega
      subst h1
      show ((b - a).natAbs : Int).fdiv 1 + min 1 (((b - a).natAbs : Int).fmod 1) = _
      rw [Int.fmod_eq_emod_of_nonneg _ (by omega), Int.fdiv_eq_ediv_of_nonneg _ (by omega)]
      omega
  · have d4 : decide (-b > -a) = false := by simp; omega
    by_cases hab : a = b
    · subst hab
      rw [if_neg (show ¬ decide (c > 0) ≠ decide (a > a) by rw [d1]; simp),
        if_pos (show decide (-c > 0) ≠ decide (-a > -a) by rw [d2, d4]; simp)]
      have : ((a - a).natAbs : Int) = 0 := by omega
      rw [this]
      split <;> simp
    · have d3 : decide (b > a) = true := by simp; omega
      rw [if_pos (by rw [d1, d3]; simp), if_pos (by rw [d2, d4]; simp)]

theorem len_eq (r : Rng) (h : r.step ≠ 0) : r.len = (r.iter.length : Int) := by
  obtain ⟨a, b, c⟩ := r
  simp only at h
  unfold Rng.iter
  split
  · rename_i hc
    simp only at hc ⊢
    rw [iterDown_eq_neg, List.length_map, len_up _ _ _ (by omega), len_neg _ _ _ hc]
  · rename_i hc
    simp only at hc ⊢
    rw [len_up _ _ _ (by omega)]

/-- Membership in terms of positions. -/
theorem mem_iter (r : Rng) (h : r.step ≠ 0) (v : Int) :
    v ∈ r.iter ↔ ∃ i : Nat, HasPos r.start r.stop r.step i ∧ v = r.start + r.step * i := by
  have hr := iter_isRange' r h
  rw [List.mem_iff_getElem?]
  constructor
  · rintro ⟨i, hi⟩
    by_cases hp : HasPos r.start r.stop r.step i
    · rw [(hr i).1 hp] at hi
      exact ⟨i, hp, by simpa using hi.symm⟩
    · rw [(hr i).2 hp] at hi
      cases hi
  · rintro ⟨i, hp, rfl⟩
    exact ⟨i, (hr i).1 hp⟩

theorem contains_iff (r : Rng) (h : r.step ≠ 0) (v : Int) :
    r.contains v = true ↔ ∃ i : Nat, HasPos r.start r.stop r.step i ∧ v = r.start + r.step * i := by
  unfold Rng.contains HasPos
  split
  · rename_i hs
    simp only [Bool.and_eq_true, decide_eq_true_eq]
    constructor
    · rintro ⟨⟨h1, h2⟩, h3⟩
      obtain ⟨k, hk⟩ := Int.dvd_of_fmod_eq_zero h3
      have hk0 : 0 ≤ k := by
        by_contra hneg
        have : r.step * k ≤ r.step * (-1) := Int.mul_le_mul_of_nonneg_left (by omega) (by omega)
        omega
      have e : ((k.toNat : Nat) : Int) = k := by omega
      exact ⟨k.toNat, by rw [e, ← hk]; omega, by rw [e, ← hk]; omega⟩
    · rintro ⟨i, hp, rfl⟩
      have : 0 ≤ r.step * (i : Int) := Int.mul_nonneg (by omega) (by omega)
      refine ⟨⟨by omega, hp⟩, ?_⟩
      have e : r.start + r.step * (i : Int) - r.start = r.step * i := by omega
      rw [e]; simp
  · rename_i hs
    simp only [Bool.and_eq_true, decide_eq_true_eq]
    constructor
    · rintro ⟨⟨h1, h2⟩, h3⟩
      obtain ⟨k, hk⟩ := Int.dvd_of_fmod_eq_zero h3
      have hk0 : 0 ≤ k := by
        by_contra hneg
        have : (-r.step) * k ≤ (-r.step) * (-1) :=
          Int.mul_le_mul_of_nonneg_left (by omega) (by omega)
        rw [Int.neg_mul] at this
        omega
      have e : ((k.toNat : Nat) : Int) = k := by omega
      exact ⟨k.toNat, by rw [e, ← hk]; omega, by rw [e, ← hk]; omega⟩
    · rintro ⟨i, hp, rfl⟩
      have : 0 ≤ (-r.step) * (i : Int) := Int.mul_nonneg (by omega) (by omega)
      rw [Int.neg_mul] at this
      refine ⟨⟨hp, by omega⟩, ?_⟩
      have e : r.start + r.step * (i : Int) - r.start = r.step * i := by omega
      rw [e]; simp

theorem hasPos_iff_lt (r : Rng) (h : r.step ≠ 0) (i : Nat) :
    HasPos r.start r.stop r.step i ↔ i < r.iter.length := by
  have hr := iter_isRange' r h
  constructor
  · intro hp
    have := (hr i).1 hp
    exact (List.getElem?_eq_some_iff.1 this).1
  · intro hl
    by_contra hp
    have := (hr i).2 hp
    rw [List.getElem?_eq_none_iff] at this
    omega

theorem eqLoop_iff (a : List Int) : ∀ b, a.length = b.length → (eqLoop a b = true ↔ a = b) := by
  induction a with
  | nil => intro b hl; cases b <;> simp_all [eqLoop]
  | cons x a ih =>
    intro b hl
    cases b with
    | nil => simp at hl
    | cons y b =>
      simp only [eqLoop]
      split
      · rename_i hne; simp [hne]
      · rename_i hne
        have hxy : x = y := by simpa using hne
        rw [ih b (by simpa using hl)]
        simp [hxy]

end Verif.Range
