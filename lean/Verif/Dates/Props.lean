import Verif.Dates.Deltas
/-
The properties proved about the date and time replacements.
-/
namespace Verif.Dates

/-! ### The calendar -/

theorem numbering_exists : NumbersDays ordOf := ⟨by decide, fun _ h => ordOf_next h⟩

theorem day_of_ord (n : Int) : ∃ d : Ymd, d.Valid ∧ ordOf d = n := by
  obtain ⟨d, _, h2, h3⟩ := ord2ymd_spec n
  exact ⟨d, h2, h3⟩

theorem numbering_unique {f : Ymd → Int} (hf : NumbersDays f) {d : Ymd} (h : d.Valid) : f d = ordOf d := by
  have up : ∀ k : Nat, ∀ d : Ymd, d.Valid → ordOf d = 1 + k → f d = ordOf d := by
    intro k
    induction k with
    | zero =>
      intro d hd h0
      have : d = ⟨1, 1, 1⟩ := ordOf_inj hd (by decide) (by rw [h0]; decide)
      rw [this, hf.1]; decide
    | succ k ih =>
      intro d hd hk
      obtain ⟨c, hc, ho⟩ := day_of_ord (1 + k)
      have hn := ordOf_next hc
      have : d = c.next := ordOf_inj hd (valid_next hc) (by omega)
      rw [this, hf.2 c hc, ih c hc ho, hn]
  have down : ∀ k : Nat, ∀ d : Ymd, d.Valid → ordOf d = 1 - k → f d = ordOf d := by
    intro k
    induction k with
    | zero => intro d hd h0; exact up 0 d hd (by omega)
    | succ k ih =>
      intro d hd hk
      have hn := ordOf_next hd
      have h1 := ih d.next (valid_next hd) (by omega)
      have h2 := hf.2 d hd
      omega
  by_cases hp : 1 ≤ ordOf d
  · exact up (ordOf d - 1).toNat d h (by omega)
  · exact down (1 - ordOf d).toNat d h (by omega)

/-- **C47.** `toordinal` numbers the days consecutively from 0001-01-01: it is the only numbering that counts each
day one more than the day before, and it is defined exactly on the days of the calendar. -/
theorem toordinal_numbers_days :
    (∃ f, NumbersDays f) ∧
    ∀ f, NumbersDays f → ∀ d, ymd2ord d = if d.Valid then some (f d) else none := by
  refine ⟨⟨ordOf, numbering_exists⟩, fun f hf d => ?_⟩
  split
  · rename_i h
    rw [ymd2ord_valid h, numbering_unique hf h]
  · rename_i h
    exact ymd2ord_invalid h

/-- **C47.** Converting to an ordinal and back, and from any ordinal and back, are identities. -/
theorem ordinal_roundtrip :
    (∀ d : Ymd, d.Valid → (ymd2ord d).bind ord2ymd = some d) ∧
    (∀ n : Int, ∃ d, ord2ymd n = some d ∧ d.Valid ∧ ymd2ord d = some n) := by
  constructor
  · intro d h
    rw [ymd2ord_valid h, Option.bind_some]
    obtain ⟨e, h1, h2, h3⟩ := ord2ymd_spec (ordOf d)
    rw [h1, ordOf_inj h2 h h3]
  · intro n
    obtain ⟨e, h1, h2, h3⟩ := ord2ymd_spec n
    exact ⟨e, h1, h2, by rw [ymd2ord_valid h2, h3]⟩

example : ymd2ord ⟨2024, 2, 29⟩ = some 738945 ∧ ord2ymd 738945 = some ⟨2024, 2, 29⟩ ∧ ymd2ord ⟨2023, 2, 29⟩ = none := by
  decide +kernel

/-- **C47.** Ordinals are ordered as the calendar is. -/
theorem ordinal_order {a b : Ymd} {m n : Int} (ha : ymd2ord a = some m) (hb : ymd2ord b = some n) :
    m < n ↔ a.Before b := by
  by_cases va : a.Valid
  · by_cases vb : b.Valid
    · rw [ymd2ord_valid va, Option.some.injEq] at ha
      rw [ymd2ord_valid vb, Option.some.injEq] at hb
      rw [← ha, ← hb]
      exact ordOf_lt_iff va vb
    · rw [ymd2ord_invalid vb] at hb; simp at hb
  · rw [ymd2ord_invalid va] at ha; simp at ha

/-- **C47.** The constructor accepts exactly the days of the years 1 to 9999, and `fromordinal` exactly the ordinals 1
to 3652059, giving the day with that ordinal. -/
theorem date_constructors :
    (∀ d, mkDate d = if d.Valid ∧ 1 ≤ d.year ∧ d.year ≤ 9999 then some d else none) ∧
    (∀ n r, fromordinal n = some r ↔ 1 ≤ n ∧ n ≤ 3652059 ∧ ymd2ord r = some n) := by
  refine ⟨mkDate_spec, fun n r => ?_⟩
  unfold fromordinal
  obtain ⟨e, h1, h2, h3⟩ := ord2ymd_spec n
  have hr := date_range h2
  rw [h3] at hr
  unfold maxOrdinal at hr
  rw [h1, Option.bind_some, mkDate_spec]
  constructor
  · intro h
    split at h
    · rename_i hv
      simp only [Option.some.injEq] at h
      subst h
      exact ⟨(hr.mp hv.2).1, (hr.mp hv.2).2, by rw [ymd2ord_valid h2, h3]⟩
    · simp at h
  · rintro ⟨g1, g2, g3⟩
    have hv : r.Valid := by
      by_contra hc
      rw [ymd2ord_invalid hc] at g3; simp at g3
    rw [ymd2ord_valid hv, Option.some.injEq] at g3
    have he : e = r := ordOf_inj h2 hv (by rw [h3, g3])
    subst he
    rw [if_pos ⟨hv, hr.mpr ⟨g1, g2⟩⟩]

example : fromordinal 3652059 = some ⟨9999, 12, 31⟩ ∧ fromordinal 3652060 = none ∧ fromordinal 0 = none := by
  decide +kernel

/-- **C47.** The solver's constraint on the day of a symbolic date is the length of the month. -/
theorem day_constraint_exact {y m d : Int} (hm : 1 ≤ m ∧ m ≤ 12) (hd : 1 ≤ d ∧ d ≤ 31) :
    dayInMonthConstraint y m d = true ↔ d ≤ monthLen y m := by
  obtain ⟨h1, h2⟩ := hm
  unfold dayInMonthConstraint monthLen
  rw [isLeapInt_eq]
  by_cases hl : Leap y <;> interval_cases m <;> simp [hl] <;> omega

/-- **C47.** The fresh year, month and day that a symbolic ordinal is decomposed into are determined: for every
ordinal of a date exactly one assignment meets the constraints, the one `_ord2ymd` computes. -/
theorem decomposition_unique {n : Int} (h : 1 ≤ n ∧ n ≤ 3652059) (d : Ymd) :
    bridge n d ↔ ord2ymd n = some d := by
  obtain ⟨e, h1, h2, h3⟩ := ord2ymd_spec n
  have hr := (date_range h2).mpr (by rw [h3]; exact h)
  have hsum : ∀ x : Ymd, (1 ≤ x.month ∧ x.month ≤ 12) →
      daysBeforeYear x.year + daysBeforeMonthTable.getD x.month.toNat 0 +
        b2i (decide (x.month > 2)) * isLeapInt x.year + x.day = ordOf x := by
    intro x hx
    unfold ordOf
    rw [← daysBeforeMonth_eq hx]
    unfold daysBeforeMonth b2i
    rw [isLeapInt_eq]
    obtain ⟨y, m, dd⟩ := x
    obtain ⟨x1, x2⟩ := hx
    dsimp only at *
    by_cases hl : Leap y <;> interval_cases m <;> simp [hl] <;> omega
  rw [h1, Option.some.injEq]
  constructor
  · rintro ⟨b1, b2, b3, b4, b5⟩
    have hv : d.Valid := ⟨b2.1, b2.2, b3.1, (day_constraint_exact b2 b3).mp b5⟩
    rw [hsum d b2] at b4
    exact ordOf_inj h2 hv (by omega)
  · intro hed
    subst hed
    have hl := monthLen_pos e.year e.month
    have hd : 1 ≤ e.day ∧ e.day ≤ 31 := ⟨h2.2.2.1, by have := h2.2.2.2; omega⟩
    refine ⟨hr, ⟨h2.1, h2.2.1⟩, hd, ?_, ?_⟩
    · rw [hsum e ⟨h2.1, h2.2.1⟩, h3]
    · exact (day_constraint_exact ⟨h2.1, h2.2.1⟩ hd).mpr h2.2.2.2

example : bridge 738945 ⟨2024, 2, 29⟩ := (decomposition_unique (by decide) _).mpr (by decide +kernel)

/-! ### Weeks -/

/-- **C64.** `isoweekday` counts Monday to Sunday as 1 to 7 with day 1 a Monday, and `weekday` is one less. -/
theorem weekdays (n : Int) :
    isoweekday 1 = 1 ∧ isoweekday (n + 1) = (if isoweekday n = 7 then 1 else isoweekday n + 1) ∧
    weekday n = isoweekday n - 1 ∧ 1 ≤ isoweekday n ∧ isoweekday n ≤ 7 := by
  unfold isoweekday weekday
  simp only [fmod_lit _ (show (0 : Int) ≤ 7 by omega)]
  refine ⟨by decide, ?_, ?_, ?_, ?_⟩ <;> split <;> (try split) <;> (try split) <;> omega

theorem isoDay_iff {f : Ymd → Int} (hf : NumbersDays f) {d : Ymd} (h : d.Valid) (Y W D : Int) :
    IsoDay f d Y W D ↔ IsoWeek (ordOf d) Y W D := by
  unfold IsoDay IsoWeek
  rw [numbering_unique hf h]
  have hj : f ⟨Y, 1, 1⟩ = jan1 Y := by
    rw [numbering_unique hf (by
      have := monthLen_pos Y 1
      exact ⟨by simp, by simp, by simp, by simp only; omega⟩)]
    unfold ordOf jan1
    simp only [dbm_first]
    omega
  rw [hj]
  constructor
  · rintro ⟨h1, h2, h3, t, t1, t2, t3, t4⟩
    rw [numbering_unique hf t1] at t2 t4
    have hb := dbm_bounds ⟨t1.1, t1.2.1⟩ ⟨t1.2.2.1, t1.2.2.2⟩
    have hn : jan1 t.year ≤ ordOf t ∧ ordOf t < jan1 (t.year + 1) := by
      rw [jan1_succ]; unfold ordOf jan1; omega
    rw [t3] at hn
    exact ⟨h1, h2, by omega, by omega, by omega, by rw [t4, t2]⟩
  · rintro ⟨h1, h2, h3, h4, h5, h6⟩
    obtain ⟨t, t1, t2⟩ := day_of_ord (ordOf d - D + 4)
    refine ⟨h1, h2, by omega, t, t1, ?_, ?_, ?_⟩
    · rw [numbering_unique hf t1, t2]
    · exact year_of t1 (by omega) (by omega)
    · rw [numbering_unique hf t1, t2, h6]

/-- **C64.** `isocalendar` gives the ISO year, week and weekday of every day. -/
theorem isocalendar_correct {f : Ymd → Int} (hf : NumbersDays f) {d : Ymd} (h : d.Valid) (Y W D : Int) :
    isocalendar d = some (Y, W, D) ↔ IsoDay f d Y W D := by
  rw [isoDay_iff hf h]
  obtain ⟨Y', W', D', h1, h2⟩ := isocalendar_isoWeek h
  rw [h1]
  constructor
  · intro he
    simp only [Option.some.injEq, Prod.mk.injEq] at he
    obtain ⟨e1, e2, e3⟩ := he
    subst e1 e2 e3
    exact h2
  · intro h3
    obtain ⟨e1, e2, e3⟩ := isoWeek_unique h2 h3
    rw [e1, e2, e3]

/-- **C64.** `fromisocalendar` accepts exactly the (year, week, weekday) triples of days of the years 1 to 9999 whose
ISO year is in 1 to 9999, and inverts `isocalendar`. -/
theorem fromisocalendar_correct (y w dd : Int) (r : Ymd) :
    fromisocalendar y w dd = some r ↔
      r.Valid ∧ (1 ≤ r.year ∧ r.year ≤ 9999) ∧ (1 ≤ y ∧ y ≤ 9999) ∧ isocalendar r = some (y, w, dd) := by
  rw [fromisocalendar_spec]
  constructor
  · rintro ⟨h1, h2, h3, h4⟩
    exact ⟨h1, h2, h3, (isocalendar_correct numbering_exists h1 _ _ _).mpr
      ((isoDay_iff numbering_exists h1 _ _ _).mpr h4)⟩
  · rintro ⟨h1, h2, h3, h4⟩
    exact ⟨h1, h2, h3, (isoDay_iff numbering_exists h1 _ _ _).mp
      ((isocalendar_correct numbering_exists h1 _ _ _).mp h4)⟩

/-- **C64.** Every date is recovered from its ISO calendar triple. -/
theorem isocalendar_roundtrip {d : Ymd} (h : d.Valid) (hy : 1 ≤ d.year ∧ d.year ≤ 9999) :
    ((isocalendar d).bind fun x => fromisocalendar x.1 x.2.1 x.2.2) = some d := by
  obtain ⟨Y, W, D, h1, h2⟩ := isocalendar_isoWeek h
  rw [h1, Option.bind_some]
  simp only
  rw [fromisocalendar_spec]
  refine ⟨h, hy, ?_, h2⟩
  have hr := (date_range h).mp hy
  unfold maxOrdinal at hr
  obtain ⟨a1, a2, a3, a4, a5, a6⟩ := h2
  have j1 : jan1 1 = 1 := by decide
  have j2 : jan1 10000 = 3652060 := by decide
  refine ⟨?_, ?_⟩
  · by_contra hc
    have := jan1_mono (show Y < 1 by omega)
    omega
  · by_contra hc
    have : jan1 10000 ≤ jan1 Y := by
      rcases Int.lt_or_eq_of_le (show (10000 : Int) ≤ Y by omega) with h | h
      · have := jan1_mono h; have := jan1_succ 10000; have := lp_bounds 10000; omega
      · rw [h]
    omega

example : isocalendar ⟨2021, 1, 3⟩ = some (2020, 53, 7) ∧ fromisocalendar 2020 53 7 = some ⟨2021, 1, 3⟩ ∧
    fromisocalendar 2021 53 1 = none := by decide +kernel

/-! ### Durations -/

/-- **C47.** A `timedelta` of any weeks, days, hours, minutes, seconds, milliseconds and microseconds is their sum, in
canonical fields, and overflows exactly outside the documented range. -/
theorem timedelta_normalises (days seconds micros millis minutes hours weeks : Int) :
    Computes (mkDelta days seconds micros millis minutes hours weeks)
      (weeks * 604800000000 + days * 86400000000 + hours * 3600000000 + minutes * 60000000 + seconds * 1000000 +
        millis * 1000 + micros) := by
  obtain ⟨h1, h2⟩ := mkDelta_spec days seconds micros millis minutes hours weeks
  have e : weeks * 604800000000 + days * 86400000000 + hours * 3600000000 + minutes * 60000000 + seconds * 1000000 +
      millis * 1000 + micros = ((days + weeks * 7) * 86400 + seconds + (minutes * 60 + hours * 3600)) * 1000000 +
      (micros + millis * 1000) := by omega
  rw [e]
  by_cases hr : InRange (((days + weeks * 7) * 86400 + seconds + (minutes * 60 + hours * 3600)) * 1000000 +
      (micros + millis * 1000))
  · exact .inl ⟨hr, h1 hr⟩
  · exact .inr ⟨hr, h2 hr⟩

/-- **C47.** Equal durations have equal fields. -/
theorem timedelta_canonical {a b : Delta} (ha : a.Canonical) (hb : b.Canonical) : a.total = b.total ↔ a = b :=
  ⟨canonical_unique ha hb, fun h => by rw [h]⟩

example : mkDelta 0 0 (-1) 0 0 0 0 = some ⟨-1, 86399, 999999⟩ ∧ mkDelta 999999999 86399 1000000 0 0 0 0 = none := by
  decide +kernel

/-- **C65.** Sums, differences, negations, absolute values and integer multiples of durations. -/
theorem timedelta_ring {a b : Delta} (ha : a.Canonical) (k : Int) :
    Computes (deltaAdd a b) (a.total + b.total) ∧ Computes (deltaSub a b) (a.total - b.total) ∧
    Computes (deltaNeg a) (-a.total) ∧ Computes (deltaAbs a) (a.total.natAbs) ∧
    Computes (deltaMul a k) (a.total * k) := by
  have hneg : Computes (deltaNeg a) (-a.total) := by
    apply computes_delta3; unfold Delta.total; omega
  refine ⟨?_, ?_, hneg, ?_, ?_⟩
  · apply computes_delta3; unfold Delta.total; omega
  · apply computes_delta3; unfold Delta.total; omega
  · unfold deltaAbs
    split
    · rename_i h
      have : (a.total.natAbs : Int) = -a.total := by
        unfold Delta.Canonical at ha
        unfold Delta.total
        omega
      rw [this]
      exact hneg
    · rename_i h
      have h2 := ha
      unfold Delta.Canonical at ha
      have : (a.total.natAbs : Int) = a.total := by unfold Delta.total; omega
      rw [this]
      exact .inl ⟨by unfold InRange Delta.total; omega, a, rfl, h2, rfl⟩
  · apply computes_delta3; unfold Delta.total; ring

/-- **C65.** Division: floor division, remainder, and division with rounding to nearest, ties to even. -/
theorem timedelta_division (a b : Delta) (k : Int) (hk : k ≠ 0) :
    Computes (deltaFloordivInt a k) (a.total.fdiv k) ∧
    deltaFloordiv a b = a.total.fdiv b.total ∧
    Computes (deltaMod a b) (a.total.fmod b.total) ∧
    ∃ q, RoundsTo a.total k q ∧ Computes (deltaTruedivInt a k) q := by
  refine ⟨?_, ?_, ?_, divideAndRound a.total k, divideAndRound_spec _ _ hk, ?_⟩
  · apply computes_delta3; rw [toMicros_eq]; omega
  · unfold deltaFloordiv; rw [toMicros_eq, toMicros_eq]
  · apply computes_delta3; rw [toMicros_eq, toMicros_eq]; omega
  · apply computes_delta3; rw [toMicros_eq]; omega

/-- The rounding is determined. -/
theorem rounding_unique {a b q q' : Int} (hb : b ≠ 0) (h : RoundsTo a b q) (h' : RoundsTo a b q') : q = q' := by
  unfold RoundsTo at h h'
  by_contra hne
  obtain ⟨x, hx⟩ : ∃ x, x = a - q * b := ⟨_, rfl⟩
  obtain ⟨x', hx'⟩ : ∃ x', x' = a - q' * b := ⟨_, rfl⟩
  have hd : x - x' = (q' - q) * b := by rw [hx, hx']; ring
  rw [← hx] at h
  rw [← hx'] at h'
  have hab : (x - x').natAbs = (q' - q).natAbs * b.natAbs := by rw [hd, Int.natAbs_mul]
  have hb1 : b.natAbs ≠ 0 := by omega
  have h1 : (q' - q).natAbs ≠ 0 := by omega
  rcases Nat.lt_or_ge (q' - q).natAbs 2 with h2 | h2
  · have h3 : (q' - q).natAbs = 1 := by omega
    rw [h3, one_mul] at hab
    omega
  · have : 2 * b.natAbs ≤ (q' - q).natAbs * b.natAbs := Nat.mul_le_mul_right _ h2
    omega

example : deltaTruedivInt ⟨0, 0, 5⟩ 2 = some ⟨0, 0, 2⟩ ∧ deltaTruedivInt ⟨0, 0, 7⟩ 2 = some ⟨0, 0, 4⟩ ∧
    deltaFloordivInt ⟨0, 0, 7⟩ (-2) = some ⟨-1, 86399, 999996⟩ := by decide +kernel

/-- **C65.** Durations compare by their length. -/
theorem timedelta_compare {a b : Delta} (ha : a.Canonical) (hb : b.Canonical) :
    IsCmp (a.total < b.total) (b.total < a.total) (deltaCmp a b) := deltaCmp_spec ha hb

/-! ### Date arithmetic -/

/-- The day a date object stands for. -/
def DateRep.Is (r : DateRep) (n : Int) : Prop := r.toordinal = some n ∧ 1 ≤ n ∧ n ≤ 3652059

/-- **C65.** However dates are represented, comparing them compares the days, the difference is the number of days
between, and adding a duration moves by its days or overflows outside the years 1 to 9999. -/
theorem date_arithmetic {a b : DateRep} {m n : Int} (ha : a.Is m) (hb : b.Is n) {t : Delta} (ht : t.Canonical) :
    (∃ c, dateCmp a b = some c ∧ IsCmp (m < n) (n < m) c) ∧
    (∃ d, dateSub a b = some d ∧ d.Canonical ∧ d.total = (m - n) * 86400000000) ∧
    (if 1 ≤ m + t.days ∧ m + t.days ≤ 3652059 then ∃ r, dateAdd a t = some r ∧ r.Is (m + t.days)
      else dateAdd a t = none) ∧
    (if 1 ≤ m - t.days ∧ m - t.days ≤ 3652059 then ∃ r, dateSubDelta a t = some r ∧ r.Is (m - t.days)
      else dateSubDelta a t = none) := by
  obtain ⟨ha, ha1, ha2⟩ := ha
  obtain ⟨hb, hb1, hb2⟩ := hb
  have hadd : ∀ t : Delta, if 1 ≤ m + t.days ∧ m + t.days ≤ 3652059 then
      ∃ r, dateAdd a t = some r ∧ r.Is (m + t.days) else dateAdd a t = none := by
    intro t
    unfold dateAdd maxOrdinal
    rw [ha, Option.bind_some]
    split
    · rw [if_pos (by omega)]
      exact ⟨_, rfl, rfl, by omega, by omega⟩
    · rw [if_neg (by omega)]
  refine ⟨?_, ?_, hadd t, ?_⟩
  · have gen : IsCmp (m < n) (n < m) (cmp [m] [n]) := by
      refine isCmp_congr (cmp_spec [m] [n] rfl) ?_ ?_ <;> simp only [Lex, and_false, or_false]
    cases a with
    | ordinal x =>
      simp only [DateRep.toordinal, Option.some.injEq] at ha
      subst ha
      have he : dateCmp (.ordinal x) b = (b.toordinal.map fun y => cmp [x] [y]) := by cases b <;> rfl
      rw [he, hb, Option.map_some]
      exact ⟨_, rfl, gen⟩
    | fields x =>
      cases b with
      | ordinal y =>
        simp only [DateRep.toordinal, Option.some.injEq] at hb
        subst hb
        unfold dateCmp
        simp only [DateRep.toordinal] at ha ⊢
        simp only [ha, Option.bind_some, Option.map_some]
        exact ⟨_, rfl, gen⟩
      | fields y =>
        unfold dateCmp
        simp only [DateRep.toordinal] at ha hb
        refine ⟨_, rfl, ?_⟩
        refine isCmp_congr (cmp_spec _ _ rfl) ?_ ?_
        · simp only [Lex, and_false, or_false]
          exact (ordinal_order ha hb).symm
        · simp only [Lex, and_false, or_false]
          exact (ordinal_order hb ha).symm
  · unfold dateSub
    rw [ha, hb, Option.bind_some, Option.bind_some]
    obtain ⟨s1, _⟩ := delta3_spec (m - n) 0 0
    obtain ⟨d, h1, h2, h3⟩ := s1 (by unfold InRange; omega)
    exact ⟨d, h1, h2, by rw [h3]; omega⟩
  · unfold dateSubDelta
    obtain ⟨s1, _⟩ := delta3_spec (-t.days) 0 0
    unfold Delta.Canonical at ht
    obtain ⟨d, h1, h2, h3⟩ := s1 (by unfold InRange; omega)
    rw [h1, Option.bind_some]
    have : d.days = -t.days := by
      unfold Delta.Canonical at h2
      unfold Delta.total at h3
      omega
    have h := hadd d
    rw [this, ← sub_eq_add_neg] at h
    exact h

example : dateCmp (.fields ⟨2024, 2, 29⟩) (.ordinal 738946) = some (-1) ∧
    dateAdd (.fields ⟨2024, 2, 29⟩) ⟨1, 0, 0⟩ = some (.ordinal 738946) ∧
    ord2ymd 738946 = some ⟨2024, 3, 1⟩ := by decide +kernel

/-! ### Dates with times -/

/-- **C66.** Adding a duration to a datetime moves its wall clock by exactly that duration and keeps its timezone;
it overflows exactly when the result leaves the years 1 to 9999. -/
theorem datetime_add {a : DT} (ha : a.Ok) (t : Delta) :
    if 86400000000 ≤ a.wall + t.total ∧ a.wall + t.total < 3652060 * 86400000000 then
      ∃ r, dtAdd a t = some r ∧ r.Ok ∧ r.wall = a.wall + t.total ∧ r.tz = a.tz
    else dtAdd a t = none := by
  obtain ⟨h1, h2⟩ := dtAdd_spec ha t
  unfold maxOrdinal at h1 h2
  split
  · rename_i h; exact h1 h
  · rename_i h; exact h2 h

/-- **C66.** The difference of two datetimes is the time between the instants they denote; naive and aware datetimes
cannot be subtracted. -/
theorem datetime_sub {a b : DT} (ha : a.Ok) (hb : b.Ok) (hs : SameTz a b) :
    (a.tz.isSome = b.tz.isSome → ∃ t, dtSub a b = .ok t ∧ t.Canonical ∧
      t.total = (a.wall - a.offset) - (b.wall - b.offset)) ∧
    (a.tz.isSome ≠ b.tz.isSome → dtSub a b = .typeError) := dtSub_spec ha hb hs

/-- **C66.** Datetimes compare by the instants they denote; naive and aware datetimes cannot be ordered. -/
theorem datetime_compare {a b : DT} (ha : a.Ok) (hb : b.Ok) (hs : SameTz a b) :
    (a.tz.isSome = b.tz.isSome → ∃ c, dtCmp a b = .ok c ∧
      IsCmp (a.wall - a.offset < b.wall - b.offset) (b.wall - b.offset < a.wall - a.offset) c) ∧
    (a.tz.isSome ≠ b.tz.isSome → dtCmp a b = .typeError) := dtCmp_spec ha hb hs

/-- 23:30 at UTC-1 and 00:30 the next day at UTC: the same instant. -/
def dtA : DT := ⟨738945, 23, 30, 0, 0, some (0, ⟨-1, 82800, 0⟩)⟩
def dtB : DT := ⟨738946, 0, 30, 0, 0, some (1, ⟨0, 0, 0⟩)⟩

example : dtA.Ok ∧ dtB.Ok ∧ SameTz dtA dtB := by
  refine ⟨⟨by decide, ?_⟩, ⟨by decide, ?_⟩, ?_⟩
  · intro i z h
    simp only [dtA, Option.some.injEq, Prod.mk.injEq] at h
    rw [← h.2]; decide
  · intro i z h
    simp only [dtB, Option.some.injEq, Prod.mk.injEq] at h
    rw [← h.2]; decide
  · intro i x y h h'
    simp only [dtA, dtB, Option.some.injEq, Prod.mk.injEq] at h h'
    omega

example : dtCmp dtA dtB = .ok 0 ∧ dtSub dtA dtB = .ok ⟨0, 0, 0⟩ ∧
    dtAdd dtA ⟨0, 1800, 0⟩ = some ⟨738946, 0, 0, 0, 0, some (0, ⟨-1, 82800, 0⟩)⟩ := by decide +kernel

/-- **C66.** Times with offsets of whole minutes compare by the time of day in UTC.  (Missing: offsets with seconds,
which `time_compare_drops_seconds` shows to be wrong.) -/
theorem time_compare_partial {a b : TM} (ha : a.Valid) (hb : b.Valid)
    (hx : 60000000 ∣ a.off.total) (hy : 60000000 ∣ b.off.total) :
    IsCmp (a.utc < b.utc) (b.utc < a.utc) (timeCmp a b) := by
  unfold timeCmp deltaFloordiv
  simp only [toMicros_eq]
  rw [show (⟨0, 60, 0⟩ : Delta).total = 60000000 by decide, fdiv_lit _ (by omega), fdiv_lit _ (by omega)]
  unfold TM.Valid at ha hb
  refine isCmp_congr (cmp_spec _ _ rfl) ?_ ?_
  · simp only [Lex, and_false, or_false]
    unfold TM.utc
    omega
  · simp only [Lex, and_false, or_false]
    unfold TM.utc
    omega

/-- 10:00:00 with an offset of -30 seconds is 10:00:30 UTC, before 10:00:40 UTC. -/
def tmA : TM := ⟨10, 0, 0, 0, ⟨-1, 86370, 0⟩⟩
def tmB : TM := ⟨10, 0, 40, 0, ⟨0, 0, 0⟩⟩

example : ({ tmA with off := ⟨0, 3600, 0⟩ } : TM).Valid ∧ tmB.Valid ∧
    (60000000 ∣ (⟨0, 3600, 0⟩ : Delta).total) ∧ timeCmp { tmA with off := ⟨0, 3600, 0⟩ } tmB = -1 := by
  refine ⟨by decide, by decide, by decide, by decide +kernel⟩

/-- **C66, disagreement.** Seconds of an offset are dropped when times are compared, so the later one can be the one
that is earlier in UTC. -/
theorem time_compare_drops_seconds : tmA.Valid ∧ tmB.Valid ∧ tmA.utc < tmB.utc ∧ timeCmp tmA tmB = 1 := by
  refine ⟨by decide, by decide, by decide, by decide +kernel⟩

end Verif.Dates
