/- Theorems about inputs of the types of `datetime`, their realization, and `replace`. -/
import Verif.DateInputs.Model
import Verif.Dates.Props
import Verif.Zones.Local

namespace Verif.DateInputs
open Verif.Dates

/-! ### Making inputs -/

theorem boundedInt_some {d : Draws} {n : Name} {lo hi x : Int} : boundedInt d n lo hi = some x ↔ x = d.int n ∧ lo ≤ x ∧ x ≤ hi := by
  unfold boundedInt
  split
  · rename_i h
    constructor
    · intro h1; cases h1; exact ⟨rfl, h⟩
    · rintro ⟨rfl, _⟩; rfl
  · rename_i h
    constructor
    · intro h1; cases h1
    · rintro ⟨rfl, h1⟩; exact absurd h1 h

/-- The dates that are tried are exactly the dates of Python, each by its day; realized they are that day. -/
theorem dates_made (n : Name) (day : Ymd) : (∃ d r, makeDate d n = some r ∧ realizeDate r = some day) ↔ IsDate day := by
  constructor
  · rintro ⟨d, r, h, h1⟩
    unfold makeDate at h
    rw [Option.map_eq_some_iff] at h
    obtain ⟨k, _, rfl⟩ := h
    simp only [realizeDate, fromordinal, Option.bind_eq_some_iff] at h1
    obtain ⟨e, _, h2⟩ := h1
    rw [mkDate_spec] at h2
    split at h2
    · cases h2; assumption
    · cases h2
  · rintro ⟨hv, hy⟩
    have hr := (date_range hv).1 hy
    refine ⟨⟨fun _ => ordOf day, fun _ => "", fun _ => false⟩, .ordinal (ordOf day), ?_, ?_⟩
    · simp only [makeDate, dateOrdinal, Option.map_eq_some_iff, boundedInt_some]
      exact ⟨_, ⟨rfl, hr⟩, rfl⟩
    · exact (date_constructors.2 _ _).2 ⟨hr.1, hr.2, ymd2ord_valid hv⟩

example : IsDate ⟨2024, 2, 29⟩ ∧ ¬ IsDate ⟨2023, 2, 29⟩ ∧
    (makeDate ⟨fun _ => 738945, fun _ => "", fun _ => false⟩ ["x"]).bind realizeDate = some ⟨2024, 2, 29⟩ :=
  ⟨⟨by decide, by decide⟩, fun h => absurd h.1 (by decide), by decide +kernel⟩

theorem makeTimedelta_some {d : Draws} {n : Name} {t : Delta} : makeTimedelta d n = some t ↔
    t = ⟨d.int (n ++ ["_days"]), d.int (n ++ ["_sec"]), d.int (n ++ ["_usec"])⟩ ∧ t.Canonical := by
  simp only [makeTimedelta, Option.bind_eq_bind, Option.bind_eq_some_iff, boundedInt_some, Option.pure_def, Option.some.injEq]
  constructor
  · rintro ⟨_, ⟨rfl, h1⟩, _, ⟨rfl, h2⟩, _, ⟨rfl, h3⟩, rfl⟩
    exact ⟨rfl, by unfold Delta.Canonical; dsimp only; omega⟩
  · rintro ⟨rfl, h⟩
    unfold Delta.Canonical at h
    dsimp only at h
    exact ⟨_, ⟨rfl, by omega⟩, _, ⟨rfl, by omega⟩, _, ⟨rfl, by omega⟩, rfl⟩

/-- The durations that are tried are exactly those of Python. -/
theorem timedeltas_made (n : Name) (t : Delta) : (∃ d, makeTimedelta d n = some t) ↔ t.Canonical := by
  constructor
  · rintro ⟨d, h⟩; exact (makeTimedelta_some.1 h).2
  · intro h
    refine ⟨⟨fun k => if k = n ++ ["_days"] then t.days else if k = n ++ ["_sec"] then t.seconds else t.micros, fun _ => "", fun _ => false⟩, ?_⟩
    rw [makeTimedelta_some]
    refine ⟨?_, h⟩
    simp

example : Delta.Canonical ⟨-999999999, 0, 0⟩ ∧ Delta.Canonical ⟨999999999, 86399, 999999⟩ := by
  unfold Delta.Canonical; decide

theorem offset_lt {t : Delta} (h : t.Canonical) :
    (deltaCmp minOffset t < 0 ↔ -86399999999 < t.total) ∧ (deltaCmp t maxOffset < 0 ↔ t.total < 86399999999) ∧
    (deltaCmp minOffset t ≤ 0 ↔ -86400000000 < t.total) ∧ (deltaCmp t maxOffset ≤ 0 ↔ t.total < 86400000000) := by
  have hmin : minOffset.Canonical := by unfold Delta.Canonical minOffset; decide
  have hmax : maxOffset.Canonical := by unfold Delta.Canonical maxOffset; decide
  have h1 := deltaCmp_spec hmin h
  have h2 := deltaCmp_spec h hmax
  have e1 : minOffset.total = -86399999999 := by decide
  have e2 : maxOffset.total = 86399999999 := by decide
  rw [e1] at h1
  rw [e2] at h2
  unfold IsCmp at h1 h2
  omega

/-- The time zones that are tried: `timezone.utc`, and with any name those with offsets less than the largest ones. -/
theorem timezones_made_partial (n : Name) (z : Tz) :
    (∃ d, makeTimezone d n = some z) ↔
      (z.name = none ∧ z.offset = ⟨0, 0, 0⟩) ∨ (z.Valid ∧ z.name ≠ none ∧ z.offset.total ≠ 86399999999 ∧ z.offset.total ≠ -86399999999) := by
  constructor
  · rintro ⟨d, h⟩
    unfold makeTimezone at h
    split at h
    · simp only [Option.bind_eq_bind, Option.bind_eq_some_iff] at h
      obtain ⟨t, h1, h2⟩ := h
      have hc := (makeTimedelta_some.1 h1).2
      obtain ⟨o1, o2, o3, o4⟩ := offset_lt hc
      split at h2
      · rename_i hb
        unfold newTz at h2
        split at h2
        · cases h2
          have a1 := o1.1 hb.1
          have a2 := o2.1 hb.2
          exact .inr ⟨⟨hc, by dsimp only; omega, by dsimp only; omega⟩, by simp, by dsimp only; omega, by dsimp only; omega⟩
        · cases h2
      · cases h2
    · cases h; exact .inl ⟨rfl, rfl⟩
  · rintro (⟨h1, h2⟩ | ⟨⟨hc, h1, h2⟩, h3, h4, h5⟩)
    · refine ⟨⟨fun _ => 0, fun _ => "", fun _ => false⟩, ?_⟩
      obtain ⟨o, nm⟩ := z
      cases h1; cases h2; rfl
    · obtain ⟨o, nm⟩ := z
      obtain ⟨nm, rfl⟩ := Option.ne_none_iff_exists'.1 h3
      dsimp only at *
      obtain ⟨o1, o2, o3, o4⟩ := offset_lt hc
      refine ⟨⟨fun k => if k = n ++ ["_offset"] ++ ["_days"] then o.days else if k = n ++ ["_offset"] ++ ["_sec"] then o.seconds else o.micros,
        fun _ => nm, fun _ => true⟩, ?_⟩
      unfold makeTimezone
      rw [if_pos rfl]
      simp only [Option.bind_eq_bind, Option.bind_eq_some_iff]
      refine ⟨o, makeTimedelta_some.2 ⟨by simp, hc⟩, ?_⟩
      rw [if_pos ⟨o1.2 (by omega), o2.2 (by omega)⟩, newTz, if_pos ⟨o3.2 h1, o4.2 h2⟩]

/-- **Disagreement**: the time zone with the largest offset, and time zones without a name, can be made in Python but are never tried. -/
theorem timezones_missed (n : Name) :
    (Tz.Valid ⟨⟨0, 86399, 999999⟩, some "Z"⟩ ∧ ¬ ∃ d, makeTimezone d n = some ⟨⟨0, 86399, 999999⟩, some "Z"⟩) ∧
    (Tz.Valid ⟨⟨0, 3600, 0⟩, none⟩ ∧ ¬ ∃ d, makeTimezone d n = some ⟨⟨0, 3600, 0⟩, none⟩) := by
  rw [timezones_made_partial, timezones_made_partial]
  refine ⟨⟨⟨by unfold Delta.Canonical; decide, by decide, by decide⟩, ?_⟩, ⟨by unfold Delta.Canonical; decide, by decide, by decide⟩, ?_⟩
  · rintro (⟨h, _⟩ | ⟨_, _, h, _⟩)
    · cases h
    · exact h (by decide)
  · rintro (⟨_, h⟩ | ⟨_, h, _⟩)
    · exact absurd h (by decide)
    · exact h rfl

theorem timeFields_some {d : Draws} {n : Name} {h m s us f : Int} : timeFields d n = some (h, m, s, us, f) ↔
    (h = d.int (n ++ ["_hour"]) ∧ 0 ≤ h ∧ h ≤ 23) ∧ (m = d.int (n ++ ["_min"]) ∧ 0 ≤ m ∧ m ≤ 59) ∧ (s = d.int (n ++ ["_sec"]) ∧ 0 ≤ s ∧ s ≤ 59) ∧
    (us = d.int (n ++ ["_usec"]) ∧ 0 ≤ us ∧ us ≤ 999999) ∧ (f = d.int (n ++ ["_fold"]) ∧ 0 ≤ f ∧ f ≤ 1) := by
  simp only [timeFields, Option.bind_eq_bind, Option.bind_eq_some_iff, boundedInt_some, Option.pure_def, Option.some.injEq, Prod.mk.injEq]
  constructor
  · rintro ⟨_, h1, _, h2, _, h3, _, h4, _, h5, rfl, rfl, rfl, rfl, rfl⟩
    exact ⟨h1, h2, h3, h4, h5⟩
  · rintro ⟨h1, h2, h3, h4, h5⟩
    exact ⟨_, h1, _, h2, _, h3, _, h4, _, h5, rfl, rfl, rfl, rfl, rfl⟩

/-- Draws that agree with given ones below a name, and otherwise give the fields of a time and an ordinal. -/
def withTime (d : Draws) (n : Name) (t : Time) (ord : Int) : Draws :=
  ⟨fun k => if k = n ++ ["_hour"] then t.hour else if k = n ++ ["_min"] then t.minute else if k = n ++ ["_sec"] then t.second
    else if k = n ++ ["_usec"] then t.micro else if k = n ++ ["_fold"] then t.fold else if k = n ++ ["_ord"] then ord else d.int k,
   d.text, fun k => if k = n ++ ["_tzinfo"] ++ ["None"] then t.tz.isNone else d.branch k⟩

theorem withTime_int (d : Draws) (n : Name) (t : Time) (ord : Int) :
    (withTime d n t ord).int (n ++ ["_hour"]) = t.hour ∧ (withTime d n t ord).int (n ++ ["_min"]) = t.minute ∧
    (withTime d n t ord).int (n ++ ["_sec"]) = t.second ∧ (withTime d n t ord).int (n ++ ["_usec"]) = t.micro ∧
    (withTime d n t ord).int (n ++ ["_fold"]) = t.fold ∧ (withTime d n t ord).int (n ++ ["_ord"]) = ord := by
  simp [withTime]

theorem withTime_timezone (d : Draws) (n : Name) (t : Time) (ord : Int) :
    makeTimezone (withTime d n t ord) (n ++ ["_tzinfo"]) = makeTimezone d (n ++ ["_tzinfo"]) := by
  have hb : (withTime d n t ord).branch (n ++ ["_tzinfo"] ++ ["use explicit timezone"]) = d.branch (n ++ ["_tzinfo"] ++ ["use explicit timezone"]) := by
    simp [withTime]
  have hi : ∀ s, (withTime d n t ord).int (n ++ ["_tzinfo"] ++ ["_offset"] ++ [s]) = d.int (n ++ ["_tzinfo"] ++ ["_offset"] ++ [s]) := by
    intro s; simp [withTime]
  unfold makeTimezone makeTimedelta boundedInt
  rw [hb]
  simp only [hi]
  rfl

/-- A time zone as it is tried. -/
def MadeTz (n : Name) : Option Tz → Prop
  | none => True
  | some z => ∃ d, makeTimezone d n = some z

theorem makeOptionalTz_iff (n : Name) (z : Option Tz) (t : Time) (ord : Int) (ht : t.tz = z) :
    MadeTz (n ++ ["_tzinfo"]) z ↔ ∃ d, makeOptionalTz (withTime d n t ord) (n ++ ["_tzinfo"]) = some z := by
  have hb : ∀ d : Draws, (withTime d n t ord).branch (n ++ ["_tzinfo"] ++ ["None"]) = z.isNone := by
    intro d; simp [withTime, ht]
  unfold makeOptionalTz
  simp only [hb, withTime_timezone]
  cases z with
  | none => simp [MadeTz]; exact ⟨fun _ => 0, fun _ => "", fun _ => false⟩
  | some z => simp [MadeTz]

theorem madeTz_of {d : Draws} {n : Name} {z : Option Tz} (h : makeOptionalTz d n = some z) : MadeTz n z := by
  unfold makeOptionalTz at h
  split at h
  · cases h; trivial
  · rw [Option.map_eq_some_iff] at h
    obtain ⟨w, h, rfl⟩ := h
    exact ⟨d, h⟩

/-- The times that are tried are exactly those of Python, with both values of `fold`, without a time zone or with one that is tried. -/
theorem times_made (n : Name) (t : Time) : (∃ d, makeTime d n = some t) ↔ t.Valid ∧ MadeTz (n ++ ["_tzinfo"]) t.tz := by
  constructor
  · rintro ⟨d, h⟩
    simp only [makeTime, Option.bind_eq_bind, Option.bind_eq_some_iff, Option.pure_def, Option.some.injEq] at h
    obtain ⟨⟨hh, m, s, us, f⟩, h1, z, h2, rfl⟩ := h
    obtain ⟨⟨_, a⟩, ⟨_, b⟩, ⟨_, c⟩, ⟨_, e⟩, ⟨_, g⟩⟩ := timeFields_some.1 h1
    exact ⟨⟨a, b, c, e, by dsimp only; omega⟩, madeTz_of h2⟩
  · rintro ⟨⟨a, b, c, e, g⟩, hz⟩
    obtain ⟨d, hd⟩ := (makeOptionalTz_iff n t.tz t 0 rfl).1 hz
    refine ⟨withTime d n t 0, ?_⟩
    obtain ⟨i1, i2, i3, i4, i5, _⟩ := withTime_int d n t 0
    simp only [makeTime, Option.bind_eq_bind, Option.bind_eq_some_iff, Option.pure_def, Option.some.injEq]
    exact ⟨(t.hour, t.minute, t.second, t.micro, t.fold),
      timeFields_some.2 ⟨⟨i1.symm, a⟩, ⟨i2.symm, b⟩, ⟨i3.symm, c⟩, ⟨i4.symm, e⟩, ⟨i5.symm, by omega⟩⟩, t.tz, hd, rfl⟩

example : Time.Valid ⟨23, 59, 59, 999999, none, 1⟩ ∧ MadeTz ["x", "_tzinfo"] none ∧ MadeTz ["x", "_tzinfo"] (some utc) :=
  ⟨by unfold Time.Valid; decide, trivial, ⟨fun _ => 0, fun _ => "", fun _ => false⟩, rfl⟩

/-- The moments that are tried: every day with every time of day, but never with `fold`. -/
theorem datetimes_made_partial (n : Name) (day : Ymd) (t : Time) :
    (∃ d r, makeDatetime d n = some (r, t) ∧ realizeDate r = some day) ↔ IsDate day ∧ t.Valid ∧ t.fold = 0 ∧ MadeTz (n ++ ["_tzinfo"]) t.tz := by
  constructor
  · rintro ⟨d, r, h, h0⟩
    simp only [makeDatetime, Option.bind_eq_bind, Option.bind_eq_some_iff, Option.pure_def, Option.some.injEq, Prod.mk.injEq] at h
    obtain ⟨o, ho, ⟨hh, m, s, us, f⟩, h1, z, h2, rfl, rfl⟩ := h
    obtain ⟨⟨_, a⟩, ⟨_, b⟩, ⟨_, c⟩, ⟨_, e⟩, ⟨_, g⟩⟩ := timeFields_some.1 h1
    exact ⟨(dates_made n day).1 ⟨d, .ordinal o, by rw [makeDate, ho]; rfl, h0⟩, ⟨a, b, c, e, .inl rfl⟩, rfl, madeTz_of h2⟩
  · rintro ⟨⟨hv, hy⟩, ⟨a, b, c, e, _⟩, g, hz⟩
    have hr := (date_range hv).1 hy
    obtain ⟨d, hd⟩ := (makeOptionalTz_iff n t.tz t (ordOf day) rfl).1 hz
    refine ⟨withTime d n t (ordOf day), .ordinal (ordOf day), ?_, (date_constructors.2 _ _).2 ⟨hr.1, hr.2, ymd2ord_valid hv⟩⟩
    obtain ⟨i1, i2, i3, i4, i5, i6⟩ := withTime_int d n t (ordOf day)
    simp only [makeDatetime, Option.bind_eq_bind, Option.bind_eq_some_iff, Option.pure_def, Option.some.injEq, Prod.mk.injEq]
    refine ⟨ordOf day, boundedInt_some.2 ⟨i6.symm, hr⟩, (t.hour, t.minute, t.second, t.micro, t.fold),
      timeFields_some.2 ⟨⟨i1.symm, a⟩, ⟨i2.symm, b⟩, ⟨i3.symm, c⟩, ⟨i4.symm, e⟩, ⟨i5.symm, by omega⟩⟩, t.tz, hd, rfl, ?_⟩
    rw [← g]

/-- **Disagreement**: a moment with `fold=1` can be made in Python but is never tried: the variable for `fold` is made and dropped. -/
theorem datetimes_missed (n : Name) : Time.Valid ⟨1, 30, 0, 0, none, 1⟩ ∧
    ¬ ∃ d r, makeDatetime d n = some (r, ⟨1, 30, 0, 0, none, 1⟩) ∧ realizeDate r = some ⟨2024, 11, 3⟩ := by
  refine ⟨by unfold Time.Valid; decide, ?_⟩
  rw [datetimes_made_partial]
  rintro ⟨_, _, h, _⟩
  exact absurd h (by decide)

/-! ### Realization -/

/-- A rounding of floats to 53 bits: the relative error is at most `2 ^ -53`. -/
def IsRounding (fl : ℚ → ℚ) : Prop := ∀ x, |fl x - x| ≤ |x| / 2 ^ 53

theorem microsOf_exact {fl : ℚ → ℚ} (hfl : IsRounding fl) {us : Int} (h0 : 0 ≤ us) (h1 : us < 1000000) : microsOf fl us = us := by
  have q0 : (0 : ℚ) ≤ us := by exact_mod_cast h0
  have q1 : (us : ℚ) < 1000000 := by exact_mod_cast h1
  unfold microsOf
  simp only
  have e1 := hfl ((us : ℚ) / 1000)
  have e2 := hfl (1000 * (fl ((us : ℚ) / 1000) - ⌊fl ((us : ℚ) / 1000)⌋))
  generalize fl ((us : ℚ) / 1000) = ms at *
  have f0 : 0 ≤ ms - ⌊ms⌋ := by have := Int.floor_le ms; linarith
  have f1 : ms - ⌊ms⌋ < 1 := by have := Int.lt_floor_add_one ms; linarith
  generalize hw : ⌊ms⌋ = w at *
  generalize fl (1000 * (ms - w)) = rest at *
  rw [abs_of_nonneg (show (0 : ℚ) ≤ us / 1000 by positivity), abs_le] at e1
  rw [abs_of_nonneg (show (0 : ℚ) ≤ 1000 * (ms - w) by linarith), abs_le] at e2
  norm_num at e1 e2
  have hr := Verif.Zones.roundEven_spec (rest - ⌊rest⌋)
  generalize Verif.Zones.roundEven (rest - ⌊rest⌋) = k at *
  generalize ⌊rest⌋ = b at *
  have hk : |rest - b - k| ≤ 1 / 2 := hr.1
  rw [abs_le] at hk
  have hd : |((w * 1000 + b + k - us : Int) : ℚ)| < 1 := by
    push_cast
    rw [abs_lt]
    constructor <;> linarith [e1.1, e1.2, e2.1, e2.2, hk.1, hk.2]
  have : |w * 1000 + b + k - us| < 1 := by exact_mod_cast hd
  rw [abs_lt] at this
  omega

/-- A duration is realized exactly although it passes through floats, however these are rounded. -/
theorem timedelta_realized {fl : ℚ → ℚ} (hfl : IsRounding fl) {t : Delta} (h : t.Canonical) : realizeDelta fl t = some t := by
  unfold realizeDelta
  have h' := h
  unfold Delta.Canonical at h'
  rw [microsOf_exact hfl h'.2.2.1 h'.2.2.2.1]
  have hr : InRange ((t.days * 86400 + t.seconds) * 1000000 + t.micros) := by unfold InRange; omega
  obtain ⟨r, h1, h2, h3⟩ := (delta3_spec t.days t.seconds t.micros).1 hr
  rw [h1, canonical_unique h2 h h3]

example : IsRounding id ∧ Delta.Canonical ⟨5, 7, 999999⟩ ∧ microsOf id 999999 = 999999 :=
  ⟨fun x => by simp; positivity, by unfold Delta.Canonical; decide, microsOf_exact (fun x => by simp; positivity) (by decide) (by decide)⟩

/-! ### `replace` -/

theorem field_eq {old : Int} {a : Arg} (h : a ≠ .pyNone) : field old a = match a.replaces old with | some n => .ok n | none => .error .type := by
  cases a <;> simp_all [field, Arg.replaces]

/-- `date.replace` changes exactly the fields that are given, and gives `ValueError` if there is no such date; as in Python, if no argument
is `None`. -/
theorem replace_date_partial (d : Ymd) {y m dd : Arg} (hy : y ≠ .pyNone) (hm : m ≠ .pyNone) (hd : dd ≠ .pyNone) :
    (∀ r, dateReplace d y m dd = .ok r ↔
      y.replaces d.year = some r.year ∧ m.replaces d.month = some r.month ∧ dd.replaces d.day = some r.day ∧ IsDate r) ∧
    (dateReplace d y m dd = .error .type ↔ y = .other ∨ m = .other ∨ dd = .other) := by
  have hspec := mkDate_spec
  unfold dateReplace
  cases y <;> cases m <;> cases dd <;>
    simp only [field, bind, Except.bind, pure, Except.pure, Arg.replaces, hspec, ne_eq, not_true_eq_false] at * <;>
    first
    | (constructor
       · intro r
         obtain ⟨ry, rm, rd⟩ := r
         split
         · rename_i hv
           split at hv
           · cases hv
           · rename_i hn
             simp only [reduceCtorEq, false_iff, Option.some.injEq]
             rintro ⟨rfl, rfl, rfl, h⟩
             exact hn h
         · rename_i hv
           split at hv
           · cases hv
             rename_i hn
             simp only [Except.ok.injEq, Option.some.injEq, Ymd.mk.injEq]
             constructor
             · rintro ⟨rfl, rfl, rfl⟩; exact ⟨rfl, rfl, rfl, hn⟩
             · rintro ⟨rfl, rfl, rfl, _⟩; exact ⟨rfl, rfl, rfl⟩
           · cases hv
       · split <;> simp)
    | simp

/-- **Disagreement**: `None` for a field is a `TypeError` in Python, and under analysis it keeps the field. -/
theorem replace_date_none : dateReplace ⟨2024, 2, 29⟩ .pyNone .absent (.int 28) = .ok ⟨2024, 2, 28⟩ ∧ Arg.replaces 2024 .pyNone = none := by
  decide +kernel

example : dateReplace ⟨2024, 2, 29⟩ (.int 2023) .absent .absent = .error .value ∧ dateReplace ⟨2024, 2, 29⟩ (.int 2028) .absent .absent = .ok ⟨2028, 2, 29⟩ := by
  decide +kernel

theorem checkTime_ok {h m s us f : Int} {z : Option Tz} :
    (checkTime h m s us f = .ok () ↔ Time.Valid ⟨h, m, s, us, z, f⟩) ∧ (checkTime h m s us f = .ok () ∨ checkTime h m s us f = .error .value) := by
  unfold checkTime Time.Valid
  dsimp only
  by_cases h1 : 0 ≤ h ∧ h ≤ 23
  · by_cases h2 : 0 ≤ m ∧ m ≤ 59
    · by_cases h3 : 0 ≤ s ∧ s ≤ 59
      · by_cases h4 : 0 ≤ us ∧ us ≤ 999999
        · by_cases h5 : f = 0 ∨ f = 1
          · simp [h1, h2, h3, h4, h5]
          · simp [h1, h2, h3, h4, h5]
        · simp [h1, h2, h3, h4]
      · simp [h1, h2, h3]
    · simp [h1, h2]
  · simp [h1]

/-- `time.replace` changes exactly the fields that are given, also the time zone and `fold`; `None` takes the time zone away. As in Python, if
no other argument is `None` and the time zone is not `True`. -/
theorem replace_time_partial (t : Time) {h m s us f : Arg} {z : TzArg} (nh : h ≠ .pyNone) (nm : m ≠ .pyNone) (ns : s ≠ .pyNone)
    (nus : us ≠ .pyNone) (nf : f ≠ .pyNone) (nz : z ≠ .pyTrue) (r : Time) :
    timeReplace t h m s us z f = .ok r ↔
      h.replaces t.hour = some r.hour ∧ m.replaces t.minute = some r.minute ∧ s.replaces t.second = some r.second ∧
      us.replaces t.micro = some r.micro ∧ z.replaces t.tz = some r.tz ∧ f.replaces t.fold = some r.fold ∧ r.Valid := by
  have hz : tzField t.tz z = match z.replaces t.tz with | some w => .ok w | none => .error .type := by
    cases z <;> simp_all [tzField, TzArg.replaces]
  unfold timeReplace
  rw [field_eq nh, field_eq nm, field_eq ns, field_eq nus, field_eq nf, hz]
  obtain ⟨rh, rm, rs, rus, rz, rf⟩ := r
  cases h.replaces t.hour with
  | none => simp [bind, Except.bind]
  | some h' =>
  cases m.replaces t.minute with
  | none => simp [bind, Except.bind]
  | some m' =>
  cases s.replaces t.second with
  | none => simp [bind, Except.bind]
  | some s' =>
  cases us.replaces t.micro with
  | none => simp [bind, Except.bind]
  | some us' =>
  cases f.replaces t.fold with
  | none => simp [bind, Except.bind]
  | some f' =>
    simp only [bind, Except.bind, pure, Except.pure, Option.some.injEq]
    have hc := checkTime_ok (h := h') (m := m') (s := s') (us := us') (f := f') (z := rz)
    rcases hc.2 with hok | herr
    · rw [hok]
      have hv := hc.1.1 hok
      cases z.replaces t.tz with
      | none => simp
      | some z' =>
        simp only [Except.ok.injEq, Time.mk.injEq, Option.some.injEq]
        constructor
        · rintro ⟨rfl, rfl, rfl, rfl, rfl, rfl⟩; exact ⟨rfl, rfl, rfl, rfl, rfl, rfl, hv⟩
        · rintro ⟨rfl, rfl, rfl, rfl, rfl, rfl, _⟩; exact ⟨rfl, rfl, rfl, rfl, rfl, rfl⟩
    · rw [herr]
      simp only [reduceCtorEq, false_iff]
      rintro ⟨rfl, rfl, rfl, rfl, _, rfl, hv⟩
      rw [hc.1.2 hv] at herr
      cases herr

/-- **Disagreement**: `None` for a field and `True` for the time zone are `TypeError`s in Python, and under analysis they change nothing. -/
theorem replace_time_none : timeReplace ⟨1, 2, 3, 4, some utc, 1⟩ .pyNone .absent .absent .absent .pyTrue .absent = .ok ⟨1, 2, 3, 4, some utc, 1⟩ ∧
    Arg.replaces 1 .pyNone = none ∧ TzArg.replaces (some utc) .pyTrue = none := by decide +kernel

example : timeReplace ⟨1, 2, 3, 4, some utc, 1⟩ (.int 5) .absent .absent .absent .pyNone (.int 0) = .ok ⟨5, 2, 3, 4, none, 0⟩ ∧
    timeReplace ⟨1, 2, 3, 4, some utc, 1⟩ (.int 24) .absent .absent .absent .absent .absent = .error .value := by decide +kernel

end Verif.DateInputs
