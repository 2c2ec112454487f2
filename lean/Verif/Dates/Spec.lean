/-
The calendar and durations, stated without reference to CrossHair.
-/
namespace Verif.Dates

/-- The Gregorian leap years. -/
def Leap (y : Int) : Prop := 4 ∣ y ∧ (100 ∣ y → 400 ∣ y)

instance (y : Int) : Decidable (Leap y) := by unfold Leap; infer_instance

/-- The length of a month. -/
def monthLen (y m : Int) : Int :=
  if m = 2 then (if Leap y then 29 else 28)
  else if m = 4 ∨ m = 6 ∨ m = 9 ∨ m = 11 then 30
  else 31

/-- Year, month, day. -/
structure Ymd where
  year : Int
  month : Int
  day : Int
deriving DecidableEq, Repr

/-- A day of the (proleptic Gregorian) calendar. -/
def Ymd.Valid (d : Ymd) : Prop := 1 ≤ d.month ∧ d.month ≤ 12 ∧ 1 ≤ d.day ∧ d.day ≤ monthLen d.year d.month

instance (d : Ymd) : Decidable d.Valid := by unfold Ymd.Valid; infer_instance

/-- The following day. -/
def Ymd.next (d : Ymd) : Ymd :=
  if d.day < monthLen d.year d.month then ⟨d.year, d.month, d.day + 1⟩
  else if d.month < 12 then ⟨d.year, d.month + 1, 1⟩
  else ⟨d.year + 1, 1, 1⟩

/-- Earlier in the calendar. -/
def Ymd.Before (a b : Ymd) : Prop :=
  a.year < b.year ∨ (a.year = b.year ∧ (a.month < b.month ∨ (a.month = b.month ∧ a.day < b.day)))

/-- `f` numbers the days consecutively, 0001-01-01 being day 1. -/
def NumbersDays (f : Ymd → Int) : Prop := f ⟨1, 1, 1⟩ = 1 ∧ ∀ d : Ymd, d.Valid → f d.next = f d + 1

/-- `q` is `a / b` rounded to the nearest integer, ties to even. -/
def RoundsTo (a b q : Int) : Prop :=
  2 * (a - q * b).natAbs < b.natAbs ∨ (2 * (a - q * b).natAbs = b.natAbs ∧ 2 ∣ q)

/-- A duration in days, seconds and microseconds. -/
structure Delta where
  days : Int
  seconds : Int
  micros : Int
deriving DecidableEq, Repr

/-- Microseconds of a duration. -/
def Delta.total (t : Delta) : Int := (t.days * 86400 + t.seconds) * 1000000 + t.micros

/-- The fields are in their documented ranges. -/
def Delta.Canonical (t : Delta) : Prop :=
  0 ≤ t.seconds ∧ t.seconds < 86400 ∧ 0 ≤ t.micros ∧ t.micros < 1000000 ∧
  -999999999 ≤ t.days ∧ t.days ≤ 999999999

instance (t : Delta) : Decidable t.Canonical := by unfold Delta.Canonical; infer_instance

/-- The microseconds that a `timedelta` can hold: from -999999999 days to just below 1000000000 days. -/
def InRange (us : Int) : Prop := -999999999 * 86400000000 ≤ us ∧ us < 1000000000 * 86400000000

instance (us : Int) : Decidable (InRange us) := by unfold InRange; infer_instance

/-- An operation on durations computes the duration of `us` microseconds, or overflows. -/
def Computes (r : Option Delta) (us : Int) : Prop :=
  (InRange us ∧ ∃ t, r = some t ∧ t.Canonical ∧ t.total = us) ∨ (¬ InRange us ∧ r = none)

/-- The sign of a comparison. -/
def IsCmp (lt gt : Prop) (c : Int) : Prop := (lt ∧ c = -1) ∨ (gt ∧ c = 1) ∨ (¬ lt ∧ ¬ gt ∧ c = 0)

/-- Day `d` is weekday `D` (1 = Monday) of week `W` of the ISO year `Y`, for a numbering `f` of the days in which
day 1 is a Monday: a week belongs to the year its Thursday is in, and the week with the year's first Thursday is
week 1. -/
def IsoDay (f : Ymd → Int) (d : Ymd) (Y W D : Int) : Prop :=
  1 ≤ D ∧ D ≤ 7 ∧ 7 ∣ f d - D ∧
  ∃ thursday : Ymd, thursday.Valid ∧ f thursday = f d - D + 4 ∧ thursday.year = Y ∧
    W = (f thursday - f ⟨Y, 1, 1⟩) / 7 + 1

end Verif.Dates
