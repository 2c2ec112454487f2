import Verif.Dates.Model
/-
What a date with a time and an offset from UTC means.
-/
namespace Verif.Dates

/-- Microseconds of the wall clock since the day before 0001-01-01. -/
def DT.wall (t : DT) : Int :=
  ((t.ord * 86400 + t.hour * 3600 + t.minute * 60 + t.second) * 1000000) + t.micro

/-- The offset from UTC in microseconds. -/
def DT.offset (t : DT) : Int := ((t.tz.map fun z => z.2.total)).getD 0

/-- A valid date and time with an offset of less than a day. -/
def DT.Ok (t : DT) : Prop :=
  t.Valid ∧ ∀ i z, t.tz = some (i, z) → z.Canonical ∧ -86400000000 < z.total ∧ z.total < 86400000000

/-- One `tzinfo` object has one offset. -/
def SameTz (a b : DT) : Prop := ∀ i x y, a.tz = some (i, x) → b.tz = some (i, y) → x = y

/-- The time of day in UTC, in microseconds. -/
def TM.utc (t : TM) : Int := ((t.hour * 3600 + t.minute * 60 + t.second) * 1000000 + t.micro) - t.off.total

/-- The fields of a time are in range. -/
def TM.Valid (t : TM) : Prop :=
  0 ≤ t.hour ∧ t.hour < 24 ∧ 0 ≤ t.minute ∧ t.minute < 60 ∧ 0 ≤ t.second ∧ t.second < 60 ∧ 0 ≤ t.micro ∧ t.micro < 1000000

instance (t : TM) : Decidable t.Valid := by unfold TM.Valid; infer_instance
instance (t : DT) : Decidable t.Valid := by unfold DT.Valid; infer_instance

end Verif.Dates
