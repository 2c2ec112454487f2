import Verif.Dates.Spec
import Mathlib.Data.Rat.Floor
import Mathlib.Algebra.Order.Field.Rat
import Mathlib.Tactic.Linarith

/-!
# What moments, time zones and timestamps mean

A wall clock shows a day and a time of day.  Times are counted in microseconds since the midnight before
day 0, days are numbered so that day 1 is January 1 of the year 1.
-/

namespace Verif.Zones

open Verif.Dates (Delta)

/-- What a wall clock and a calendar show; `fold` tells the second of two equal readings from the first. -/
structure Reading where
  ord : Int
  hour : Int
  minute : Int
  second : Int
  micro : Int
  fold : Bool
deriving DecidableEq, Repr

/-- A reading that a clock can show in the years 1 to 9999. -/
def Reading.Valid (c : Reading) : Prop :=
  1 ≤ c.ord ∧ c.ord ≤ 3652059 ∧ 0 ≤ c.hour ∧ c.hour < 24 ∧ 0 ≤ c.minute ∧ c.minute < 60 ∧
  0 ≤ c.second ∧ c.second < 60 ∧ 0 ≤ c.micro ∧ c.micro < 1000000

instance (c : Reading) : Decidable c.Valid := by unfold Reading.Valid; infer_instance

/-- The reading in microseconds. -/
def Reading.wall (c : Reading) : Int :=
  (c.ord * 86400 + c.hour * 3600 + c.minute * 60 + c.second) * 1000000 + c.micro

/-- Microseconds that lie in the years 1 to 9999. -/
def Fits (w : Int) : Prop := 86400000000 ≤ w ∧ w < 3652060 * 86400000000

instance (w : Int) : Decidable (Fits w) := by unfold Fits; infer_instance

/-- The start of 1970, in microseconds. -/
def epoch : Int := 719163 * 86400 * 1000000

/-- An offset from UTC that Python accepts: a proper duration of less than a day, east or west. -/
def OffsetOk (d : Delta) : Prop := d.Canonical ∧ -86400000000 < d.total ∧ d.total < 86400000000

/-- `n` is the integer nearest to `q`, the even one if there are two. -/
def NearestEven (q : ℚ) (n : Int) : Prop := |q - n| ≤ 1 / 2 ∧ (|q - n| = 1 / 2 → n % 2 = 0)

/-! ### Local time

The local time is given by its offset from UTC in seconds, at every second since 1970 in UTC. -/

/-- Around the time `t`, for `w` seconds each way, the offset changes at most once, and by at most a day. -/
def OneChange (off : Int → Int) (t w : Int) : Prop :=
  ∃ T a b : Int, -86400 < a ∧ a < 86400 ∧ -86400 < b ∧ b < 86400 ∧ a - b ≤ 86400 ∧ b - a ≤ 86400 ∧
    ∀ u, t - w ≤ u → u ≤ t + w → off u = if u < T then a else b

/-- Local time is always less than a day away from UTC. -/
def Proper (off : Int → Int) : Prop := ∀ u, -86400 < off u ∧ off u < 86400

/-- At the change at `T`, local clocks jump over `t`. -/
def SkippedAt (off : Int → Int) (T t : Int) : Prop := T + off (T - 1) ≤ t ∧ t < T + off T

/-- At `u` local clocks show `t`. -/
def Shows (off : Int → Int) (u t : Int) : Prop := u + off u = t

instance (off : Int → Int) (u t : Int) : Decidable (Shows off u t) := by unfold Shows; infer_instance
instance (off : Int → Int) (T t : Int) : Decidable (SkippedAt off T t) := by unfold SkippedAt; infer_instance

end Verif.Zones
