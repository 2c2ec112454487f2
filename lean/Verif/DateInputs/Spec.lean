/- What dates, times, durations and time zones can be made in Python. -/
import Verif.Dates.Spec

namespace Verif.DateInputs
open Verif.Dates

/-- A `timezone`: its offset, and its name if it was given one. `timezone.utc` has the offset zero and no name. -/
structure Tz where
  offset : Delta
  name : Option String
  deriving DecidableEq, Repr

/-- Python makes time zones with offsets of less than a day. -/
def Tz.Valid (z : Tz) : Prop := z.offset.Canonical ∧ -86400000000 < z.offset.total ∧ z.offset.total < 86400000000

/-- A time of day. -/
structure Time where
  hour : Int
  minute : Int
  second : Int
  micro : Int
  tz : Option Tz
  fold : Int
  deriving DecidableEq, Repr

/-- The fields are in their documented ranges. -/
def Time.Valid (t : Time) : Prop :=
  (0 ≤ t.hour ∧ t.hour ≤ 23) ∧ (0 ≤ t.minute ∧ t.minute ≤ 59) ∧ (0 ≤ t.second ∧ t.second ≤ 59) ∧ (0 ≤ t.micro ∧ t.micro ≤ 999999) ∧
  (t.fold = 0 ∨ t.fold = 1)

/-- A date that Python has. -/
def IsDate (d : Ymd) : Prop := d.Valid ∧ 1 ≤ d.year ∧ d.year ≤ 9999

/-- An argument for a field: left out, `None`, an integer, or something else. -/
inductive Arg where
  | absent
  | pyNone
  | int (n : Int)
  | other
  deriving DecidableEq, Repr

/-- What Python takes a field to be after `replace`: nothing if it is not an integer (a `TypeError`). -/
def Arg.replaces (old : Int) : Arg → Option Int
  | .absent => some old
  | .int n => some n
  | _ => none

/-- An argument for the time zone: left out, `True`, `None`, a time zone, or something else. -/
inductive TzArg where
  | absent
  | pyTrue
  | pyNone
  | tz (z : Tz)
  | other
  deriving DecidableEq, Repr

/-- What Python takes the time zone to be after `replace`. -/
def TzArg.replaces (old : Option Tz) : TzArg → Option (Option Tz)
  | .absent => some old
  | .pyNone => some none
  | .tz z => some (some z)
  | _ => none

/-- Which exception. -/
inductive Err where
  | type
  | value
  deriving DecidableEq, Repr

end Verif.DateInputs
