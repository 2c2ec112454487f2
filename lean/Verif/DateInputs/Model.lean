/-
Model of how inputs of the types of `datetime` are made and realized, and of `replace` for dates and times, in
/repo/crosshair/libimpl/datetimelib.py.
-/
import Verif.DateInputs.Spec
import Verif.Dates.Model
import Verif.Zones.Model

namespace Verif.DateInputs
open Verif.Dates

/-! ### Making inputs -/

/-- The name of a variable: the name of the parameter and suffixes. The numbers that make names unique are left out. -/
abbrev Name := List String

/-- What the solver and the search choose for the variables: integers, texts, and branches. -/
structure Draws where
  int : Name → Int
  text : Name → String
  branch : Name → Bool

/-- `make_bounded_int` (builtinslib.py 1523-1526): an integer that is assumed to be in these bounds; `none` if the choice is not. -/
def boundedInt (d : Draws) (n : Name) (lo hi : Int) : Option Int := if lo ≤ d.int n ∧ d.int n ≤ hi then some (d.int n) else none

/-- `_symbolic_date_ordinal` (2649-2656). -/
def dateOrdinal (d : Draws) (n : Name) : Option Int := boundedInt d (n ++ ["_ord"]) 1 maxOrdinal

/-- `make_date` (2690-2692) and `_date_from_ordinal` (2604-2609). -/
def makeDate (d : Draws) (n : Name) : Option DateRep := (dateOrdinal d n).map .ordinal

/-- `_symbolic_time_fields` (2659-2666). -/
def timeFields (d : Draws) (n : Name) : Option (Int × Int × Int × Int × Int) := do
  let hour ← boundedInt d (n ++ ["_hour"]) 0 23
  let minute ← boundedInt d (n ++ ["_min"]) 0 59
  let second ← boundedInt d (n ++ ["_sec"]) 0 59
  let micro ← boundedInt d (n ++ ["_usec"]) 0 999999
  let fold ← boundedInt d (n ++ ["_fold"]) 0 1
  return (hour, minute, second, micro, fold)

/-- `make_timedelta` (2712-2716) and `_timedelta_skip_construct` (2576-2583). -/
def makeTimedelta (d : Draws) (n : Name) : Option Delta := do
  let micro ← boundedInt d (n ++ ["_usec"]) 0 999999
  let second ← boundedInt d (n ++ ["_sec"]) 0 (3600 * 24 - 1)
  let days ← boundedInt d (n ++ ["_days"]) (-999999999) 999999999
  return ⟨days, second, micro⟩

/-- `_maxoffset` (2519-2522): a day less a microsecond. -/
def maxOffset : Delta := ⟨0, 86399, 999999⟩
/-- `_minoffset` (2524). -/
def minOffset : Delta := ⟨-1, 0, 1⟩

/-- `timezone.__new__` (2435-2450) with a name. -/
def newTz (offset : Delta) (name : String) : Option Tz :=
  if deltaCmp minOffset offset ≤ 0 ∧ deltaCmp offset maxOffset ≤ 0 then some ⟨offset, some name⟩ else none

/-- `timezone.utc` (2561). -/
def utc : Tz := ⟨⟨0, 0, 0⟩, none⟩

/-- `make_timezone` (2675-2684); `none` also for `IgnoreAttempt`. -/
def makeTimezone (d : Draws) (n : Name) : Option Tz :=
  if d.branch (n ++ ["use explicit timezone"]) then do
    let delta ← makeTimedelta d (n ++ ["_offset"])
    if deltaCmp minOffset delta < 0 ∧ deltaCmp delta maxOffset < 0 then newTz delta (d.text (n ++ ["_name"])) else none
  else some utc

/-- The value of an optional type (`Optional[timezone]`): a branch decides whether it is `None`. -/
def makeOptionalTz (d : Draws) (n : Name) : Option (Option Tz) :=
  if d.branch (n ++ ["None"]) then some none else (makeTimezone d n).map some

/-- `make_time` (2697-2700) and `_time_skip_construct` (2586-2594). -/
def makeTime (d : Draws) (n : Name) : Option Time := do
  let (hour, minute, second, micro, fold) ← timeFields d n
  let tz ← makeOptionalTz d (n ++ ["_tzinfo"])
  return ⟨hour, minute, second, micro, tz, fold⟩

/-- `make_datetime` (2705-2709) and `_datetime_from_ordinal` (2626-2636), which keeps the `fold` of `datetime(2020, 1, 1)`. -/
def makeDatetime (d : Draws) (n : Name) : Option (DateRep × Time) := do
  let ordinal ← dateOrdinal d n
  let (hour, minute, second, micro, _) ← timeFields d n
  let tz ← makeOptionalTz d (n ++ ["_tzinfo"])
  return (.ordinal ordinal, ⟨hour, minute, second, micro, tz, 0⟩)

/-! ### Realization -/

/-- `real_date(...)` on integers. -/
def realDate (d : Ymd) : Option Ymd := if d.Valid ∧ 1 ≤ d.year ∧ d.year ≤ 9999 then some d else none

/-- `date.__ch_realize__` (1243-1250). -/
def realizeDate : DateRep → Option Ymd
  | .ordinal n => fromordinal n
  | .fields d => realDate d

/-- The division of floats and the product of a float with 1000, rounded by `fl`; then `real_timedelta` takes the whole milliseconds, the whole
microseconds of the rest, and rounds what is left to a whole microsecond. This is `accum` of CPython's `_datetimemodule.c`, for a float. -/
def microsOf (fl : ℚ → ℚ) (micros : Int) : Int :=
  let ms := fl (micros / 1000)
  let whole := ⌊ms⌋
  let rest := fl (1000 * (ms - whole))
  whole * 1000 + ⌊rest⌋ + Verif.Zones.roundEven (rest - ⌊rest⌋)

/-- `timedelta.__ch_realize__` (817-822), for a rounding `fl` of floats. -/
def realizeDelta (fl : ℚ → ℚ) (t : Delta) : Option Delta := delta3 t.days t.seconds (microsOf fl t.micros)

/-! ### `replace` -/

/-- A field after `if field is None: field = self.field`, which then has to be an integer (`_check_ints`, 468-471). -/
def field (old : Int) : Arg → Except Err Int
  | .absent => .ok old
  | .pyNone => .ok old
  | .int n => .ok n
  | .other => .error .type

/-- `date.replace` (1119-1127), with `date.__init__` (874-891). -/
def dateReplace (d : Ymd) (year month day : Arg) : Except Err Ymd := do
  let y ← field d.year year
  let m ← field d.month month
  let dd ← field d.day day
  match mkDate ⟨y, m, dd⟩ with
  | none => .error .value
  | some r => return r

/-- `_check_time_fields` (486-498) for integers. -/
def checkTime (hour minute second micro fold : Int) : Except Err Unit :=
  if ¬ (0 ≤ hour ∧ hour ≤ 23) then .error .value
  else if ¬ (0 ≤ minute ∧ minute ≤ 59) then .error .value
  else if ¬ (0 ≤ second ∧ second ≤ 59) then .error .value
  else if ¬ (0 ≤ micro ∧ micro ≤ 999999) then .error .value
  else if ¬ (fold = 0 ∨ fold = 1) then .error .value
  else .ok ()

/-- The time zone after `if tzinfo is True` (1677), and `_check_tzinfo_arg` (501-503). -/
def tzField (old : Option Tz) : TzArg → Except Err (Option Tz)
  | .absent => .ok old
  | .pyTrue => .ok old
  | .pyNone => .ok none
  | .tz z => .ok (some z)
  | .other => .error .type

/-- `time.replace` (1658-1681), with `time.__new__` (1400-1414). -/
def timeReplace (t : Time) (hour minute second micro : Arg) (tz : TzArg) (fold : Arg) : Except Err Time := do
  let h ← field t.hour hour
  let m ← field t.minute minute
  let s ← field t.second second
  let us ← field t.micro micro
  let f ← field t.fold fold
  checkTime h m s us f
  let z ← tzField t.tz tz
  return ⟨h, m, s, us, z, f⟩

end Verif.DateInputs
