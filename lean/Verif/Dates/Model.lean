import Verif.Dates.Spec
/-
Model of /repo/crosshair/libimpl/datetimelib.py: calendar arithmetic, `timedelta` on integers, `date`, and
`datetime` with fixed offsets.  Python's `//` and `%` are `Int.fdiv` and `Int.fmod`; a `bool` in arithmetic
is 0 or 1.  Failed assertions and exceptions are `none`, except where said.
-/
namespace Verif.Dates

/-- A `bool` used as a number. -/
def b2i (b : Bool) : Int := if b then 1 else 0

/-! ### The calendar -/

/-- `_lex_lt` (43-50), on sequences of one length. -/
def lexLt (left right : List Int) : Bool :=
  (List.range left.length).any fun i =>
    (List.range i).all (fun j => decide (left[j]? = right[j]?)) &&
      decide (left.getD i 0 < right.getD i 0)

/-- `_cmp` (53-57). -/
def cmp (x y : List Int) : Int := b2i (lexLt y x) - b2i (lexLt x y)

/-- `_MAXORDINAL` (70). -/
def maxOrdinal : Int := 3652059

/-- `_DAYS_IN_MONTH` (74). -/
def daysInMonthTable : List Int := [-1, 31, 28, 31, 30, 31, 30, 31, 31, 30, 31, 30, 31]

/-- `_DAYS_BEFORE_MONTH` (76-81). -/
def daysBeforeMonthTable : List Int :=
  (daysInMonthTable.drop 1).foldl (fun (acc : List Int × Int) dim => (acc.1 ++ [acc.2], acc.2 + dim)) ([-1], 0) |>.1

/-- `_is_leap` (84-86). -/
def isLeap (year : Int) : Bool := year.fmod 4 == 0 && (year.fmod 100 != 0 || year.fmod 400 == 0)

/-- `_is_leap_int` (89-96). -/
def isLeapInt (year : Int) : Int :=
  b2i (year.fmod 4 == 0) * (1 - b2i (year.fmod 100 == 0) * b2i (year.fmod 400 != 0))

/-- `_days_before_year` (99-102). -/
def daysBeforeYear (year : Int) : Int :=
  let y := year - 1
  y * 365 + y.fdiv 4 - y.fdiv 100 + y.fdiv 400

/-- `_days_in_month` (105-116), for months 1 to 12. -/
def daysInMonth (year month : Int) : Int :=
  if month ≥ 8 then (if month.fmod 2 = 0 then 31 else 30)
  else if month = 2 then 28 + isLeapInt year
  else if month.fmod 2 = 0 then 30 else 31

/-- `_day_in_month_constraint` (119-141). -/
def dayInMonthConstraint (year month day : Int) : Bool :=
  let febDays := 28 + isLeapInt year
  (decide (day ≤ febDays) && decide (month = 2)) ||
  (decide (day ≤ 30) && (decide (month = 4) || decide (month = 6) || decide (month = 9) || decide (month = 11))) ||
  (decide (day ≤ 31) && (decide (month = 1) || decide (month = 3) || decide (month = 5) || decide (month = 7) ||
    decide (month = 8) || decide (month = 10) || decide (month = 12)))

/-- `_days_before_month` (144-147), for months 1 to 12. -/
def daysBeforeMonth (year month : Int) : Int :=
  daysBeforeMonthTable.getD month.toNat 0 + b2i (decide (month > 2)) * isLeapInt year

/-- `_ymd2ord` (150-155). -/
def ymd2ord (d : Ymd) : Option Int :=
  if 1 ≤ d.month ∧ d.month ≤ 12 then
    if 1 ≤ d.day ∧ d.day ≤ daysInMonth d.year d.month then
      some (daysBeforeYear d.year + daysBeforeMonth d.year d.month + d.day)
    else none
  else none

/-- `_DI400Y`, `_DI100Y`, `_DI4Y` (158-160). -/
def di400y : Int := daysBeforeYear 401
def di100y : Int := daysBeforeYear 101
def di4y : Int := daysBeforeYear 5

/-- The end of `_ord2ymd` (187-196): month and day from the day of the year `n` (from 0). -/
def monthDay (leapyear : Bool) (n : Int) : Int × Int :=
  let month := (n + 50) / 32                                   -- `(n + 50) >> 5`
  let preceding := daysBeforeMonthTable.getD month.toNat 0 + b2i (decide (month > 2) && leapyear)
  if preceding > n then
    let month := month - 1
    let preceding := preceding - (daysInMonthTable.getD month.toNat 0 + b2i (decide (month = 2) && leapyear))
    (month, n - preceding + 1)
  else (month, n - preceding + 1)

/-- `_ord2ymd` (175-196); `none` if one of its assertions fails. -/
def ord2ymd (n : Int) : Option Ymd :=
  let n := n - 1
  let n400 := n.fdiv di400y
  let n := n.fmod di400y
  let year := n400 * 400 + 1
  let n100 := n.fdiv di100y
  let n := n.fmod di100y
  let n4 := n.fdiv di4y
  let n := n.fmod di4y
  let n1 := n.fdiv 365
  let n := n.fmod 365
  let year := year + (n100 * 100 + n4 * 4 + n1)
  if n1 = 4 ∨ n100 = 4 then
    if n = 0 then some ⟨year - 1, 12, 31⟩ else none
  else
    let leapyear := decide (n1 = 3) && (decide (n4 ≠ 24) || decide (n100 = 3))
    if leapyear = isLeap year then
      let md := monthDay leapyear n
      if 0 ≤ md.2 - 1 ∧ md.2 - 1 < daysInMonth year md.1 then some ⟨year, md.1, md.2⟩ else none
    else none

/-- `_isoweek1monday` (2417-2426). -/
def isoweek1monday (year : Int) : Int :=
  let firstday := daysBeforeYear year + daysBeforeMonth year 1 + 1   -- `_ymd2ord(year, 1, 1)`
  let firstweekday := (firstday + 6).fmod 7
  let week1monday := firstday - firstweekday
  if firstweekday > 3 then week1monday + 7 else week1monday

/-! ### Dates -/

/-- `_check_date_fields` (474-483): `none` is the `ValueError`. -/
def mkDate (d : Ymd) : Option Ymd :=
  if ¬ (1 ≤ d.year ∧ d.year ≤ 9999) then none
  else if ¬ (1 ≤ d.month ∧ d.month ≤ 12) then none
  else if ¬ (1 ≤ d.day ∧ d.day ≤ daysInMonth d.year d.month) then none
  else some d

/-- `date.fromordinal` (963-971). -/
def fromordinal (n : Int) : Option Ymd := (ord2ymd n).bind mkDate

/-- `date.weekday` (1203-1205), from the ordinal. -/
def weekday (ord : Int) : Int := (ord + 6).fmod 7

/-- `date.isoweekday` (1209-1212): `ord % 7 or 7`. -/
def isoweekday (ord : Int) : Int := if ord.fmod 7 = 0 then 7 else ord.fmod 7

/-- `date.isocalendar` (1214-1241): ISO year, week and weekday. -/
def isocalendar (d : Ymd) : Option (Int × Int × Int) :=
  (ymd2ord d).map fun today =>
    let year := d.year
    let week1monday := isoweek1monday year
    let week := (today - week1monday).fdiv 7
    let day := (today - week1monday).fmod 7
    if week < 0 then
      let year := year - 1
      let week1monday := isoweek1monday year
      (year, (today - week1monday).fdiv 7 + 1, (today - week1monday).fmod 7 + 1)
    else if week ≥ 52 then
      if today ≥ isoweek1monday (year + 1) then (year + 1, 0 + 1, day + 1) else (year, week + 1, day + 1)
    else (year, week + 1, day + 1)

/-- `date.fromisocalendar` (986-1019). -/
def fromisocalendar (year week day : Int) : Option Ymd :=
  if ¬ (1 ≤ year ∧ year ≤ 9999) then none
  else
    let firstWeekday := (daysBeforeYear year + daysBeforeMonth year 1 + 1).fmod 7
    if ¬ (0 < week ∧ week < 53) ∧
        ¬ (week = 53 ∧ (firstWeekday = 4 ∨ (firstWeekday = 3 ∧ isLeap year = true))) then none
    else if ¬ (0 < day ∧ day < 8) then none
    else (ord2ymd (isoweek1monday year + ((week - 1) * 7 + (day - 1)))).bind mkDate

/-! ### Durations -/

/-- `timedelta.__new__` (558-609) on integers; `none` is the `OverflowError`. -/
def mkDelta (days seconds micros millis minutes hours weeks : Int) : Option Delta :=
  let days := days + weeks * 7
  let seconds := seconds + (minutes * 60 + hours * 3600)
  let micros := micros + millis * 1000
  let (seconds, micros) :=
    if ¬ (0 ≤ micros ∧ micros < 1000000) then (seconds + micros.fdiv 1000000, micros.fmod 1000000)
    else (seconds, micros)
  let (days, seconds) :=
    if ¬ (0 ≤ seconds ∧ seconds < 24 * 3600) then (days + seconds.fdiv (24 * 3600), seconds.fmod (24 * 3600))
    else (days, seconds)
  if (days.natAbs : Int) > 999999999 then none else some ⟨days, seconds, micros⟩

/-- `timedelta(days, seconds, microseconds)`. -/
def delta3 (days seconds micros : Int) : Option Delta := mkDelta days seconds micros 0 0 0 0

/-- `_divide_and_round` (510-528), for a nonzero divisor. -/
def divideAndRound (a b : Int) : Int :=
  let q := a.fdiv b
  let r := a.fmod b * 2
  let greaterThanHalf := if b > 0 then decide (r > b) else decide (r < b)
  if greaterThanHalf || (decide (r = b) && decide (q.fmod 2 = 1)) then q + 1 else q

/-- `_timedelta_to_microseconds` (531-532). -/
def toMicros (t : Delta) : Int := (t.days * (24 * 3600) + t.seconds) * 1000000 + t.micros

/-- `__add__`, `__sub__` and `__neg__` (661-701). -/
def deltaAdd (a b : Delta) : Option Delta := delta3 (a.days + b.days) (a.seconds + b.seconds) (a.micros + b.micros)
def deltaSub (a b : Delta) : Option Delta := delta3 (a.days - b.days) (a.seconds - b.seconds) (a.micros - b.micros)
def deltaNeg (a : Delta) : Option Delta := delta3 (-a.days) (-a.seconds) (-a.micros)

/-- `__abs__` (706-710). -/
def deltaAbs (a : Delta) : Option Delta := if a.days < 0 then deltaNeg a else some a

/-- `__mul__` by an integer (712-718). -/
def deltaMul (a : Delta) (k : Int) : Option Delta := delta3 (a.days * k) (a.seconds * k) (a.micros * k)

/-- `__floordiv__`, `__mod__` and `__divmod__` (727-760) for nonzero divisors. -/
def deltaFloordivInt (a : Delta) (k : Int) : Option Delta := delta3 0 0 ((toMicros a).fdiv k)
def deltaFloordiv (a b : Delta) : Int := (toMicros a).fdiv (toMicros b)
def deltaMod (a b : Delta) : Option Delta := delta3 0 0 ((toMicros a).fmod (toMicros b))

/-- `__truediv__` by an integer (736-743). -/
def deltaTruedivInt (a : Delta) (k : Int) : Option Delta := delta3 0 0 (divideAndRound (toMicros a) k)

/-- `timedelta._cmp` (797-799). -/
def deltaCmp (a b : Delta) : Int := cmp [a.days, a.seconds, a.micros] [b.days, b.seconds, b.micros]

/-! ### Dates again -/

/-- A date is backed by its fields or by its ordinal (891-900). -/
inductive DateRep where
  | fields (d : Ymd)
  | ordinal (n : Int)
deriving DecidableEq, Repr

/-- `toordinal` (1101-1117). -/
def DateRep.toordinal : DateRep → Option Int
  | .fields d => ymd2ord d
  | .ordinal n => some n

/-- `_decompose` (902-934) of a concrete date. -/
def DateRep.decompose : DateRep → Option Ymd
  | .fields d => some d
  | .ordinal n => ord2ymd n

/-- What `_decompose` assumes about the fresh fields of a symbolic date (920-933). -/
def bridge (ordinal : Int) (d : Ymd) : Prop :=
  (1 ≤ d.year ∧ d.year ≤ 9999) ∧ (1 ≤ d.month ∧ d.month ≤ 12) ∧ (1 ≤ d.day ∧ d.day ≤ 31) ∧
  ordinal = daysBeforeYear d.year + daysBeforeMonthTable.getD d.month.toNat 0 +
    b2i (decide (d.month > 2)) * isLeapInt d.year + d.day ∧
  dayInMonthConstraint d.year d.month d.day = true

/-- `date._cmp` (1159-1171). -/
def dateCmp (a b : DateRep) : Option Int :=
  match a, b with
  | .fields x, .fields y => some (cmp [x.year, x.month, x.day] [y.year, y.month, y.day])
  | a, b => a.toordinal.bind fun x => b.toordinal.map fun y => cmp [x] [y]

/-- `date.__add__` (1180-1189): `none` is the `OverflowError`. -/
def dateAdd (a : DateRep) (t : Delta) : Option DateRep :=
  a.toordinal.bind fun x => if 0 < x + t.days ∧ x + t.days ≤ maxOrdinal then some (.ordinal (x + t.days)) else none

/-- `date.__sub__` (1193-1201) with a timedelta. -/
def dateSubDelta (a : DateRep) (t : Delta) : Option DateRep := (delta3 (-t.days) 0 0).bind fun t => dateAdd a t

/-- `date.__sub__` with a date. -/
def dateSub (a b : DateRep) : Option Delta :=
  a.toordinal.bind fun x => b.toordinal.bind fun y => delta3 (x - y) 0 0

/-! ### Date and time with a fixed offset -/

/-- A `datetime`; the date part by its ordinal (`toordinal()`), `tz` the identity of the `tzinfo` object
and the offset it gives.  `fold` and offsets that depend on the time are left out. -/
structure DT where
  ord : Int
  hour : Int
  minute : Int
  second : Int
  micro : Int
  tz : Option (Nat × Delta)
deriving DecidableEq, Repr

/-- Wall clock fields in range. -/
def DT.Valid (t : DT) : Prop :=
  1 ≤ t.ord ∧ t.ord ≤ maxOrdinal ∧ 0 ≤ t.hour ∧ t.hour < 24 ∧ 0 ≤ t.minute ∧ t.minute < 60 ∧
  0 ≤ t.second ∧ t.second < 60 ∧ 0 ≤ t.micro ∧ t.micro < 1000000

/-- `datetime.__add__` (2320-2340); `none` is the `OverflowError`. -/
def dtAdd (a : DT) (t : Delta) : Option DT :=
  (mkDelta a.ord a.second a.micro 0 a.minute a.hour 0).bind fun delta =>
  (deltaAdd delta t).bind fun delta =>
    let hour := delta.seconds.fdiv 3600
    let rem := delta.seconds.fmod 3600
    let minute := rem.fdiv 60
    let second := rem.fmod 60
    if 0 < delta.days ∧ delta.days ≤ maxOrdinal then
      some { ord := delta.days, hour := hour, minute := minute, second := second, micro := delta.micros, tz := a.tz }
    else none

/-- Outcome of subtracting or comparing. -/
inductive Res (α : Type) where
  | ok (a : α)
  | typeError
  | overflow
deriving DecidableEq, Repr

/-- `OverflowError` or a value. -/
def orOverflow {α : Type} (o : Option α) : Res α := (o.map Res.ok).getD .overflow

/-- `datetime.__sub__` (2344-2366) with a datetime. -/
def dtSub (a b : DT) : Res Delta :=
  let secs1 := a.second + a.minute * 60 + a.hour * 3600
  let secs2 := b.second + b.minute * 60 + b.hour * 3600
  let base := delta3 (a.ord - b.ord) (secs1 - secs2) (a.micro - b.micro)
  if a.tz.map (·.1) = b.tz.map (·.1) then orOverflow base
  else if a.tz.map (·.2) = b.tz.map (·.2) then orOverflow base
  else match a.tz, b.tz with
    | some (_, myoff), some (_, otoff) =>
      orOverflow (base.bind fun base => (deltaAdd base otoff).bind fun t => deltaSub t myoff)
    | _, _ => .typeError

/-- `datetime._cmp` (2262-2318), both dates ordinal-backed.  The comparison of `utcoffset()` with the other
`fold` succeeds for fixed offsets. -/
def dtCmp (a b : DT) : Res Int :=
  let base := cmp [a.ord, a.hour, a.minute, a.second, a.micro] [b.ord, b.hour, b.minute, b.second, b.micro]
  if a.tz.map (·.1) = b.tz.map (·.1) then .ok base
  else if a.tz.map (·.2) = b.tz.map (·.2) then .ok base
  else match a.tz, b.tz with
    | some _, some _ =>
      match dtSub a b with
      | .ok diff =>
        if diff.days < 0 then .ok (-1)
        else if diff.micros ≠ 0 ∨ diff.seconds ≠ 0 ∨ diff.days ≠ 0 then .ok 1 else .ok 0
      | .typeError => .typeError
      | .overflow => .overflow
    | _, _ => .typeError

/-- A `time` of day with the offset of its `tzinfo`. -/
structure TM where
  hour : Int
  minute : Int
  second : Int
  micro : Int
  off : Delta
deriving DecidableEq, Repr

/-- `time._cmp` (1483-1511) of two aware times with different offsets. -/
def timeCmp (a b : TM) : Int :=
  let myhhmm := a.hour * 60 + a.minute - deltaFloordiv a.off ⟨0, 60, 0⟩
  let othhmm := b.hour * 60 + b.minute - deltaFloordiv b.off ⟨0, 60, 0⟩
  cmp [myhhmm, a.second, a.micro] [othhmm, b.second, b.micro]

end Verif.Dates
