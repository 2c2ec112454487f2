import Verif.DateRepr.Spec
import Verif.DateText.Model
/-
Model of the texts of `repr` and `ctime` of dates, times, durations and time zones, and of the handling of formats for
`strftime`, in /repo/crosshair/libimpl/datetimelib.py.  The names of modules and classes (`type(self).__module__`) are those of
the standard library.
-/
namespace Verif.DateRepr

open Verif.Dates (Ymd Delta ymd2ord deltaNeg)
open Verif.DateText (Str Clock dec decInt pad formatTime)

/-- `", ".join(args)`. -/
def joinArgs : List Str → Str
  | [] => []
  | [a] => a
  | a :: b :: rest => a ++ ',' :: ' ' :: joinArgs (b :: rest)

/-- `"key=%d" % v`. -/
def keyed (k : Str) (v : Int) : Str := k ++ '=' :: decInt v

/-- `"%s.%s(%s)"`. -/
def callText (path body : Str) : Str := path ++ '(' :: (body ++ [')'])

/-- `timedelta.__repr__` (611-625). -/
def deltaRepr (t : Delta) : Str :=
  let args := if t.days ≠ 0 then [keyed kDays t.days] else []
  let args := if t.seconds ≠ 0 then args ++ [keyed kSeconds t.seconds] else args
  let args := if t.micros ≠ 0 then args ++ [keyed kMicroseconds t.micros] else args
  let args := if args = [] then [['0']] else args
  callText cTimedelta (joinArgs args)

/-- `date.__repr__` (1027-1034). -/
def dateRepr (d : Ymd) : Str := callText cDate (joinArgs [decInt d.year, decInt d.month, decInt d.day])

/-- `timezone.__repr__` (2476-2490); `quote` is `repr` of texts. -/
def zoneRepr (quote : Str → Str) : Zone → Str
  | .utc => cUtc
  | .fixed off none => callText cTimezone (deltaRepr off)
  | .fixed off (some name) => callText cTimezone (deltaRepr off ++ ',' :: ' ' :: quote name)

/-- The ends of `time.__repr__` and `datetime.__repr__` (1557-1564, 2149-2156): the time zone and the fold are put before the
closing parenthesis. -/
def addZoneFold (quote : Str → Str) (s : Str) (z : Option Zone) (fold : Int) : Str :=
  let s := match z with
    | some z => s.dropLast ++ ',' :: ' ' :: kTzinfo ++ '=' :: zoneRepr quote z ++ [')']
    | none => s
  if fold ≠ 0 then s.dropLast ++ ',' :: ' ' :: kFold ++ ['=', '1', ')'] else s

/-- `time.__repr__` (1543-1564). -/
def timeRepr (quote : Str → Str) (c : Clock) (z : Option Zone) (fold : Int) : Str :=
  let s := if c.micro ≠ 0 then ',' :: ' ' :: (decInt c.second ++ ',' :: ' ' :: decInt c.micro)
    else if c.second ≠ 0 then ',' :: ' ' :: decInt c.second
    else []
  addZoneFold quote (callText cTime (decInt c.hour ++ ',' :: ' ' :: (decInt c.minute ++ s))) z fold

/-- `datetime.__repr__` (2131-2157). -/
def stampRepr (quote : Str → Str) (d : Ymd) (c : Clock) (z : Option Zone) (fold : Int) : Str :=
  let l := [d.year, d.month, d.day, c.hour, c.minute, c.second, c.micro]
  let l := if l.getLast? = some 0 then l.dropLast else l
  let l := if l.getLast? = some 0 then l.dropLast else l
  addZoneFold quote (callText cDatetime (joinArgs (l.map decInt))) z fold

/-! ### `ctime` -/

/-- `_DAYNAMES` (215), from Monday. -/
def dayNames : List Str := [['M', 'o', 'n'], ['T', 'u', 'e'], ['W', 'e', 'd'], ['T', 'h', 'u'], ['F', 'r', 'i'], ['S', 'a', 't'], ['S', 'u', 'n']]

/-- `_MONTHNAMES` (200-214), from January. -/
def monthNames : List Str := [['J', 'a', 'n'], ['F', 'e', 'b'], ['M', 'a', 'r'], ['A', 'p', 'r'], ['M', 'a', 'y'], ['J', 'u', 'n'],
  ['J', 'u', 'l'], ['A', 'u', 'g'], ['S', 'e', 'p'], ['O', 'c', 't'], ['N', 'o', 'v'], ['D', 'e', 'c']]

/-- `"%2d"` of a number that is not negative. -/
def spacePad (n : Int) : Str := List.replicate (2 - (decInt n).length) ' ' ++ decInt n

/-- `datetime.ctime` (2085-2096), and `date.ctime` (1041-1049) which is that of midnight; `none` for a day that does not exist. -/
def ctime (d : Ymd) (c : Clock) : Option Str := do
  let ord ← ymd2ord d
  let weekday := if ord.fmod 7 = 0 then 7 else ord.fmod 7
  let dn ← dayNames[(weekday - 1).toNat]?
  let mn ← monthNames[(d.month - 1).toNat]?
  some (dn ++ ' ' :: mn ++ ' ' :: spacePad d.day ++ ' ' :: pad 2 c.hour ++ ':' :: pad 2 c.minute ++ ':' :: pad 2 c.second ++ ' ' :: pad 4 d.year)

/-! ### Formats -/

/-- The text for `%z` (285-310): `none` for an object without offset. -/
def zText (off : Option Delta) : Option Str :=
  match off with
  | none => some []
  | some o =>
    let (sign, o) := if o.days < 0 then ('-', deltaNeg o) else ('+', some o)
    o.map fun o =>
      let total := Verif.Dates.toMicros o
      let h := total.fdiv 3600000000
      let rest := total.fmod 3600000000
      let m := rest.fdiv 60000000
      let s := (rest.fmod 60000000).fdiv 1000000
      let u := o.micros
      if u ≠ 0 then sign :: (pad 2 h ++ pad 2 m ++ pad 2 s ++ '.' :: pad 6 u)
      else if s ≠ 0 then sign :: (pad 2 h ++ pad 2 m ++ pad 2 s)
      else sign :: (pad 2 h ++ pad 2 m)

/-- `s.replace("%", "%%")` (321). -/
def escapePercent (s : Str) : Str := s.flatMap fun c => if c = '%' then ['%', '%'] else [c]

/-- The scanning loop of `_wrap_strftime` (266-331): the format passed on.  `f`, `z` and `name` are the texts for `%f`, `%z` and the
name of the zone (each computed once). -/
def wrapFormat (f z name : Str) : Str → Str
  | [] => []
  | ['%'] => ['%']
  | '%' :: c :: rest =>
    if c = 'f' then f ++ wrapFormat f z name rest
    else if c = 'z' then z ++ wrapFormat f z name rest
    else if c = 'Z' then escapePercent name ++ wrapFormat f z name rest
    else '%' :: c :: wrapFormat f z name rest
  | c :: rest => c :: wrapFormat f z name rest

/-- `_wrap_strftime` (266-332), for an object with the given microseconds, offset and name of the zone.  `sys` is `time.strftime`
with the fields of the object; the texts for `%f`, `%z` and `%Z` are computed here even if the format does not need them. -/
def wrapStrftime (sys : Str → Str) (micro : Int) (off : Option Delta) (name : Option Str) (fmt : Str) : Option Str :=
  (zText off).map fun z => sys (wrapFormat (pad 6 micro) z (name.getD []) fmt)

end Verif.DateRepr
