import Verif.Dates.Model
import Verif.DateText.Spec

/-!
# The texts of dates, times and durations (/repo/crosshair/libimpl/datetimelib.py)

Strings are lists of characters.  Only offsets that do not depend on the time are modelled
(`timezone` objects); `fold` never appears in these texts and is left out.
-/

namespace Verif.DateText

open Verif.Dates (Ymd Delta mkDate mkDelta delta3 deltaNeg deltaMul deltaFloordiv deltaMod deltaCmp)

/-! ### Numbers in text -/

/-- The decimal digits of a number, at least one. -/
def decFuel : Nat → Nat → Str
  | 0, _ => []
  | f + 1, n => if n < 10 then [Char.ofNat (48 + n)] else decFuel f (n / 10) ++ [Char.ofNat (48 + n % 10)]

/-- `"%d"` of a natural number. -/
def dec (n : Nat) : Str := decFuel (n + 1) n

/-- `"%0wd"`: padded with zeros up to the width, after the sign. -/
def pad (w : Nat) (n : Int) : Str :=
  if n < 0 then '-' :: (List.replicate (w - 1 - (dec n.natAbs).length) '0' ++ dec n.natAbs)
  else List.replicate (w - (dec n.natAbs).length) '0' ++ dec n.natAbs

/-- White space that `int()` strips (ASCII only). -/
def isSpace (c : Char) : Bool := (9 ≤ c.toNat && c.toNat ≤ 13) || (28 ≤ c.toNat && c.toNat ≤ 32)

/-- The digits of `int()`: single underscores are allowed between digits. -/
def scanDigits : Int → Bool → Str → Option Int
  | acc, prev, [] => if prev then some acc else none
  | acc, prev, c :: cs =>
    if c = '_' then (if prev then scanDigits acc false cs else none)
    else if 48 ≤ c.toNat ∧ c.toNat ≤ 57 then scanDigits (acc * 10 + ((c.toNat : Int) - 48)) true cs
    else none

/-- Python's `int(text)`, for ASCII text: white space around, a sign, digits; `none` is the `ValueError`.
On a symbolic text of digits crosshair computes the same number itself and otherwise calls this
(builtinslib.py:4942-4963). -/
def pyInt (s : Str) : Option Int :=
  let t := ((s.dropWhile isSpace).reverse.dropWhile isSpace).reverse
  match t with
  | '-' :: ds => (scanDigits 0 false ds).map (-·)
  | '+' :: ds => scanDigits 0 false ds
  | ds => scanDigits 0 false ds

/-! ### Writing -/

/-- `_format_time` (224-243), with one of the known precisions. -/
def formatTime (t : Clock) (ts : Timespec) : Str :=
  let us := if ts = .millis then t.micro.fdiv 1000 else t.micro
  let ts := if ts = .auto then (if t.micro ≠ 0 then .micros else .seconds) else ts
  match ts with
  | .hours => pad 2 t.hour
  | .minutes => pad 2 t.hour ++ ':' :: pad 2 t.minute
  | .millis => pad 2 t.hour ++ ':' :: (pad 2 t.minute ++ ':' :: (pad 2 t.second ++ '.' :: pad 3 us))
  | .micros => pad 2 t.hour ++ ':' :: (pad 2 t.minute ++ ':' :: (pad 2 t.second ++ '.' :: pad 6 us))
  | _ => pad 2 t.hour ++ ':' :: (pad 2 t.minute ++ ':' :: pad 2 t.second)

/-- The part of `_format_offset` after the sign (254-261), for an offset that is not negative. -/
def formatOffsetAbs (sign : Char) (off : Delta) : Option Str :=
  (deltaMod off ⟨0, 3600, 0⟩).bind fun rest =>
  (deltaMod rest ⟨0, 60, 0⟩).map fun ss =>
    sign :: (pad 2 (deltaFloordiv off ⟨0, 3600, 0⟩) ++ ':' :: pad 2 (deltaFloordiv rest ⟨0, 60, 0⟩)) ++
      (if ss ≠ ⟨0, 0, 0⟩ ∨ ss.micros ≠ 0 then
        ':' :: pad 2 ss.seconds ++ (if ss.micros ≠ 0 then '.' :: pad 6 ss.micros else [])
      else [])

/-- `_format_offset` (246-262); `none` is an `OverflowError` of the arithmetic. -/
def formatOffset : Option Delta → Option Str
  | none => some []
  | some off =>
    if off.days < 0 then (deltaNeg off).bind (formatOffsetAbs '-') else formatOffsetAbs '+' off

/-- `date.isoformat` (1062-1074), also `str()` of a date. -/
def dateIso (d : Ymd) : Str := pad 4 d.year ++ '-' :: (pad 2 d.month ++ '-' :: pad 2 d.day)

/-- `time.isoformat` (1566-1583); `__str__` is the same with precision `auto`. -/
def timeIso (t : Time) (ts : Timespec) : Option Str :=
  (formatOffset t.off).map fun tz => if tz ≠ [] then formatTime t.clock ts ++ tz else formatTime t.clock ts

/-- `datetime.isoformat` (2098-2129); `__str__` has a blank as separator. -/
def stampIso (t : Stamp) (sep : Char) (ts : Timespec) : Option Str :=
  let s := pad 4 t.day.year ++ '-' :: (pad 2 t.day.month ++ '-' :: (pad 2 t.day.day ++ [sep])) ++
    formatTime t.time.clock ts
  (formatOffset t.time.off).map fun tz => if tz ≠ [] then s ++ tz else s

/-- The part of `timezone._name_from_offset` after the sign (2537-2546). -/
def zoneNameAbs (sign : Char) (delta : Delta) : Option Str :=
  (deltaMod delta ⟨0, 3600, 0⟩).bind fun rest =>
  (deltaMod rest ⟨0, 60, 0⟩).map fun rest' =>
    let hm := "UTC".toList ++ sign :: (pad 2 (deltaFloordiv delta ⟨0, 3600, 0⟩) ++
      ':' :: pad 2 (deltaFloordiv rest ⟨0, 60, 0⟩))
    if rest'.micros ≠ 0 then hm ++ ':' :: (pad 2 rest'.seconds ++ '.' :: pad 6 rest'.micros)
    else if rest'.seconds ≠ 0 then hm ++ ':' :: pad 2 rest'.seconds
    else hm

/-- `timezone._name_from_offset` (2527-2546): `tzname()` and `str()` of a timezone without a name. -/
def zoneName (delta : Delta) : Option Str :=
  if delta = ⟨0, 0, 0⟩ then some "UTC".toList
  else if deltaCmp delta ⟨0, 0, 0⟩ < 0 then (deltaNeg delta).bind (zoneNameAbs '-')
  else zoneNameAbs '+' delta

/-- `"%d"` of an integer. -/
def decInt (n : Int) : Str := if n < 0 then '-' :: dec n.natAbs else dec n.natAbs

/-- `timedelta.__str__` (627-639). -/
def deltaStr (t : Delta) : Str :=
  let mm := t.seconds.fdiv 60
  let ss := t.seconds.fmod 60
  let hh := mm.fdiv 60
  let mm := mm.fmod 60
  let s := decInt hh ++ ':' :: (pad 2 mm ++ ':' :: pad 2 ss)
  let s := if t.days ≠ 0 then
      decInt t.days ++ " day".toList ++ (if t.days.natAbs ≠ 1 then ['s'] else []) ++ ", ".toList ++ s
    else s
  if t.micros ≠ 0 then s ++ '.' :: pad 6 t.micros else s

/-! ### Reading -/

/-- What the readers raise. -/
inductive Err | value | index
deriving DecidableEq, Repr

/-- `int(text)` raises `ValueError`. -/
def readInt (s : Str) : Except Err Int := match pyInt s with | some v => .ok v | none => .error .value

/-- `_parse_isoformat_date` (337-351). -/
def parseDate (s : Str) : Except Err Ymd :=
  match readInt (s.take 4) with
  | .error e => .error e
  | .ok year =>
    match s[4]? with
    | none => .error .index
    | some c =>
      if c ≠ '-' then .error .value
      else
        match readInt ((s.drop 5).take 2) with
        | .error e => .error e
        | .ok month =>
          match s[7]? with
          | none => .error .index
          | some c =>
            if c ≠ '-' then .error .value
            else
              match readInt ((s.drop 8).take 2) with
              | .error e => .error e
              | .ok day => .ok ⟨year, month, day⟩

/-- The last part of `_parse_hh_mm_ss_ff` (376-391), at position `pos`: the fraction of a second. -/
def parseFraction (s : Str) (pos : Nat) (t : Clock) : Option Clock :=
  if pos < s.length then
    if s[pos]? ≠ some '.' then none
    else
      let rem := s.length - (pos + 1)
      if ¬ (rem = 3 ∨ rem = 6) then none
      else (pyInt (s.drop (pos + 1))).map fun v => { t with micro := if rem = 3 then v * 1000 else v }
  else some t

/-- One pass of the loop of `_parse_hh_mm_ss_ff` (360-366): two characters at `pos`. -/
def parseTwo (s : Str) (pos : Nat) : Option Int :=
  if s.length - pos < 2 then none else pyInt ((s.drop pos).take 2)

/-- `_parse_hh_mm_ss_ff` (354-391), the three passes of the loop written one after the other. -/
def parseClock (s : Str) : Option Clock :=
  (parseTwo s 0).bind fun h =>
  match s[2]? with
  | none => parseFraction s 2 ⟨h, 0, 0, 0⟩
  | some c =>
    if c ≠ ':' then none
    else (parseTwo s 3).bind fun m =>
      match s[5]? with
      | none => parseFraction s 5 ⟨h, m, 0, 0⟩
      | some c =>
        if c ≠ ':' then none
        else (parseTwo s 6).bind fun sec => parseFraction s 8 ⟨h, m, sec, 0⟩

/-- `timezone(offset)` (2435-2450): at most a microsecond less than a day. -/
def mkZone (off : Delta) : Option Delta :=
  if off = ⟨0, 0, 0⟩ then some ⟨0, 0, 0⟩
  else if deltaCmp ⟨-1, 0, 1⟩ off ≤ 0 ∧ deltaCmp off ⟨0, 86399, 999999⟩ ≤ 0 then some off
  else none

/-- The offset part of `_parse_isoformat_time` (407-431). -/
def parseZone (sign : Char) (z : Str) : Option Delta :=
  if ¬ (z.length = 5 ∨ z.length = 8 ∨ z.length = 15) then none
  else (parseClock z).bind fun t =>
    if t = ⟨0, 0, 0, 0⟩ then some ⟨0, 0, 0⟩
    else (mkDelta 0 t.second t.micro 0 t.minute t.hour 0).bind fun td =>
      (deltaMul td (if sign = '-' then -1 else 1)).bind mkZone

/-- `text.find(char)`. -/
def find (c : Char) (s : Str) : Option Nat := s.findIdx? (· = c)

/-- `_parse_isoformat_time` (394-435). -/
def parseTime (s : Str) : Option Time :=
  if s.length < 2 then none
  else
    match (find '-' s).or (find '+' s) with
    | none => (parseClock s).map fun t => ⟨t, none⟩
    | some p =>
      (parseClock (s.take p)).bind fun t =>
        (parseZone (s.getD p ' ') (s.drop (p + 1))).map fun o => ⟨t, some o⟩

/-- `_check_time_fields` (486-498). -/
def mkClock (t : Clock) : Option Clock :=
  if ¬ (0 ≤ t.hour ∧ t.hour ≤ 23) then none
  else if ¬ (0 ≤ t.minute ∧ t.minute ≤ 59) then none
  else if ¬ (0 ≤ t.second ∧ t.second ≤ 59) then none
  else if ¬ (0 ≤ t.micro ∧ t.micro ≤ 999999) then none
  else some t

/-- `date.fromisoformat` (974-983): every exception becomes a `ValueError`, here `none`. -/
def dateFromIso (s : Str) : Option Ymd :=
  if s.length = 10 then (parseDate s).toOption.bind mkDate else none

/-- `time.fromisoformat` (1588-1596). -/
def timeFromIso (s : Str) : Option Time :=
  (parseTime s).bind fun t => (mkClock t.clock).map fun c => ⟨c, t.off⟩

/-- `datetime.__new__` on checked fields. -/
def mkStamp (d : Ymd) (t : Time) : Except Err Stamp :=
  match mkDate d, mkClock t.clock with
  | some d, some c => .ok ⟨d, c, t.off⟩
  | _, _ => .error .value

/-- `datetime.fromisoformat` (1877-1899): only `ValueError` is translated. -/
def stampFromIso (s : Str) : Except Err Stamp :=
  match parseDate (s.take 10) with
  | .error e => .error e
  | .ok d =>
    let t := s.drop 11
    if t ≠ [] then
      match parseTime t with
      | none => .error .value
      | some t => mkStamp d t
    else mkStamp d ⟨⟨0, 0, 0, 0⟩, none⟩

end Verif.DateText
