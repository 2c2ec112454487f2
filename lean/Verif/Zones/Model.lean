import Verif.Dates.Model
import Verif.Zones.Spec

/-!
# Moments, time zones and timestamps (/repo/crosshair/libimpl/datetimelib.py)

Symbolic fields are integers; a timestamp (a symbolic float, hence a real) is a rational number.  `tzinfo` objects
answer by a function of the reading of the clock.  The C library's `gmtime` and `localtime` are given by the
seconds since 1970 and the local offset.
-/

namespace Verif.Zones

open Verif.Dates (Ymd Delta mkDate mkDelta delta3 deltaAdd deltaSub deltaNeg deltaMod deltaFloordiv deltaCmp toMicros
  ord2ymd ymd2ord dtAdd cmp maxOrdinal daysBeforeMonth timeCmp TM)

inductive Err where
  | type
  | value
  | overflow
  | assertion
deriving DecidableEq, Repr

/-- `OverflowError` of duration arithmetic. -/
def orOverflow {α : Type} : Option α → Except Err α
  | none => .error .overflow
  | some a => .ok a

/-- A `tzinfo` object, with its identity: a `timezone` (2429-2457) or one of a class written by a user, whose methods
`utcoffset` and `dst` answer a duration or `None`. -/
inductive Zone where
  | fixed (id : Nat) (offset : Delta)
  | custom (id : Nat) (utcoffset dst : Reading → Option Delta)

def Zone.id : Zone → Nat
  | .fixed i _ => i
  | .custom i _ _ => i

/-- `utcoffset(dt)` (2495-2498, or user code). -/
def Zone.utcoffset : Zone → Reading → Option Delta
  | .fixed _ d, _ => some d
  | .custom _ f _, c => f c

/-- `dst(dt)` (2507-2510, or user code). -/
def Zone.dst : Zone → Reading → Option Delta
  | .fixed _ _, _ => none
  | .custom _ _ f, c => f c

/-- A `datetime`: the reading of the clock, and the `tzinfo`. -/
structure Moment where
  clock : Reading
  tz : Option Zone

/-- Identity of the `tzinfo`, to compare with `is`. -/
def Moment.tzId (m : Moment) : Option Nat := m.tz.map Zone.id

/-- `_check_utc_offset` (452-465). -/
def checkOffset : Option Delta → Except Err (Option Delta)
  | none => .ok none
  | some d => if deltaCmp ⟨-1, 0, 0⟩ d < 0 ∧ deltaCmp d ⟨1, 0, 0⟩ < 0 then .ok (some d) else .error .value

/-- `datetime.utcoffset` (2176-2185). -/
def Moment.utcoffset (m : Moment) : Except Err (Option Delta) :=
  match m.tz with
  | none => .ok none
  | some z => checkOffset (z.utcoffset m.clock)

/-- `datetime.dst` (2201-2215). -/
def Moment.dst (m : Moment) : Except Err (Option Delta) :=
  match m.tz with
  | none => .ok none
  | some z => checkOffset (z.dst m.clock)

/-- `datetime.__init__` (1725-1750), `_check_date_fields` (474-483) and `_check_time_fields` (486-498), and
`time.__new__` (1401-1414) for the time fields.  The day is kept by its number. -/
def mkMoment (year month day hour minute second micro : Int) (tz : Option Zone) (fold : Bool) : Except Err Moment :=
  match (mkDate ⟨year, month, day⟩).bind ymd2ord with
  | none => .error .value
  | some ord =>
    if ¬ (0 ≤ hour ∧ hour ≤ 23) then .error .value
    else if ¬ (0 ≤ minute ∧ minute ≤ 59) then .error .value
    else if ¬ (0 ≤ second ∧ second ≤ 59) then .error .value
    else if ¬ (0 ≤ micro ∧ micro ≤ 999999) then .error .value
    else .ok ⟨⟨ord, hour, minute, second, micro, fold⟩, tz⟩

/-- The fields `year`, `month`, `day`; `_ord2ymd` gives a value for all days in range. -/
def Moment.ymd (m : Moment) : Except Err Ymd :=
  match ord2ymd m.clock.ord with
  | none => .error .value
  | some d => .ok d

/-- `datetime.__add__` (2320-2340) with `_datetime_from_ordinal` (2626-2636), which leaves `fold` at 0. -/
def Moment.add (m : Moment) (t : Delta) : Except Err Moment :=
  match dtAdd ⟨m.clock.ord, m.clock.hour, m.clock.minute, m.clock.second, m.clock.micro, none⟩ t with
  | none => .error .overflow
  | some r => .ok ⟨⟨r.ord, r.hour, r.minute, r.second, r.micro, false⟩, m.tz⟩

/-- `datetime.__sub__` (2344-2349) with a duration. -/
def Moment.subDelta (m : Moment) (t : Delta) : Except Err Moment := do
  let t ← orOverflow (deltaNeg t)
  m.add t

/-- `datetime.__sub__` (2351-2366) with a datetime. -/
def Moment.sub (a b : Moment) : Except Err Delta := do
  let secs1 := a.clock.second + a.clock.minute * 60 + a.clock.hour * 3600
  let secs2 := b.clock.second + b.clock.minute * 60 + b.clock.hour * 3600
  let base ← orOverflow (delta3 (a.clock.ord - b.clock.ord) (secs1 - secs2) (a.clock.micro - b.clock.micro))
  if a.tzId = b.tzId then return base
  let myoff ← a.utcoffset
  let otoff ← b.utcoffset
  if myoff = otoff then return base
  match myoff, otoff with
  | some x, some y =>
    let t ← orOverflow (deltaAdd base y)
    orOverflow (deltaSub t x)
  | _, _ => .error .type

/-- The same reading with the other `fold` (`replace(fold=not self.fold)`). -/
def Moment.otherFold (m : Moment) : Moment := { m with clock := { m.clock with fold := !m.clock.fold } }

/-- `datetime._cmp` (2262-2318), dates by their ordinals.  In `__eq__` (`allow_mixed`) a moment whose offset depends on
`fold` is different from all moments in other zones. -/
def Moment.cmp (a b : Moment) (allowMixed : Bool) : Except Err Int := do
  let base := Verif.Dates.cmp [a.clock.ord, a.clock.hour, a.clock.minute, a.clock.second, a.clock.micro]
    [b.clock.ord, b.clock.hour, b.clock.minute, b.clock.second, b.clock.micro]
  if a.tzId = b.tzId then return base
  let myoff ← a.utcoffset
  let otoff ← b.utcoffset
  if allowMixed then
    let myother ← a.otherFold.utcoffset
    if myoff ≠ myother then return 2
    let otother ← b.otherFold.utcoffset
    if otoff ≠ otother then return 2
  if myoff = otoff then return base
  if myoff = none ∨ otoff = none then
    if allowMixed then return 2
    else .error .type
  let diff ← a.sub b
  if diff.days < 0 then return -1
  if diff.micros ≠ 0 ∨ diff.seconds ≠ 0 ∨ diff.days ≠ 0 then return 1
  return 0

/-- `datetime.__eq__` (2219-2225) with a datetime. -/
def Moment.eq (a b : Moment) : Except Err Bool := do
  let c ← a.cmp b true
  return c == 0

/-! ### Hashes -/

/-- What is hashed: bytes, or a tuple of numbers. -/
inductive Key where
  | bytes (l : List Int)
  | tuple (l : List Int)
deriving DecidableEq, Repr

/-- `_datetime_getstate` (1706-1714). -/
def Moment.getstate (m : Moment) : Except Err Key := do
  let d ← m.ymd
  let us2 := m.clock.micro.fdiv 256
  let us3 := m.clock.micro.fmod 256
  let us1 := us2.fdiv 256
  let us2 := us2.fmod 256
  return .bytes [d.year.fdiv 256, d.year.fmod 256, d.month, d.day, m.clock.hour, m.clock.minute, m.clock.second, us1, us2, us3]

/-- `datetime.__hash__` (2368-2383), up to the hash function of bytes and tuples; the hash of a duration is that of
its three fields (801-804). -/
def Moment.hash (m : Moment) : Except Err Key := do
  let t := if m.clock.fold then { m with clock := { m.clock with fold := false } } else m
  let tzoff ← t.utcoffset
  match tzoff with
  | none => t.getstate
  | some tzoff =>
    let d ← m.ymd
    let days ← orOverflow (ymd2ord d)
    let seconds := m.clock.hour * 3600 + m.clock.minute * 60 + m.clock.second
    let whole ← orOverflow (delta3 days seconds m.clock.micro)
    let r ← orOverflow (deltaSub whole tzoff)
    return .tuple [r.days, r.seconds, r.micros]

/-- A `time`; its `tzinfo` by its identity and the answer of `utcoffset(None)`. -/
structure TimeOf where
  hour : Int
  minute : Int
  second : Int
  micro : Int
  fold : Bool
  tz : Option (Nat × Option Delta)
deriving DecidableEq, Repr

/-- The offset of a `time`; `_check_utc_offset` is left out. -/
def TimeOf.utcoffset (t : TimeOf) : Option Delta := t.tz.bind (·.2)

/-- `time._cmp` (1483-1511), called from `__eq__` (`allow_mixed`). -/
def TimeOf.cmp (a b : TimeOf) : Int :=
  let base := Verif.Dates.cmp [a.hour, a.minute, a.second, a.micro] [b.hour, b.minute, b.second, b.micro]
  if a.tz.map (·.1) = b.tz.map (·.1) then base
  else if a.utcoffset = b.utcoffset then base
  else match a.utcoffset, b.utcoffset with
    | some x, some y => timeCmp ⟨a.hour, a.minute, a.second, a.micro, x⟩ ⟨b.hour, b.minute, b.second, b.micro, y⟩
    | _, _ => 2

/-- `_time_getstate` (1366-1371). -/
def timeGetstate (hour minute second micro : Int) : Key :=
  let us2 := micro.fdiv 256
  let us3 := micro.fmod 256
  let us1 := us2.fdiv 256
  let us2 := us2.fmod 256
  .bytes [hour, minute, second, us1, us2, us3]

/-- `time.__hash__` (1513-1534). -/
def TimeOf.hash (t : TimeOf) : Except Err Key := do
  match t.utcoffset with
  | none => return timeGetstate t.hour t.minute t.second t.micro
  | some tzoff =>
    if tzoff = ⟨0, 0, 0⟩ then return timeGetstate t.hour t.minute t.second t.micro
    let clock ← orOverflow (mkDelta 0 0 0 0 t.minute t.hour 0)
    let d ← orOverflow (deltaSub clock tzoff)
    let h := deltaFloordiv d ⟨0, 3600, 0⟩
    let m ← orOverflow (deltaMod d ⟨0, 3600, 0⟩)
    let rest ← orOverflow (deltaMod m ⟨0, 60, 0⟩)
    if rest ≠ ⟨0, 0, 0⟩ then .error .assertion
    else
      let m := deltaFloordiv m ⟨0, 60, 0⟩
      if 0 ≤ h ∧ h < 24 then return timeGetstate h m t.second t.micro
      else return .tuple [h, m, t.second, t.micro]

/-! ### Taking apart and putting together -/

/-- The arguments of `replace`; a field that is not given is `none`. -/
structure Changes where
  year : Option Int := none
  month : Option Int := none
  day : Option Int := none
  hour : Option Int := none
  minute : Option Int := none
  second : Option Int := none
  micro : Option Int := none
  tz : Option (Option Zone) := none
  fold : Option Bool := none

/-- `datetime.replace` (2004-2038). -/
def Moment.replace (m : Moment) (c : Changes) : Except Err Moment := do
  let d ← m.ymd
  mkMoment (c.year.getD d.year) (c.month.getD d.month) (c.day.getD d.day) (c.hour.getD m.clock.hour)
    (c.minute.getD m.clock.minute) (c.second.getD m.clock.second) (c.micro.getD m.clock.micro)
    (c.tz.getD m.tz) (c.fold.getD m.clock.fold)

/-- A `time` with its `tzinfo`. -/
structure TimeTz where
  hour : Int
  minute : Int
  second : Int
  micro : Int
  fold : Bool
  tz : Option Zone

/-- `datetime.date` (1980-1985): the day. -/
def Moment.date (m : Moment) : Int := m.clock.ord

/-- `datetime.time` (1987-1991). -/
def Moment.time (m : Moment) : TimeTz :=
  ⟨m.clock.hour, m.clock.minute, m.clock.second, m.clock.micro, m.clock.fold, none⟩

/-- `datetime.timetz` (1993-2002). -/
def Moment.timetz (m : Moment) : TimeTz :=
  ⟨m.clock.hour, m.clock.minute, m.clock.second, m.clock.micro, m.clock.fold, m.tz⟩

/-- `datetime.combine` (1856-1874), of a day and a time; `tz` is the argument `tzinfo`, if given. -/
def combine (day : Int) (t : TimeTz) (tz : Option (Option Zone)) : Except Err Moment := do
  let d ← (⟨⟨day, 0, 0, 0, 0, false⟩, none⟩ : Moment).ymd
  mkMoment d.year d.month d.day t.hour t.minute t.second t.micro (tz.getD t.tz) t.fold

/-! ### Conversion to another zone -/

/-- `timezone.fromutc` (2512-2517) and `tzinfo.fromutc` (1289-1315). -/
def Zone.fromutc (z : Zone) (m : Moment) : Except Err Moment :=
  match z with
  | .fixed i off => if m.tzId ≠ some i then .error .value else m.add off
  | .custom i _ _ =>
    if m.tzId ≠ some i then .error .value
    else do
      match ← m.utcoffset with
      | none => .error .value
      | some dtoff =>
        match ← m.dst with
        | none => .error .value
        | some dtdst =>
          let delta ← orOverflow (deltaSub dtoff dtdst)
          if delta ≠ ⟨0, 0, 0⟩ then
            let dt ← m.add delta
            match ← dt.dst with
            | none => .error .value
            | some dtdst => dt.add dtdst
          else m.add dtdst

/-- `timezone.__new__` (2435-2450) with a name. -/
def newZone (i : Nat) (off : Delta) : Except Err Zone :=
  if 0 ≤ deltaCmp off ⟨-1, 0, 1⟩ ∧ 0 ≤ deltaCmp ⟨0, 86399, 999999⟩ off then .ok (.fixed i off) else .error .value

/-- The C library's `gmtime` of seconds since 1970, and the constructor of `datetime` on its fields, which raises
`ValueError` outside the years 1 to 9999. -/
def stampOf (s us : Int) (tz : Option Zone) : Except Err Moment :=
  let day := s.fdiv 86400 + 719163
  let rest := s.fmod 86400
  if 1 ≤ day ∧ day ≤ maxOrdinal then
    .ok ⟨⟨day, rest.fdiv 3600, (rest.fmod 3600).fdiv 60, (rest.fmod 3600).fmod 60, us, false⟩, tz⟩
  else .error .value

/-- The C library's `localtime`, likewise. -/
def localStamp (off : Int → Int) (u us : Int) : Except Err Moment := stampOf (u + off u) us none

/-- `datetime(1970, 1, 1)`. -/
def epochNaive : Moment := ⟨⟨719163, 0, 0, 0, 0, false⟩, none⟩

/-- `_EPOCH` (2565); `timezone.utc` is the object with identity 0. -/
def epochUtc : Moment := ⟨⟨719163, 0, 0, 0, 0, false⟩, some (.fixed 0 ⟨0, 0, 0⟩)⟩

/-- `local` inside `_mktime` (1934-1936): what local clocks show at `u`, in seconds since 1970. -/
def localSeconds (off : Int → Int) (u : Int) : Except Err Int := do
  let m ← localStamp off u 0
  let d ← m.sub epochNaive
  return deltaFloordiv d ⟨0, 1, 0⟩

/-- `datetime._mktime` (1928-1961) of a datetime without `tzinfo`. -/
def Moment.mktime (off : Int → Int) (m : Moment) : Except Err Int := do
  let d ← m.sub epochNaive
  let t := deltaFloordiv d ⟨0, 1, 0⟩
  let lt ← localSeconds off t
  let a := lt - t
  let u1 := t - a
  let t1 ← localSeconds off u1
  if t1 = t then
    let u2 := u1 + (if m.clock.fold then 86400 else -86400)
    let l2 ← localSeconds off u2
    let b := l2 - u2
    if a = b then return u1
    let u2 := t - b
    let t2 ← localSeconds off u2
    if t2 = t then return u2
    return u1
  else
    let b := t1 - u1
    if a = b then .error .assertion
    else
      let u2 := t - b
      let t2 ← localSeconds off u2
      if t2 = t then return u2
      return if m.clock.fold then min u1 u2 else max u1 u2

/-- `datetime.timestamp` (1963-1969) and `timedelta.total_seconds` (641-643). -/
def Moment.timestamp (off : Int → Int) (m : Moment) : Except Err ℚ :=
  match m.tz with
  | none => do
    let s ← m.mktime off
    return (s : ℚ) + (m.clock.micro : ℚ) / 1000000
  | some _ => do
    let d ← m.sub epochUtc
    return (toMicros d : ℚ) / 1000000

/-- Python's `round` of a rational number. -/
def roundEven (q : ℚ) : Int :=
  let n := ⌊q⌋
  if q - n < 1 / 2 then n
  else if q - n = 1 / 2 then (if n % 2 = 0 then n else n + 1)
  else n + 1

/-- The whole seconds and microseconds of a timestamp (`_fromtimestamp` 1789-1796). -/
def splitStamp (x : ℚ) : Int × Int :=
  let t : Int := if x < 0 then ⌈x⌉ else ⌊x⌋
  let us := roundEven ((x - t) * 1000000)
  if 1000000 ≤ us then (t + 1, us - 1000000)
  else if us < 0 then (t - 1, us + 1000000)
  else (t, us)

/-- `datetime._fromtimestamp` (1783-1825), not on Windows. -/
def fromStamp (off : Int → Int) (x : ℚ) (utc : Bool) (tz : Option Zone) : Except Err Moment := do
  let t := (splitStamp x).1
  let us := (splitStamp x).2
  let conv : Int → Int := fun u => if utc then u else u + off u
  let result ← stampOf (conv t) us tz
  match tz with
  | none =>
    let probe1 ← stampOf (conv (t - 86400)) us none
    let d ← result.sub probe1
    let day ← orOverflow (delta3 0 86400 0)
    let trans ← orOverflow (deltaSub d day)
    if trans.days < 0 then
      let probe2 ← stampOf (conv (t + deltaFloordiv trans ⟨0, 1, 0⟩)) us none
      let same ← probe2.eq result
      return if same then { result with clock := { result.clock with fold := true } } else result
    return result
  | some z => z.fromutc result

/-- `datetime.fromtimestamp` (1828-1836). -/
def fromtimestamp (off : Int → Int) (x : ℚ) (tz : Option Zone) : Except Err Moment := fromStamp off x tz.isSome tz

/-- `datetime.utcfromtimestamp` (1839-1841). -/
def utcfromtimestamp (off : Int → Int) (x : ℚ) : Except Err Moment := fromStamp off x true none

/-- `datetime._local_timezone` (2040-2056); `i` is the identity of the new object. -/
def Moment.localTimezone (off : Int → Int) (i : Nat) (m : Moment) : Except Err Zone := do
  let ts ← match m.tz with
    | none => m.mktime off
    | some _ => do
      let d ← m.sub epochUtc
      pure (deltaFloordiv d ⟨0, 1, 0⟩)
  let local_ ← localStamp off ts 0
  let utc ← stampOf ts 0 none
  let d ← local_.sub utc
  newZone i d

/-- The zone and offset a moment is read in (`astimezone` 2064-2072). -/
def Moment.ownZone (off : Int → Int) (j : Nat) (m : Moment) : Except Err (Zone × Option Delta) :=
  match m.tz with
  | none => do
    let z ← m.localTimezone off j
    return (z, z.utcoffset m.clock)
  | some z =>
    match z.utcoffset m.clock with
    | some o => .ok (z, some o)
    | none => do
      let m' ← m.replace { tz := some none }
      let z ← m'.localTimezone off j
      return (z, z.utcoffset m.clock)

/-- `datetime.astimezone` (2058-2081); `i` and `j` are the identities of the objects it may make. -/
def Moment.astimezone (off : Int → Int) (i j : Nat) (m : Moment) (tz : Option Zone) : Except Err Moment := do
  let tz ← match tz with
    | none => m.localTimezone off i
    | some z => .ok z
  let (mytz, myoffset) ← m.ownZone off j
  if tz.id = mytz.id then return m
  match myoffset with
  | none => .error .type
  | some myoffset =>
    let utc ← m.subDelta myoffset
    let utc ← utc.replace { tz := some (some tz) }
    tz.fromutc utc

/-! ### Time tuples -/

/-- `time.struct_time`. -/
structure TimeTuple where
  year : Int
  month : Int
  day : Int
  hour : Int
  minute : Int
  second : Int
  wday : Int
  yday : Int
  isdst : Int
deriving DecidableEq, Repr

/-- `_build_struct_time` (218-221). -/
def buildTuple (d : Ymd) (hh mm ss dst : Int) : Except Err TimeTuple := do
  let ord ← orOverflow (ymd2ord d)
  return ⟨d.year, d.month, d.day, hh, mm, ss, (ord + 6).fmod 7, daysBeforeMonth d.year d.month + d.day, dst⟩

/-- `datetime.timetuple` (1915-1926). -/
def Moment.timetuple (m : Moment) : Except Err TimeTuple := do
  let dst ← m.dst
  let flag : Int := match dst with
    | none => -1
    | some d => if d ≠ ⟨0, 0, 0⟩ then 1 else 0
  let d ← m.ymd
  buildTuple d m.clock.hour m.clock.minute m.clock.second flag

/-- `datetime.utctimetuple` (1971-1978). -/
def Moment.utctimetuple (m : Moment) : Except Err TimeTuple := do
  let offset ← m.utcoffset
  let m ← match offset with
    | none => pure m
    | some o => if o ≠ ⟨0, 0, 0⟩ then m.subDelta o else pure m
  let d ← m.ymd
  buildTuple d m.clock.hour m.clock.minute m.clock.second 0

end Verif.Zones
