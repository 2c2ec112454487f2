import Verif.Dates.Spec

/-!
# What the texts of dates, times and durations mean

The documented grammar: `YYYY-MM-DD`, `HH[:MM[:SS[.fff[fff]]]]`, an offset `±HH:MM[:SS[.ffffff]]`, and for
durations `[D day[s], ]H:MM:SS[.ffffff]`.  Numerals are plain decimal digits.
-/

namespace Verif.DateText

open Verif.Dates (Ymd Delta)

abbrev Str := List Char

/-- A decimal digit. -/
def IsDigit (c : Char) : Prop := 48 ≤ c.toNat ∧ c.toNat ≤ 57

instance (c : Char) : Decidable (IsDigit c) := by unfold IsDigit; infer_instance

/-- The number that a row of digits stands for. -/
def value (s : Str) : Int := s.foldl (fun a c => a * 10 + ((c.toNat : Int) - 48)) 0

/-- `s` is the number `v` written with exactly `w` digits. -/
def Numeral (w : Nat) (s : Str) (v : Int) : Prop := s.length = w ∧ (∀ c ∈ s, IsDigit c) ∧ v = value s

/-- `YYYY-MM-DD`. -/
def DateText (s : Str) (d : Ymd) : Prop :=
  ∃ y m a, Numeral 4 y d.year ∧ Numeral 2 m d.month ∧ Numeral 2 a d.day ∧ s = y ++ '-' :: (m ++ '-' :: a)

/-- A time of day. -/
structure Clock where
  hour : Int
  minute : Int
  second : Int
  micro : Int
deriving DecidableEq, Repr

/-- Fields in range. -/
def Clock.Valid (t : Clock) : Prop :=
  0 ≤ t.hour ∧ t.hour < 24 ∧ 0 ≤ t.minute ∧ t.minute < 60 ∧ 0 ≤ t.second ∧ t.second < 60 ∧
  0 ≤ t.micro ∧ t.micro < 1000000

instance (t : Clock) : Decidable t.Valid := by unfold Clock.Valid; infer_instance

/-- Microseconds since midnight. -/
def Clock.total (t : Clock) : Int := ((t.hour * 60 + t.minute) * 60 + t.second) * 1000000 + t.micro

/-- `HH`, `HH:MM`, `HH:MM:SS`, `HH:MM:SS.fff` or `HH:MM:SS.ffffff`. -/
inductive ClockText : Str → Clock → Prop
  | hours {a h} : Numeral 2 a h → ClockText a ⟨h, 0, 0, 0⟩
  | minutes {a b h m} : Numeral 2 a h → Numeral 2 b m → ClockText (a ++ ':' :: b) ⟨h, m, 0, 0⟩
  | seconds {a b c h m s} : Numeral 2 a h → Numeral 2 b m → Numeral 2 c s →
      ClockText (a ++ ':' :: (b ++ ':' :: c)) ⟨h, m, s, 0⟩
  | millis {a b c f h m s u} : Numeral 2 a h → Numeral 2 b m → Numeral 2 c s → Numeral 3 f u →
      ClockText (a ++ ':' :: (b ++ ':' :: (c ++ '.' :: f))) ⟨h, m, s, u * 1000⟩
  | micros {a b c f h m s u} : Numeral 2 a h → Numeral 2 b m → Numeral 2 c s → Numeral 6 f u →
      ClockText (a ++ ':' :: (b ++ ':' :: (c ++ '.' :: f))) ⟨h, m, s, u⟩

/-- `±HH:MM`, `±HH:MM:SS` or `±HH:MM:SS.ffffff`: an offset of so many microseconds. -/
inductive OffsetText : Str → Int → Prop
  | mk {sign : Char} {zone : Str} {t : Clock} : (sign = '+' ∨ sign = '-') → ClockText zone t →
      (zone.length = 5 ∨ zone.length = 8 ∨ zone.length = 15) →
      OffsetText (sign :: zone) (if sign = '-' then -t.total else t.total)

/-- A time of day and, if it has one, its distance from UTC. -/
structure Time where
  clock : Clock
  off : Option Delta
deriving DecidableEq, Repr

/-- Less than a day from UTC. -/
def OffsetOk (t : Delta) : Prop := t.Canonical ∧ -86400000000 < t.total ∧ t.total < 86400000000

instance (t : Delta) : Decidable (OffsetOk t) := by unfold OffsetOk; infer_instance

/-- A valid time. -/
def Time.Valid (t : Time) : Prop := t.clock.Valid ∧ ∀ o, t.off = some o → OffsetOk o

/-- A time of day, perhaps followed by an offset. -/
inductive TimeText : Str → Time → Prop
  | naive {s t} : ClockText s t → TimeText s ⟨t, none⟩
  | aware {s z t o} : ClockText s t → OffsetText z o.total → o.Canonical → TimeText (s ++ z) ⟨t, some o⟩

/-- A day and a time. -/
structure Stamp where
  day : Ymd
  time : Time
deriving DecidableEq, Repr

/-- A day that can be represented. -/
def DayOk (d : Ymd) : Prop := d.Valid ∧ 1 ≤ d.year ∧ d.year ≤ 9999

instance (d : Ymd) : Decidable (DayOk d) := by unfold DayOk; infer_instance

def Stamp.Valid (t : Stamp) : Prop := DayOk t.day ∧ t.time.Valid

/-- A date, perhaps followed by one separating character and a time. -/
inductive StampText : Str → Stamp → Prop
  | day {s d} : DateText s d → StampText s ⟨d, ⟨⟨0, 0, 0, 0⟩, none⟩⟩
  | time {s d sep z t} : DateText s d → TimeText z t → StampText (s ++ sep :: z) ⟨d, t⟩

/-- Earlier in the day. -/
def Clock.Before (a b : Clock) : Prop := a.total < b.total

/-- The precisions a text can be asked for. -/
inductive Timespec | auto | hours | minutes | seconds | millis | micros
deriving DecidableEq, Repr

/-- The smallest unit that a precision keeps, in microseconds. -/
def Timespec.unit : Timespec → Int
  | .auto => 1
  | .hours => 3600000000
  | .minutes => 60000000
  | .seconds => 1000000
  | .millis => 1000
  | .micros => 1

/-- `H:MM:SS` and perhaps `.ffffff`. -/
inductive SpanText : Str → Int → Prop
  | plain {a b c h m s} {w} : (w = 1 ∨ w = 2) → Numeral w a h → Numeral 2 b m → Numeral 2 c s →
      SpanText (a ++ ':' :: (b ++ ':' :: c)) (((h * 60 + m) * 60 + s) * 1000000)
  | fraction {a b c f h m s u} {w} : (w = 1 ∨ w = 2) → Numeral w a h → Numeral 2 b m → Numeral 2 c s → Numeral 6 f u →
      SpanText (a ++ ':' :: (b ++ ':' :: (c ++ '.' :: f))) (((h * 60 + m) * 60 + s) * 1000000 + u)

/-- Text of a duration of so many microseconds: perhaps a (signed) number of days, then a time span. -/
inductive DeltaText : Str → Int → Prop
  | short {s us} : SpanText s us → DeltaText s us
  | days {a s us n} {w} : Numeral w a n → 0 < n → SpanText s us →
      DeltaText (a ++ " day".toList ++ (if n = 1 then [] else ['s']) ++ ", ".toList ++ s) (n * 86400000000 + us)
  | minusDays {a s us n} {w} : Numeral w a n → 0 < n → SpanText s us →
      DeltaText ('-' :: a ++ " day".toList ++ (if n = 1 then [] else ['s']) ++ ", ".toList ++ s)
        (-n * 86400000000 + us)

/-- Plain text: ASCII without white space, underscores or signs. -/
def PlainChar (c : Char) : Prop := 32 < c.toNat ∧ c.toNat < 127 ∧ c ≠ '_' ∧ c ≠ '+' ∧ c ≠ '-'

instance (c : Char) : Decidable (PlainChar c) := by unfold PlainChar; infer_instance

/-- Text without white space, underscores or plus signs. -/
def NoPlusChar (c : Char) : Prop := 32 < c.toNat ∧ c.toNat < 127 ∧ c ≠ '_' ∧ c ≠ '+'

instance (c : Char) : Decidable (NoPlusChar c) := by unfold NoPlusChar; infer_instance

/-- Plain text with at most one sign in it. -/
inductive Tidy : Str → Prop
  | naive {s} : (∀ c ∈ s, PlainChar c) → Tidy s
  | aware {s sign z} : (∀ c ∈ s, PlainChar c) → (sign = '+' ∨ sign = '-') → (∀ c ∈ z, PlainChar c) →
      Tidy (s ++ sign :: z)

end Verif.DateText
