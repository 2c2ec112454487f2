import Verif.DateText.Spec
/-
What `eval` makes of the texts that `repr` gives for dates, times, durations and time zones: a reader for calls with
integers, texts, names and keywords, and the meaning of the constructors of `datetime`.
-/
namespace Verif.DateRepr

open Verif.Dates (Ymd Delta)
open Verif.DateText (Str IsDigit value Numeral Clock OffsetOk DayOk)

/-! ### Names -/

/-- `days` -/
def kDays : Str := ['d', 'a', 'y', 's']
/-- `seconds` -/
def kSeconds : Str := ['s', 'e', 'c', 'o', 'n', 'd', 's']
/-- `microseconds` -/
def kMicroseconds : Str := ['m', 'i', 'c', 'r', 'o', 's', 'e', 'c', 'o', 'n', 'd', 's']
/-- `year` -/
def kYear : Str := ['y', 'e', 'a', 'r']
/-- `month` -/
def kMonth : Str := ['m', 'o', 'n', 't', 'h']
/-- `day` -/
def kDay : Str := ['d', 'a', 'y']
/-- `hour` -/
def kHour : Str := ['h', 'o', 'u', 'r']
/-- `minute` -/
def kMinute : Str := ['m', 'i', 'n', 'u', 't', 'e']
/-- `second` -/
def kSecond : Str := ['s', 'e', 'c', 'o', 'n', 'd']
/-- `microsecond` -/
def kMicrosecond : Str := ['m', 'i', 'c', 'r', 'o', 's', 'e', 'c', 'o', 'n', 'd']
/-- `tzinfo` -/
def kTzinfo : Str := ['t', 'z', 'i', 'n', 'f', 'o']
/-- `fold` -/
def kFold : Str := ['f', 'o', 'l', 'd']
/-- `offset` -/
def kOffset : Str := ['o', 'f', 'f', 's', 'e', 't']
/-- `name` -/
def kName : Str := ['n', 'a', 'm', 'e']
/-- `datetime.timedelta` -/
def cTimedelta : Str := ['d', 'a', 't', 'e', 't', 'i', 'm', 'e', '.', 't', 'i', 'm', 'e', 'd', 'e', 'l', 't', 'a']
/-- `datetime.date` -/
def cDate : Str := ['d', 'a', 't', 'e', 't', 'i', 'm', 'e', '.', 'd', 'a', 't', 'e']
/-- `datetime.time` -/
def cTime : Str := ['d', 'a', 't', 'e', 't', 'i', 'm', 'e', '.', 't', 'i', 'm', 'e']
/-- `datetime.datetime` -/
def cDatetime : Str := ['d', 'a', 't', 'e', 't', 'i', 'm', 'e', '.', 'd', 'a', 't', 'e', 't', 'i', 'm', 'e']
/-- `datetime.timezone` -/
def cTimezone : Str := ['d', 'a', 't', 'e', 't', 'i', 'm', 'e', '.', 't', 'i', 'm', 'e', 'z', 'o', 'n', 'e']
/-- `datetime.timezone.utc` -/
def cUtc : Str := ['d', 'a', 't', 'e', 't', 'i', 'm', 'e', '.', 't', 'i', 'm', 'e', 'z', 'o', 'n', 'e', '.', 'u', 't', 'c']

/-! ### Expressions -/

mutual
/-- An expression. -/
inductive Expr where
  | int (v : Int)
  | text (s : Str)
  | name (path : Str)
  | call (path : Str) (args : Args)

/-- Arguments of a call, each with its keyword (empty if there is none). -/
inductive Args where
  | nil
  | cons (key : Str) (e : Expr) (rest : Args)
end

/-- A character of a dotted name (names here have no digits). -/
def nameChar (c : Char) : Bool := ('a'.toNat ≤ c.toNat && c.toNat ≤ 'z'.toNat) || c = '_' || c = '.'

/-- A keyword in front of an argument, and the rest. -/
def readKey (s : Str) : Str × Str :=
  match s.span nameChar with
  | (k, '=' :: rest) => if k = [] then ([], s) else (k, rest)
  | _ => ([], s)

/-- A row of digits, at least one, and the rest. -/
def readDigits (s : Str) : Option (Int × Str) :=
  match s.span fun c => decide (IsDigit c) with
  | ([], _) => none
  | (ds, rest) => some (value ds, rest)

mutual
/-- An expression at the start of a text, and the rest.  `unquote` reads the literal of a text.  The first argument bounds the
nesting. -/
def readExpr (unquote : Str → Option (Str × Str)) : Nat → Str → Option (Expr × Str)
  | 0, _ => none
  | _ + 1, [] => none
  | n + 1, c :: s =>
    if c = '-' then (readDigits s).map fun r => (.int (-r.1), r.2)
    else if IsDigit c then (readDigits (c :: s)).map fun r => (.int r.1, r.2)
    else if c = '\'' ∨ c = '"' then (unquote (c :: s)).map fun r => (.text r.1, r.2)
    else
      match (c :: s).span nameChar with
      | ([], _) => none
      | (path, '(' :: rest) => (readArgs unquote n rest).map fun r => (.call path r.1, r.2)
      | (path, rest) => some (.name path, rest)

/-- Arguments up to the closing parenthesis. -/
def readArgs (unquote : Str → Option (Str × Str)) : Nat → Str → Option (Args × Str)
  | 0, _ => none
  | n + 1, s =>
    match s with
    | ')' :: rest => some (.nil, rest)
    | s =>
      match readExpr unquote n (readKey s).2 with
      | some (e, ')' :: rest) => some (.cons (readKey s).1 e .nil, rest)
      | some (e, ',' :: ' ' :: rest) => (readArgs unquote n rest).map fun r => (.cons (readKey s).1 e r.1, r.2)
      | _ => none
end

/-! ### Values -/

/-- A time zone: UTC, or one with a fixed offset and perhaps a name. -/
inductive Zone where
  | utc
  | fixed (off : Delta) (name : Option Str)
deriving DecidableEq

/-- The zones that there can be: asking for no offset without a name gives UTC. -/
def Zone.Ok : Zone → Prop
  | .utc => True
  | .fixed off name => OffsetOk off ∧ (name = none → off ≠ ⟨0, 0, 0⟩)

/-- A value. -/
inductive Value where
  | int (v : Int)
  | text (s : Str)
  | delta (t : Delta)
  | date (d : Ymd)
  | zone (z : Zone)
  | time (c : Clock) (z : Option Zone) (fold : Int)
  | stamp (d : Ymd) (c : Clock) (z : Option Zone) (fold : Int)
deriving DecidableEq

/-- Arguments by the names of the parameters: first those without keywords, in order, then keywords for parameters not yet
given, none of them twice.  `more` are the parameters that need their keyword. -/
def bindArgs (params more : List Str) (args : List (Str × Value)) : Option (List (Str × Value)) :=
  let plain := args.takeWhile fun a => a.1.isEmpty
  let keyed := args.dropWhile fun a => a.1.isEmpty
  if plain.length ≤ params.length ∧ (∀ a ∈ keyed, a.1 ∈ params.drop plain.length ++ more) ∧ (keyed.map Prod.fst).Nodup then
    some (params.zip (plain.map Prod.snd) ++ keyed)
  else none

/-- An argument that has to be an integer, with its default. -/
def intArg (l : List (Str × Value)) (k : Str) (dflt : Option Int) : Option Int :=
  match l.lookup k with
  | some (.int v) => some v
  | some _ => none
  | none => dflt

/-- An argument that has to be a time zone, none by default. -/
def zoneArg (l : List (Str × Value)) (k : Str) : Option (Option Zone) :=
  match l.lookup k with
  | some (.zone z) => some (some z)
  | some _ => none
  | none => some none

/-- `datetime.timedelta(days=0, seconds=0, microseconds=0)`, of parts in their ranges. -/
def makeDelta (args : List (Str × Value)) : Option Value := do
  let l ← bindArgs [kDays, kSeconds, kMicroseconds] [] args
  let t : Delta := ⟨← intArg l kDays (some 0), ← intArg l kSeconds (some 0), ← intArg l kMicroseconds (some 0)⟩
  if t.Canonical then some (.delta t) else none

/-- `datetime.date(year, month, day)`. -/
def makeDate (args : List (Str × Value)) : Option Value := do
  let l ← bindArgs [kYear, kMonth, kDay] [] args
  let d : Ymd := ⟨← intArg l kYear none, ← intArg l kMonth none, ← intArg l kDay none⟩
  if DayOk d then some (.date d) else none

/-- `datetime.time(hour=0, minute=0, second=0, microsecond=0, tzinfo=None, *, fold=0)`. -/
def makeTime (args : List (Str × Value)) : Option Value := do
  let l ← bindArgs [kHour, kMinute, kSecond, kMicrosecond, kTzinfo] [kFold] args
  let c : Clock := ⟨← intArg l kHour (some 0), ← intArg l kMinute (some 0), ← intArg l kSecond (some 0), ← intArg l kMicrosecond (some 0)⟩
  let z ← zoneArg l kTzinfo
  let f ← intArg l kFold (some 0)
  if c.Valid ∧ (f = 0 ∨ f = 1) then some (.time c z f) else none

/-- `datetime.datetime(year, month, day, hour=0, minute=0, second=0, microsecond=0, tzinfo=None, *, fold=0)`. -/
def makeStamp (args : List (Str × Value)) : Option Value := do
  let l ← bindArgs [kYear, kMonth, kDay, kHour, kMinute, kSecond, kMicrosecond, kTzinfo] [kFold] args
  let d : Ymd := ⟨← intArg l kYear none, ← intArg l kMonth none, ← intArg l kDay none⟩
  let c : Clock := ⟨← intArg l kHour (some 0), ← intArg l kMinute (some 0), ← intArg l kSecond (some 0), ← intArg l kMicrosecond (some 0)⟩
  let z ← zoneArg l kTzinfo
  let f ← intArg l kFold (some 0)
  if DayOk d ∧ c.Valid ∧ (f = 0 ∨ f = 1) then some (.stamp d c z f) else none

/-- `datetime.timezone(offset, name)`, where no offset and no name give UTC. -/
def makeZone (args : List (Str × Value)) : Option Value := do
  let l ← bindArgs [kOffset, kName] [] args
  match l.lookup kOffset, l.lookup kName with
  | some (.delta off), none =>
    if off = ⟨0, 0, 0⟩ then some (.zone .utc) else if OffsetOk off then some (.zone (.fixed off none)) else none
  | some (.delta off), some (.text s) => if OffsetOk off then some (.zone (.fixed off (some s))) else none
  | _, _ => none

/-- A call of a constructor. -/
def construct (path : Str) (args : List (Str × Value)) : Option Value :=
  if path = cTimedelta then makeDelta args
  else if path = cDate then makeDate args
  else if path = cTime then makeTime args
  else if path = cDatetime then makeStamp args
  else if path = cTimezone then makeZone args
  else none

mutual
/-- The value of an expression. -/
def evalExpr : Expr → Option Value
  | .int v => some (.int v)
  | .text s => some (.text s)
  | .name path => if path = cUtc then some (.zone .utc) else none
  | .call path args => (evalArgs args).bind (construct path)

/-- The values of arguments. -/
def evalArgs : Args → Option (List (Str × Value))
  | .nil => some []
  | .cons k e rest => (evalExpr e).bind fun v => (evalArgs rest).map fun l => (k, v) :: l
end

/-- `eval(text)`: the whole text has to be an expression. -/
def evalText (unquote : Str → Option (Str × Str)) (s : Str) : Option Value :=
  match readExpr unquote (s.length + 1) s with
  | some (e, []) => evalExpr e
  | _ => none

/-- `quote` writes texts as literals that `unquote` reads. -/
def Quotes (quote : Str → Str) (unquote : Str → Option (Str × Str)) : Prop :=
  ∀ s rest, unquote (quote s ++ rest) = some (s, rest) ∧ ∃ c, (c = '\'' ∨ c = '"') ∧ (quote s).head? = some c

/-! ### `ctime` and formats -/

/-- The names of the days of the week, from Monday. -/
def weekdayText : List Str := [['M', 'o', 'n'], ['T', 'u', 'e'], ['W', 'e', 'd'], ['T', 'h', 'u'], ['F', 'r', 'i'], ['S', 'a', 't'], ['S', 'u', 'n']]

/-- The names of the months, from January. -/
def monthText : List Str := [['J', 'a', 'n'], ['F', 'e', 'b'], ['M', 'a', 'r'], ['A', 'p', 'r'], ['M', 'a', 'y'], ['J', 'u', 'n'],
  ['J', 'u', 'l'], ['A', 'u', 'g'], ['S', 'e', 'p'], ['O', 'c', 't'], ['N', 'o', 'v'], ['D', 'e', 'c']]

/-- The text of a moment in the form `Thu Jan  1 00:00:00 1970`, for a numbering of the days that calls Monday, 1 January of the
year 1, number one. -/
def CtimeText (number : Ymd → Int) (s : Str) (d : Ymd) (c : Clock) : Prop :=
  ∃ wd mon dd hh mm ss yy, s = wd ++ ' ' :: (mon ++ ' ' :: (dd ++ ' ' :: (hh ++ ':' :: (mm ++ ':' :: (ss ++ ' ' :: yy))))) ∧
    (∃ i : Nat, i < 7 ∧ weekdayText[i]? = some wd ∧ (7 : Int) ∣ number d - 1 - i) ∧
    (∃ i : Nat, monthText[i]? = some mon ∧ d.month = i + 1) ∧
    ((d.day < 10 ∧ ∃ x, dd = ' ' :: x ∧ Numeral 1 x d.day) ∨ (10 ≤ d.day ∧ Numeral 2 dd d.day)) ∧
    Numeral 2 hh c.hour ∧ Numeral 2 mm c.minute ∧ Numeral 2 ss c.second ∧ Numeral 4 yy d.year

/-- What `%z` stands for: a sign, hours and minutes, then seconds and microseconds if there are any; nothing without offset. -/
def BasicOffset (s : Str) : Option Int → Prop
  | none => s = []
  | some t => ∃ (sign : Char) (hh mm ss us : Str) (h m sec u : Int), s = sign :: (hh ++ (mm ++ (ss ++ us))) ∧
      Numeral 2 hh h ∧ Numeral 2 mm m ∧ h < 24 ∧ m < 60 ∧
      ((ss = [] ∧ us = [] ∧ sec = 0 ∧ u = 0) ∨ (Numeral 2 ss sec ∧ sec < 60 ∧
        ((us = [] ∧ sec ≠ 0 ∧ u = 0) ∨ ∃ x, us = '.' :: x ∧ Numeral 6 x u ∧ u ≠ 0))) ∧
      ((sign = '+' ∧ t = ((h * 60 + m) * 60 + sec) * 1000000 + u) ∨ (sign = '-' ∧ t < 0 ∧ t = -(((h * 60 + m) * 60 + sec) * 1000000 + u)))

/-- What a format stands for, if each `%` with the character after it stands for a text; `lone` is for a `%` at the end. -/
def expandFormat (lone : Str) (directive : Char → Str) : Str → Str
  | [] => []
  | '%' :: rest =>
    match rest with
    | [] => lone
    | c :: rest => directive c ++ expandFormat lone directive rest
  | c :: rest => c :: expandFormat lone directive rest

end Verif.DateRepr
