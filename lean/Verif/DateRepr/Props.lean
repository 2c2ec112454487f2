import Verif.DateRepr.Reprs
import Verif.DateRepr.Texts
/-
The properties of the texts of dates, times, durations and time zones.
-/
namespace Verif.DateRepr

open Verif.Dates (Ymd Delta NumbersDays)
open Verif.DateText (Str IsDigit value Numeral Clock OffsetOk DayOk)

variable {quote : Str → Str} {unquote : Str → Option (Str × Str)}

/-! ### C253 -/

/-- **C253.** Evaluating the representation of a duration gives the duration back. -/
theorem delta_repr_eval (hq : Quotes quote unquote) (t : Delta) (h : t.Canonical) :
    evalText unquote (deltaRepr t) = some (.delta t) := by
  rw [deltaRepr_eq quote, eval_print hq _ (deltaExpr_good t), eval_delta h]

/-- **C253.** Evaluating the representation of a day gives the day back. -/
theorem date_repr_eval (hq : Quotes quote unquote) (d : Ymd) (h : DayOk d) :
    evalText unquote (dateRepr d) = some (.date d) := by
  rw [dateRepr_eq quote, eval_print hq _ (dateExpr_good d), eval_date h]

/-- **C253.** Evaluating the representation of a time zone gives the time zone back, whatever its name. -/
theorem zone_repr_eval (hq : Quotes quote unquote) (z : Zone) (h : z.Ok) : evalText unquote (zoneRepr quote z) = some (.zone z) := by
  rw [zoneRepr_eq, eval_print hq _ (zoneExpr_good z), eval_zone h]

/-- **C253.** Evaluating the representation of a time gives the time back, with its zone and fold. -/
theorem time_repr_eval (hq : Quotes quote unquote) (c : Clock) (z : Option Zone) (fold : Int) (hc : c.Valid) (hz : ∀ w ∈ z, w.Ok)
    (hf : fold = 0 ∨ fold = 1) : evalText unquote (timeRepr quote c z fold) = some (.time c z fold) := by
  rw [timeRepr_eq, eval_print hq _ (timeExpr_good c z fold), eval_time hc hz hf]

/-- **C253.** Evaluating the representation of a moment gives the moment back, with its zone and fold. -/
theorem stamp_repr_eval (hq : Quotes quote unquote) (d : Ymd) (c : Clock) (z : Option Zone) (fold : Int) (hd : DayOk d) (hc : c.Valid)
    (hz : ∀ w ∈ z, w.Ok) (hf : fold = 0 ∨ fold = 1) : evalText unquote (stampRepr quote d c z fold) = some (.stamp d c z fold) := by
  rw [stampRepr_eq, eval_print hq _ (stampExpr_good d c z fold), eval_stamp hd hc hz hf]

example : deltaRepr ⟨-1, 86399, 5⟩ = "datetime.timedelta(days=-1, seconds=86399, microseconds=5)".toList ∧
    deltaRepr ⟨0, 0, 0⟩ = "datetime.timedelta(0)".toList ∧
    stampRepr (fun s => '\'' :: s ++ ['\'']) ⟨2024, 2, 29⟩ ⟨23, 0, 0, 0⟩ (some (.fixed ⟨0, 3600, 0⟩ (some ['X']))) 1 =
      "datetime.datetime(2024, 2, 29, 23, 0, tzinfo=datetime.timezone(datetime.timedelta(seconds=3600), 'X'), fold=1)".toList := by
  decide +kernel

/-- A quoting: texts as the numbers of their characters, each as a row of `a`, between apostrophes. -/
def rowQuote (s : Str) : Str := '\'' :: (s.flatMap fun c => List.replicate c.toNat 'a' ++ ['b']) ++ ['\'']

/-- Reading such a text: the row so far, the characters so far. -/
def rowRead : Nat → Str → Str → Option (Str × Str)
  | _, _, [] => none
  | n, acc, c :: rest =>
    if c = 'a' then rowRead (n + 1) acc rest
    else if c = 'b' then rowRead 0 (acc ++ [Char.ofNat n]) rest
    else if c = '\'' then some (acc, rest)
    else none

theorem rowRead_row (k n : Nat) (acc rest : Str) : rowRead n acc (List.replicate k 'a' ++ 'b' :: rest) = rowRead 0 (acc ++ [Char.ofNat (n + k)]) rest := by
  induction k generalizing n with
  | zero => rfl
  | succ k ih =>
    rw [List.replicate_succ, List.cons_append]
    show rowRead (n + 1) acc _ = _
    rw [ih, show n + 1 + k = n + (k + 1) by omega]

theorem rowRead_text (s acc rest : Str) :
    rowRead 0 acc ((s.flatMap fun c => List.replicate c.toNat 'a' ++ ['b']) ++ '\'' :: rest) = some (acc ++ s, rest) := by
  induction s generalizing acc with
  | nil => rw [List.append_nil]; rfl
  | cons c s ih =>
    have : ((c :: s).flatMap fun c => List.replicate c.toNat 'a' ++ ['b']) ++ '\'' :: rest =
        List.replicate c.toNat 'a' ++ 'b' :: ((s.flatMap fun c => List.replicate c.toNat 'a' ++ ['b']) ++ '\'' :: rest) := by
      simp
    rw [this, rowRead_row, ih, Nat.zero_add, Char.ofNat_toNat, List.append_assoc]
    rfl

/-- There are quotings of all texts, so the hypothesis of the theorems can be met. -/
theorem quotes_exist : ∃ quote unquote, Quotes quote unquote := by
  refine ⟨rowQuote, fun s => rowRead 0 [] s.tail, fun s rest => ⟨?_, '\'', Or.inl rfl, rfl⟩⟩
  show rowRead 0 [] (((s.flatMap fun c => List.replicate c.toNat 'a' ++ ['b']) ++ ['\'']) ++ rest) = _
  rw [List.append_assoc]
  exact rowRead_text s [] rest

example : (⟨2024, 2, 29⟩ : Ymd).Valid ∧ (⟨23, 0, 0, 0⟩ : Clock).Valid ∧ (Zone.fixed ⟨0, 3600, 0⟩ (some ['X'])).Ok := by
  refine ⟨by decide, by decide, by decide, fun h => nomatch h⟩

/-! ### C254 -/

/-- **C254.** `ctime` gives the name of the right day of the week, the name of the month, and the day, the time and the year, for
every day and time. -/
theorem ctime_text {number : Ymd → Int} (hn : NumbersDays number) (d : Ymd) (c : Clock) (hd : DayOk d) (hc : c.Valid) :
    ∃ s, ctime d c = some s ∧ CtimeText number s d c := ctime_spec hn hd hc

/-- **C254.** The text determines the day and the time to the second. -/
theorem ctime_determines (d d' : Ymd) (c c' : Clock) (hd : DayOk d) (hd' : DayOk d') (hc : c.Valid) (hc' : c'.Valid)
    (h : ctime d c = ctime d' c') : d = d' ∧ c.hour = c'.hour ∧ c.minute = c'.minute ∧ c.second = c'.second := by
  obtain ⟨s, h1, h2⟩ := ctime_spec Verif.Dates.numbering_exists hd hc
  obtain ⟨s', h1', h2'⟩ := ctime_spec Verif.Dates.numbering_exists hd' hc'
  rw [h1, h1', Option.some.injEq] at h
  rw [h] at h2
  exact ctime_inj h2 h2'

example : ctime ⟨1970, 1, 1⟩ ⟨0, 0, 9, 5⟩ = some "Thu Jan  1 00:00:09 1970".toList ∧ ctime ⟨2024, 12, 25⟩ ⟨13, 5, 0, 0⟩ = some "Wed Dec 25 13:05:00 2024".toList := by
  decide +kernel

/-! ### C255 -/

/-- **C255.** If the system's `strftime` replaces each directive by its text and leaves everything else, then so does `strftime`
here, with `%f` the six digits of the microseconds, `%z` the offset from UTC and `%Z` the name of the time zone, even if that
name has percent signs. -/
theorem strftime_text {sys : Str → Str} {lone : Str} {directive : Char → Str} (hs : ∀ fmt, sys fmt = expandFormat lone directive fmt)
    (hp : directive '%' = ['%']) (micro : Int) (hm : 0 ≤ micro ∧ micro < 1000000) (off : Option Delta) (ho : ∀ o ∈ off, OffsetOk o)
    (name : Option Str) (fmt : Str) :
    ∃ f z, Numeral 6 f micro ∧ BasicOffset z (off.map Delta.total) ∧ wrapStrftime sys micro off name fmt =
      some (expandFormat lone (fun c => if c = 'f' then f else if c = 'z' then z else if c = 'Z' then name.getD [] else directive c) fmt) := by
  obtain ⟨z, h1, h2⟩ := zText_spec off ho
  have h3 := Verif.DateText.pad_numeral (w := 6) (n := micro) (by decide) hm.1 hm.2
  refine ⟨_, z, h3, h2, ?_⟩
  unfold wrapStrftime
  rw [h1, Option.map_some, hs, wrap_expand hp _ (digit_no_percent h3.2.1) (basic_no_percent h2)]

example : wrapStrftime (expandFormat ['%'] fun c => if c = '%' then ['%'] else if c = 'Y' then "2024".toList else ['?']) 42 (some ⟨-1, 81000, 0⟩)
    (some "a%b".toList) "%Y.%f%%f %z %Z%".toList = some "2024.000042%f -0130 a%b%".toList := by
  decide +kernel

end Verif.DateRepr
