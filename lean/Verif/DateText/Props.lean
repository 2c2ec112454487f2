import Verif.DateText.Times

/-! # Texts of dates, times and durations: what users rely on -/

namespace Verif.DateText

open Verif.Dates

/-! ### C157: dates -/

/-- Writing a date and reading it back gives the same date, and the text is `YYYY-MM-DD` of that date. -/
theorem date_roundtrip {d : Ymd} (hd : DayOk d) : DateText (dateIso d) d ∧ dateFromIso (dateIso d) = some d := by
  have h := dateIso_text hd
  refine ⟨h, ?_⟩
  unfold dateFromIso
  rw [if_pos (dateText_len h), (parseDate_text h).1]
  show mkDate d = some d
  rw [mkDate_eq, if_pos hd]

example : DayOk ⟨2024, 2, 29⟩ ∧ dateIso ⟨2024, 2, 29⟩ = "2024-02-29".toList := by decide +kernel
example : dateIso ⟨7, 11, 3⟩ = "0007-11-03".toList := by decide +kernel

/-- Every text of a date in the documented form is read as that date, if the date exists; whatever is read is
a date that exists, from a text of ten characters. -/
theorem date_reading (s : Str) (d : Ymd) :
    (DayOk d → DateText s d → dateFromIso s = some d) ∧ (dateFromIso s = some d → DayOk d ∧ s.length = 10) := by
  constructor
  · intro hd h
    unfold dateFromIso
    rw [if_pos (dateText_len h), (parseDate_text h).1]
    show mkDate d = some d
    rw [mkDate_eq, if_pos hd]
  · intro h
    unfold dateFromIso at h
    split at h
    · rename_i hl
      obtain ⟨d', _, h⟩ := Option.bind_eq_some_iff.mp h
      rw [mkDate_eq] at h
      split at h
      · cases h; exact ⟨by assumption, hl⟩
      · cases h
    · cases h

/-- Nothing else is read as a date, among the texts without plus signs, underscores and white space.  Missing:
texts with such characters, see `date_reads_a_sign`. -/
theorem dates_read_exactly_partial {s : Str} (hs : ∀ c ∈ s, NoPlusChar c) (d : Ymd) :
    dateFromIso s = some d ↔ DayOk d ∧ DateText s d := by
  constructor
  · intro h
    obtain ⟨hd, hl⟩ := (date_reading s d).2 h
    refine ⟨hd, ?_⟩
    unfold dateFromIso at h
    rw [if_pos hl] at h
    obtain ⟨d', e, h⟩ := Option.bind_eq_some_iff.mp h
    rw [mkDate_eq] at h
    split at h
    · cases h
      refine parseDate_sound hs hl ?_ hd
      cases hp : parseDate s with
      | error e' => rw [hp] at e; cases e
      | ok x => rw [hp] at e; cases e; rfl
    · cases h
  · rintro ⟨hd, h⟩
    exact (date_reading s d).1 hd h

example : ∀ c ∈ "2023-02-29".toList, NoPlusChar c := by decide
example : dateFromIso "2023-02-29".toList = none ∧ dateFromIso "2023-02-28".toList = some ⟨2023, 2, 28⟩ ∧
    dateFromIso "2023-2-028".toList = none := by decide +kernel

/-- Disagreement: a year with a sign, a month with a blank and a day with an underscore before it are read,
although they are not in the documented form and CPython refuses them. -/
theorem date_reads_a_sign :
    (dateFromIso "+001-01-01".toList = some ⟨1, 1, 1⟩ ∧ ¬ ∃ d, DateText "+001-01-01".toList d) ∧
    (dateFromIso "2020- 1-01".toList = some ⟨2020, 1, 1⟩ ∧ ¬ ∃ d, DateText "2020- 1-01".toList d) ∧
    (dateFromIso "2_20-01-01".toList = some ⟨220, 1, 1⟩ ∧ ¬ ∃ d, DateText "2_20-01-01".toList d) := by
  have no : ∀ s : Str, (∃ c ∈ s, c = '+' ∨ c = ' ' ∨ c = '_') → ¬ ∃ d, DateText s d := by
    rintro s ⟨c, hc, h⟩ ⟨d, y, m, a, hy, hm, ha, rfl⟩
    have : IsDigit c ∨ c = '-' := by
      simp only [List.mem_append, List.mem_cons] at hc
      rcases hc with hc | hc | hc | hc | hc
      exacts [Or.inl (hy.2.1 c hc), Or.inr hc, Or.inl (hm.2.1 c hc), Or.inr hc, Or.inl (ha.2.1 c hc)]
    rcases h with rfl | rfl | rfl <;> exact absurd this (by decide)
  exact ⟨⟨by decide +kernel, no _ (by decide)⟩, ⟨by decide +kernel, no _ (by decide)⟩, ⟨by decide +kernel, no _ (by decide)⟩⟩

/-! ### C158: times -/

/-- Writing a time with any precision and reading it back gives the time cut off to that precision, with the
same offset from UTC; with the default precision it gives the same time. -/
theorem time_roundtrip {t : Time} (ht : t.Valid) (ts : Timespec) :
    ∃ s t', timeIso t ts = some s ∧ TimeText s t' ∧ timeFromIso s = some t' ∧ t'.Valid ∧ t'.off = t.off ∧
      t'.clock.total = t.clock.total / ts.unit * ts.unit ∧ (ts = .auto ∨ ts = .micros → t' = t) := by
  obtain ⟨s, t', h1, h2, h3, h4, h5⟩ := timeIso_text ht ts
  refine ⟨s, t', h1, h2, ?_, h3, h4, h5, ?_⟩
  · unfold timeFromIso
    rw [(parseTime_text h2 h3.2).1]
    simp only [Option.bind_some]
    rw [mkClock_spec, if_pos h3.1]
    rfl
  · intro hx
    rw [exact_unit hx] at h5
    obtain ⟨c, o⟩ := t
    obtain ⟨c', o'⟩ := t'
    simp only at h4 h5
    have hc : c' = c := clock_ext h3.1 ht.1 h5
    rw [h4, hc]

/-- An example: a time far west of UTC. -/
def tEx : Time := ⟨⟨23, 5, 9, 45678⟩, some ⟨-1, 5025, 0⟩⟩

theorem tEx_valid : tEx.Valid := ⟨by decide, by intro o h; cases h; decide⟩
example : timeIso tEx .auto = some "23:05:09.045678-22:36:15".toList ∧
    timeIso tEx .millis = some "23:05:09.045-22:36:15".toList ∧
    timeIso tEx .hours = some "23-22:36:15".toList := by decide +kernel

/-- Every text of a time in the documented form is read as that time, if it exists; whatever is read is a
valid time. -/
theorem time_reading (s : Str) (t : Time) :
    (t.Valid → TimeText s t → timeFromIso s = some t) ∧ (timeFromIso s = some t → t.Valid) := by
  constructor
  · intro ht h
    unfold timeFromIso
    rw [(parseTime_text h ht.2).1]
    simp only [Option.bind_some]
    rw [mkClock_spec, if_pos ht.1]
    rfl
  · intro h
    unfold timeFromIso at h
    obtain ⟨t', h1, h⟩ := Option.bind_eq_some_iff.mp h
    obtain ⟨c, h2, rfl⟩ := Option.map_eq_some_iff.mp h
    rw [mkClock_spec] at h2
    split at h2
    · rename_i hv
      cases h2
      exact ⟨hv, parseTime_off h1⟩
    · cases h2

/-- Nothing else is read as a time, among plain texts with at most one sign.  Missing: other texts, see
`time_reads_two_signs`. -/
theorem times_read_exactly_partial {s : Str} (hs : Tidy s) (t : Time) :
    timeFromIso s = some t ↔ t.Valid ∧ TimeText s t := by
  constructor
  · intro h
    have hv := (time_reading s t).2 h
    refine ⟨hv, ?_⟩
    unfold timeFromIso at h
    obtain ⟨t', h1, h⟩ := Option.bind_eq_some_iff.mp h
    obtain ⟨c, h2, rfl⟩ := Option.map_eq_some_iff.mp h
    rw [mkClock_spec] at h2
    split at h2
    · cases h2
      exact parseTime_sound hs h1
    · cases h2
  · rintro ⟨hv, h⟩
    exact (time_reading s t).1 hv h

example : Tidy "12:30:15.25+01:00".toList :=
  Tidy.aware (s := "12:30:15.25".toList) (sign := '+') (z := "01:00".toList) (by decide) (Or.inl rfl) (by decide)
example : timeFromIso "12:30:15.25+01:00".toList = none ∧
    timeFromIso "12:30:15.250+01:00".toList = some ⟨⟨12, 30, 15, 250000⟩, some ⟨0, 3600, 0⟩⟩ ∧
    timeFromIso "24:00".toList = none ∧ timeFromIso "12:30+24:00".toList = none := by decide +kernel

/-- Disagreement: an hour with a blank before it, and an offset with two signs, are read although they are not
in the documented form and CPython refuses them. -/
theorem time_reads_two_signs :
    (timeFromIso " 1:30".toList = some ⟨⟨1, 30, 0, 0⟩, none⟩ ∧ ¬ ∃ t, ClockText " 1:30".toList t) ∧
    (timeFromIso "12:00--1:00".toList = some ⟨⟨12, 0, 0, 0⟩, some ⟨0, 3600, 0⟩⟩ ∧ ¬ ∃ t, ClockText "-1:00".toList t) := by
  refine ⟨⟨by decide +kernel, ?_⟩, ⟨by decide +kernel, ?_⟩⟩
  · rintro ⟨t, h⟩
    exact absurd (clockText_plain h ' ' (by decide)) (by decide)
  · rintro ⟨t, h⟩
    exact absurd (clockText_plain h '-' (by decide)) (by decide)

/-! ### C159: dates with times -/

/-- Writing a date and time with any separator and precision and reading it back gives the same day, the time
cut off to that precision and the same offset; with the default precision the very same date and time. -/
theorem stamp_roundtrip {t : Stamp} (ht : t.Valid) (sep : Char) (ts : Timespec) :
    ∃ s t', stampIso t sep ts = some s ∧ StampText s t' ∧ stampFromIso s = .ok t' ∧ t'.Valid ∧ t'.day = t.day ∧
      t'.time.off = t.time.off ∧ t'.time.clock.total = t.time.clock.total / ts.unit * ts.unit ∧
      (ts = .auto ∨ ts = .micros → t' = t) := by
  obtain ⟨d, t⟩ := t
  obtain ⟨z, t', h1, h2, h3, h4, h5, h6, h7⟩ := time_roundtrip ht.2 ts
  refine ⟨dateIso d ++ sep :: z, ⟨d, t'⟩, ?_, StampText.time (dateIso_text ht.1) h2, ?_, ⟨ht.1, h4⟩, rfl, h5, h6, ?_⟩
  · rw [stampIso_eq, h1]
    rfl
  · rw [stampFromIso_parts (dateIso_text ht.1) sep h2 h4.2, mkStamp_spec _ _ h4.2]
    exact ⟨rfl, ht.1, h4⟩
  · intro hx
    rw [h7 hx]

example : (⟨⟨2024, 2, 29⟩, tEx⟩ : Stamp).Valid := ⟨by decide, tEx_valid⟩
example : stampIso ⟨⟨2024, 2, 29⟩, tEx⟩ 'T' .minutes = some "2024-02-29T23:05-22:36:15".toList := by decide +kernel

/-- Every text in the documented form is read as that date and time, if it exists; whatever is read is valid;
and a text of eight or more characters gives a result or a `ValueError`. -/
theorem stamp_reading (s : Str) (t : Stamp) :
    (t.Valid → StampText s t → stampFromIso s = .ok t) ∧ (stampFromIso s = .ok t → t.Valid) ∧
    (8 ≤ s.length → stampFromIso s ≠ .error .index) := by
  refine ⟨?_, ?_, ?_⟩
  · intro ht h
    cases h with
    | day h =>
      rw [stampFromIso_day h, mkStamp_spec _ _ (by simp)]
      exact ⟨rfl, ht⟩
    | time h hz =>
      rw [stampFromIso_parts h _ hz ht.2.2, mkStamp_spec _ _ ht.2.2]
      exact ⟨rfl, ht⟩
  · intro h
    unfold stampFromIso at h
    split at h
    · cases h
    · simp only at h
      split at h
      · split at h
        · cases h
        · rename_i hp
          rw [mkStamp_spec _ _ (parseTime_off hp)] at h
          exact h.2
      · rw [mkStamp_spec _ _ (by simp)] at h
        exact h.2
  · intro hl h
    unfold stampFromIso at h
    split at h
    · rename_i hp
      cases h
      have := parseDate_index hp
      rw [List.length_take] at this
      omega
    · have nk : ∀ d t, mkStamp d t ≠ .error .index := by
        intro d t h
        unfold mkStamp at h
        split at h <;> cases h
      simp only at h
      split at h
      · split at h
        · cases h
        · exact nk _ _ h
      · exact nk _ _ h

/-- Nothing else is read as a date and time, among texts whose date part has ten characters without plus signs,
underscores and white space, followed by nothing or by a separator and a plain text with at most one sign.
Missing: other texts, see the disagreements below. -/
theorem stamps_read_exactly_partial {s : Str} (hl : s.length = 10 ∨ 12 ≤ s.length) (hd : ∀ c ∈ s.take 10, NoPlusChar c)
    (hs : Tidy (s.drop 11)) (t : Stamp) : stampFromIso s = .ok t ↔ t.Valid ∧ StampText s t := by
  constructor
  · intro h
    have hv := (stamp_reading s t).2.1 h
    refine ⟨hv, ?_⟩
    unfold stampFromIso at h
    cases hp : parseDate (s.take 10) with
    | error e => rw [hp] at h; cases h
    | ok d =>
      rw [hp] at h
      simp only at h
      have hl10 : (s.take 10).length = 10 := by rw [List.length_take]; omega
      rcases hl with hl | hl
      · rw [if_neg (by simp; omega), mkStamp_spec _ _ (by simp)] at h
        obtain ⟨rfl, h⟩ := h
        have := parseDate_sound hd hl10 hp h.1
        rw [List.take_of_length_le (by omega)] at this
        exact StampText.day this
      · rw [if_pos (by intro h; have := congrArg List.length h; simp at this; omega)] at h
        cases ht : parseTime (s.drop 11) with
        | none => rw [ht] at h; cases h
        | some tm =>
          rw [ht] at h
          simp only at h
          rw [mkStamp_spec _ _ (parseTime_off ht)] at h
          obtain ⟨rfl, h⟩ := h
          have h1 := parseDate_sound hd hl10 hp h.1
          have h2 := parseTime_sound hs ht
          have e : s = s.take 10 ++ s[10]'(by omega) :: s.drop 11 := by
            rw [List.getElem_cons_drop, List.take_append_drop]
          rw [e]
          exact StampText.time h1 h2
  · rintro ⟨hv, h⟩
    exact (stamp_reading s t).1 hv h

example : (12 ≤ "2024-02-29 07:05Z".toList.length) ∧ (∀ c ∈ ("2024-02-29 07:05Z".toList).take 10, NoPlusChar c) ∧
    Tidy (("2024-02-29 07:05Z".toList).drop 11) :=
  ⟨by decide, by decide, Tidy.naive (by decide)⟩

/-- Disagreement: a text that is too short makes `datetime.fromisoformat` raise `IndexError`, which is not the
documented `ValueError`. -/
theorem short_text_is_index_error :
    stampFromIso "2020".toList = .error .index ∧ stampFromIso "2020-01".toList = .error .index := ⟨rfl, rfl⟩

/-- Disagreement: a day of one digit at the end, and a separator with no time after it, are read as dates with
times although they are not in the documented form. -/
theorem cut_texts_are_read :
    (stampFromIso "2020-01-1".toList = .ok ⟨⟨2020, 1, 1⟩, ⟨0, 0, 0, 0⟩, none⟩ ∧ ¬ ∃ t, StampText "2020-01-1".toList t) ∧
    (stampFromIso "2020-01-11T".toList = .ok ⟨⟨2020, 1, 11⟩, ⟨0, 0, 0, 0⟩, none⟩ ∧
      ¬ ∃ t, StampText "2020-01-11T".toList t) := by
  have no : ∀ s : Str, (s.length < 10 ∨ s.length = 11) → ¬ ∃ t, StampText s t := by
    rintro s hl ⟨t, h⟩
    cases h with
    | day h => have := dateText_len h; omega
    | time h hz =>
      have := dateText_len h
      rename_i z _
      have hz : 2 ≤ z.length := by
        cases hz with
        | naive hc => exact (clockText_len hc).1
        | aware hc _ _ =>
          have := (clockText_len hc).1
          rw [List.length_append]
          omega
      rw [List.length_append, List.length_cons] at hl
      omega
  exact ⟨⟨rfl, no _ (by decide)⟩, ⟨rfl, no _ (by decide)⟩⟩

/-! ### C160: the order of texts -/

/-- Texts of dates are ordered like the dates. -/
theorem date_texts_sort {a b : Ymd} (ha : DayOk a) (hb : DayOk b) : dateIso a < dateIso b ↔ a.Before b :=
  dateIso_order ha hb

example : DayOk ⟨987, 12, 31⟩ ∧ DayOk ⟨1024, 1, 1⟩ ∧ (⟨987, 12, 31⟩ : Ymd).Before ⟨1024, 1, 1⟩ := by
  refine ⟨by decide, by decide, Or.inl (by decide)⟩

/-- Texts of times without offsets, with the same precision, are ordered like the times cut off to that
precision. -/
theorem time_texts_sort {a b : Clock} (ha : a.Valid) (hb : b.Valid) (ts : Timespec) {s s' : Str}
    (hs : timeIso ⟨a, none⟩ ts = some s) (hs' : timeIso ⟨b, none⟩ ts = some s') :
    s < s' ↔ a.total / ts.unit < b.total / ts.unit := by
  have e : ∀ c : Clock, timeIso ⟨c, none⟩ ts = some (formatTime c ts) := fun c => rfl
  rw [e] at hs hs'
  cases hs
  cases hs'
  exact formatTime_order ha hb ts

/-- Texts of dates with times without offsets, with the same separator and the same precision, are ordered
like the days and, on the same day, like the times cut off to that precision. -/
theorem stamp_texts_sort {a b : Stamp} (ha : a.Valid) (hb : b.Valid) (ho : a.time.off = none ∧ b.time.off = none)
    (sep : Char) (ts : Timespec) {s s' : Str} (hs : stampIso a sep ts = some s) (hs' : stampIso b sep ts = some s') :
    s < s' ↔ a.day.Before b.day ∨
      (a.day = b.day ∧ a.time.clock.total / ts.unit < b.time.clock.total / ts.unit) := by
  obtain ⟨da, ca, oa⟩ := a
  obtain ⟨db, cb, ob⟩ := b
  simp only at ho
  obtain ⟨rfl, rfl⟩ := ho
  rw [stampIso_eq] at hs hs'
  have e : ∀ c : Clock, timeIso ⟨c, none⟩ ts = some (formatTime c ts) := fun c => rfl
  simp only [e, Option.map_some, Option.some.injEq] at hs hs'
  rw [← hs, ← hs', lex_append ((dateText_len (dateIso_text ha.1)).trans (dateText_len (dateIso_text hb.1)).symm),
    dateIso_order ha.1 hb.1, lex_cons, formatTime_order ha.2.1 hb.2.1]
  constructor
  · rintro (h | ⟨h, h'⟩)
    · exact Or.inl h
    · exact Or.inr ⟨dateIso_inj ha.1 hb.1 h, h'⟩
  · rintro (h | ⟨h, h'⟩)
    · exact Or.inl h
    · simp only at h
      subst h
      exact Or.inr ⟨rfl, h'⟩

example : stampIso ⟨⟨2024, 2, 29⟩, ⟨9, 0, 0, 0⟩, none⟩ ' ' .auto = some "2024-02-29 09:00:00".toList ∧
    stampIso ⟨⟨2024, 2, 29⟩, ⟨9, 0, 0, 1⟩, none⟩ ' ' .auto = some "2024-02-29 09:00:00.000001".toList ∧
    "2024-02-29 09:00:00".toList < "2024-02-29 09:00:00.000001".toList := by decide +kernel

/-! ### C161: durations and zones -/

/-- The text of a duration means that duration, and a text means only one duration, so different durations have
different texts. -/
theorem duration_texts :
    (∀ t : Delta, t.Canonical → DeltaText (deltaStr t) t.total) ∧
    (∀ s u v, DeltaText s u → DeltaText s v → u = v) ∧
    (∀ a b : Delta, a.Canonical → b.Canonical → deltaStr a = deltaStr b → a = b) := by
  refine ⟨fun t ht => deltaStr_text ht, fun s u v => deltaText_fun, ?_⟩
  intro a b ha hb h
  refine canonical_unique ha hb (deltaText_fun (s := deltaStr a) (deltaStr_text ha) ?_)
  rw [h]
  exact deltaStr_text hb

example : (⟨-3, 86399, 7⟩ : Delta).Canonical ∧ deltaStr ⟨-3, 86399, 7⟩ = "-3 days, 23:59:59.000007".toList ∧
    deltaStr ⟨1, 5, 0⟩ = "1 day, 0:00:05".toList ∧ deltaStr ⟨0, 0, 0⟩ = "0:00:00".toList := by decide +kernel

/-- The name of a zone is `UTC`, followed by its offset as in the texts of times unless it is zero; different
offsets have different names. -/
theorem zone_names :
    (∀ o : Delta, OffsetOk o → ∃ s, zoneName o = some s ∧
      ((o.total = 0 ∧ s = "UTC".toList) ∨ (o.total ≠ 0 ∧ ∃ z, OffsetText z o.total ∧ s = "UTC".toList ++ z ∧
        formatOffset (some o) = some z))) ∧
    (∀ a b : Delta, OffsetOk a → OffsetOk b → zoneName a = zoneName b → a = b) := by
  have key : ∀ o : Delta, OffsetOk o → ∃ s, zoneName o = some s ∧
      ((o.total = 0 ∧ s = "UTC".toList) ∨ (o.total ≠ 0 ∧ ∃ z, OffsetText z o.total ∧ s = "UTC".toList ++ z ∧
        formatOffset (some o) = some z)) := by
    intro o ho
    rw [zoneName_spec ho]
    by_cases h : o.total = 0
    · exact ⟨_, by rw [if_pos h], Or.inl ⟨h, rfl⟩⟩
    · obtain ⟨z, e, _, hz⟩ := formatOffset_text ho
      rw [if_neg h, e]
      exact ⟨_, rfl, Or.inr ⟨h, z, hz, rfl, rfl⟩⟩
  refine ⟨key, ?_⟩
  intro a b ha hb h
  obtain ⟨s, ea, ka⟩ := key a ha
  obtain ⟨s', eb, kb⟩ := key b hb
  rw [ea, eb] at h
  cases h
  have hne : ∀ {z v}, OffsetText z v → z ≠ [] := by
    intro z v h
    cases h
    simp
  refine canonical_unique ha.1 hb.1 ?_
  rcases ka with ⟨h1, rfl⟩ | ⟨h1, z, hz, rfl, _⟩
  · rcases kb with ⟨h2, _⟩ | ⟨h2, z, hz, h, _⟩
    · rw [h1, h2]
    · exact absurd (List.append_right_eq_self.mp h.symm) (hne hz)
  · rcases kb with ⟨h2, h⟩ | ⟨h2, z', hz', h, _⟩
    · exact absurd (List.append_right_eq_self.mp h) (hne hz)
    · have := List.append_cancel_left h
      subst this
      exact offsetText_fun hz hz'

example : OffsetOk ⟨-1, 63000, 0⟩ ∧ zoneName ⟨-1, 63000, 0⟩ = some "UTC-06:30".toList ∧
    zoneName ⟨0, 59, 1⟩ = some "UTC+00:00:59.000001".toList := by decide +kernel

end Verif.DateText
