import Verif.DateText.Write

/-! # Whole texts: dates, times, stamps and durations -/

namespace Verif.DateText

open Verif.Dates

theorem dateIso_text {d : Ymd} (hd : DayOk d) : DateText (dateIso d) d := by
  obtain ⟨⟨v1, v2, v3, v4⟩, v5, v6⟩ := hd
  have := (monthLen_pos d.year d.month).2
  exact ⟨_, _, _, pad_numeral (by decide) (by omega) (by omega), pad2 (by omega) (by omega),
    pad2 (by omega) (by omega), rfl⟩

theorem mkDate_eq (d : Ymd) : mkDate d = if DayOk d then some d else none := by
  rw [mkDate_spec]
  rfl

theorem dateText_len {s : Str} {d : Ymd} (h : DateText s d) : s.length = 10 := (parseDate_text h).2

theorem parseTime_text {s : Str} {t : Time} (h : TimeText s t) (hv : ∀ o, t.off = some o → OffsetOk o) :
    parseTime s = some t ∧ s ≠ [] := by
  cases h with
  | naive h =>
    rw [parseTime_naive (clockText_plain h), parseClock_text h]
    refine ⟨rfl, ?_⟩
    rintro rfl
    have := (clockText_len h).1
    simp at this
  | aware h hz ho =>
    rename_i s z t o
    generalize hT : o.total = T at hz
    cases hz with
    | mk hsg hc hl =>
      rename_i sign zone tc
      rw [parseTime_aware (clockText_plain h) (clockText_plain hc) hsg, parseClock_text h]
      obtain ⟨o', c', v', e'⟩ := parseZone_clock (sign := sign) hc hl
      have : o' = o := canonical_unique c' ho (by rw [v', hT])
      subst this
      have hok := hv o' rfl
      rw [if_pos hok.2] at e'
      rw [e']
      simp

theorem parseZone_clock_of {sign : Char} {z : Str} {o : Delta} (h : parseZone sign z = some o) :
    ∃ t, parseClock z = some t ∧ (z.length = 5 ∨ z.length = 8 ∨ z.length = 15) := by
  unfold parseZone at h
  split at h
  · cases h
  · rename_i hl
    cases hp : parseClock z with
    | none => simp [hp] at h
    | some t => exact ⟨t, rfl, by omega⟩

theorem parseTime_sound {s : Str} (hs : Tidy s) {t : Time} (h : parseTime s = some t) : TimeText s t := by
  cases hs with
  | naive hp =>
    rw [parseTime_naive hp] at h
    obtain ⟨c, hc, rfl⟩ := Option.map_eq_some_iff.mp h
    exact TimeText.naive (parseClock_sound hp hc)
  | @aware s sign z hp hsg hz =>
    rw [parseTime_aware hp hz hsg] at h
    obtain ⟨c, hc, h⟩ := Option.bind_eq_some_iff.mp h
    obtain ⟨o, ho, rfl⟩ := Option.map_eq_some_iff.mp h
    obtain ⟨tc, htc, hl⟩ := parseZone_clock_of ho
    have ct := parseClock_sound hz htc
    obtain ⟨o', c', v', e'⟩ := parseZone_clock (sign := sign) ct hl
    rw [ho] at e'
    split at e'
    · cases e'
      refine TimeText.aware (parseClock_sound hp hc) ?_ c'
      rw [v']
      exact OffsetText.mk hsg ct hl
    · cases e'

theorem parseTime_off {s : Str} {t : Time} (h : parseTime s = some t) : ∀ o, t.off = some o → OffsetOk o := by
  unfold parseTime at h
  split at h
  · cases h
  · split at h
    · obtain ⟨c, _, rfl⟩ := Option.map_eq_some_iff.mp h
      intro o ho
      cases ho
    · obtain ⟨c, _, h⟩ := Option.bind_eq_some_iff.mp h
      obtain ⟨o, ho, rfl⟩ := Option.map_eq_some_iff.mp h
      intro o' e
      cases e
      exact parseZone_some ho

theorem timeIso_text {t : Time} (ht : t.Valid) (ts : Timespec) :
    ∃ s t', timeIso t ts = some s ∧ TimeText s t' ∧ t'.Valid ∧ t'.off = t.off ∧
      t'.clock.total = t.clock.total / ts.unit * ts.unit := by
  obtain ⟨c, o⟩ := t
  obtain ⟨hc, ho⟩ := ht
  obtain ⟨c', h1, h2, h3⟩ := formatTime_text hc ts
  cases o with
  | none =>
    exact ⟨_, ⟨c', none⟩, rfl, TimeText.naive h1, ⟨h2, by simp⟩, rfl, h3⟩
  | some o =>
    have hok := ho o rfl
    obtain ⟨z, e, hne, hz⟩ := formatOffset_text hok
    refine ⟨formatTime c ts ++ z, ⟨c', some o⟩, ?_, TimeText.aware h1 hz hok.1, ⟨h2, ho⟩, rfl, h3⟩
    unfold timeIso
    rw [e]
    simp [hne]

theorem exact_unit {ts : Timespec} (h : ts = .auto ∨ ts = .micros) (x : Int) : x / ts.unit * ts.unit = x := by
  rcases h with rfl | rfl <;> simp [Timespec.unit]

theorem stampIso_eq (t : Stamp) (sep : Char) (ts : Timespec) :
    stampIso t sep ts = (timeIso t.time ts).map fun z => dateIso t.day ++ sep :: z := by
  unfold stampIso timeIso
  cases formatOffset t.time.off with
  | none => rfl
  | some tz =>
    simp only [Option.map_some, Option.some.injEq]
    unfold dateIso
    split <;> simp

theorem mkStamp_spec (d : Ymd) (t : Time) (ht : ∀ o, t.off = some o → OffsetOk o) (r : Stamp) :
    mkStamp d t = .ok r ↔ r = ⟨d, t⟩ ∧ r.Valid := by
  unfold mkStamp
  rw [mkDate_eq, mkClock_spec]
  by_cases h1 : DayOk d
  · by_cases h2 : t.clock.Valid
    · rw [if_pos h1, if_pos h2]
      simp only [Except.ok.injEq]
      constructor
      · rintro rfl
        exact ⟨rfl, h1, h2, ht⟩
      · rintro ⟨rfl, _⟩
        rfl
    · rw [if_pos h1, if_neg h2]
      constructor
      · intro h; cases h
      · rintro ⟨rfl, h⟩
        exact absurd h.2.1 h2
  · rw [if_neg h1]
    constructor
    · intro h; cases h
    · rintro ⟨rfl, h⟩
      exact absurd h.1 h1

theorem stampFromIso_parts {D Z : Str} {d : Ymd} (hD : DateText D d) (sep : Char) {t : Time} (hZ : TimeText Z t)
    (hv : ∀ o, t.off = some o → OffsetOk o) : stampFromIso (D ++ sep :: Z) = mkStamp d t := by
  have hl := dateText_len hD
  obtain ⟨hp, hne⟩ := parseTime_text hZ hv
  unfold stampFromIso
  have e1 : (D ++ sep :: Z).take 10 = D := by rw [← hl, List.take_left' rfl]
  have e2 : (D ++ sep :: Z).drop 11 = Z := by
    rw [show 11 = D.length + 1 by omega, List.drop_append]
    simp
  rw [e1, e2, (parseDate_text hD).1]
  simp only
  rw [if_pos hne, hp]

theorem stampFromIso_day {D : Str} {d : Ymd} (hD : DateText D d) : stampFromIso D = mkStamp d ⟨⟨0, 0, 0, 0⟩, none⟩ := by
  have hl := dateText_len hD
  unfold stampFromIso
  rw [List.take_of_length_le (by omega), List.drop_of_length_le (by omega), (parseDate_text hD).1]
  rfl

theorem parseDate_index {s : Str} (h : parseDate s = .error .index) : s.length ≤ 7 := by
  by_contra hl
  have h4 : ∃ c, s[4]? = some c := ⟨_, List.getElem?_eq_getElem (by omega)⟩
  have h7 : ∃ c, s[7]? = some c := ⟨_, List.getElem?_eq_getElem (by omega)⟩
  obtain ⟨c4, h4⟩ := h4
  obtain ⟨c7, h7⟩ := h7
  unfold parseDate readInt at h
  rw [h4, h7] at h
  cases h1 : pyInt (s.take 4) with
  | none => simp [h1] at h
  | some y =>
    cases h3 : pyInt ((s.drop 5).take 2) with
    | none =>
      simp only [h1, h3] at h
      split at h <;> simp at h
    | some m =>
      cases h5 : pyInt ((s.drop 8).take 2) with
      | none =>
        simp only [h1, h3, h5] at h
        split at h
        · simp at h
        · split at h <;> simp at h
      | some a =>
        simp only [h1, h3, h5] at h
        split at h
        · simp at h
        · split at h <;> simp at h

/-! ### Order -/

theorem formatTime_order {a b : Clock} (ha : a.Valid) (hb : b.Valid) (ts : Timespec) :
    formatTime a ts < formatTime b ts ↔ a.total / ts.unit < b.total / ts.unit := by
  obtain ⟨h, m, s, u⟩ := a
  obtain ⟨h', m', s', u'⟩ := b
  unfold Clock.Valid at ha hb
  simp only at ha hb
  have nh : Numeral 2 (pad 2 h) h := pad2 (by omega) (by omega)
  have nm : Numeral 2 (pad 2 m) m := pad2 (by omega) (by omega)
  have ns : Numeral 2 (pad 2 s) s := pad2 (by omega) (by omega)
  have nu : Numeral 6 (pad 6 u) u := pad_numeral (by decide) (by omega) (by omega)
  have nk : Numeral 3 (pad 3 (u / 1000)) (u / 1000) := pad_numeral (by decide) (by omega) (by omega)
  have nh' : Numeral 2 (pad 2 h') h' := pad2 (by omega) (by omega)
  have nm' : Numeral 2 (pad 2 m') m' := pad2 (by omega) (by omega)
  have ns' : Numeral 2 (pad 2 s') s' := pad2 (by omega) (by omega)
  have nu' : Numeral 6 (pad 6 u') u' := pad_numeral (by decide) (by omega) (by omega)
  have nk' : Numeral 3 (pad 3 (u' / 1000)) (u' / 1000) := pad_numeral (by decide) (by omega) (by omega)
  cases ts with
  | hours =>
    show pad 2 h < pad 2 h' ↔ _
    rw [numeral_lt nh nh']
    simp only [Clock.total, Timespec.unit]
    omega
  | minutes =>
    show pad 2 h ++ ':' :: pad 2 m < pad 2 h' ++ ':' :: pad 2 m' ↔ _
    rw [lex_numeral nh nh', lex_cons, numeral_lt nm nm']
    simp only [Clock.total, Timespec.unit]
    omega
  | seconds =>
    show pad 2 h ++ ':' :: (pad 2 m ++ ':' :: pad 2 s) < pad 2 h' ++ ':' :: (pad 2 m' ++ ':' :: pad 2 s') ↔ _
    rw [lex_numeral nh nh', lex_cons, lex_numeral nm nm', lex_cons, numeral_lt ns ns']
    simp only [Clock.total, Timespec.unit]
    omega
  | millis =>
    show pad 2 h ++ ':' :: (pad 2 m ++ ':' :: (pad 2 s ++ '.' :: pad 3 (u.fdiv 1000))) <
      pad 2 h' ++ ':' :: (pad 2 m' ++ ':' :: (pad 2 s' ++ '.' :: pad 3 (u'.fdiv 1000))) ↔ _
    rw [fdiv_lit _ (by decide), fdiv_lit _ (by decide), lex_numeral nh nh', lex_cons, lex_numeral nm nm', lex_cons,
      lex_numeral ns ns', lex_cons, numeral_lt nk nk']
    simp only [Clock.total, Timespec.unit]
    omega
  | micros =>
    show pad 2 h ++ ':' :: (pad 2 m ++ ':' :: (pad 2 s ++ '.' :: pad 6 u)) <
      pad 2 h' ++ ':' :: (pad 2 m' ++ ':' :: (pad 2 s' ++ '.' :: pad 6 u')) ↔ _
    rw [lex_numeral nh nh', lex_cons, lex_numeral nm nm', lex_cons, lex_numeral ns ns', lex_cons, numeral_lt nu nu']
    simp only [Clock.total, Timespec.unit]
    omega
  | auto =>
    have e : ∀ h m s u : Int, formatTime ⟨h, m, s, u⟩ .auto =
        pad 2 h ++ ':' :: (pad 2 m ++ ':' :: (pad 2 s ++ (if u = 0 then [] else '.' :: pad 6 u))) := by
      intro h m s u
      by_cases hu : u = 0 <;> simp [formatTime, hu]
    rw [e, e, lex_numeral nh nh', lex_cons, lex_numeral nm nm', lex_cons, lex_numeral ns ns']
    have k : ((if u = 0 then [] else '.' :: pad 6 u) < (if u' = 0 then [] else '.' :: pad 6 u')) ↔ u < u' := by
      by_cases hu : u = 0
      · by_cases hu' : u' = 0
        · simp [hu, hu']
        · simp only [hu, hu', if_true, if_false]
          simp
          omega
      · by_cases hu' : u' = 0
        · simp only [hu, hu', if_true, if_false]
          simp
          omega
        · simp only [hu, hu', if_false]
          rw [lex_cons, numeral_lt nu nu']
    rw [k]
    simp only [Clock.total, Timespec.unit]
    omega

theorem dateIso_order {a b : Ymd} (ha : DayOk a) (hb : DayOk b) : dateIso a < dateIso b ↔ a.Before b := by
  obtain ⟨y, m, d⟩ := a
  obtain ⟨y', m', d'⟩ := b
  obtain ⟨⟨v1, v2, v3, v4⟩, v5, v6⟩ := ha
  obtain ⟨⟨w1, w2, w3, w4⟩, w5, w6⟩ := hb
  simp only at *
  have := (monthLen_pos y m).2
  have := (monthLen_pos y' m').2
  have ny : Numeral 4 (pad 4 y) y := pad_numeral (by decide) (by omega) (by omega)
  have nm : Numeral 2 (pad 2 m) m := pad2 (by omega) (by omega)
  have nd : Numeral 2 (pad 2 d) d := pad2 (by omega) (by omega)
  have ny' : Numeral 4 (pad 4 y') y' := pad_numeral (by decide) (by omega) (by omega)
  have nm' : Numeral 2 (pad 2 m') m' := pad2 (by omega) (by omega)
  have nd' : Numeral 2 (pad 2 d') d' := pad2 (by omega) (by omega)
  show pad 4 y ++ '-' :: (pad 2 m ++ '-' :: pad 2 d) < pad 4 y' ++ '-' :: (pad 2 m' ++ '-' :: pad 2 d') ↔ _
  rw [lex_numeral ny ny', lex_cons, lex_numeral nm nm', lex_cons, numeral_lt nd nd']
  rfl

theorem dateIso_inj {a b : Ymd} (ha : DayOk a) (hb : DayOk b) (h : dateIso a = dateIso b) : a = b := by
  have e1 := (parseDate_text (dateIso_text ha)).1
  have e2 := (parseDate_text (dateIso_text hb)).1
  rw [h, e2] at e1
  cases e1
  rfl

/-! ### Durations -/

theorem decInt_pos {n : Int} (h : 0 ≤ n) : ∃ w, Numeral w (decInt n) n := by
  obtain ⟨w, _, hn⟩ := dec_numeral n.natAbs
  refine ⟨w, ?_⟩
  unfold decInt
  rw [if_neg (by omega)]
  rw [show ((n.natAbs : Nat) : Int) = n by omega] at hn
  exact hn

theorem dec_len {n : Nat} (h : n < 100) : ∃ w, (w = 1 ∨ w = 2) ∧ Numeral w (dec n) n := by
  obtain ⟨a, b, c, d⟩ := decFuel_spec (n + 1) n (by omega)
  have := d 1 (by omega)
  have hp : 0 < (decFuel (n + 1) n).length := List.length_pos_iff.mpr c
  exact ⟨(decFuel (n + 1) n).length, by omega, rfl, a, b.symm⟩

theorem deltaStr_text {t : Delta} (ht : t.Canonical) : DeltaText (deltaStr t) t.total := by
  obtain ⟨D, S, U⟩ := t
  unfold Delta.Canonical at ht
  simp only at ht
  have e : ∀ x : Int, x.fdiv 60 = x / 60 := fun x => fdiv_lit x (by decide)
  have e' : ∀ x : Int, x.fmod 60 = x % 60 := fun x => fmod_lit x (by decide)
  obtain ⟨w, hw, nh⟩ : ∃ w, (w = 1 ∨ w = 2) ∧ Numeral w (decInt (S / 60 / 60)) (S / 60 / 60) := by
    obtain ⟨w, hw, n⟩ := dec_len (n := (S / 60 / 60).natAbs) (by omega)
    refine ⟨w, hw, ?_⟩
    unfold decInt
    rw [if_neg (by omega)]
    rw [show (((S / 60 / 60).natAbs : Nat) : Int) = S / 60 / 60 by omega] at n
    exact n
  have nm : Numeral 2 (pad 2 (S / 60 % 60)) (S / 60 % 60) := pad2 (by omega) (by omega)
  have ns : Numeral 2 (pad 2 (S % 60)) (S % 60) := pad2 (by omega) (by omega)
  have nu : Numeral 6 (pad 6 U) U := pad_numeral (by decide) (by omega) (by omega)
  -- the span
  obtain ⟨sp, hsp, hst⟩ : ∃ sp, SpanText sp (S * 1000000 + U) ∧
      deltaStr ⟨D, S, U⟩ = (if D ≠ 0 then
        decInt D ++ " day".toList ++ (if D.natAbs ≠ 1 then ['s'] else []) ++ ", ".toList else []) ++ sp := by
    refine ⟨decInt (S / 60 / 60) ++ ':' :: (pad 2 (S / 60 % 60) ++ ':' :: pad 2 (S % 60)) ++
      (if U ≠ 0 then '.' :: pad 6 U else []), ?_, ?_⟩
    · by_cases hu : U = 0
      · have := SpanText.plain hw nh nm ns
        rw [if_neg (by omega), List.append_nil]
        rw [show S * 1000000 + U = ((S / 60 / 60 * 60 + S / 60 % 60) * 60 + S % 60) * 1000000 by omega]
        exact this
      · have := SpanText.fraction hw nh nm ns nu
        rw [if_pos hu]
        rw [show S * 1000000 + U = ((S / 60 / 60 * 60 + S / 60 % 60) * 60 + S % 60) * 1000000 + U by omega]
        simpa using this
    · unfold deltaStr
      simp only [e, e']
      by_cases hu : U = 0
      · by_cases hd : D = 0
        · simp [hu, hd]
        · simp [hu, hd]
      · by_cases hd : D = 0
        · simp [hu, hd]
        · simp [hu, hd]
  rw [hst]
  rcases lt_trichotomy D 0 with h | h | h
  · obtain ⟨wd, _, nd⟩ := dec_numeral D.natAbs
    rw [if_pos (by omega)]
    have := DeltaText.minusDays nd (by omega) hsp
    have e1 : decInt D = '-' :: dec D.natAbs := by unfold decInt; rw [if_pos h]
    have e2 : (if D.natAbs ≠ 1 then ['s'] else []) = (if ((D.natAbs : Nat) : Int) = 1 then ([] : Str) else ['s']) := by
      by_cases h1 : D.natAbs = 1
      · rw [if_neg (by omega), if_pos (by omega)]
      · rw [if_pos h1, if_neg (by omega)]
    rw [e1, e2]
    rw [show (⟨D, S, U⟩ : Delta).total = -((D.natAbs : Nat) : Int) * 86400000000 + (S * 1000000 + U) by
      unfold Delta.total; simp only; omega]
    exact this
  · subst h
    rw [if_neg (by omega), List.nil_append]
    rw [show (⟨0, S, U⟩ : Delta).total = S * 1000000 + U by unfold Delta.total; simp only; omega]
    exact DeltaText.short hsp
  · obtain ⟨wd, nd⟩ := decInt_pos h.le
    rw [if_pos (by omega)]
    have := DeltaText.days nd h hsp
    have e2 : (if D.natAbs ≠ 1 then ['s'] else []) = (if D = 1 then ([] : Str) else ['s']) := by
      by_cases h1 : D = 1
      · rw [if_neg (by omega), if_pos h1]
      · rw [if_pos (by omega), if_neg h1]
    rw [e2]
    rw [show (⟨D, S, U⟩ : Delta).total = D * 86400000000 + (S * 1000000 + U) by unfold Delta.total; simp only; omega]
    exact this

theorem numeral_head {w : Nat} {a : Str} {n : Int} (h : Numeral w a n) (hn : 0 < n) : ∃ c r, a = c :: r ∧ IsDigit c := by
  cases a with
  | nil =>
    have := h.2.2
    rw [value_nil] at this
    omega
  | cons c r => exact ⟨c, r, rfl, h.2.1 c (by simp)⟩

theorem span_no_blank {s : Str} {u : Int} (h : SpanText s u) : ' ' ∉ s := by
  intro hc
  rcases spanText_chars h ' ' hc with h | h | h
  · exact absurd h (by decide)
  · exact absurd h (by decide)
  · exact absurd h (by decide)

theorem deltaText_fun {s : Str} {u v : Int} (hu : DeltaText s u) (hv : DeltaText s v) : u = v := by
  cases hu with
  | short h =>
    cases hv with
    | short k => exact spanText_unique h k
    | days => exact absurd (by simp) (span_no_blank h)
    | minusDays => exact absurd (by simp) (span_no_blank h)
  | days n hn h =>
    rename_i a sp us nn w
    generalize hs : a ++ " day".toList ++ (if nn = 1 then [] else ['s']) ++ ", ".toList ++ sp = s at hv
    cases hv with
    | short k => rw [← hs] at k; exact absurd (by simp) (span_no_blank k)
    | days n' hn' k =>
      obtain ⟨e1, e2⟩ := words_split n n' hs
      subst e1 e2
      rw [spanText_unique h k]
    | minusDays n' hn' k =>
      exfalso
      obtain ⟨c, r, rfl, hc⟩ := numeral_head n hn
      simp only [List.cons_append, List.cons.injEq] at hs
      rw [hs.1] at hc
      revert hc; decide
  | minusDays n hn h =>
    rename_i a sp us nn w
    generalize hs : '-' :: a ++ " day".toList ++ (if nn = 1 then [] else ['s']) ++ ", ".toList ++ sp = s at hv
    cases hv with
    | short k => rw [← hs] at k; exact absurd (by simp) (span_no_blank k)
    | days n' hn' k =>
      exfalso
      obtain ⟨c, r, rfl, hc⟩ := numeral_head n' hn'
      simp only [List.cons_append, List.cons.injEq] at hs
      rw [← hs.1] at hc
      revert hc; decide
    | minusDays n' hn' k =>
      simp only [List.cons_append, List.cons.injEq, true_and] at hs
      obtain ⟨e1, e2⟩ := words_split n n' hs
      subst e1 e2
      rw [spanText_unique h k]

/-! ### Offsets -/

theorem offsetText_fun {z : Str} {u v : Int} (hu : OffsetText z u) (hv : OffsetText z v) : u = v := by
  cases hu with
  | mk hs hc _ =>
    cases hv with
    | mk hs' hc' _ =>
      have := (parseClock_text hc).symm.trans (parseClock_text hc')
      cases this
      rfl

theorem zoneName_spec {o : Delta} (ho : OffsetOk o) :
    zoneName o = if o.total = 0 then some "UTC".toList else (formatOffset (some o)).map ("UTC".toList ++ ·) := by
  unfold zoneName
  by_cases h0 : o = ⟨0, 0, 0⟩
  · subst h0
    rw [if_pos rfl, if_pos (show (⟨0, 0, 0⟩ : Delta).total = 0 from rfl)]
  · have hne : o.total ≠ 0 := fun h => h0 (canonical_zero ho.1 h)
    rw [if_neg h0, if_neg hne]
    have hc := deltaCmp_spec ho.1 (show (⟨0, 0, 0⟩ : Delta).Canonical by decide)
    have z : (⟨0, 0, 0⟩ : Delta).total = 0 := rfl
    rw [z] at hc
    unfold IsCmp at hc
    have hd := delta_neg_iff ho.1
    unfold formatOffset
    simp only
    by_cases hn : o.total < 0
    · rw [if_pos (by omega), if_pos (by omega)]
      obtain ⟨r, e, _, _⟩ := deltaNeg_ok ho
      rw [e]
      exact zoneNameAbs_eq '-' r
    · rw [if_neg (by omega), if_neg (by omega)]
      exact zoneNameAbs_eq '+' o

end Verif.DateText
