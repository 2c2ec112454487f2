import Verif.DateText.Parse

/-! # Writing texts -/

namespace Verif.DateText

open Verif.Dates

theorem pad2 {n : Int} (h : 0 ≤ n) (h' : n < 100) : Numeral 2 (pad 2 n) n := pad_numeral (by decide) h (by omega)

theorem clock_ext {a b : Clock} (ha : a.Valid) (hb : b.Valid) (h : a.total = b.total) : a = b := by
  obtain ⟨a1, a2, a3, a4⟩ := a
  obtain ⟨b1, b2, b3, b4⟩ := b
  unfold Clock.Valid at ha hb
  unfold Clock.total at h
  simp only at *
  rw [Clock.mk.injEq]
  refine ⟨?_, ?_, ?_, ?_⟩ <;> omega

/-- The text with a precision means the time cut off to that precision. -/
theorem formatTime_text {t : Clock} (ht : t.Valid) (ts : Timespec) :
    ∃ t', ClockText (formatTime t ts) t' ∧ t'.Valid ∧ t'.total = t.total / ts.unit * ts.unit := by
  obtain ⟨h, m, s, u⟩ := t
  unfold Clock.Valid at ht
  simp only at ht
  have nh : Numeral 2 (pad 2 h) h := pad2 (by omega) (by omega)
  have nm : Numeral 2 (pad 2 m) m := pad2 (by omega) (by omega)
  have ns : Numeral 2 (pad 2 s) s := pad2 (by omega) (by omega)
  have nu : Numeral 6 (pad 6 u) u := pad_numeral (by decide) (by omega) (by omega)
  have nk : Numeral 3 (pad 3 (u / 1000)) (u / 1000) := pad_numeral (by decide) (by omega) (by omega)
  cases ts with
  | auto =>
    by_cases hu : u = 0
    · refine ⟨⟨h, m, s, 0⟩, ?_, ?_, ?_⟩
      · simp only [formatTime, hu]
        exact ClockText.seconds nh nm ns
      · unfold Clock.Valid; simp only; omega
      · simp only [Clock.total, Timespec.unit]; omega
    · refine ⟨⟨h, m, s, u⟩, ?_, ?_, ?_⟩
      · have e : formatTime ⟨h, m, s, u⟩ .auto = pad 2 h ++ ':' :: (pad 2 m ++ ':' :: (pad 2 s ++ '.' :: pad 6 u)) := by
          simp [formatTime, hu]
        rw [e]
        exact ClockText.micros nh nm ns nu
      · unfold Clock.Valid; simp only; omega
      · simp only [Clock.total, Timespec.unit]; omega
  | hours =>
    refine ⟨⟨h, 0, 0, 0⟩, ClockText.hours nh, ?_, ?_⟩
    · unfold Clock.Valid; simp only; omega
    · simp only [Clock.total, Timespec.unit]; omega
  | minutes =>
    refine ⟨⟨h, m, 0, 0⟩, ClockText.minutes nh nm, ?_, ?_⟩
    · unfold Clock.Valid; simp only; omega
    · simp only [Clock.total, Timespec.unit]; omega
  | seconds =>
    refine ⟨⟨h, m, s, 0⟩, ClockText.seconds nh nm ns, ?_, ?_⟩
    · unfold Clock.Valid; simp only; omega
    · simp only [Clock.total, Timespec.unit]; omega
  | millis =>
    refine ⟨⟨h, m, s, u / 1000 * 1000⟩, ?_, ?_, ?_⟩
    · have e : formatTime ⟨h, m, s, u⟩ .millis =
          pad 2 h ++ ':' :: (pad 2 m ++ ':' :: (pad 2 s ++ '.' :: pad 3 (u.fdiv 1000))) := rfl
      rw [e, fdiv_lit _ (by decide)]
      exact ClockText.millis nh nm ns nk
    · unfold Clock.Valid; simp only; omega
    · simp only [Clock.total, Timespec.unit]; omega
  | micros =>
    refine ⟨⟨h, m, s, u⟩, ?_, ?_, ?_⟩
    · exact ClockText.micros nh nm ns nu
    · unfold Clock.Valid; simp only; omega
    · simp only [Clock.total, Timespec.unit]; omega

theorem formatTime_ne (t : Clock) (ht : t.Valid) (ts : Timespec) : 2 ≤ (formatTime t ts).length := by
  obtain ⟨t', h, _⟩ := formatTime_text ht ts
  exact (clockText_len h).1

/-! ### Offsets -/

theorem delta_parts {o : Delta} (ho : o.Canonical) (h0 : 0 ≤ o.total) (h1 : o.total < 86400000000) :
    o.days = 0 ∧ o.seconds = o.total / 1000000 ∧ o.micros = o.total % 1000000 := by
  unfold Delta.Canonical at ho
  unfold Delta.total at *
  omega

theorem deltaMod_lit {o : Delta} (b : Delta) (hb : 0 < b.total) (hb' : b.total < 86400000000) :
    ∃ r, deltaMod o b = some r ∧ r.Canonical ∧ r.total = o.total % b.total := by
  unfold deltaMod
  rw [toMicros_eq, toMicros_eq, fmod_lit _ hb.le]
  have m1 := Int.emod_nonneg o.total (show b.total ≠ 0 by omega)
  have m2 := Int.emod_lt_of_pos o.total hb
  have sp := delta3_spec 0 0 (o.total % b.total)
  simp only [zero_mul, add_zero, zero_add] at sp
  exact sp.1 (by unfold InRange; omega)

/-- Hours, minutes, seconds and microseconds of an offset. -/
theorem offset_fields (o : Delta) :
    ∃ rest ss, deltaMod o ⟨0, 3600, 0⟩ = some rest ∧ deltaMod rest ⟨0, 60, 0⟩ = some ss ∧
      ss.days = 0 ∧
      deltaFloordiv o ⟨0, 3600, 0⟩ = o.total / 3600000000 ∧
      deltaFloordiv rest ⟨0, 60, 0⟩ = o.total % 3600000000 / 60000000 ∧
      ss.seconds = o.total % 60000000 / 1000000 ∧ ss.micros = o.total % 1000000 := by
  have t1 : (⟨0, 3600, 0⟩ : Delta).total = 3600000000 := rfl
  have t2 : (⟨0, 60, 0⟩ : Delta).total = 60000000 := rfl
  obtain ⟨rest, e1, c1, v1⟩ := deltaMod_lit (o := o) ⟨0, 3600, 0⟩ (by decide) (by decide)
  obtain ⟨ss, e2, c2, v2⟩ := deltaMod_lit (o := rest) ⟨0, 60, 0⟩ (by decide) (by decide)
  rw [t1] at v1
  rw [t2] at v2
  obtain ⟨p1, p2, p3⟩ := delta_parts c2 (by omega) (by omega)
  refine ⟨rest, ss, e1, e2, p1, ?_, ?_, ?_, ?_⟩
  · unfold deltaFloordiv
    rw [toMicros_eq, toMicros_eq, t1, fdiv_lit _ (by decide)]
  · unfold deltaFloordiv
    rw [toMicros_eq, toMicros_eq, t2, fdiv_lit _ (by decide), v1]
  · rw [p2, v2, v1]; omega
  · rw [p3, v2, v1]; omega

theorem formatOffsetAbs_text {sign : Char} (hsg : sign = '+' ∨ sign = '-') {o : Delta}
    (h0 : 0 ≤ o.total) (h1 : o.total < 86400000000) :
    ∃ z, formatOffsetAbs sign o = some z ∧ OffsetText z (if sign = '-' then -o.total else o.total) := by
  obtain ⟨rest, ss, e1, e2, s0, f1, f2, f3, f4⟩ := offset_fields o
  have nh := pad2 (n := o.total / 3600000000) (by omega) (by omega)
  have nm := pad2 (n := o.total % 3600000000 / 60000000) (by omega) (by omega)
  have ns := pad2 (n := o.total % 60000000 / 1000000) (by omega) (by omega)
  have nu : Numeral 6 (pad 6 (o.total % 1000000)) (o.total % 1000000) := pad_numeral (by decide) (by omega) (by omega)
  unfold formatOffsetAbs
  rw [e1]
  simp only [Option.bind_some, e2, Option.map_some, f1, f2, f3, f4]
  have hss : ss = ⟨0, ss.seconds, ss.micros⟩ := by rw [← s0]
  refine ⟨_, rfl, ?_⟩
  by_cases hz : ss.seconds = 0 ∧ ss.micros = 0
  · have hs0 : ss = ⟨0, 0, 0⟩ := by rw [hss, hz.1, hz.2]
    rw [f3, f4] at hz
    rw [if_neg (by
      rintro (h | h)
      · exact h hs0
      · exact h hz.2), List.append_nil]
    have := OffsetText.mk hsg (ClockText.minutes nh nm) (by simp [nh.1, nm.1])
    have e : (⟨o.total / 3600000000, o.total % 3600000000 / 60000000, 0, 0⟩ : Clock).total = o.total := by
      unfold Clock.total; simp only; omega
    rw [e] at this
    exact this
  · rw [if_pos (by
      left
      intro h
      apply hz
      rw [h]
      exact ⟨rfl, rfl⟩)]
    rw [f3, f4] at hz
    by_cases hu : o.total % 1000000 = 0
    · rw [if_neg (by omega)]
      have := OffsetText.mk hsg (ClockText.seconds nh nm ns) (by simp [nh.1, nm.1, ns.1])
      have e : (⟨o.total / 3600000000, o.total % 3600000000 / 60000000, o.total % 60000000 / 1000000, 0⟩ : Clock).total =
          o.total := by
        unfold Clock.total; simp only; omega
      rw [e] at this
      simpa using this
    · rw [if_pos hu]
      have := OffsetText.mk hsg (ClockText.micros nh nm ns nu) (by simp [nh.1, nm.1, ns.1, nu.1])
      have e : (⟨o.total / 3600000000, o.total % 3600000000 / 60000000, o.total % 60000000 / 1000000,
          o.total % 1000000⟩ : Clock).total = o.total := by
        unfold Clock.total; simp only; omega
      rw [e] at this
      simpa using this

theorem delta_neg_iff {o : Delta} (ho : o.Canonical) : o.days < 0 ↔ o.total < 0 := by
  unfold Delta.Canonical at ho
  unfold Delta.total
  omega

theorem deltaNeg_ok {o : Delta} (ho : OffsetOk o) : ∃ r, deltaNeg o = some r ∧ r.Canonical ∧ r.total = -o.total := by
  unfold deltaNeg
  have sp := delta3_spec (-o.days) (-o.seconds) (-o.micros)
  have tot : (-o.days * 86400 + -o.seconds) * 1000000 + -o.micros = -o.total := by
    unfold Delta.total; ring
  rw [tot] at sp
  have := ho.2
  exact sp.1 (by unfold InRange; omega)

theorem formatOffset_text {o : Delta} (ho : OffsetOk o) :
    ∃ z, formatOffset (some o) = some z ∧ z ≠ [] ∧ OffsetText z o.total := by
  have hne : ∀ {z v}, OffsetText z v → z ≠ [] := by
    intro z v h
    cases h
    simp
  unfold formatOffset
  simp only
  by_cases hd : o.days < 0
  · rw [if_pos hd]
    obtain ⟨r, e, c, v⟩ := deltaNeg_ok ho
    rw [delta_neg_iff ho.1] at hd
    have := ho.2
    obtain ⟨z, e2, h2⟩ := formatOffsetAbs_text (sign := '-') (o := r) (Or.inr rfl) (by omega) (by omega)
    rw [if_pos rfl, v, neg_neg] at h2
    exact ⟨z, by rw [e]; exact e2, hne h2, h2⟩
  · rw [if_neg hd]
    rw [delta_neg_iff ho.1] at hd
    have := ho.2
    obtain ⟨z, e2, h2⟩ := formatOffsetAbs_text (sign := '+') (o := o) (Or.inl rfl) (by omega) (by omega)
    rw [if_neg (by decide)] at h2
    exact ⟨z, e2, hne h2, h2⟩

/-! ### Names of zones -/

theorem zoneNameAbs_eq (sign : Char) (o : Delta) :
    zoneNameAbs sign o = (formatOffsetAbs sign o).map fun z => "UTC".toList ++ z := by
  obtain ⟨rest, ss, e1, e2, s0, f1, f2, f3, f4⟩ := offset_fields o
  have hss : ss = ⟨0, ss.seconds, ss.micros⟩ := by rw [← s0]
  unfold zoneNameAbs formatOffsetAbs
  rw [e1]
  simp only [Option.bind_some, e2, Option.map_some]
  by_cases hu : ss.micros = 0
  · by_cases hs : ss.seconds = 0
    · have hs0 : ss = ⟨0, 0, 0⟩ := by rw [hss, hs, hu]
      simp [hs0]
    · have hs0 : ss ≠ ⟨0, 0, 0⟩ := by
        intro h
        rw [h] at hs
        exact hs rfl
      simp [hs0, hu, hs]
  · have hs0 : ss ≠ ⟨0, 0, 0⟩ := by
      intro h
      rw [h] at hu
      exact hu rfl
    simp [hs0, hu]

/-! ### Order of texts -/

theorem lex_append {a b : Str} (h : a.length = b.length) (r t : Str) :
    a ++ r < b ++ t ↔ a < b ∨ (a = b ∧ r < t) := by
  induction a generalizing b with
  | nil =>
    cases b with
    | nil => simp
    | cons c b => simp at h
  | cons c a ih =>
    cases b with
    | nil => simp at h
    | cons d b =>
      have := ih (b := b) (by simpa using h)
      rw [List.cons_append, List.cons_append, List.cons_lt_cons_iff, List.cons_lt_cons_iff, this, List.cons_eq_cons]
      tauto

theorem lex_cons (c : Char) (r t : Str) : c :: r < c :: t ↔ r < t := by
  rw [List.cons_lt_cons_iff]
  simp

theorem lex_numeral {w : Nat} {a b : Str} {v u : Int} (ha : Numeral w a v) (hb : Numeral w b u) (r t : Str) :
    a ++ r < b ++ t ↔ v < u ∨ (v = u ∧ r < t) := by
  rw [lex_append (ha.1.trans hb.1.symm), numeral_lt ha hb, (digits_order ha.2.1 hb.2.1 (ha.1.trans hb.1.symm)).2,
    ← ha.2.2, ← hb.2.2]

/-! ### Splitting after digits -/

theorem digits_split {a a' r r' : Str} {c c' : Char} (ha : ∀ x ∈ a, IsDigit x) (ha' : ∀ x ∈ a', IsDigit x)
    (hc : ¬ IsDigit c) (hc' : ¬ IsDigit c') (h : a ++ c :: r = a' ++ c' :: r') : a = a' ∧ c = c' ∧ r = r' := by
  induction a generalizing a' with
  | nil =>
    cases a' with
    | nil =>
      simp only [List.nil_append, List.cons.injEq] at h
      exact ⟨rfl, h⟩
    | cons x a' =>
      simp only [List.nil_append, List.cons_append, List.cons.injEq] at h
      exact absurd (h.1 ▸ ha' x (by simp)) hc
  | cons y a ih =>
    cases a' with
    | nil =>
      simp only [List.nil_append, List.cons_append, List.cons.injEq] at h
      exact absurd (h.1 ▸ ha y (by simp)) hc'
    | cons x a' =>
      simp only [List.cons_append, List.cons.injEq] at h
      obtain ⟨i1, i2, i3⟩ := ih (a' := a') (fun z hz => ha z (by simp [hz])) (fun z hz => ha' z (by simp [hz])) h.2
      exact ⟨by rw [h.1, i1], i2, i3⟩

theorem spanText_chars {s : Str} {u : Int} (h : SpanText s u) : ∀ c ∈ s, IsDigit c ∨ c = ':' ∨ c = '.' := by
  cases h with
  | plain _ h1 h2 h3 =>
    intro c hc
    simp only [List.mem_append, List.mem_cons] at hc
    rcases hc with hc | hc | hc | hc | hc
    exacts [Or.inl (h1.2.1 c hc), Or.inr (Or.inl hc), Or.inl (h2.2.1 c hc), Or.inr (Or.inl hc), Or.inl (h3.2.1 c hc)]
  | fraction _ h1 h2 h3 h4 =>
    intro c hc
    simp only [List.mem_append, List.mem_cons] at hc
    rcases hc with hc | hc | hc | hc | hc | hc | hc
    exacts [Or.inl (h1.2.1 c hc), Or.inr (Or.inl hc), Or.inl (h2.2.1 c hc), Or.inr (Or.inl hc), Or.inl (h3.2.1 c hc),
      Or.inr (Or.inr hc), Or.inl (h4.2.1 c hc)]

theorem spanText_unique {s : Str} {u v : Int} (hu : SpanText s u) (hv : SpanText s v) : u = v := by
  have nc : ¬ IsDigit ':' := by decide
  have nd : ¬ IsDigit '.' := by decide
  cases hu with
  | plain _ h1 h2 h3 =>
    generalize hs : _ ++ ':' :: (_ ++ ':' :: _) = s at hv
    cases hv with
    | plain _ k1 k2 k3 =>
      obtain ⟨e1, _, e2⟩ := digits_split h1.2.1 k1.2.1 nc nc hs
      obtain ⟨e3, _, e4⟩ := digits_split h2.2.1 k2.2.1 nc nc e2
      subst e1 e3 e4
      rw [numeral_value h1 k1, numeral_value h2 k2, numeral_value h3 k3]
    | fraction _ k1 k2 k3 k4 =>
      exfalso
      obtain ⟨e1, _, e2⟩ := digits_split h1.2.1 k1.2.1 nc nc hs
      obtain ⟨e3, _, e4⟩ := digits_split h2.2.1 k2.2.1 nc nc e2
      exact nd (h3.2.1 '.' (by rw [e4]; simp))
  | fraction _ h1 h2 h3 h4 =>
    generalize hs : _ ++ ':' :: (_ ++ ':' :: (_ ++ '.' :: _)) = s at hv
    cases hv with
    | plain _ k1 k2 k3 =>
      exfalso
      obtain ⟨e1, _, e2⟩ := digits_split h1.2.1 k1.2.1 nc nc hs
      obtain ⟨e3, _, e4⟩ := digits_split h2.2.1 k2.2.1 nc nc e2
      exact nd (k3.2.1 '.' (by rw [← e4]; simp))
    | fraction _ k1 k2 k3 k4 =>
      obtain ⟨e1, _, e2⟩ := digits_split h1.2.1 k1.2.1 nc nc hs
      obtain ⟨e3, _, e4⟩ := digits_split h2.2.1 k2.2.1 nc nc e2
      obtain ⟨e5, _, e6⟩ := digits_split h3.2.1 k3.2.1 nd nd e4
      subst e1 e3 e5 e6
      rw [numeral_value h1 k1, numeral_value h2 k2, numeral_value h3 k3, numeral_value h4 k4]

/-- Cancelling the words between the days and the span. -/
theorem words_split {a a' s s' : Str} {n n' : Int} {w w' : Nat} (ha : Numeral w a n) (ha' : Numeral w' a' n')
    (h : a ++ " day".toList ++ (if n = 1 then [] else ['s']) ++ ", ".toList ++ s =
      a' ++ " day".toList ++ (if n' = 1 then [] else ['s']) ++ ", ".toList ++ s') : n = n' ∧ s = s' := by
  have nb : ¬ IsDigit ' ' := by decide
  have h' : a ++ ' ' :: ("day".toList ++ (if n = 1 then [] else ['s']) ++ ", ".toList ++ s) =
      a' ++ ' ' :: ("day".toList ++ (if n' = 1 then [] else ['s']) ++ ", ".toList ++ s') := by
    simpa using h
  obtain ⟨e1, _, e2⟩ := digits_split ha.2.1 ha'.2.1 nb nb h'
  subst e1
  have en := numeral_value ha ha'
  subst en
  refine ⟨rfl, ?_⟩
  rwa [List.append_cancel_left_eq] at e2

end Verif.DateText
