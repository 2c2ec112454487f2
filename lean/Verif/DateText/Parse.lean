import Verif.DateText.Lemmas

/-! # Reading texts -/

namespace Verif.DateText

open Verif.Dates

/-! ### Two and more characters -/

theorem numeral_two {a : Str} {h : Int} (n : Numeral 2 a h) : ∃ x y, a = [x, y] ∧ pyInt [x, y] = some h := by
  obtain ⟨x, y, rfl⟩ : ∃ x y, a = [x, y] := by
    have := n.1
    match a, this with
    | [x, y], _ => exact ⟨x, y, rfl⟩
  exact ⟨x, y, rfl, pyInt_numeral n (by omega)⟩

theorem numeral_four {a : Str} {h : Int} (n : Numeral 4 a h) : ∃ x y z w, a = [x, y, z, w] ∧ pyInt [x, y, z, w] = some h := by
  obtain ⟨x, y, z, w, rfl⟩ : ∃ x y z w, a = [x, y, z, w] := by
    have := n.1
    match a, this with
    | [x, y, z, w], _ => exact ⟨x, y, z, w, rfl⟩
  exact ⟨x, y, z, w, rfl, pyInt_numeral n (by omega)⟩

/-! ### Dates -/

theorem parseDate_text {s : Str} {d : Ymd} (h : DateText s d) : parseDate s = .ok d ∧ s.length = 10 := by
  obtain ⟨y, m, a, hy, hm, ha, rfl⟩ := h
  obtain ⟨y1, y2, y3, y4, rfl, ey⟩ := numeral_four hy
  obtain ⟨m1, m2, rfl, em⟩ := numeral_two hm
  obtain ⟨a1, a2, rfl, ea⟩ := numeral_two ha
  simp [parseDate, readInt, ey, em, ea]

theorem parseDate_ok {s : Str} {d : Ymd} (h : parseDate s = .ok d) :
    pyInt (s.take 4) = some d.year ∧ s[4]? = some '-' ∧ pyInt ((s.drop 5).take 2) = some d.month ∧
      s[7]? = some '-' ∧ pyInt ((s.drop 8).take 2) = some d.day := by
  unfold parseDate readInt at h
  cases h1 : pyInt (s.take 4) with
  | none => simp [h1] at h
  | some y =>
    cases h2 : s[4]? with
    | none => simp [h1, h2] at h
    | some c =>
      by_cases hc : c = '-'
      · subst hc
        cases h3 : pyInt ((s.drop 5).take 2) with
        | none => simp [h1, h2, h3] at h
        | some m =>
          cases h4 : s[7]? with
          | none => simp [h1, h2, h3, h4] at h
          | some c =>
            by_cases hc : c = '-'
            · subst hc
              cases h5 : pyInt ((s.drop 8).take 2) with
              | none => simp [h1, h2, h3, h4, h5] at h
              | some a =>
                simp [h1, h2, h3, h4, h5] at h
                rw [← h]
                simp
            · simp [h1, h2, h3, h4, hc] at h
      · simp [h1, h2, hc] at h

theorem ten_chars {s : Str} (h : s.length = 10) : ∃ a b c d e f g i j k, s = [a, b, c, d, e, f, g, i, j, k] := by
  match s, h with
  | [a, b, c, d, e, f, g, i, j, k], _ => exact ⟨a, b, c, d, e, f, g, i, j, k, rfl⟩

theorem parseDate_sound {s : Str} (hs : ∀ c ∈ s, NoPlusChar c) (hl : s.length = 10) {d : Ymd} (h : parseDate s = .ok d)
    (hd : DayOk d) : DateText s d := by
  obtain ⟨a, b, c, e, f, g, i, j, k, l, rfl⟩ := ten_chars hl
  obtain ⟨h1, h2, h3, h4, h5⟩ := parseDate_ok h
  simp only [List.getElem?_cons_succ, List.getElem?_cons_zero, Option.some.injEq, List.take, List.drop] at h1 h2 h3 h4 h5
  subst h2 h4
  obtain ⟨⟨v1, v2, v3, v4⟩, v5, v6⟩ := hd
  have n1 := pyInt_noPlus (fun c hc => hs c (by simp at hc ⊢; tauto)) h1
  have n2 := pyInt_noPlus (fun c hc => hs c (by simp at hc ⊢; tauto)) h3
  have n3 := pyInt_noPlus (fun c hc => hs c (by simp at hc ⊢; tauto)) h5
  rcases n1 with ⟨n1, _⟩ | ⟨n1, _⟩
  · rcases n2 with ⟨n2, _⟩ | ⟨n2, _⟩
    · rcases n3 with ⟨n3, _⟩ | ⟨n3, _⟩
      · exact ⟨_, _, _, n1, n2, n3, rfl⟩
      · omega
    · omega
  · omega

/-! ### Times -/

theorem parseClock_text {s : Str} {t : Clock} (h : ClockText s t) : parseClock s = some t := by
  cases h with
  | hours h1 =>
    obtain ⟨a1, a2, rfl, ea⟩ := numeral_two h1
    simp [parseClock, parseTwo, ea, parseFraction]
  | minutes h1 h2 =>
    obtain ⟨a1, a2, rfl, ea⟩ := numeral_two h1
    obtain ⟨b1, b2, rfl, eb⟩ := numeral_two h2
    simp [parseClock, parseTwo, ea, eb, parseFraction]
  | seconds h1 h2 h3 =>
    obtain ⟨a1, a2, rfl, ea⟩ := numeral_two h1
    obtain ⟨b1, b2, rfl, eb⟩ := numeral_two h2
    obtain ⟨c1, c2, rfl, ec⟩ := numeral_two h3
    simp [parseClock, parseTwo, ea, eb, ec, parseFraction]
  | millis h1 h2 h3 h4 =>
    obtain ⟨a1, a2, rfl, ea⟩ := numeral_two h1
    obtain ⟨b1, b2, rfl, eb⟩ := numeral_two h2
    obtain ⟨c1, c2, rfl, ec⟩ := numeral_two h3
    simp [parseClock, parseTwo, ea, eb, ec, parseFraction, h4.1, pyInt_numeral h4]
  | micros h1 h2 h3 h4 =>
    obtain ⟨a1, a2, rfl, ea⟩ := numeral_two h1
    obtain ⟨b1, b2, rfl, eb⟩ := numeral_two h2
    obtain ⟨c1, c2, rfl, ec⟩ := numeral_two h3
    simp [parseClock, parseTwo, ea, eb, ec, parseFraction, h4.1, pyInt_numeral h4]

theorem parseClock_sound {s : Str} (hs : ∀ c ∈ s, PlainChar c) {t : Clock} (h : parseClock s = some t) : ClockText s t := by
  match s with
  | [] => simp [parseClock, parseTwo] at h
  | [a] => simp [parseClock, parseTwo] at h
  | a :: b :: s =>
    have two : ∀ x y : Char, PlainChar x → PlainChar y → ∀ v, pyInt [x, y] = some v → Numeral 2 [x, y] v := by
      intro x y hx hy v hv
      exact (pyInt_plain (by simp [hx, hy]) hv).1
    have pa := hs a (by simp)
    have pb := hs b (by simp)
    cases h1 : pyInt [a, b] with
    | none => simp [parseClock, parseTwo, h1] at h
    | some hh =>
      have n1 := two a b pa pb hh h1
      match s with
      | [] =>
        simp [parseClock, parseTwo, h1, parseFraction] at h
        subst h
        exact ClockText.hours n1
      | c :: s =>
        by_cases hc : c = ':'
        · subst hc
          match s with
          | [] => simp [parseClock, parseTwo, h1] at h
          | [d] => simp [parseClock, parseTwo, h1] at h
          | d :: e :: s =>
            have pd := hs d (by simp)
            have pe := hs e (by simp)
            cases h2 : pyInt [d, e] with
            | none => simp [parseClock, parseTwo, h1, h2] at h
            | some mm =>
              have n2 := two d e pd pe mm h2
              match s with
              | [] =>
                simp [parseClock, parseTwo, h1, h2, parseFraction] at h
                subst h
                exact ClockText.minutes n1 n2
              | f :: s =>
                by_cases hf : f = ':'
                · subst hf
                  match s with
                  | [] => simp [parseClock, parseTwo, h1, h2] at h
                  | [g] => simp [parseClock, parseTwo, h1, h2] at h
                  | g :: i :: s =>
                    have pg := hs g (by simp)
                    have pi := hs i (by simp)
                    cases h3 : pyInt [g, i] with
                    | none => simp [parseClock, parseTwo, h1, h2, h3] at h
                    | some ss =>
                      have n3 := two g i pg pi ss h3
                      match s with
                      | [] =>
                        simp [parseClock, parseTwo, h1, h2, h3, parseFraction] at h
                        subst h
                        exact ClockText.seconds n1 n2 n3
                      | k :: s =>
                        by_cases hk : k = '.'
                        · subst hk
                          have ps : ∀ c ∈ s, PlainChar c := fun c hc => hs c (by simp [hc])
                          by_cases hl : s.length = 3 ∨ s.length = 6
                          · simp [parseClock, parseTwo, h1, h2, h3, parseFraction] at h
                            rw [if_neg (by omega), if_neg (by omega), if_neg (by omega)] at h
                            simp only [Option.bind_some] at h
                            rw [if_neg (by omega)] at h
                            obtain ⟨v, h4, h5⟩ := Option.map_eq_some_iff.mp h
                            have n4 := (pyInt_plain ps h4).1
                            rw [← h5]
                            rcases hl with hl | hl
                            · rw [if_pos hl]
                              rw [hl] at n4
                              exact ClockText.millis n1 n2 n3 n4
                            · rw [if_neg (by omega)]
                              rw [hl] at n4
                              exact ClockText.micros n1 n2 n3 n4
                          · exfalso
                            simp [parseClock, parseTwo, h1, h2, h3, parseFraction] at h
                            rw [if_neg (by omega), if_neg (by omega), if_neg (by omega)] at h
                            simp only [Option.bind_some] at h
                            rw [if_pos (by omega)] at h
                            cases h
                        · simp [parseClock, parseTwo, h1, h2, h3, parseFraction, hk] at h
                · simp [parseClock, parseTwo, h1, h2, hf] at h
        · simp [parseClock, parseTwo, h1, hc] at h

theorem clockText_plain {s : Str} {t : Clock} (h : ClockText s t) : ∀ c ∈ s, PlainChar c := by
  have num : ∀ {w : Nat} {a : Str} {v : Int}, Numeral w a v → ∀ c ∈ a, PlainChar c :=
    fun n c hc => digit_plain (n.2.1 c hc)
  have c1 : PlainChar ':' := by decide
  have c2 : PlainChar '.' := by decide
  cases h with
  | hours h1 => exact num h1
  | minutes h1 h2 =>
    intro c hc
    simp only [List.mem_append, List.mem_cons] at hc
    rcases hc with hc | rfl | hc
    exacts [num h1 c hc, c1, num h2 c hc]
  | seconds h1 h2 h3 =>
    intro c hc
    simp only [List.mem_append, List.mem_cons] at hc
    rcases hc with hc | rfl | hc | rfl | hc
    exacts [num h1 c hc, c1, num h2 c hc, c1, num h3 c hc]
  | millis h1 h2 h3 h4 =>
    intro c hc
    simp only [List.mem_append, List.mem_cons] at hc
    rcases hc with hc | rfl | hc | rfl | hc | rfl | hc
    exacts [num h1 c hc, c1, num h2 c hc, c1, num h3 c hc, c2, num h4 c hc]
  | micros h1 h2 h3 h4 =>
    intro c hc
    simp only [List.mem_append, List.mem_cons] at hc
    rcases hc with hc | rfl | hc | rfl | hc | rfl | hc
    exacts [num h1 c hc, c1, num h2 c hc, c1, num h3 c hc, c2, num h4 c hc]

theorem clockText_bounds {s : Str} {t : Clock} (h : ClockText s t) :
    0 ≤ t.hour ∧ t.hour < 100 ∧ 0 ≤ t.minute ∧ t.minute < 100 ∧ 0 ≤ t.second ∧ t.second < 100 ∧
      0 ≤ t.micro ∧ t.micro < 1000000 := by
  cases h with
  | hours h1 => have := numeral_bounds h1; simp only at *; omega
  | minutes h1 h2 =>
    have := numeral_bounds h1
    have := numeral_bounds h2
    simp only at *; omega
  | seconds h1 h2 h3 =>
    have := numeral_bounds h1
    have := numeral_bounds h2
    have := numeral_bounds h3
    simp only at *; omega
  | millis h1 h2 h3 h4 =>
    have := numeral_bounds h1
    have := numeral_bounds h2
    have := numeral_bounds h3
    have := numeral_bounds h4
    simp only at *; omega
  | micros h1 h2 h3 h4 =>
    have := numeral_bounds h1
    have := numeral_bounds h2
    have := numeral_bounds h3
    have := numeral_bounds h4
    simp only at *; omega

theorem clockText_len {s : Str} {t : Clock} (h : ClockText s t) :
    2 ≤ s.length ∧ (s.length = 5 ∨ s.length = 8 ∨ s.length = 15 ∨ s.length = 2 ∨ s.length = 12) := by
  cases h with
  | hours h1 => simp [h1.1]
  | minutes h1 h2 => simp [h1.1, h2.1]
  | seconds h1 h2 h3 => simp [h1.1, h2.1, h3.1]
  | millis h1 h2 h3 h4 => simp [h1.1, h2.1, h3.1, h4.1]
  | micros h1 h2 h3 h4 => simp [h1.1, h2.1, h3.1, h4.1]

/-! ### Offsets -/

theorem mkZone_spec {o : Delta} (ho : o.Canonical) :
    mkZone o = if -86400000000 < o.total ∧ o.total < 86400000000 then some o else none := by
  have c1 : (⟨-1, 0, 1⟩ : Delta).Canonical := by decide
  have c2 : (⟨0, 86399, 999999⟩ : Delta).Canonical := by decide
  have h1 := deltaCmp_spec c1 ho
  have h2 := deltaCmp_spec ho c2
  have t1 : (⟨-1, 0, 1⟩ : Delta).total = -86399999999 := rfl
  have t2 : (⟨0, 86399, 999999⟩ : Delta).total = 86399999999 := rfl
  rw [t1] at h1
  rw [t2] at h2
  unfold IsCmp at h1 h2
  unfold mkZone
  by_cases h0 : o = ⟨0, 0, 0⟩
  · subst h0
    rw [if_pos rfl, if_pos (by decide)]
  · rw [if_neg h0]
    by_cases h : -86400000000 < o.total ∧ o.total < 86400000000
    · rw [if_pos h, if_pos (by omega)]
    · rw [if_neg h, if_neg (by omega)]

theorem canonical_zero {o : Delta} (ho : o.Canonical) (h : o.total = 0) : o = ⟨0, 0, 0⟩ :=
  canonical_unique ho (by decide) h

theorem parseZone_some {sign : Char} {z : Str} {o : Delta} (h : parseZone sign z = some o) : OffsetOk o := by
  unfold parseZone at h
  split at h
  · cases h
  · cases hp : parseClock z with
    | none => simp [hp] at h
    | some t =>
      simp only [hp, Option.bind_some] at h
      split at h
      · cases h
        decide
      · cases hm : mkDelta 0 t.second t.micro 0 t.minute t.hour 0 with
        | none => simp [hm] at h
        | some td =>
          simp only [hm, Option.bind_some] at h
          generalize (if sign = '-' then (-1 : Int) else 1) = k at h
          cases hk : deltaMul td k with
          | none => simp [hk] at h
          | some td' =>
            simp only [hk, Option.bind_some] at h
            have c : td'.Canonical := by
              unfold deltaMul at hk
              have sp := delta3_spec (td.days * k) (td.seconds * k) (td.micros * k)
              by_cases hr : InRange ((td.days * k * 86400 + td.seconds * k) * 1000000 + td.micros * k)
              · obtain ⟨t', e, c, _⟩ := sp.1 hr
                rw [hk] at e
                cases e
                exact c
              · rw [sp.2 hr] at hk
                cases hk
            rw [mkZone_spec c] at h
            split at h
            · rename_i hb
              cases h
              exact ⟨c, hb⟩
            · cases h

/-- The zone read from the text of a clock. -/
theorem parseZone_clock {sign : Char} {z : Str} {t : Clock} (hz : ClockText z t)
    (hl : z.length = 5 ∨ z.length = 8 ∨ z.length = 15) :
    ∃ o : Delta, o.Canonical ∧ o.total = (if sign = '-' then -t.total else t.total) ∧
      parseZone sign z = if -86400000000 < o.total ∧ o.total < 86400000000 then some o else none := by
  obtain ⟨b1, b2, b3, b4, b5, b6, b7, b8⟩ := clockText_bounds hz
  unfold parseZone
  rw [if_neg (show ¬ ¬ (z.length = 5 ∨ z.length = 8 ∨ z.length = 15) from fun h => h hl), parseClock_text hz]
  simp only [Option.bind_some]
  by_cases h0 : t = ⟨0, 0, 0, 0⟩
  · subst h0
    rw [if_pos rfl]
    refine ⟨⟨0, 0, 0⟩, by decide, ?_, ?_⟩
    · split <;> rfl
    · rw [if_pos (by decide)]
  · rw [if_neg h0]
    have sp := mkDelta_spec 0 t.second t.micro 0 t.minute t.hour 0
    simp only at sp
    have tot : ((0 + 0 * 7) * 86400 + t.second + (t.minute * 60 + t.hour * 3600)) * 1000000 + (t.micro + 0 * 1000) =
        t.total := by
      unfold Clock.total; ring
    rw [tot] at sp
    have tb : 0 ≤ t.total ∧ t.total < 1000000000000 := by
      unfold Clock.total; omega
    obtain ⟨td, e1, c1, v1⟩ := sp.1 (by unfold InRange; omega)
    rw [e1]
    simp only [Option.bind_some]
    obtain ⟨k, hk⟩ : ∃ k, k = (if sign = '-' then (-1 : Int) else 1) := ⟨_, rfl⟩
    have hkt : (if sign = '-' then -t.total else t.total) = td.total * k := by
      rw [hk, v1]
      split <;> ring
    have kb : -1000000000000 < td.total * k ∧ td.total * k < 1000000000000 := by
      rw [← hkt, ]
      split <;> omega
    rw [← hk, hkt]
    have sp := delta3_spec (td.days * k) (td.seconds * k) (td.micros * k)
    have tot : (td.days * k * 86400 + td.seconds * k) * 1000000 + td.micros * k = td.total * k := by
      unfold Delta.total; ring
    rw [tot] at sp
    obtain ⟨o, e2, c2, v2⟩ := sp.1 (by unfold InRange; omega)
    refine ⟨o, c2, v2, ?_⟩
    show (delta3 (td.days * k) (td.seconds * k) (td.micros * k)).bind mkZone = _
    rw [e2]
    exact mkZone_spec c2

/-! ### Finding the sign -/

theorem find_none {c : Char} {s : Str} (h : c ∉ s) : find c s = none := by
  unfold find
  rw [List.findIdx?_eq_none_iff]
  intro x hx
  simp only [decide_eq_false_iff_not]
  rintro rfl
  exact h hx

theorem find_append {c : Char} {s z : Str} (h : c ∉ s) : find c (s ++ c :: z) = some s.length := by
  unfold find
  induction s with
  | nil => simp [List.findIdx?_cons]
  | cons x s ih =>
    have hx : x ≠ c := by rintro rfl; simp at h
    rw [List.cons_append, List.findIdx?_cons]
    simp only [hx, decide_false, Bool.false_eq_true, if_false]
    rw [ih (fun hc => h (by simp [hc]))]
    simp

theorem plain_no_sign {s : Str} (h : ∀ c ∈ s, PlainChar c) : '-' ∉ s ∧ '+' ∉ s :=
  ⟨fun hc => (h _ hc).2.2.2.2 rfl, fun hc => (h _ hc).2.2.2.1 rfl⟩

theorem parseTime_naive {s : Str} (h : ∀ c ∈ s, PlainChar c) :
    parseTime s = (parseClock s).map fun t => ⟨t, none⟩ := by
  unfold parseTime
  obtain ⟨h1, h2⟩ := plain_no_sign h
  split
  · rename_i hl
    have : parseClock s = none := by
      unfold parseClock parseTwo
      rw [if_pos (by omega)]
      rfl
    rw [this]
    rfl
  · rw [find_none h1, find_none h2]
    rfl

theorem parseTime_aware {s z : Str} {sign : Char} (h : ∀ c ∈ s, PlainChar c) (hz : ∀ c ∈ z, PlainChar c)
    (hsg : sign = '+' ∨ sign = '-') :
    parseTime (s ++ sign :: z) =
      (parseClock s).bind fun t => (parseZone sign z).map fun o => ⟨t, some o⟩ := by
  obtain ⟨h1, h2⟩ := plain_no_sign h
  obtain ⟨z1, z2⟩ := plain_no_sign hz
  have hf : (find '-' (s ++ sign :: z)).or (find '+' (s ++ sign :: z)) = some s.length := by
    rcases hsg with rfl | rfl
    · rw [find_none (c := '-'), find_append h2]
      · rfl
      · simp [h1, z1]
    · rw [find_append h1]
      rfl
  unfold parseTime
  by_cases hl : (s ++ sign :: z).length < 2
  · rw [if_pos hl]
    rw [List.length_append, List.length_cons] at hl
    have : parseClock s = none := by
      unfold parseClock parseTwo
      rw [if_pos (by omega)]
      rfl
    rw [this]
    rfl
  · rw [if_neg hl, hf]
    simp only
    rw [List.take_left' rfl]
    have e1 : (s ++ sign :: z).getD s.length ' ' = sign := by
      rw [List.getD_eq_getElem?_getD, List.getElem?_append_right (le_refl _)]
      simp
    have e2 : (s ++ sign :: z).drop (s.length + 1) = z := by
      rw [List.drop_append]
      simp
    rw [e1, e2]

theorem mkClock_spec (t : Clock) : mkClock t = if t.Valid then some t else none := by
  unfold mkClock
  by_cases hv : t.Valid
  · rw [if_pos hv]
    unfold Clock.Valid at hv
    rw [if_neg (by omega), if_neg (by omega), if_neg (by omega), if_neg (by omega)]
  · rw [if_neg hv]
    unfold Clock.Valid at hv
    split
    · rfl
    · split
      · rfl
      · split
        · rfl
        · split
          · rfl
          · exfalso
            omega

end Verif.DateText
