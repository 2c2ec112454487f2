import Verif.Dates.Lemmas
import Verif.Dates.TimeSpec
import Mathlib.Tactic.Ring
/-
Helper lemmas about durations, ISO weeks and times.
-/
namespace Verif.Dates

theorem mkDelta_spec (days seconds micros millis minutes hours weeks : Int) :
    let T := ((days + weeks * 7) * 86400 + seconds + (minutes * 60 + hours * 3600)) * 1000000 +
      (micros + millis * 1000)
    (InRange T → ∃ t, mkDelta days seconds micros millis minutes hours weeks = some t ∧ t.Canonical ∧ t.total = T) ∧
    (¬ InRange T → mkDelta days seconds micros millis minutes hours weeks = none) := by
  unfold mkDelta
  simp only
  rw [fdiv_lit _ (by omega), fmod_lit _ (by omega)]
  obtain ⟨d, hd⟩ : ∃ d, d = days + weeks * 7 := ⟨_, rfl⟩
  obtain ⟨s, hs⟩ : ∃ s, s = seconds + (minutes * 60 + hours * 3600) := ⟨_, rfl⟩
  obtain ⟨u, hu⟩ : ∃ u, u = micros + millis * 1000 := ⟨_, rfl⟩
  rw [← hd, ← hs, ← hu]
  rw [show (d * 86400 + seconds + (minutes * 60 + hours * 3600)) = d * 86400 + s by omega]
  clear hd hs hu
  have h1 : (if ¬ (0 ≤ u ∧ u < 1000000) then (s + u / 1000000, u % 1000000) else (s, u)) =
      (s + u / 1000000, u % 1000000) := by
    split
    · rfl
    · rw [show u / 1000000 = 0 by omega, show u % 1000000 = u by omega, add_zero]
  rw [h1]
  simp only
  obtain ⟨s', hs'⟩ : ∃ s', s' = s + u / 1000000 := ⟨_, rfl⟩
  rw [← hs']
  rw [fdiv_lit _ (by omega), fmod_lit _ (by omega)]
  have h2 : (if ¬ (0 ≤ s' ∧ s' < 24 * 3600) then (d + s' / (24 * 3600), s' % (24 * 3600)) else (d, s')) =
      (d + s' / 86400, s' % 86400) := by
    split
    · rfl
    · rw [show s' / 86400 = 0 by omega, show s' % 86400 = s' by omega, add_zero]
  rw [h2]
  simp only
  unfold InRange
  refine ⟨fun h => ?_, fun h => ?_⟩
  · rw [if_neg (by omega)]
    refine ⟨_, rfl, ⟨?_, ?_, ?_, ?_, ?_, ?_⟩, ?_⟩ <;> simp only [Delta.total] <;> omega
  · rw [if_pos (by omega)]

theorem delta3_spec (days seconds micros : Int) :
    (InRange ((days * 86400 + seconds) * 1000000 + micros) →
      ∃ t, delta3 days seconds micros = some t ∧ t.Canonical ∧
        t.total = (days * 86400 + seconds) * 1000000 + micros) ∧
    (¬ InRange ((days * 86400 + seconds) * 1000000 + micros) → delta3 days seconds micros = none) := by
  have h := mkDelta_spec days seconds micros 0 0 0 0
  simp only [zero_mul, add_zero] at h
  exact h

theorem canonical_unique {a b : Delta} (ha : a.Canonical) (hb : b.Canonical) (h : a.total = b.total) : a = b := by
  obtain ⟨d, s, u⟩ := a
  obtain ⟨d', s', u'⟩ := b
  unfold Delta.Canonical Delta.total at *
  simp only at *
  rw [Delta.mk.injEq]
  omega

theorem computes_delta3 {days seconds micros us : Int} (h : (days * 86400 + seconds) * 1000000 + micros = us) :
    Computes (delta3 days seconds micros) us := by
  subst h
  obtain ⟨h1, h2⟩ := delta3_spec days seconds micros
  by_cases hr : InRange ((days * 86400 + seconds) * 1000000 + micros)
  · exact .inl ⟨hr, h1 hr⟩
  · exact .inr ⟨hr, h2 hr⟩

theorem toMicros_eq (t : Delta) : toMicros t = t.total := by
  unfold toMicros Delta.total; omega

theorem divideAndRound_spec (a b : Int) (hb : b ≠ 0) : RoundsTo a b (divideAndRound a b) := by
  unfold divideAndRound RoundsTo
  simp only
  have hd : b * (a.fdiv b) + a.fmod b = a := Int.mul_fdiv_add_fmod a b
  obtain ⟨q, hq⟩ : ∃ q, q = a.fdiv b := ⟨_, rfl⟩
  obtain ⟨r, hr⟩ : ∃ r, r = a.fmod b := ⟨_, rfl⟩
  rw [← hq, ← hr] at hd ⊢
  have e1 : a - q * b = r := by rw [← hd]; ring
  have e2 : a - (q + 1) * b = r - b := by rw [← hd]; ring
  have hmod : q.fmod 2 = q % 2 := fmod_lit _ (by omega)
  rw [hmod]
  rcases Int.lt_or_gt_of_ne hb with hneg | hpos
  · have hr1 : b < r ∧ r ≤ 0 := by
      rw [hr]
      have h2 := Int.emod_nonneg (-a) (show -b ≠ 0 by omega)
      have h3 := Int.emod_lt_of_pos (-a) (show 0 < -b by omega)
      have h4 : a.fmod b = - ((-a).fmod (-b)) := by
        have := Int.neg_fmod_neg a b
        omega
      rw [h4, fmod_lit _ (by omega)]
      omega
    rw [if_neg (show ¬ b > 0 by omega)]
    split
    · rename_i h
      rw [e2]
      simp only [Bool.or_eq_true, Bool.and_eq_true, decide_eq_true_iff] at h
      omega
    · rename_i h
      rw [e1]
      simp only [Bool.or_eq_true, Bool.and_eq_true, decide_eq_true_iff] at h
      omega
  · have hr1 : 0 ≤ r ∧ r < b := by
      rw [hr, fmod_lit _ (by omega)]
      exact ⟨Int.emod_nonneg _ (by omega), Int.emod_lt_of_pos _ hpos⟩
    rw [if_pos (show b > 0 by omega)]
    split
    · rename_i h
      rw [e2]
      simp only [Bool.or_eq_true, Bool.and_eq_true, decide_eq_true_iff] at h
      omega
    · rename_i h
      rw [e1]
      simp only [Bool.or_eq_true, Bool.and_eq_true, decide_eq_true_iff] at h
      omega

theorem deltaCmp_spec {a b : Delta} (ha : a.Canonical) (hb : b.Canonical) :
    IsCmp (a.total < b.total) (b.total < a.total) (deltaCmp a b) := by
  unfold deltaCmp
  refine isCmp_congr (cmp_spec _ _ rfl) ?_ ?_
  · simp only [Lex, and_false, or_false]
    unfold Delta.Canonical at ha hb
    unfold Delta.total
    omega
  · simp only [Lex, and_false, or_false]
    unfold Delta.Canonical at ha hb
    unfold Delta.total
    omega

/-! ### ISO weeks -/

/-- The first day of a year. -/
def jan1 (y : Int) : Int := daysBeforeYear y + 1

theorem jan1_succ (y : Int) : jan1 (y + 1) = jan1 y + 365 + lp y := by
  unfold jan1; rw [daysBeforeYear_succ]; omega

theorem lp_bounds (y : Int) : 0 ≤ lp y ∧ lp y ≤ 1 := by unfold lp; split <;> omega

theorem w1m_spec (y : Int) : isoweek1monday y % 7 = 1 ∧ jan1 y - 3 ≤ isoweek1monday y ∧ isoweek1monday y ≤ jan1 y + 3 := by
  unfold isoweek1monday
  simp only
  rw [daysBeforeMonth_eq ⟨by omega, by omega⟩, dbm_first, fmod_lit _ (by omega)]
  unfold jan1
  split <;> omega

/-- The ISO week of day number `n`, by its Thursday. -/
def IsoWeek (n Y W D : Int) : Prop :=
  1 ≤ D ∧ D ≤ 7 ∧ (n - D) % 7 = 0 ∧ jan1 Y ≤ n - D + 4 ∧ n - D + 4 < jan1 (Y + 1) ∧ W = (n - D + 4 - jan1 Y) / 7 + 1

theorem jan1_mono {y y' : Int} (h : y < y') : jan1 (y + 1) ≤ jan1 y' := by
  rcases Int.lt_or_eq_of_le (show y + 1 ≤ y' by omega) with h | h
  · have := year_mono h
    have := lp_bounds (y + 1)
    unfold jan1; omega
  · rw [h]

theorem isoWeek_unique {n Y W D Y' W' D' : Int} (h : IsoWeek n Y W D) (h' : IsoWeek n Y' W' D') :
    Y = Y' ∧ W = W' ∧ D = D' := by
  obtain ⟨a1, a2, a3, a4, a5, a6⟩ := h
  obtain ⟨b1, b2, b3, b4, b5, b6⟩ := h'
  have hD : D = D' := by omega
  subst hD
  have hY : Y = Y' := by
    rcases Int.lt_trichotomy Y Y' with h | h | h
    · have := jan1_mono h; omega
    · exact h
    · have := jan1_mono h; omega
  subst hY
  exact ⟨rfl, by omega, rfl⟩

theorem isocalendar_isoWeek {d : Ymd} (h : d.Valid) :
    ∃ Y W D, isocalendar d = some (Y, W, D) ∧ IsoWeek (ordOf d) Y W D := by
  have hb := dbm_bounds ⟨h.1, h.2.1⟩ ⟨h.2.2.1, h.2.2.2⟩
  have hn : jan1 d.year ≤ ordOf d ∧ ordOf d < jan1 (d.year + 1) := by
    rw [jan1_succ]; unfold ordOf jan1; omega
  unfold isocalendar
  rw [ymd2ord_valid h, Option.map_some]
  simp only
  obtain ⟨n, hN⟩ : ∃ n, n = ordOf d := ⟨_, rfl⟩
  obtain ⟨y, hy⟩ : ∃ y, y = d.year := ⟨_, rfl⟩
  rw [← hN, ← hy] at hn ⊢
  clear hb
  obtain ⟨w1, w2, w3⟩ := w1m_spec y
  obtain ⟨v1, v2, v3⟩ := w1m_spec (y - 1)
  obtain ⟨u1, u2, u3⟩ := w1m_spec (y + 1)
  have j1 := jan1_succ y
  have j2 := jan1_succ (y - 1)
  have j3 := jan1_succ (y + 1)
  rw [show y - 1 + 1 = y by omega] at j2
  have l1 := lp_bounds y
  have l2 := lp_bounds (y - 1)
  have l3 := lp_bounds (y + 1)
  rw [fdiv_lit _ (by omega), fmod_lit _ (by omega), fdiv_lit _ (by omega), fmod_lit _ (by omega)]
  split
  · refine ⟨_, _, _, rfl, ?_⟩
    unfold IsoWeek
    rw [show y - 1 + 1 = y by omega]
    omega
  · split
    · split
      · refine ⟨_, _, _, rfl, ?_⟩
        unfold IsoWeek
        omega
      · refine ⟨_, _, _, rfl, ?_⟩
        unfold IsoWeek
        omega
    · refine ⟨_, _, _, rfl, ?_⟩
      unfold IsoWeek
      omega

theorem mkDate_spec (d : Ymd) : mkDate d = if d.Valid ∧ 1 ≤ d.year ∧ d.year ≤ 9999 then some d else none := by
  unfold mkDate
  by_cases hy : 1 ≤ d.year ∧ d.year ≤ 9999
  · by_cases hm : 1 ≤ d.month ∧ d.month ≤ 12
    · rw [if_neg (not_not.mpr hy), if_neg (not_not.mpr hm), daysInMonth_eq hm]
      by_cases hd : 1 ≤ d.day ∧ d.day ≤ monthLen d.year d.month
      · rw [if_neg (not_not.mpr hd), if_pos ⟨⟨hm.1, hm.2, hd.1, hd.2⟩, hy⟩]
      · rw [if_pos hd, if_neg (fun h => hd ⟨h.1.2.2.1, h.1.2.2.2⟩)]
    · rw [if_neg (not_not.mpr hy), if_pos hm, if_neg (fun h => hm ⟨h.1.1, h.1.2.1⟩)]
  · rw [if_pos hy, if_neg (fun h => hy h.2)]

theorem year_of {d : Ymd} (h : d.Valid) {y : Int} (h1 : jan1 y ≤ ordOf d) (h2 : ordOf d < jan1 (y + 1)) : d.year = y := by
  have hb := dbm_bounds ⟨h.1, h.2.1⟩ ⟨h.2.2.1, h.2.2.2⟩
  have hn : jan1 d.year ≤ ordOf d ∧ ordOf d < jan1 (d.year + 1) := by
    rw [jan1_succ]; unfold ordOf jan1; omega
  rcases Int.lt_trichotomy d.year y with h | h | h
  · have := jan1_mono h; omega
  · exact h
  · have := jan1_mono h; omega

theorem date_range {d : Ymd} (h : d.Valid) : (1 ≤ d.year ∧ d.year ≤ 9999) ↔ (1 ≤ ordOf d ∧ ordOf d ≤ maxOrdinal) := by
  have hb := dbm_bounds ⟨h.1, h.2.1⟩ ⟨h.2.2.1, h.2.2.2⟩
  have hn : jan1 d.year ≤ ordOf d ∧ ordOf d < jan1 (d.year + 1) := by
    rw [jan1_succ]; unfold ordOf jan1; omega
  have j1 : jan1 1 = 1 := by decide
  have j2 : jan1 10000 = 3652060 := by decide
  unfold maxOrdinal
  constructor
  · rintro ⟨h1, h2⟩
    have a : jan1 1 ≤ jan1 d.year := by
      rcases Int.lt_or_eq_of_le h1 with h | h
      · have := jan1_mono h; have := jan1_succ 1; have := lp_bounds 1; omega
      · rw [h]
    have b := jan1_mono (show d.year < 10000 by omega)
    omega
  · rintro ⟨h1, h2⟩
    refine ⟨?_, ?_⟩
    · by_contra hc
      have := jan1_mono (show d.year < 1 by omega)
      omega
    · by_contra hc
      rcases Int.lt_or_eq_of_le (show (10000 : Int) ≤ d.year by omega) with h | h
      · have := jan1_mono h; have := jan1_succ 10000; have := lp_bounds 10000; omega
      · rw [← h] at hn; omega

theorem fromisocalendar_spec (y w dd : Int) (r : Ymd) :
    fromisocalendar y w dd = some r ↔
      r.Valid ∧ (1 ≤ r.year ∧ r.year ≤ 9999) ∧ (1 ≤ y ∧ y ≤ 9999) ∧ IsoWeek (ordOf r) y w dd := by
  obtain ⟨w1, w2, w3⟩ := w1m_spec y
  have j1 := jan1_succ y
  have l1 := lp_bounds y
  have hw1m : isoweek1monday y = jan1 y - (jan1 y + 6) % 7 + (if (jan1 y + 6) % 7 > 3 then 7 else 0) := by
    unfold isoweek1monday
    simp only
    rw [daysBeforeMonth_eq ⟨by omega, by omega⟩, dbm_first, fmod_lit _ (by omega)]
    unfold jan1
    rw [add_zero]
    split <;> omega
  have hfd : daysBeforeYear y + daysBeforeMonth y 1 + 1 = jan1 y := by
    rw [daysBeforeMonth_eq ⟨by omega, by omega⟩, dbm_first]; unfold jan1; omega
  have hleap : isLeap y = true ↔ lp y = 1 := by
    rw [isLeap_eq, decide_eq_true_iff]
    unfold lp
    split <;> simp_all
  unfold fromisocalendar
  simp only
  simp only [hfd, fmod_lit _ (show (0 : Int) ≤ 7 by omega), hleap]
  constructor
  · intro h
    split at h
    · simp at h
    · rename_i hy
      split at h
      · simp at h
      · rename_i hw
        split at h
        · simp at h
        · rename_i hd
          obtain ⟨d, h1, h2, h3⟩ := ord2ymd_spec (isoweek1monday y + ((w - 1) * 7 + (dd - 1)))
          rw [h1, Option.bind_some, mkDate_spec] at h
          split at h
          · rename_i hv
            simp only [Option.some.injEq] at h
            subst h
            refine ⟨h2, hv.2, not_not.mp hy, ?_⟩
            rw [h3]
            unfold IsoWeek
            split at hw1m <;> omega
          · simp at h
  · rintro ⟨hv, hr, hy, hiso⟩
    unfold IsoWeek at hiso
    rw [if_neg (not_not.mpr hy), if_neg (by split at hw1m <;> omega), if_neg (by omega)]
    have : isoweek1monday y + ((w - 1) * 7 + (dd - 1)) = ordOf r := by split at hw1m <;> omega
    rw [this]
    obtain ⟨d, h1, h2, h3⟩ := ord2ymd_spec (ordOf r)
    rw [h1, Option.bind_some, ordOf_inj h2 hv h3, mkDate_spec, if_pos ⟨hv, hr⟩]

/-! ### Times -/

theorem dtAdd_spec {a : DT} (ha : a.Ok) (t : Delta) :
    let w := a.wall + t.total
    (86400000000 ≤ w ∧ w < (maxOrdinal + 1) * 86400000000 →
      ∃ r, dtAdd a t = some r ∧ r.Ok ∧ r.wall = w ∧ r.tz = a.tz) ∧
    (¬ (86400000000 ≤ w ∧ w < (maxOrdinal + 1) * 86400000000) → dtAdd a t = none) := by
  obtain ⟨hv, hz⟩ := ha
  have hv' := hv
  unfold DT.Valid at hv
  unfold maxOrdinal at hv
  obtain ⟨m1, m2⟩ := mkDelta_spec a.ord a.second a.micro 0 a.minute a.hour 0
  simp only [zero_mul, add_zero] at m1 m2
  have hr : InRange ((a.ord * 86400 + a.second + (a.minute * 60 + a.hour * 3600)) * 1000000 + a.micro) := by
    unfold InRange; omega
  obtain ⟨e, he, ce, te⟩ := m1 hr
  have te' : e.total = a.wall := by rw [te]; unfold DT.wall; omega
  obtain ⟨s1, s2⟩ := delta3_spec (e.days + t.days) (e.seconds + t.seconds) (e.micros + t.micros)
  have hT : ((e.days + t.days) * 86400 + (e.seconds + t.seconds)) * 1000000 + (e.micros + t.micros) =
      a.wall + t.total := by
    rw [← te']; unfold Delta.total; omega
  rw [hT] at s1 s2
  simp only
  unfold dtAdd
  rw [he, Option.bind_some]
  unfold deltaAdd
  have hwall : a.wall < 3652060 * 86400000000 := by unfold DT.wall; omega
  by_cases hin : InRange (a.wall + t.total)
  · obtain ⟨f, hf, cf, tf⟩ := s1 hin
    rw [hf, Option.bind_some]
    simp only
    rw [fdiv_lit _ (by omega), fmod_lit _ (by omega), fdiv_lit _ (by omega), fmod_lit _ (by omega)]
    unfold Delta.Canonical at cf
    unfold maxOrdinal
    have tf' : (f.days * 86400 + f.seconds) * 1000000 + f.micros = a.wall + t.total := tf
    constructor
    · intro hw
      rw [← tf'] at hw
      rw [if_pos (by omega)]
      refine ⟨_, rfl, ⟨?_, ?_⟩, ?_, rfl⟩
      · unfold DT.Valid maxOrdinal
        simp only
        omega
      · intro i z hiz
        exact hz i z hiz
      · rw [show a.wall + t.total = (f.days * 86400 + f.seconds) * 1000000 + f.micros from tf'.symm]
        unfold DT.wall
        simp only
        omega
    · intro hw
      rw [← tf'] at hw
      rw [if_neg (by omega)]
  · rw [s2 hin]
    unfold InRange at hin
    unfold maxOrdinal
    refine ⟨fun hw => ?_, fun _ => rfl⟩
    omega

theorem dtSub_spec {a b : DT} (ha : a.Ok) (hb : b.Ok) (hs : SameTz a b) :
    (a.tz.isSome = b.tz.isSome → ∃ t, dtSub a b = .ok t ∧ t.Canonical ∧
      t.total = (a.wall - a.offset) - (b.wall - b.offset)) ∧
    (a.tz.isSome ≠ b.tz.isSome → dtSub a b = .typeError) := by
  obtain ⟨hva, hza⟩ := ha
  obtain ⟨hvb, hzb⟩ := hb
  unfold DT.Valid maxOrdinal at hva hvb
  have e1 : ((a.ord - b.ord) * 86400 + (a.second + a.minute * 60 + a.hour * 3600 - (b.second + b.minute * 60 + b.hour * 3600))) *
      1000000 + (a.micro - b.micro) = a.wall - b.wall := by unfold DT.wall; omega
  obtain ⟨s1, _⟩ := delta3_spec (a.ord - b.ord)
    (a.second + a.minute * 60 + a.hour * 3600 - (b.second + b.minute * 60 + b.hour * 3600)) (a.micro - b.micro)
  rw [e1] at s1
  have hwa : 0 ≤ a.wall ∧ a.wall < 3652060 * 86400000000 := by unfold DT.wall; omega
  have hwb : 0 ≤ b.wall ∧ b.wall < 3652060 * 86400000000 := by unfold DT.wall; omega
  obtain ⟨t, ht, ct, tt⟩ := s1 (by unfold InRange; omega)
  unfold dtSub
  simp only [ht]
  cases haz : a.tz with
  | none =>
    cases hbz : b.tz with
    | none =>
      simp only [Option.map_none, if_true, orOverflow, Option.map_some, Option.getD_some, Option.isSome_none]
      refine ⟨fun _ => ⟨t, rfl, ct, ?_⟩, fun h => absurd rfl h⟩
      rw [tt]
      unfold DT.offset
      rw [haz, hbz]
      simp
    | some zb => simp
  | some za =>
    obtain ⟨i, x⟩ := za
    cases hbz : b.tz with
    | none => simp
    | some zb =>
      obtain ⟨j, y⟩ := zb
      have hx := hza i x haz
      have hy := hzb j y hbz
      have hoa : a.offset = x.total := by unfold DT.offset; rw [haz]; rfl
      have hob : b.offset = y.total := by unfold DT.offset; rw [hbz]; rfl
      rw [hoa, hob]
      simp only [Option.map_some, Option.some.injEq, Option.isSome_some, ne_eq, not_true_eq_false,
        false_implies, and_true, forall_const]
      split
      · rename_i hij
        subst hij
        have := hs i x y haz hbz
        subst this
        exact ⟨t, rfl, ct, by rw [tt]; omega⟩
      · split
        · rename_i hxy
          subst hxy
          exact ⟨t, rfl, ct, by rw [tt]; omega⟩
        · simp only [Option.bind_some]
          obtain ⟨p1, _⟩ := delta3_spec (t.days + y.days) (t.seconds + y.seconds) (t.micros + y.micros)
          have f1 : ((t.days + y.days) * 86400 + (t.seconds + y.seconds)) * 1000000 + (t.micros + y.micros) =
              a.wall - b.wall + y.total := by rw [← tt]; unfold Delta.total; omega
          rw [f1] at p1
          obtain ⟨e, he, ce, te⟩ := p1 (by unfold InRange; omega)
          obtain ⟨q1, _⟩ := delta3_spec (e.days - x.days) (e.seconds - x.seconds) (e.micros - x.micros)
          have f2 : ((e.days - x.days) * 86400 + (e.seconds - x.seconds)) * 1000000 + (e.micros - x.micros) =
              a.wall - b.wall + y.total - x.total := by rw [← te]; unfold Delta.total; omega
          rw [f2] at q1
          obtain ⟨g, hg, cg, tg⟩ := q1 (by unfold InRange; omega)
          refine ⟨g, ?_, cg, by rw [tg]; omega⟩
          unfold deltaAdd deltaSub
          rw [he, Option.bind_some, hg]
          rfl

theorem wall_lex {a b : DT} (ha : a.Valid) (hb : b.Valid) :
    Lex [a.ord, a.hour, a.minute, a.second, a.micro] [b.ord, b.hour, b.minute, b.second, b.micro] ↔
      a.wall < b.wall := by
  unfold DT.Valid at ha hb
  simp only [Lex, and_false, or_false]
  unfold DT.wall
  omega

theorem dtCmp_spec {a b : DT} (ha : a.Ok) (hb : b.Ok) (hs : SameTz a b) :
    (a.tz.isSome = b.tz.isSome → ∃ c, dtCmp a b = .ok c ∧
      IsCmp (a.wall - a.offset < b.wall - b.offset) (b.wall - b.offset < a.wall - a.offset) c) ∧
    (a.tz.isSome ≠ b.tz.isSome → dtCmp a b = .typeError) := by
  obtain ⟨s1, s2⟩ := dtSub_spec ha hb hs
  have base := cmp_spec [a.ord, a.hour, a.minute, a.second, a.micro] [b.ord, b.hour, b.minute, b.second, b.micro] rfl
  have hbase : ∀ o : Int, a.offset = o → b.offset = o →
      IsCmp (a.wall - a.offset < b.wall - b.offset) (b.wall - b.offset < a.wall - a.offset)
        (cmp [a.ord, a.hour, a.minute, a.second, a.micro] [b.ord, b.hour, b.minute, b.second, b.micro]) := by
    intro o h1 h2
    refine isCmp_congr base ?_ ?_
    · rw [wall_lex ha.1 hb.1, h1, h2]; omega
    · rw [wall_lex hb.1 ha.1, h1, h2]; omega
  unfold dtCmp
  simp only
  cases haz : a.tz with
  | none =>
    cases hbz : b.tz with
    | none =>
      simp only [Option.map_none, if_true]
      refine ⟨fun _ => ⟨_, rfl, hbase 0 ?_ ?_⟩, fun h => absurd rfl h⟩
      · unfold DT.offset; rw [haz]; rfl
      · unfold DT.offset; rw [hbz]; rfl
    | some zb => simp
  | some za =>
    obtain ⟨i, x⟩ := za
    cases hbz : b.tz with
    | none => simp
    | some zb =>
      obtain ⟨j, y⟩ := zb
      have hoa : a.offset = x.total := by unfold DT.offset; rw [haz]; rfl
      have hob : b.offset = y.total := by unfold DT.offset; rw [hbz]; rfl
      simp only [Option.map_some, Option.some.injEq, Option.isSome_some, ne_eq, not_true_eq_false,
        false_implies, and_true, forall_const]
      split
      · rename_i hij
        subst hij
        have := hs i x y haz hbz
        subst this
        exact ⟨_, rfl, hbase _ hoa hob⟩
      · split
        · rename_i hxy
          subst hxy
          exact ⟨_, rfl, hbase _ hoa hob⟩
        · obtain ⟨t, ht, ct, tt⟩ := s1 (by rw [haz, hbz]; rfl)
          rw [ht]
          simp only
          unfold Delta.Canonical at ct
          unfold Delta.total at tt
          unfold IsCmp
          split
          · exact ⟨_, rfl, by omega⟩
          · split
            · exact ⟨_, rfl, by omega⟩
            · exact ⟨_, rfl, by omega⟩

end Verif.Dates
