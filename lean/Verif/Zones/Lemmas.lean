import Verif.Dates.Deltas
import Verif.Zones.Model

/-! Helper lemmas about moments. -/

namespace Verif.Zones

open Verif.Dates

theorem reading_unique {a b : Reading} (ha : a.Valid) (hb : b.Valid) (h : a.wall = b.wall) (hf : a.fold = b.fold) :
    a = b := by
  obtain ⟨o, hh, mm, ss, us, f⟩ := a
  obtain ⟨o', hh', mm', ss', us', f'⟩ := b
  unfold Reading.Valid Reading.wall at *
  simp only at *
  rw [Reading.mk.injEq]
  refine ⟨?_, ?_, ?_, ?_, ?_, hf⟩ <;> omega

theorem fits_of_valid {c : Reading} (h : c.Valid) : Fits c.wall := by
  unfold Reading.Valid at h; unfold Fits Reading.wall; omega

theorem add_spec {m : Moment} (h : m.clock.Valid) (t : Delta) :
    (Fits (m.clock.wall + t.total) →
      ∃ c : Reading, m.add t = .ok ⟨c, m.tz⟩ ∧ c.Valid ∧ c.wall = m.clock.wall + t.total ∧ c.fold = false) ∧
    (¬ Fits (m.clock.wall + t.total) → m.add t = .error .overflow) := by
  have hok : DT.Ok ⟨m.clock.ord, m.clock.hour, m.clock.minute, m.clock.second, m.clock.micro, none⟩ :=
    ⟨h, fun i z hz => by simp at hz⟩
  obtain ⟨h1, h2⟩ := dtAdd_spec hok t
  have hw : DT.wall ⟨m.clock.ord, m.clock.hour, m.clock.minute, m.clock.second, m.clock.micro, none⟩ = m.clock.wall := rfl
  rw [hw] at h1 h2
  unfold maxOrdinal at h1 h2
  unfold Moment.add
  refine ⟨fun hf => ?_, fun hf => ?_⟩
  · obtain ⟨r, hr, ok, wr, _⟩ := h1 hf
    rw [hr]
    exact ⟨⟨r.ord, r.hour, r.minute, r.second, r.micro, false⟩, rfl, ok.1, wr, rfl⟩
  · rw [h2 hf]

theorem neg_spec {t : Delta} (h : OffsetOk t) : ∃ r, deltaNeg t = some r ∧ OffsetOk r ∧ r.total = -t.total := by
  obtain ⟨s1, _⟩ := delta3_spec (-t.days) (-t.seconds) (-t.micros)
  have he : (-t.days * 86400 + -t.seconds) * 1000000 + -t.micros = -t.total := by unfold Delta.total; omega
  rw [he] at s1
  obtain ⟨r, hr, cr, tr⟩ := s1 (by unfold InRange; have := h.2; omega)
  exact ⟨r, hr, ⟨cr, by rw [tr]; have := h.2; omega⟩, tr⟩

theorem subDelta_spec {m : Moment} (h : m.clock.Valid) {t : Delta} (ht : OffsetOk t) :
    (Fits (m.clock.wall - t.total) →
      ∃ c : Reading, m.subDelta t = .ok ⟨c, m.tz⟩ ∧ c.Valid ∧ c.wall = m.clock.wall - t.total ∧ c.fold = false) ∧
    (¬ Fits (m.clock.wall - t.total) → m.subDelta t = .error .overflow) := by
  obtain ⟨r, hr, _, tr⟩ := neg_spec ht
  have := add_spec h r
  rw [tr, ← sub_eq_add_neg] at this
  unfold Moment.subDelta
  rw [hr]
  exact this

theorem base_spec {a b : Reading} (ha : a.Valid) (hb : b.Valid) :
    ∃ t, delta3 (a.ord - b.ord) (a.second + a.minute * 60 + a.hour * 3600 - (b.second + b.minute * 60 + b.hour * 3600))
      (a.micro - b.micro) = some t ∧ t.Canonical ∧ t.total = a.wall - b.wall := by
  have e1 : ((a.ord - b.ord) * 86400 + (a.second + a.minute * 60 + a.hour * 3600 - (b.second + b.minute * 60 + b.hour * 3600))) *
      1000000 + (a.micro - b.micro) = a.wall - b.wall := by unfold Reading.wall; omega
  obtain ⟨s1, _⟩ := delta3_spec (a.ord - b.ord)
    (a.second + a.minute * 60 + a.hour * 3600 - (b.second + b.minute * 60 + b.hour * 3600)) (a.micro - b.micro)
  rw [e1] at s1
  have hwa := fits_of_valid ha
  have hwb := fits_of_valid hb
  unfold Fits at hwa hwb
  exact s1 (by unfold InRange; omega)

theorem checkOffset_ok {d : Delta} (h : OffsetOk d) : checkOffset (some d) = .ok (some d) := by
  unfold checkOffset
  have h1 := deltaCmp_spec (a := ⟨-1, 0, 0⟩) (b := d) (by decide) h.1
  have h2 := deltaCmp_spec (a := d) (b := ⟨1, 0, 0⟩) h.1 (by decide)
  have e1 : (⟨-1, 0, 0⟩ : Delta).total = -86400000000 := by decide
  have e2 : (⟨1, 0, 0⟩ : Delta).total = 86400000000 := by decide
  rw [e1] at h1
  rw [e2] at h2
  have := h.2
  simp only
  rw [if_pos]
  unfold IsCmp at h1 h2
  omega

/-- What `utcoffset` and `dst` answer is acceptable. -/
def Zone.Ok (z : Zone) : Prop := ∀ c o, z.utcoffset c = some o ∨ z.dst c = some o → OffsetOk o

/-- Zones with one identity are one object. -/
def SameZone (a b : Moment) : Prop := ∀ x y, a.tz = some x → b.tz = some y → x.id = y.id → x = y

/-- The offset of a moment. -/
def Moment.off (m : Moment) : Option Delta := m.tz.bind (·.utcoffset m.clock)

def Moment.Ok (m : Moment) : Prop := m.clock.Valid ∧ ∀ z, m.tz = some z → z.Ok

theorem utcoffset_eq {m : Moment} (h : m.Ok) : m.utcoffset = .ok m.off := by
  unfold Moment.utcoffset Moment.off
  cases hz : m.tz with
  | none => rfl
  | some z =>
    simp only [Option.bind_some]
    cases ho : z.utcoffset m.clock with
    | none => rfl
    | some o => exact checkOffset_ok (h.2 z hz m.clock o (.inl ho))

theorem dst_eq {m : Moment} (h : m.Ok) : m.dst = .ok (m.tz.bind (·.dst m.clock)) := by
  unfold Moment.dst
  cases hz : m.tz with
  | none => rfl
  | some z =>
    simp only [Option.bind_some]
    cases ho : z.dst m.clock with
    | none => rfl
    | some o => exact checkOffset_ok (h.2 z hz m.clock o (.inr ho))

theorem off_ok {m : Moment} (h : m.Ok) {o : Delta} (ho : m.off = some o) : OffsetOk o := by
  unfold Moment.off at ho
  obtain ⟨z, hz, hzo⟩ := Option.bind_eq_some_iff.mp ho
  exact h.2 z hz m.clock o (.inl hzo)

theorem tzId_none {m : Moment} : m.tzId = none ↔ m.tz = none := by
  unfold Moment.tzId; simp

/-- Same identity: same answers for the same readings. -/
theorem same_zone {a b : Moment} (hs : SameZone a b) (h : a.tzId = b.tzId) : a.tz = b.tz := by
  unfold Moment.tzId at h
  cases ha : a.tz with
  | none =>
    rw [ha] at h
    simp only [Option.map_none] at h
    exact (Option.map_eq_none_iff.mp h.symm).symm
  | some x =>
    cases hb : b.tz with
    | none => rw [ha, hb] at h; simp at h
    | some y =>
      rw [ha, hb] at h
      simp only [Option.map_some, Option.some.injEq] at h
      rw [hs x y ha hb h]

theorem sub_same {a b : Moment} (ha : a.clock.Valid) (hb : b.clock.Valid) (h : a.tzId = b.tzId) :
    ∃ t, a.sub b = .ok t ∧ t.Canonical ∧ t.total = a.clock.wall - b.clock.wall := by
  obtain ⟨t, ht, ct, tt⟩ := base_spec ha hb
  refine ⟨t, ?_, ct, tt⟩
  unfold Moment.sub
  simp only [ht, orOverflow, h, if_true]
  rfl

theorem sub_offsets {a b : Moment} (ha : a.Ok) (hb : b.Ok) (h : a.tzId ≠ b.tzId) :
    (∀ x y, a.off = some x → b.off = some y →
      ∃ t, a.sub b = .ok t ∧ t.Canonical ∧ t.total = (a.clock.wall - x.total) - (b.clock.wall - y.total)) ∧
    (a.off = none → b.off = none → ∃ t, a.sub b = .ok t ∧ t.Canonical ∧ t.total = a.clock.wall - b.clock.wall) ∧
    (a.off.isSome ≠ b.off.isSome → a.sub b = .error .type) := by
  obtain ⟨t, ht, ct, tt⟩ := base_spec ha.1 hb.1
  unfold Moment.sub
  simp only [ht, orOverflow, utcoffset_eq ha, utcoffset_eq hb, bind, Except.bind, pure, Except.pure]
  rw [if_neg h]
  have hwa := fits_of_valid ha.1
  have hwb := fits_of_valid hb.1
  unfold Fits at hwa hwb
  refine ⟨fun x y hx hy => ?_, fun hx hy => ?_, fun hne => ?_⟩
  · rw [hx, hy]
    have ox := off_ok ha hx
    have oy := off_ok hb hy
    by_cases hxy : x = y
    · subst hxy
      rw [if_pos rfl]
      exact ⟨t, rfl, ct, by rw [tt]; omega⟩
    · rw [if_neg (by simpa using hxy)]
      simp only
      obtain ⟨p1, _⟩ := delta3_spec (t.days + y.days) (t.seconds + y.seconds) (t.micros + y.micros)
      have f1 : ((t.days + y.days) * 86400 + (t.seconds + y.seconds)) * 1000000 + (t.micros + y.micros) =
          a.clock.wall - b.clock.wall + y.total := by rw [← tt]; unfold Delta.total; omega
      rw [f1] at p1
      obtain ⟨e, he, ce, te⟩ := p1 (by unfold InRange; have := oy.2; omega)
      obtain ⟨q1, _⟩ := delta3_spec (e.days - x.days) (e.seconds - x.seconds) (e.micros - x.micros)
      have f2 : ((e.days - x.days) * 86400 + (e.seconds - x.seconds)) * 1000000 + (e.micros - x.micros) =
          a.clock.wall - b.clock.wall + y.total - x.total := by rw [← te]; unfold Delta.total; omega
      rw [f2] at q1
      obtain ⟨g, hg, cg, tg⟩ := q1 (by unfold InRange; have := ox.2; have := oy.2; omega)
      refine ⟨g, ?_, cg, by rw [tg]; omega⟩
      unfold deltaAdd deltaSub
      rw [he]
      simp only [hg]
  · rw [hx, hy, if_pos rfl]
    exact ⟨t, rfl, ct, tt⟩
  · cases hx : a.off with
    | none =>
      cases hy : b.off with
      | none => rw [hx, hy] at hne; simp at hne
      | some y => simp
    | some x =>
      cases hy : b.off with
      | none => simp
      | some y => rw [hx, hy] at hne; simp at hne

/-! ### Calendar fields -/

theorem ymd_spec {m : Moment} (h : m.clock.Valid) :
    ∃ d, m.ymd = .ok d ∧ d.Valid ∧ mkDate d = some d ∧ ymd2ord d = some m.clock.ord ∧ ordOf d = m.clock.ord := by
  obtain ⟨d, h1, h2, h3⟩ := ord2ymd_spec m.clock.ord
  refine ⟨d, ?_, h2, ?_, ?_, h3⟩
  · unfold Moment.ymd; rw [h1]
  · rw [mkDate_spec, if_pos]
    refine ⟨h2, (date_range h2).mpr ?_⟩
    rw [h3]
    unfold Reading.Valid at h
    unfold maxOrdinal
    omega
  · rw [ymd2ord_valid h2, h3]

theorem mkMoment_ymd {m : Moment} (h : m.clock.Valid) {d : Ymd} (hd : mkDate d = some d)
    (ho : ymd2ord d = some m.clock.ord) (tz : Option Zone) (fold : Bool) :
    mkMoment d.year d.month d.day m.clock.hour m.clock.minute m.clock.second m.clock.micro tz fold =
      .ok ⟨{ m.clock with fold := fold }, tz⟩ := by
  unfold mkMoment
  have : (⟨d.year, d.month, d.day⟩ : Ymd) = d := rfl
  rw [this, hd, Option.bind_some, ho]
  unfold Reading.Valid at h
  simp only
  rw [if_neg (show ¬¬(0 ≤ m.clock.hour ∧ m.clock.hour ≤ 23) by omega),
    if_neg (show ¬¬(0 ≤ m.clock.minute ∧ m.clock.minute ≤ 59) by omega),
    if_neg (show ¬¬(0 ≤ m.clock.second ∧ m.clock.second ≤ 59) by omega),
    if_neg (show ¬¬(0 ≤ m.clock.micro ∧ m.clock.micro ≤ 999999) by omega)]

theorem replace_tz {m : Moment} (h : m.clock.Valid) (tz : Option Zone) :
    m.replace { tz := some tz } = .ok ⟨m.clock, tz⟩ := by
  obtain ⟨d, h1, _, h3, h4, _⟩ := ymd_spec h
  unfold Moment.replace
  rw [h1]
  exact mkMoment_ymd h h3 h4 tz m.clock.fold

/-! ### Seconds since 1970 -/

theorem stampOf_spec {s us : Int} (hus : 0 ≤ us ∧ us < 1000000) (tz : Option Zone) :
    (Fits (s * 1000000 + us + epoch) → ∃ c : Reading, stampOf s us tz = .ok ⟨c, tz⟩ ∧ c.Valid ∧
      c.wall = s * 1000000 + us + epoch ∧ c.fold = false ∧ c.micro = us) ∧
    (¬ Fits (s * 1000000 + us + epoch) → stampOf s us tz = .error .value) := by
  unfold stampOf Fits epoch
  simp only
  rw [fdiv_lit s (by omega), fmod_lit s (by omega), fdiv_lit _ (by omega), fmod_lit _ (by omega),
    fdiv_lit _ (by omega), fmod_lit _ (by omega)]
  unfold maxOrdinal
  refine ⟨fun hf => ?_, fun hf => ?_⟩
  · rw [if_pos (by omega)]
    refine ⟨_, rfl, ?_, ?_, rfl, rfl⟩
    · unfold Reading.Valid; simp only; omega
    · unfold Reading.wall; simp only; omega
  · rw [if_neg (by omega)]

theorem epoch_wall : epochNaive.clock.wall = epoch := by decide
theorem epoch_wall' : epochUtc.clock.wall = epoch := by decide
theorem epoch_valid : epochNaive.clock.Valid := by decide
theorem epoch_valid' : epochUtc.clock.Valid := by decide

theorem floor_seconds {d : Delta} : deltaFloordiv d ⟨0, 1, 0⟩ = d.total / 1000000 := by
  unfold deltaFloordiv
  rw [toMicros_eq, toMicros_eq, show (⟨0, 1, 0⟩ : Delta).total = 1000000 by decide, fdiv_lit _ (by omega)]

theorem localSeconds_spec (off : Int → Int) (u : Int) (h : Fits ((u + off u) * 1000000 + epoch)) :
    localSeconds off u = .ok (u + off u) := by
  obtain ⟨h1, _⟩ := stampOf_spec (s := u + off u) (us := 0) (by omega) none
  obtain ⟨c, hc, vc, wc, _, _⟩ := h1 (by rw [add_zero]; exact h)
  obtain ⟨t, ht, _, tt⟩ := sub_same (a := ⟨c, none⟩) (b := epochNaive) vc epoch_valid rfl
  unfold localSeconds localStamp
  simp only [hc, bind, Except.bind, ht, pure, Except.pure, floor_seconds, tt]
  rw [epoch_wall]
  simp only [wc]
  congr 1
  omega

end Verif.Zones
