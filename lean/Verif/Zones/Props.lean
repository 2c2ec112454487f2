import Verif.Zones.Local
import Verif.Dates.Props

/-!
# Moments, time zones and timestamps

Properties C167 to C174.
-/

namespace Verif.Zones

open Verif.Dates

/-! ### Conversion to another zone -/

theorem astimezone_own {off : Int → Int} {i j : Nat} {m : Moment} (hm : m.clock.Valid) {z w : Zone} {o : Delta}
    (hown : m.ownZone off j = .ok (z, some o)) (ho : OffsetOk o) :
    (w.id = z.id → m.astimezone off i j (some w) = .ok m) ∧
    (w.id ≠ z.id → ¬ Fits (m.clock.wall - o.total) → m.astimezone off i j (some w) = .error .overflow) ∧
    (w.id ≠ z.id → Fits (m.clock.wall - o.total) → ∃ c : Reading, c.Valid ∧ c.wall = m.clock.wall - o.total ∧
      c.fold = false ∧ m.astimezone off i j (some w) = w.fromutc ⟨c, some w⟩) := by
  obtain ⟨s1, s2⟩ := subDelta_spec hm ho
  unfold Moment.astimezone
  simp only [hown, bind, Except.bind, pure, Except.pure]
  refine ⟨fun h => by rw [if_pos h], fun h hf => ?_, fun h hf => ?_⟩
  · rw [if_neg h, s2 hf]
  · obtain ⟨c, hc, vc, wc, fc⟩ := s1 hf
    rw [if_neg h, hc]
    simp only
    rw [replace_tz (m := ⟨c, m.tz⟩) vc]
    exact ⟨c, vc, wc, fc, rfl⟩

theorem fromutc_fixed {k : Nat} {d : Delta} {c : Reading} (vc : c.Valid) :
    (Fits (c.wall + d.total) → ∃ r : Reading, (Zone.fixed k d).fromutc ⟨c, some (.fixed k d)⟩ = .ok ⟨r, some (.fixed k d)⟩ ∧
      r.Valid ∧ r.wall = c.wall + d.total ∧ r.fold = false) ∧
    (¬ Fits (c.wall + d.total) → (Zone.fixed k d).fromutc ⟨c, some (.fixed k d)⟩ = .error .overflow) := by
  obtain ⟨h1, h2⟩ := add_spec (m := ⟨c, some (.fixed k d)⟩) vc d
  have e : (Zone.fixed k d).fromutc ⟨c, some (.fixed k d)⟩ = Moment.add ⟨c, some (.fixed k d)⟩ d := by
    unfold Zone.fromutc
    simp only
    rw [if_neg]
    simp [Moment.tzId, Zone.id]
  rw [e]
  exact ⟨h1, h2⟩

theorem ownZone_aware {off : Int → Int} {j : Nat} {m : Moment} {z : Zone} {o : Delta} (hz : m.tz = some z)
    (ho : z.utcoffset m.clock = some o) : m.ownZone off j = .ok (z, some o) := by
  unfold Moment.ownZone
  rw [hz]
  simp only [ho]

/-- **C167.** Converting an aware moment to a zone with a fixed offset gives the moment in that zone at the same instant;
it overflows exactly when the UTC time or the result is outside the years 1 to 9999.  In its own zone the moment is
returned as it is. -/
theorem astimezone_fixed (off : Int → Int) (i j : Nat) {m : Moment} (hm : m.Ok) {z : Zone} (hz : m.tz = some z)
    {o : Delta} (ho : z.utcoffset m.clock = some o) (k : Nat) {d : Delta} :
    (k = z.id → m.astimezone off i j (some (.fixed k d)) = .ok m) ∧
    (k ≠ z.id →
      if Fits (m.clock.wall - o.total) ∧ Fits (m.clock.wall - o.total + d.total) then
        ∃ c : Reading, m.astimezone off i j (some (.fixed k d)) = .ok ⟨c, some (.fixed k d)⟩ ∧ c.Valid ∧
          c.wall - d.total = m.clock.wall - o.total
      else m.astimezone off i j (some (.fixed k d)) = .error .overflow) := by
  obtain ⟨h1, h2, h3⟩ := astimezone_own (i := i) (w := .fixed k d) hm.1 (ownZone_aware (off := off) (j := j) hz ho)
    (hm.2 z hz _ o (.inl ho))
  refine ⟨h1, fun hk => ?_⟩
  by_cases hf : Fits (m.clock.wall - o.total)
  · obtain ⟨c, vc, wc, _, he⟩ := h3 hk hf
    obtain ⟨f1, f2⟩ := fromutc_fixed (k := k) (d := d) vc
    rw [wc] at f1 f2
    split
    · rename_i hff
      obtain ⟨r, hr, vr, wr, _⟩ := f1 hff.2
      exact ⟨r, by rw [he, hr], vr, by omega⟩
    · rename_i hff
      rw [he]
      exact f2 (fun h => hff ⟨hf, h⟩)
  · rw [if_neg (fun h => hf h.1)]
    exact h2 hk hf

/-- Five past midnight on January 1 at UTC+1, with a zone of a user's class. -/
def mA : Moment := ⟨⟨738886, 0, 5, 0, 0, false⟩, some (.custom 5 (fun _ => some ⟨0, 3600, 0⟩) (fun _ => some ⟨0, 0, 0⟩))⟩

theorem mA_ok : mA.Ok := by
  refine ⟨by decide, ?_⟩
  intro z hz c o ho
  simp only [mA, Option.some.injEq] at hz
  subst hz
  simp only [Zone.utcoffset, Zone.dst, Option.some.injEq] at ho
  rcases ho with ho | ho <;> subst ho <;> exact ⟨by decide, by decide, by decide⟩

example : mA.Ok ∧ mA.off = some ⟨0, 3600, 0⟩ := ⟨mA_ok, rfl⟩
example : mA.astimezone (fun _ => 0) 1 2 (some (.fixed 3 ⟨-1, 68400, 0⟩)) =
    .ok ⟨⟨738885, 18, 5, 0, 0, false⟩, some (.fixed 3 ⟨-1, 68400, 0⟩)⟩ := rfl

/-- A zone whose offset is a constant standard offset plus the daylight saving time. -/
def Standard (z : Zone) (s : Int) : Prop :=
  ∀ c, ∃ o d, z.utcoffset c = some o ∧ z.dst c = some d ∧ o.total = s + d.total

/-- **C167.** Converting an aware moment to a zone of a user's class, with a constant standard offset, gives the UTC time
plus the standard offset and the daylight saving time in force at the standard time; if that is also in force at the
result, the result is the same instant. -/
theorem astimezone_standard (off : Int → Int) (i j : Nat) {m r : Moment} (hm : m.Ok) {z : Zone} (hz : m.tz = some z)
    {o : Delta} (ho : z.utcoffset m.clock = some o) {k : Nat} {f g : Reading → Option Delta} {s : Int}
    (hw : (Zone.custom k f g).Ok) (hs : Standard (.custom k f g) s) (hk : k ≠ z.id)
    (h : m.astimezone off i j (some (.custom k f g)) = .ok r) :
    r.tz = some (.custom k f g) ∧ r.clock.Valid ∧
    ∃ std : Reading, std.Valid ∧ std.fold = false ∧ std.wall = m.clock.wall - o.total + s ∧
      ∃ e, g std = some e ∧ r.clock.wall = std.wall + e.total ∧
        (g r.clock = some e → ∃ o', f r.clock = some o' ∧ r.clock.wall - o'.total = m.clock.wall - o.total) := by
  obtain ⟨_, h2, h3⟩ := astimezone_own (i := i) (w := .custom k f g) hm.1 (ownZone_aware (off := off) (j := j) hz ho)
    (hm.2 z hz _ o (.inl ho))
  by_cases hf : Fits (m.clock.wall - o.total)
  swap
  · rw [h2 hk hf] at h; cases h
  obtain ⟨c, vc, wc, fc, he⟩ := h3 hk hf
  rw [he] at h
  have hcok : Moment.Ok ⟨c, some (.custom k f g)⟩ :=
    ⟨vc, fun z' hz' => by rw [Option.some.injEq] at hz'; subst hz'; exact hw⟩
  obtain ⟨dtoff, dtdst, q1, q2, q3⟩ := hs c
  have ok1 := hw c dtoff (.inl q1)
  have ok2 := hw c dtdst (.inr q2)
  have hfin : ∀ (std : Reading) (e : Delta), std.Valid → std.wall = m.clock.wall - o.total + s → std.fold = false →
      g std = some e → Moment.add ⟨std, some (.custom k f g)⟩ e = .ok r →
      r.tz = some (.custom k f g) ∧ r.clock.Valid ∧
      ∃ std : Reading, std.Valid ∧ std.fold = false ∧ std.wall = m.clock.wall - o.total + s ∧
      ∃ e, g std = some e ∧ r.clock.wall = std.wall + e.total ∧
        (g r.clock = some e → ∃ o', f r.clock = some o' ∧ r.clock.wall - o'.total = m.clock.wall - o.total) := by
    intro std e vstd wstd fstd hge hadd
    obtain ⟨a1, a2⟩ := add_spec (m := ⟨std, some (.custom k f g)⟩) vstd e
    by_cases hfit : Fits (std.wall + e.total)
    · obtain ⟨c', hc', vc', wc', _⟩ := a1 hfit
      rw [hc'] at hadd
      injection hadd with hadd
      subst hadd
      refine ⟨rfl, vc', std, vstd, fstd, wstd, e, hge, wc', fun hg => ?_⟩
      obtain ⟨o', d', p1, p2, p3⟩ := hs c'
      have : d' = e := by
        have : g c' = some d' := p2
        rw [this] at hg
        injection hg
      subst this
      refine ⟨o', p1, ?_⟩
      have w1 : c'.wall = std.wall + d'.total := wc'
      show c'.wall - o'.total = _
      omega
    · rw [a2 hfit] at hadd; cases hadd
  unfold Zone.fromutc at h
  simp only at h
  rw [if_neg (by simp [Moment.tzId, Zone.id])] at h
  rw [utcoffset_eq hcok, dst_eq hcok] at h
  have e1 : Moment.off ⟨c, some (.custom k f g)⟩ = some dtoff := q1
  have e2 : (some (Zone.custom k f g)).bind (·.dst c) = some dtdst := q2
  simp only [bind, Except.bind, e1, e2] at h
  obtain ⟨p, _⟩ := delta3_spec (dtoff.days - dtdst.days) (dtoff.seconds - dtdst.seconds) (dtoff.micros - dtdst.micros)
  have hsum : ((dtoff.days - dtdst.days) * 86400 + (dtoff.seconds - dtdst.seconds)) * 1000000 + (dtoff.micros - dtdst.micros) = s := by
    unfold Delta.total at q3; omega
  rw [hsum] at p
  obtain ⟨δ, hδ, cδ, tδ⟩ := p (by unfold InRange; have := ok1.2; have := ok2.2; omega)
  have hδ' : deltaSub dtoff dtdst = some δ := hδ
  simp only [hδ', orOverflow] at h
  by_cases h0 : δ = ⟨0, 0, 0⟩
  · rw [if_neg (not_not.mpr h0)] at h
    have hs0 : s = 0 := by rw [← tδ, h0]; rfl
    exact hfin c dtdst vc (by omega) fc q2 h
  · rw [if_pos h0] at h
    obtain ⟨a1, a2⟩ := add_spec (m := ⟨c, some (.custom k f g)⟩) vc δ
    by_cases hfit : Fits (c.wall + δ.total)
    · obtain ⟨c', hc', vc', wc', fc'⟩ := a1 hfit
      rw [hc'] at h
      simp only at h
      have hcok' : Moment.Ok ⟨c', some (.custom k f g)⟩ :=
        ⟨vc', fun z' hz' => by rw [Option.some.injEq] at hz'; subst hz'; exact hw⟩
      rw [dst_eq hcok'] at h
      obtain ⟨_, d', _, p2, _⟩ := hs c'
      have e3 : (some (Zone.custom k f g)).bind (·.dst c') = some d' := p2
      simp only [e3] at h
      exact hfin c' d' vc' (by simp only at wc'; omega) fc' p2 h
    · rw [a2 hfit] at h; cases h

/-- A zone at UTC+1 with daylight saving from day 100 on. -/
def summer : Zone := .custom 7 (fun c => if c.ord < 100 then some ⟨0, 3600, 0⟩ else some ⟨0, 7200, 0⟩)
  (fun c => if c.ord < 100 then some ⟨0, 0, 0⟩ else some ⟨0, 3600, 0⟩)

example : Standard summer 3600000000 ∧ summer.Ok := by
  refine ⟨fun c => ?_, fun c o ho => ?_⟩
  · by_cases h : c.ord < 100
    · exact ⟨⟨0, 3600, 0⟩, ⟨0, 0, 0⟩, by simp [summer, Zone.utcoffset, h], by simp [summer, Zone.dst, h], by decide⟩
    · exact ⟨⟨0, 7200, 0⟩, ⟨0, 3600, 0⟩, by simp [summer, Zone.utcoffset, h], by simp [summer, Zone.dst, h], by decide⟩
  · by_cases h : c.ord < 100
    · simp only [summer, Zone.utcoffset, Zone.dst, h, if_true, Option.some.injEq] at ho
      rcases ho with ho | ho <;> subst ho <;> exact ⟨by decide, by decide, by decide⟩
    · simp only [summer, Zone.utcoffset, Zone.dst, h, if_false, Option.some.injEq] at ho
      rcases ho with ho | ho <;> subst ho <;> exact ⟨by decide, by decide, by decide⟩

example : (mA.astimezone (fun _ => 0) 1 2 (some summer)).map (·.clock) = .ok ⟨738886, 1, 5, 0, 0, false⟩ := rfl

/-! #### Local time -/

theorem newZone_ok {i : Nat} {d : Delta} (h : OffsetOk d) : newZone i d = .ok (.fixed i d) := by
  unfold newZone
  have h1 := deltaCmp_spec (a := d) (b := ⟨-1, 0, 1⟩) h.1 (by decide)
  have h2 := deltaCmp_spec (a := ⟨0, 86399, 999999⟩) (b := d) (by decide) h.1
  have e1 : (⟨-1, 0, 1⟩ : Delta).total = -86399999999 := by decide
  have e2 : (⟨0, 86399, 999999⟩ : Delta).total = 86399999999 := by decide
  rw [e1] at h1
  rw [e2] at h2
  have := h.2
  rw [if_pos]
  unfold IsCmp at h1 h2
  omega

/-- The zone `_local_timezone` makes from the seconds since 1970. -/
theorem localTimezone_of {off : Int → Int} (hp : Proper off) {ts : Int} {i : Nat}
    (h : Fits ((ts - 86400) * 1000000 + epoch) ∧ Fits ((ts + 86400) * 1000000 + epoch)) :
    ∃ d, OffsetOk d ∧ d.total = off ts * 1000000 ∧
      (do let local_ ← localStamp off ts 0
          let utc ← stampOf ts 0 none
          let d ← local_.sub utc
          newZone i d) = Except.ok (.fixed i d) := by
  have hb := hp ts
  unfold Fits at h
  obtain ⟨p, _⟩ := stampOf_spec (s := ts + off ts) (us := 0) (by omega) none
  obtain ⟨c, hc, vc, wc, _, _⟩ := p (by unfold Fits; omega)
  obtain ⟨p', _⟩ := stampOf_spec (s := ts) (us := 0) (by omega) none
  obtain ⟨c', hc', vc', wc', _, _⟩ := p' (by unfold Fits; omega)
  obtain ⟨d, hd, cd, td⟩ := sub_same (a := ⟨c, none⟩) (b := ⟨c', none⟩) vc vc' rfl
  have hd' : d.total = off ts * 1000000 := by rw [td]; simp only [wc, wc']; ring
  have hok : OffsetOk d := ⟨cd, by rw [hd']; omega⟩
  refine ⟨d, hok, hd', ?_⟩
  unfold localStamp
  simp only [hc, hc', bind, Except.bind, hd, newZone_ok hok]

theorem sub_epoch {m : Moment} (hm : m.Ok) (hs : SameZone m epochUtc) {o : Delta} (ho : m.off = some o) :
    ∃ t, m.sub epochUtc = .ok t ∧ t.Canonical ∧ t.total = m.clock.wall - o.total - epoch := by
  have he : epochUtc.Ok := by
    refine ⟨epoch_valid', ?_⟩
    intro z hz c o' ho'
    simp only [epochUtc, Option.some.injEq] at hz
    subst hz
    simp only [Zone.utcoffset, Zone.dst, Option.some.injEq, reduceCtorEq, or_false] at ho'
    subst ho'
    exact ⟨by decide, by decide, by decide⟩
  by_cases h : m.tzId = epochUtc.tzId
  · obtain ⟨t, ht, ct, tt⟩ := sub_same hm.1 he.1 h
    refine ⟨t, ht, ct, ?_⟩
    have := same_zone hs h
    have e : m.off = some ⟨0, 0, 0⟩ := by unfold Moment.off; rw [this]; rfl
    rw [e] at ho
    injection ho with ho
    rw [tt, epoch_wall', ← ho]
    have : (⟨0, 0, 0⟩ : Delta).total = 0 := by decide
    omega
  · obtain ⟨h1, _, _⟩ := sub_offsets hm he h
    obtain ⟨t, ht, ct, tt⟩ := h1 o ⟨0, 0, 0⟩ ho rfl
    refine ⟨t, ht, ct, ?_⟩
    rw [tt, epoch_wall']
    have : (⟨0, 0, 0⟩ : Delta).total = 0 := by decide
    omega

/-- **C167.** Without an argument, an aware moment is converted to local time: the same instant, in a new zone whose
offset is the local one at that instant. -/
theorem astimezone_local {off : Int → Int} (hp : Proper off) {i j : Nat} {m : Moment} (hm : m.Ok)
    (hs : SameZone m epochUtc) {z : Zone} (hz : m.tz = some z) {o : Delta} (ho : z.utcoffset m.clock = some o)
    (hi : z.id ≠ i) (hin : 4 ≤ m.clock.ord ∧ m.clock.ord ≤ 3652056) :
    ∃ (c : Reading) (d : Delta), m.astimezone off i j none = .ok ⟨c, some (.fixed i d)⟩ ∧ c.Valid ∧
      c.wall - d.total = m.clock.wall - o.total ∧
      d.total = off ((m.clock.wall - o.total - epoch) / 1000000) * 1000000 := by
  have hoff : m.off = some o := by unfold Moment.off; rw [hz]; exact ho
  have oo := off_ok hm hoff
  obtain ⟨t, ht, _, tt⟩ := sub_epoch hm hs hoff
  have hv := hm.1
  unfold Reading.Valid at hv
  have hts : (m.clock.wall - o.total - epoch) / 1000000 = t.total / 1000000 := by rw [tt]
  rw [hts]
  obtain ⟨d, hd, td, hloc⟩ := localTimezone_of hp (ts := t.total / 1000000) (i := i)
    (by rw [tt]; have := oo.2; unfold Fits epoch Reading.wall; omega)
  have hl : m.localTimezone off i = .ok (.fixed i d) := by
    unfold Moment.localTimezone
    simp only [bind, Except.bind] at hloc
    rw [hz]
    simp only [bind, Except.bind, ht, pure, Except.pure, floor_seconds]
    exact hloc
  have hb := hp (t.total / 1000000)
  have e : m.astimezone off i j none = m.astimezone off i j (some (.fixed i d)) := by
    unfold Moment.astimezone
    simp only [hl, bind, Except.bind]
  obtain ⟨_, h2⟩ := astimezone_fixed off i j hm hz ho i (d := d)
  have h2 := h2 (fun h => hi h.symm)
  have hw : (4 * 86400) * 1000000 ≤ m.clock.wall ∧ m.clock.wall < 3652057 * 86400 * 1000000 := by
    unfold Reading.wall; omega
  rw [if_pos (by have := oo.2; unfold Fits; omega)] at h2
  obtain ⟨c, hc, vc, wc⟩ := h2
  exact ⟨c, d, by rw [e, hc], vc, wc, td⟩

/-- **C167.** A naive moment is read as local time: if local clocks ever show it, it is converted to the instant at which
they do so (the first or the second time, by `fold`). -/
theorem astimezone_naive {off : Int → Int} (hp : Proper off) {i j : Nat} {m : Moment} (hv : m.clock.Valid)
    (hz : m.tz = none) (hin : 4 ≤ m.clock.ord ∧ m.clock.ord ≤ 3652056)
    (hc : OneChange off ((m.clock.wall - epoch) / 1000000) 172800)
    (hshown : ∃ v, Shows off v ((m.clock.wall - epoch) / 1000000)) {k : Nat} (hk : k ≠ j) {d : Delta} (hd : OffsetOk d) :
    ∃ (c : Reading) (u : Int), m.astimezone off i j (some (.fixed k d)) = .ok ⟨c, some (.fixed k d)⟩ ∧ c.Valid ∧
      c.wall - d.total = u * 1000000 + m.clock.micro + epoch ∧
      Shows off u ((m.clock.wall - epoch) / 1000000) ∧
      ∀ v, Shows off v ((m.clock.wall - epoch) / 1000000) → if m.clock.fold then v ≤ u else u ≤ v := by
  have hmk := mktime_eq hp hv hin hz
  have hsec : m.clock.seconds = (m.clock.wall - epoch) / 1000000 := rfl
  rw [hsec] at hmk
  have hsol := (solve_spec hp hc m.clock.fold).resolve_right (fun h => by
    obtain ⟨v, hv⟩ := hshown
    exact h.1 v hv)
  generalize hu : solve off ((m.clock.wall - epoch) / 1000000) m.clock.fold = u at *
  have hv' := hv
  unfold Reading.Valid at hv
  have hb := hp u
  have hshow := hsol.1
  unfold Shows at hshow
  have hw : (4 * 86400) * 1000000 ≤ m.clock.wall ∧ m.clock.wall < 3652057 * 86400 * 1000000 := by
    unfold Reading.wall; omega
  obtain ⟨e, he, te, hloc⟩ := localTimezone_of hp (ts := u) (i := j) (by unfold Fits epoch at *; omega)
  have hl : m.localTimezone off j = .ok (.fixed j e) := by
    unfold Moment.localTimezone
    simp only [bind, Except.bind] at hloc
    rw [hz]
    simp only [bind, Except.bind, hmk]
    exact hloc
  have hown : m.ownZone off j = .ok (.fixed j e, some e) := by
    unfold Moment.ownZone
    rw [hz]
    simp only [hl, bind, Except.bind, pure, Except.pure]
    rfl
  obtain ⟨_, _, h3⟩ := astimezone_own (i := i) (w := .fixed k d) hv' hown he
  obtain ⟨c, vc, wc, _, hc'⟩ := h3 hk (by unfold Fits; omega)
  obtain ⟨f1, _⟩ := fromutc_fixed (k := k) (d := d) vc
  obtain ⟨r, hr, vr, wr, _⟩ := f1 (by have := hd.2; unfold Fits; omega)
  refine ⟨r, u, by rw [hc', hr], vr, ?_, hsol⟩
  have hmic : m.clock.wall - epoch = ((m.clock.wall - epoch) / 1000000) * 1000000 + m.clock.micro := by
    unfold Reading.wall epoch; omega
  omega

/-- Local time two hours ahead until 1000 hours after 1970, one hour ahead from then on. -/
def off1 (u : Int) : Int := if u < 3600000 then 7200 else 3600

theorem off1_proper : Proper off1 := by intro u; unfold off1; split <;> omega
theorem off1_change (t : Int) (w : Int) : OneChange off1 t w :=
  ⟨3600000, 7200, 3600, by omega, by omega, by omega, by omega, by omega, by omega, fun _ _ _ => rfl⟩

/-- 17:30 on the day of the change, which comes twice. -/
def mB (fold : Bool) : Moment := ⟨⟨719204, 17, 30, 0, 25, fold⟩, none⟩

example : (mB true).clock.Valid ∧ ((mB true).clock.wall - epoch) / 1000000 = 3605400 ∧
    Shows off1 3598200 3605400 ∧ Shows off1 3601800 3605400 := by decide
example : ((mB false).astimezone off1 1 2 (some (.fixed 3 ⟨0, 0, 0⟩))).map (·.clock) =
    .ok ⟨719204, 15, 30, 0, 25, false⟩ := by rfl
example : ((mB true).astimezone off1 1 2 (some (.fixed 3 ⟨0, 0, 0⟩))).map (·.clock) =
    .ok ⟨719204, 16, 30, 0, 25, false⟩ := by rfl

/-! ### Timestamps -/

/-- **C168.** The timestamp of an aware moment is the seconds from 1970 in UTC to its instant, exactly. -/
theorem timestamp_aware (off : Int → Int) {m : Moment} (hm : m.Ok) (hs : SameZone m epochUtc) {o : Delta}
    (ho : m.off = some o) : m.timestamp off = .ok (((m.clock.wall - o.total - epoch : Int) : ℚ) / 1000000) := by
  obtain ⟨t, ht, _, tt⟩ := sub_epoch hm hs ho
  unfold Moment.timestamp
  cases hz : m.tz with
  | none => unfold Moment.off at ho; rw [hz] at ho; simp at ho
  | some z =>
    simp only [ht, bind, Except.bind, pure, Except.pure, toMicros_eq, tt]

/-- **C168.** From a timestamp and a zone with a fixed offset comes the moment at the microsecond nearest to the
timestamp (the even one of two); it fails exactly when the UTC time or the result is outside the years 1 to 9999. -/
theorem fromtimestamp_fixed (off : Int → Int) (x : ℚ) (k : Nat) (d : Delta) {n : Int} (hn : NearestEven (x * 1000000) n) :
    if Fits (n + epoch) ∧ Fits (n + epoch + d.total) then
      ∃ c : Reading, fromtimestamp off x (some (.fixed k d)) = .ok ⟨c, some (.fixed k d)⟩ ∧ c.Valid ∧
        c.wall - d.total = n + epoch ∧ c.fold = false
    else fromtimestamp off x (some (.fixed k d)) = .error (if Fits (n + epoch) then .overflow else .value) := by
  obtain ⟨s1, s2, s3⟩ := splitStamp_spec x
  have hnn := nearestEven_unique hn s3
  obtain ⟨p, p'⟩ := stampOf_spec (s := (splitStamp x).1) ⟨s1, s2⟩ (some (.fixed k d))
  rw [← hnn] at p p'
  unfold fromtimestamp fromStamp
  simp only [Option.isSome_some, if_true, bind, Except.bind]
  by_cases hf : Fits (n + epoch)
  · obtain ⟨c, hc, vc, wc, _, _⟩ := p hf
    rw [hc]
    simp only
    obtain ⟨f1, f2⟩ := fromutc_fixed (k := k) (d := d) vc
    rw [wc] at f1 f2
    split
    · rename_i hff
      obtain ⟨r, hr, vr, wr, fr⟩ := f1 hff.2
      exact ⟨r, hr, vr, by omega, fr⟩
    · rename_i hff
      exact f2 (fun h => hff ⟨hf, h⟩)
  · rw [p' hf, if_neg (fun h => hf h.1), if_neg hf]

/-- **C168.** The timestamp of an aware moment, read back in any zone with a fixed offset, gives the same instant, if that
does not leave the years 1 to 9999. -/
theorem timestamp_roundtrip (off : Int → Int) {m : Moment} (hm : m.Ok) (hs : SameZone m epochUtc) {o : Delta}
    (ho : m.off = some o) (k : Nat) (d : Delta)
    (h1 : Fits (m.clock.wall - o.total)) (h2 : Fits (m.clock.wall - o.total + d.total)) :
    ∃ (x : ℚ) (c : Reading), m.timestamp off = .ok x ∧ fromtimestamp off x (some (.fixed k d)) = .ok ⟨c, some (.fixed k d)⟩ ∧
      c.Valid ∧ c.wall - d.total = m.clock.wall - o.total := by
  have hx := timestamp_aware off hm hs ho
  have hn : NearestEven (((m.clock.wall - o.total - epoch : Int) : ℚ) / 1000000 * 1000000) (m.clock.wall - o.total - epoch) := by
    rw [div_mul_cancel₀ _ (by norm_num)]
    unfold NearestEven
    rw [sub_self, abs_zero]
    exact ⟨by norm_num, fun h => absurd h (by norm_num)⟩
  have hf := fromtimestamp_fixed off _ k d hn
  rw [show m.clock.wall - o.total - epoch + epoch = m.clock.wall - o.total by omega, if_pos ⟨h1, h2⟩] at hf
  obtain ⟨c, hc, vc, wc, _⟩ := hf
  exact ⟨_, c, hx, hc, vc, wc⟩

example : SameZone mA epochUtc := by
  intro x y hx hy h
  simp only [mA, epochUtc, Option.some.injEq] at hx hy
  subst hx hy
  simp [Zone.id] at h

example : mA.timestamp (fun _ => 0) = .ok 1704063900 := by
  have hs : SameZone mA epochUtc := by
    intro x y hx hy h
    simp only [mA, epochUtc, Option.some.injEq] at hx hy
    subst hx hy
    simp [Zone.id] at h
  rw [timestamp_aware _ mA_ok hs rfl, show mA.clock.wall - (⟨0, 3600, 0⟩ : Delta).total - epoch = 1704063900000000 by decide]
  norm_num

/-- **C168.** `utcfromtimestamp` gives the UTC time at the nearest microsecond, never marked as a second reading. -/
theorem utcfromtimestamp_nearest (off : Int → Int) (x : ℚ) {n : Int} (hn : NearestEven (x * 1000000) n)
    (h1 : Fits (n + epoch - 172800000000)) (h2 : Fits (n + epoch)) :
    ∃ c : Reading, utcfromtimestamp off x = .ok ⟨c, none⟩ ∧ c.Valid ∧ c.wall = n + epoch ∧ c.fold = false := by
  obtain ⟨s1, s2, s3⟩ := splitStamp_spec x
  have hnn := nearestEven_unique hn s3
  obtain ⟨c, hc, vc, _, wc, fc⟩ := fromStamp_naive (conv := fun u => u) (off := off) (utc := true) (x := x)
    (fun u => by simp) (fun u hu hu' => by unfold Fits at *; omega) (fun u => by omega)
  refine ⟨c, hc, vc, by rw [wc, hnn], ?_⟩
  rw [fc, decide_eq_false]
  omega

example : Fits (1500000 + epoch - 172800000000) ∧ Fits (1500000 + epoch) := by decide

/-- **C169.** The timestamp of a naive moment solves "local clocks show it": it is the first time they do, or the last if
`fold` is set; if clocks jump over it, the offset from before the jump is used, or the one from after it if `fold` is
set. -/
theorem timestamp_naive {off : Int → Int} (hp : Proper off) {m : Moment} (hv : m.clock.Valid) (hz : m.tz = none)
    (hin : 4 ≤ m.clock.ord ∧ m.clock.ord ≤ 3652056) {t : Int} (ht : t = (m.clock.wall - epoch) / 1000000)
    (hc : OneChange off t 172800) :
    ∃ u : Int, m.timestamp off = .ok ((u : ℚ) + (m.clock.micro : ℚ) / 1000000) ∧
      ((Shows off u t ∧ ∀ v, Shows off v t → if m.clock.fold then v ≤ u else u ≤ v) ∨
       ((∀ v, ¬ Shows off v t) ∧ ∃ T, SkippedAt off T t ∧ u = t - if m.clock.fold then off T else off (T - 1))) := by
  subst ht
  have hmk := mktime_eq hp hv hin hz
  refine ⟨solve off m.clock.seconds m.clock.fold, ?_, solve_spec hp hc m.clock.fold⟩
  unfold Moment.timestamp
  rw [hz]
  simp only [hmk, bind, Except.bind, pure, Except.pure]

example : (mB true).mktime off1 = .ok 3601800 ∧ (mB false).mktime off1 = .ok 3598200 := ⟨by rfl, by rfl⟩

/-- Local time one hour ahead until 1000 hours after 1970, two hours ahead from then on. -/
def off2 (u : Int) : Int := if u < 3600000 then 3600 else 7200

/-- 17:30 on the day of the change, which never comes. -/
example : OneChange off2 3605400 172800 ∧ SkippedAt off2 3600000 3605400 ∧
    (mB false).mktime off2 = .ok 3601800 ∧ (mB true).mktime off2 = .ok 3598200 :=
  ⟨⟨3600000, 3600, 7200, by omega, by omega, by omega, by omega, by omega, by omega, fun _ _ _ => rfl⟩,
    by decide, by rfl, by rfl⟩

/-- **C170.** From a timestamp without a zone comes what local clocks show at the nearest microsecond, marked with `fold`
exactly if they have shown the same before. -/
theorem fromtimestamp_naive {off : Int → Int} (hp : Proper off) (x : ℚ) {n : Int} (hn : NearestEven (x * 1000000) n)
    (h1 : Fits (n + epoch - 345600000000)) (h2 : Fits (n + epoch + 86400000000))
    (hc : OneChange off (n / 1000000) 172800) :
    ∃ c : Reading, fromtimestamp off x none = .ok ⟨c, none⟩ ∧ c.Valid ∧
      c.wall = n + off (n / 1000000) * 1000000 + epoch ∧
      (c.fold = true ↔ ∃ v, v < n / 1000000 ∧ Shows off v (n / 1000000 + off (n / 1000000))) := by
  obtain ⟨s1, s2, s3⟩ := splitStamp_spec x
  have hnn := nearestEven_unique hn s3
  have hdiv : (splitStamp x).1 = n / 1000000 := by omega
  have hmod : (splitStamp x).2 = n - n / 1000000 * 1000000 := by omega
  obtain ⟨c, hc', vc, _, wc, fc⟩ := fromStamp_naive (conv := fun u => u + off u) (off := off) (utc := false) (x := x)
    (fun u => by simp) (fun u hu hu' => by have := hp u; unfold Fits at *; omega)
    (fun u => by have := hp u; omega)
  rw [hdiv] at wc fc
  rw [hmod] at wc
  refine ⟨c, hc', vc, by rw [wc]; ring, ?_⟩
  rw [fc, decide_eq_true_iff]
  generalize n / 1000000 = t at *
  obtain ⟨T, a, b, a1, a2, b1, b2, ab, ba, H⟩ := hc
  have H1 : ∀ u, t - 172800 ≤ u → u ≤ t + 172800 → (u < T ∧ off u = a) ∨ (T ≤ u ∧ off u = b) := by
    intro u h1 h2
    have := H u h1 h2
    split at this
    · exact .inl ⟨by assumption, this⟩
    · exact .inr ⟨by omega, this⟩
  have g0 := H1 t (by omega) (by omega)
  have g1 := H1 (t - 86400) (by omega) (by omega)
  constructor
  · rintro ⟨q1, q2⟩
    refine ⟨_, ?_, q2⟩
    omega
  · rintro ⟨v, hvt, hv⟩
    unfold Shows at hv
    have p0 := hp t
    have pv := hp v
    have gv := H1 v (by omega) (by omega)
    have hvv : v = t + (t + off t - (t - 86400 + off (t - 86400)) - 86400) := by omega
    refine ⟨by omega, ?_⟩
    rw [← hvv]
    exact hv

/-- **C170.** A naive moment made from a timestamp has that timestamp, to the nearest microsecond, also where local clocks
show a time twice. -/
theorem naive_roundtrip {off : Int → Int} (hp : Proper off) (x : ℚ) {n : Int} (hn : NearestEven (x * 1000000) n)
    (h1 : Fits (n + epoch - 432000000000)) (h2 : Fits (n + epoch + 432000000000))
    (hc : OneChange off (n / 1000000) 259200) :
    ∃ m : Moment, fromtimestamp off x none = .ok m ∧ m.timestamp off = .ok ((n : ℚ) / 1000000) := by
  obtain ⟨T, a, b, a1, a2, b1, b2, ab, ba, H⟩ := hc
  have hp0 := hp (n / 1000000)
  obtain ⟨c, hc', vc, wc, fc⟩ := fromtimestamp_naive hp x hn (by unfold Fits at *; omega) (by unfold Fits at *; omega)
    ⟨T, a, b, a1, a2, b1, b2, ab, ba, fun u h h' => H u (by omega) (by omega)⟩
  refine ⟨⟨c, none⟩, hc', ?_⟩
  have hin : 4 ≤ c.ord ∧ c.ord ≤ 3652056 := by
    have hv := vc
    unfold Reading.Valid at hv
    unfold Reading.wall at wc
    unfold Fits at h1 h2
    omega
  have hsec : (c.wall - epoch) / 1000000 = n / 1000000 + off (n / 1000000) := by rw [wc]; omega
  have hmic : c.micro = n - n / 1000000 * 1000000 := by
    have hv := vc
    unfold Reading.Valid at hv
    unfold Reading.wall epoch at wc
    omega
  obtain ⟨u, hu, hcase⟩ := timestamp_naive hp (m := ⟨c, none⟩) vc rfl hin rfl
    ⟨T, a, b, a1, a2, b1, b2, ab, ba, fun u h h' => H u (by simp only [hsec] at h; omega) (by simp only [hsec] at h'; omega)⟩
  simp only [hsec] at hcase hu
  have hself : Shows off (n / 1000000) (n / 1000000 + off (n / 1000000)) := rfl
  rcases hcase with ⟨hs, hmin⟩ | ⟨hno, _⟩
  swap
  · exact absurd hself (hno _)
  have hun : u = n / 1000000 := by
    have hb := hmin _ hself
    rcases lt_trichotomy u (n / 1000000) with hlt | heq | hgt
    · exfalso
      have hf : c.fold = true := fc.mpr ⟨u, hlt, hs⟩
      rw [hf] at hb
      simp only [if_true] at hb
      omega
    · exact heq
    · exfalso
      by_cases hf : c.fold = true
      · obtain ⟨v, hv, hvs⟩ := fc.mp hf
        have H1 : ∀ u, n / 1000000 - 259200 ≤ u → u ≤ n / 1000000 + 259200 → (u < T ∧ off u = a) ∨ (T ≤ u ∧ off u = b) := by
          intro u h1 h2
          have := H u h1 h2
          split at this
          · exact .inl ⟨by assumption, this⟩
          · exact .inr ⟨by omega, this⟩
        unfold Shows at hs hvs
        have pu := hp u
        have pv := hp v
        have gu := H1 u (by omega) (by omega)
        have gv := H1 v (by omega) (by omega)
        have gn := H1 (n / 1000000) (by omega) (by omega)
        omega
      · rw [if_neg hf] at hb
        omega
  rw [hu, hun, hmic]
  congr 1
  push_cast
  ring

example : Fits (3601800000025 + epoch - 432000000000) ∧ Fits (3601800000025 + epoch + 432000000000) := by decide

theorem exact_microseconds (n : Int) : NearestEven ((n : ℚ) / 1000000 * 1000000) n := by
  rw [div_mul_cancel₀ _ (by norm_num)]
  unfold NearestEven
  rw [sub_self, abs_zero]
  exact ⟨by norm_num, fun h => absurd h (by norm_num)⟩

/-- The second 17:30 on the day of the change. -/
example : ∃ c : Reading, fromtimestamp off1 ((3601800000025 : Int) / 1000000) none = .ok ⟨c, none⟩ ∧ c.fold = true := by
  obtain ⟨c, h1, _, _, h3⟩ := fromtimestamp_naive off1_proper _ (exact_microseconds 3601800000025) (by decide) (by decide)
    (off1_change _ _)
  refine ⟨c, h1, h3.mpr ⟨3598200, by decide, by decide⟩⟩

/-! ### Equality and hashes -/

/-- The offset does not depend on which of two equal readings is meant. -/
def FoldFree (m : Moment) : Prop := m.off = m.otherFold.off

theorem otherFold_ok {m : Moment} (h : m.Ok) : m.otherFold.Ok := ⟨h.1, h.2⟩

/-- **C171.** Moments in one zone are equal if the clocks show the same.  Moments in different zones are equal if both have
offsets and denote the same instant, or neither has an offset and the clocks show the same; but never if the offset of
one depends on `fold`. -/
theorem equality {a b : Moment} (ha : a.Ok) (hb : b.Ok) :
    (a.tzId = b.tzId → a.eq b = .ok (decide (a.clock.wall = b.clock.wall))) ∧
    (a.tzId ≠ b.tzId → ∃ r, a.eq b = .ok r ∧
      (r = true ↔ FoldFree a ∧ FoldFree b ∧
        ((a.off = none ∧ b.off = none ∧ a.clock.wall = b.clock.wall) ∨
         ∃ x y, a.off = some x ∧ b.off = some y ∧ a.clock.wall - x.total = b.clock.wall - y.total))) := by
  refine ⟨eq_naive ha.1 hb.1, fun h => ?_⟩
  have hbase : (Verif.Dates.cmp [a.clock.ord, a.clock.hour, a.clock.minute, a.clock.second, a.clock.micro]
      [b.clock.ord, b.clock.hour, b.clock.minute, b.clock.second, b.clock.micro] == 0) =
      decide (a.clock.wall = b.clock.wall) := by
    have := eq_naive (a := ⟨a.clock, none⟩) (b := ⟨b.clock, none⟩) ha.1 hb.1 rfl
    unfold Moment.eq Moment.cmp at this
    simp only [bind, Except.bind, pure, Except.pure] at this
    rw [if_pos (show Moment.tzId ⟨a.clock, none⟩ = Moment.tzId ⟨b.clock, none⟩ from rfl)] at this
    injection this
  unfold Moment.eq Moment.cmp
  simp only [bind, Except.bind, pure, Except.pure, utcoffset_eq ha, utcoffset_eq hb, utcoffset_eq (otherFold_ok ha),
    utcoffset_eq (otherFold_ok hb), if_true]
  rw [if_neg h]
  by_cases fa : a.off = a.otherFold.off
  swap
  · rw [if_pos fa]
    exact ⟨_, rfl, by simp [FoldFree, fa]⟩
  rw [if_neg (not_not.mpr fa)]
  by_cases fb : b.off = b.otherFold.off
  swap
  · rw [if_pos fb]
    exact ⟨_, rfl, by simp [FoldFree, fb]⟩
  rw [if_neg (not_not.mpr fb)]
  obtain ⟨s1, s2, s3⟩ := sub_offsets ha hb h
  by_cases hoff : a.off = b.off
  · rw [if_pos hoff]
    refine ⟨_, rfl, ?_⟩
    rw [hbase, decide_eq_true_iff]
    constructor
    · intro hw
      refine ⟨fa, fb, ?_⟩
      cases hx : a.off with
      | none => exact .inl ⟨rfl, by rw [← hoff, hx], hw⟩
      | some x => exact .inr ⟨x, x, rfl, by rw [← hoff, hx], by omega⟩
    · rintro ⟨_, _, ⟨_, _, hw⟩ | ⟨x, y, hx, hy, hw⟩⟩
      · exact hw
      · have : x = y := by rw [hx, hy] at hoff; injection hoff
        subst this
        omega
  · rw [if_neg hoff]
    cases hx : a.off with
    | none =>
      cases hy : b.off with
      | none => rw [hx, hy] at hoff; exact absurd rfl hoff
      | some y => exact ⟨_, rfl, by simp⟩
    | some x =>
      cases hy : b.off with
      | none => exact ⟨_, rfl, by simp⟩
      | some y =>
        simp only [reduceCtorEq, or_self, if_false]
        obtain ⟨t, ht, ct, tt⟩ := s1 x y hx hy
        rw [ht]
        simp only
        unfold Delta.Canonical at ct
        unfold Delta.total at tt
        have hz : (a.clock.wall - x.total = b.clock.wall - y.total) ↔ (t.days = 0 ∧ t.seconds = 0 ∧ t.micros = 0) := by
          unfold Delta.total
          omega
        have hgoal : ∀ r : Bool, (r = true ↔ (t.days = 0 ∧ t.seconds = 0 ∧ t.micros = 0)) →
            (r = true ↔ FoldFree a ∧ FoldFree b ∧
              ((some x = none ∧ some y = none ∧ a.clock.wall = b.clock.wall) ∨
               ∃ x' y', some x = some x' ∧ some y = some y' ∧ a.clock.wall - x'.total = b.clock.wall - y'.total)) := by
          intro r hr
          rw [hr, ← hz]
          constructor
          · intro hw
            exact ⟨fa, fb, .inr ⟨x, y, rfl, rfl, hw⟩⟩
          · rintro ⟨_, _, ⟨h1, _⟩ | ⟨x', y', h1, h2, hw⟩⟩
            · cases h1
            · injection h1 with h1
              injection h2 with h2
              subst h1 h2
              exact hw
        by_cases hd : t.days < 0
        · simp only [hd, if_true]
          refine ⟨false, rfl, ?_⟩
          simpa only [reduceCtorEq] using hgoal false ⟨fun hh => absurd hh Bool.false_ne_true, fun hh => by omega⟩
        · by_cases hd2 : t.micros ≠ 0 ∨ t.seconds ≠ 0 ∨ t.days ≠ 0
          · simp only [hd, hd2, if_true, if_false]
            refine ⟨false, rfl, ?_⟩
            simpa only [reduceCtorEq] using hgoal false ⟨fun hh => absurd hh Bool.false_ne_true, fun hh => by omega⟩
          · simp only [hd, hd2, if_false]
            refine ⟨true, rfl, ?_⟩
            simpa only [reduceCtorEq] using hgoal true ⟨fun _ => by omega, fun _ => rfl⟩

/-- **C171.** Ordering moments in different zones compares the instants; it is a `TypeError` if only one has an offset. -/
theorem ordering {a b : Moment} (ha : a.Ok) (hb : b.Ok) (h : a.tzId ≠ b.tzId) :
    (∀ x y, a.off = some x → b.off = some y → ∃ c, a.cmp b false = .ok c ∧
      IsCmp (a.clock.wall - x.total < b.clock.wall - y.total) (b.clock.wall - y.total < a.clock.wall - x.total) c) ∧
    (a.off.isSome ≠ b.off.isSome → a.cmp b false = .error .type) := by
  have hbase := cmp_spec [a.clock.ord, a.clock.hour, a.clock.minute, a.clock.second, a.clock.micro]
      [b.clock.ord, b.clock.hour, b.clock.minute, b.clock.second, b.clock.micro] rfl
  have l1 := wall_lex (a := ⟨a.clock.ord, a.clock.hour, a.clock.minute, a.clock.second, a.clock.micro, none⟩)
    (b := ⟨b.clock.ord, b.clock.hour, b.clock.minute, b.clock.second, b.clock.micro, none⟩) ha.1 hb.1
  have l2 := wall_lex (b := ⟨a.clock.ord, a.clock.hour, a.clock.minute, a.clock.second, a.clock.micro, none⟩)
    (a := ⟨b.clock.ord, b.clock.hour, b.clock.minute, b.clock.second, b.clock.micro, none⟩) hb.1 ha.1
  have hb2 : IsCmp (a.clock.wall < b.clock.wall) (b.clock.wall < a.clock.wall) _ := isCmp_congr hbase l1 l2
  unfold Moment.cmp
  simp only [bind, Except.bind, pure, Except.pure, utcoffset_eq ha, utcoffset_eq hb, Bool.false_eq_true, if_false]
  rw [if_neg h]
  obtain ⟨s1, s2, s3⟩ := sub_offsets ha hb h
  refine ⟨fun x y hx hy => ?_, fun hne => ?_⟩
  · by_cases hoff : a.off = b.off
    · rw [if_pos hoff]
      refine ⟨_, rfl, isCmp_congr hb2 ?_ ?_⟩ <;>
      · have : x = y := by rw [hx, hy] at hoff; injection hoff
        subst this
        omega
    · rw [if_neg hoff, hx, hy]
      simp only [reduceCtorEq, or_self, if_false]
      obtain ⟨t, ht, ct, tt⟩ := s1 x y hx hy
      rw [ht]
      simp only
      unfold Delta.Canonical at ct
      unfold Delta.total at tt
      unfold IsCmp Delta.total
      split
      · exact ⟨_, rfl, by omega⟩
      · split
        · exact ⟨_, rfl, by omega⟩
        · exact ⟨_, rfl, by omega⟩
  · cases hx : a.off with
    | none =>
      cases hy : b.off with
      | none => rw [hx, hy] at hne; exact absurd rfl hne
      | some y => simp
    | some x =>
      cases hy : b.off with
      | none => simp
      | some y => rw [hx, hy] at hne; exact absurd rfl hne

/-- The moment with `fold` cleared. -/
def Moment.unfolded (m : Moment) : Moment := { m with clock := { m.clock with fold := false } }

theorem hash_eq {m : Moment} (h : m.Ok) :
    (m.unfolded.off = none → m.hash = m.unfolded.getstate ∧ ∃ k, m.unfolded.getstate = .ok k) ∧
    (∀ o, m.unfolded.off = some o → ∃ t : Delta, t.Canonical ∧ t.total = m.clock.wall - o.total ∧
      m.hash = .ok (.tuple [t.days, t.seconds, t.micros])) := by
  have ht : (if m.clock.fold then { m with clock := { m.clock with fold := false } } else m) = m.unfolded := by
    unfold Moment.unfolded
    split
    · rfl
    · rename_i hf
      obtain ⟨⟨o, hh, mm, ss, us, f⟩, tz⟩ := m
      simp only [Bool.not_eq_true] at hf
      rw [hf]
  have hok : m.unfolded.Ok := ⟨h.1, h.2⟩
  obtain ⟨d, h1, _, h3, h4, _⟩ := ymd_spec h.1
  unfold Moment.hash
  simp only [ht, utcoffset_eq hok, bind, Except.bind]
  refine ⟨fun ho => ?_, fun o ho => ?_⟩
  · rw [ho]
    refine ⟨rfl, ?_⟩
    unfold Moment.getstate
    have : m.unfolded.ymd = m.ymd := rfl
    simp only [this, h1, bind, Except.bind, pure, Except.pure]
    exact ⟨_, rfl⟩
  · rw [ho]
    simp only [h1, h4, orOverflow]
    have hv := h.1
    unfold Reading.Valid at hv
    obtain ⟨p, _⟩ := delta3_spec m.clock.ord (m.clock.hour * 3600 + m.clock.minute * 60 + m.clock.second) m.clock.micro
    obtain ⟨e, he, ce, te⟩ := p (by unfold InRange; omega)
    have te' : e.total = m.clock.wall := by rw [te]; unfold Reading.wall; omega
    obtain ⟨q, _⟩ := delta3_spec (e.days - o.days) (e.seconds - o.seconds) (e.micros - o.micros)
    have f2 : ((e.days - o.days) * 86400 + (e.seconds - o.seconds)) * 1000000 + (e.micros - o.micros) =
        m.clock.wall - o.total := by rw [← te']; unfold Delta.total; omega
    rw [f2] at q
    have oo := off_ok hok ho
    have hf := fits_of_valid h.1
    unfold Fits at hf
    obtain ⟨g, hg, cg, tg⟩ := q (by unfold InRange; have := oo.2; omega)
    refine ⟨g, cg, tg, ?_⟩
    have hg' : deltaSub e o = some g := hg
    simp only [he, hg', pure, Except.pure]

theorem unfolded_off {m : Moment} (h : FoldFree m) : m.unfolded.off = m.off := by
  unfold FoldFree at h
  obtain ⟨⟨o, hh, mm, ss, us, f⟩, tz⟩ := m
  cases f
  · rfl
  · exact h.symm

theorem getstate_congr {a b : Moment} (h : a.clock = b.clock) : a.getstate = b.getstate := by
  obtain ⟨ca, za⟩ := a
  obtain ⟨cb, zb⟩ := b
  simp only at h
  subst h
  rfl

/-- **C172.** Equal moments have equal hashes, in whatever zones, and hashing never fails. -/
theorem equal_moments_hash_alike {a b : Moment} (ha : a.Ok) (hb : b.Ok) (hs : SameZone a b) (h : a.eq b = .ok true) :
    a.hash = b.hash ∧ ∃ k, a.hash = .ok k := by
  obtain ⟨e1, e2⟩ := equality ha hb
  obtain ⟨a1, a2⟩ := hash_eq ha
  obtain ⟨b1, b2⟩ := hash_eq hb
  have hclock : a.clock.wall = b.clock.wall → a.unfolded.clock = b.unfolded.clock := fun hw =>
    reading_unique (a := a.unfolded.clock) (b := b.unfolded.clock) ha.1 hb.1 hw rfl
  have htup : ∀ x y, a.unfolded.off = some x → b.unfolded.off = some y →
      a.clock.wall - x.total = b.clock.wall - y.total → a.hash = b.hash ∧ ∃ k, a.hash = .ok k := by
    intro x y hx hy hw
    obtain ⟨t, ct, tt, ht⟩ := a2 x hx
    obtain ⟨t', ct', tt', ht'⟩ := b2 y hy
    have : t = t' := canonical_unique ct ct' (by rw [tt, tt', hw])
    subst this
    exact ⟨by rw [ht, ht'], _, ht⟩
  by_cases hid : a.tzId = b.tzId
  · rw [e1 hid] at h
    injection h with h
    rw [decide_eq_true_iff] at h
    have hc := hclock h
    have hz := same_zone hs hid
    have hoff : a.unfolded.off = b.unfolded.off := by
      unfold Moment.off
      rw [hc]
      have : a.unfolded.tz = b.unfolded.tz := hz
      rw [this]
    cases hx : a.unfolded.off with
    | none =>
      obtain ⟨p1, p2⟩ := a1 hx
      obtain ⟨q1, _⟩ := b1 (by rw [← hoff, hx])
      rw [p1, q1]
      exact ⟨getstate_congr hc, p2⟩
    | some x => exact htup x x hx (by rw [← hoff, hx]) (by omega)
  · obtain ⟨r, hr, hiff⟩ := e2 hid
    rw [hr] at h
    injection h with h
    obtain ⟨fa, fb, hcase⟩ := hiff.mp h
    rcases hcase with ⟨hx, hy, hw⟩ | ⟨x, y, hx, hy, hw⟩
    · obtain ⟨p1, p2⟩ := a1 (by rw [unfolded_off fa, hx])
      obtain ⟨q1, _⟩ := b1 (by rw [unfolded_off fb, hy])
      rw [p1, q1]
      exact ⟨getstate_congr (hclock hw), p2⟩
    · exact htup x y (by rw [unfolded_off fa, hx]) (by rw [unfolded_off fb, hy]) hw

/-- 23:05 UTC on the day before: the instant of `mA`. -/
def mC : Moment := ⟨⟨738885, 23, 5, 0, 0, true⟩, some (.fixed 3 ⟨0, 0, 0⟩)⟩

example : mA.eq mC = .ok true ∧ mA.hash = .ok (.tuple [738885, 83100, 0]) ∧ mC.hash = .ok (.tuple [738885, 83100, 0]) :=
  ⟨rfl, rfl, rfl⟩

/-- **C172.** Equal times of day have equal hashes if their offsets are of whole minutes.  (Missing: offsets with seconds,
where `time_hash_fails` shows that there is no hash.) -/
theorem equal_times_hash_alike_partial {a b : TimeOf}
    (va : TM.Valid ⟨a.hour, a.minute, a.second, a.micro, ⟨0, 0, 0⟩⟩) (vb : TM.Valid ⟨b.hour, b.minute, b.second, b.micro, ⟨0, 0, 0⟩⟩)
    (oa : ∀ x, a.utcoffset = some x → OffsetOk x ∧ 60000000 ∣ x.total)
    (ob : ∀ x, b.utcoffset = some x → OffsetOk x ∧ 60000000 ∣ x.total)
    (hs : a.tz.map (·.1) = b.tz.map (·.1) → a.tz = b.tz) (h : a.cmp b = 0) :
    a.hash = b.hash ∧ ∃ k, a.hash = .ok k := by
  unfold TM.Valid at va vb
  simp only at va vb
  -- what the hash is, by the minutes in UTC
  have key : ∀ t : TimeOf, (0 ≤ t.hour ∧ t.hour < 24 ∧ 0 ≤ t.minute ∧ t.minute < 60 ∧ 0 ≤ t.second ∧ t.second < 60 ∧
      0 ≤ t.micro ∧ t.micro < 1000000) →
      (t.utcoffset = none → t.hash = .ok (timeGetstate t.hour t.minute t.second t.micro)) ∧
      (∀ x, t.utcoffset = some x → OffsetOk x ∧ 60000000 ∣ x.total →
        let n := t.hour * 60 + t.minute - x.total / 60000000
        t.hash = .ok (if 0 ≤ n / 60 ∧ n / 60 < 24 then timeGetstate (n / 60) (n % 60) t.second t.micro
          else .tuple [n / 60, n % 60, t.second, t.micro])) := by
    intro t vt
    unfold TimeOf.hash
    refine ⟨fun hn => by rw [hn]; rfl, fun x hx ⟨ox, dx⟩ => ?_⟩
    rw [hx]
    simp only [bind, Except.bind, pure, Except.pure]
    by_cases h0 : x = ⟨0, 0, 0⟩
    · rw [if_pos h0]
      have : x.total = 0 := by rw [h0]; decide
      rw [this]
      have e1 : (t.hour * 60 + t.minute - 0 / 60000000) / 60 = t.hour := by omega
      have e2 : (t.hour * 60 + t.minute - 0 / 60000000) % 60 = t.minute := by omega
      rw [e1, e2, if_pos (by omega)]
    · rw [if_neg h0]
      obtain ⟨p, _⟩ := mkDelta_spec 0 0 0 0 t.minute t.hour 0
      obtain ⟨e, he, ce, te⟩ := p (by unfold InRange; omega)
      rw [he]
      simp only [orOverflow]
      obtain ⟨q, _⟩ := delta3_spec (e.days - x.days) (e.seconds - x.seconds) (e.micros - x.micros)
      have f2 : ((e.days - x.days) * 86400 + (e.seconds - x.seconds)) * 1000000 + (e.micros - x.micros) =
          (t.hour * 60 + t.minute) * 60000000 - x.total := by
        unfold Delta.total at te ⊢
        omega
      rw [f2] at q
      obtain ⟨g, hg, cg, tg⟩ := q (by unfold InRange; have := ox.2; omega)
      have hg' : deltaSub e x = some g := hg
      rw [hg']
      simp only
      obtain ⟨n, hn⟩ : ∃ n, n = t.hour * 60 + t.minute - x.total / 60000000 := ⟨_, rfl⟩
      have hgn : g.total = n * 60000000 := by rw [tg, hn]; obtain ⟨w, hw⟩ := dx; omega
      rw [← hn]
      have c1 : (⟨0, 3600, 0⟩ : Delta).total = 3600000000 := by decide
      have c2 : (⟨0, 60, 0⟩ : Delta).total = 60000000 := by decide
      have d1 : deltaFloordiv g ⟨0, 3600, 0⟩ = n / 60 := by
        unfold deltaFloordiv; rw [toMicros_eq, toMicros_eq, c1, fdiv_lit _ (by omega), hgn]; omega
      obtain ⟨r, _⟩ := delta3_spec 0 0 ((toMicros g).fmod (toMicros ⟨0, 3600, 0⟩))
      have d2 : (toMicros g).fmod (toMicros ⟨0, 3600, 0⟩) = (n % 60) * 60000000 := by
        rw [toMicros_eq, toMicros_eq, c1, fmod_lit _ (by omega), hgn]; omega
      rw [d2] at r
      obtain ⟨m, hm, cm, tm⟩ := r (by unfold InRange; omega)
      have hm' : deltaMod g ⟨0, 3600, 0⟩ = some m := by unfold deltaMod; rw [d2]; exact hm
      have tm' : m.total = (n % 60) * 60000000 := by rw [tm]; omega
      rw [d1, hm']
      simp only
      have d3 : (toMicros m).fmod (toMicros ⟨0, 60, 0⟩) = 0 := by
        rw [toMicros_eq, toMicros_eq, c2, fmod_lit _ (by omega), tm']; omega
      have hr0 : deltaMod m ⟨0, 60, 0⟩ = some ⟨0, 0, 0⟩ := by unfold deltaMod; rw [d3]; decide
      have d4 : deltaFloordiv m ⟨0, 60, 0⟩ = n % 60 := by
        unfold deltaFloordiv; rw [toMicros_eq, toMicros_eq, c2, fdiv_lit _ (by omega), tm']; omega
      rw [hr0, d4]
      simp only [ne_eq, not_true_eq_false, if_false]
      split <;> rfl
  obtain ⟨ka, ka'⟩ := key a va
  obtain ⟨kb, kb'⟩ := key b vb
  have hbase : Verif.Dates.cmp [a.hour, a.minute, a.second, a.micro] [b.hour, b.minute, b.second, b.micro] = 0 →
      a.hour = b.hour ∧ a.minute = b.minute ∧ a.second = b.second ∧ a.micro = b.micro := by
    intro h0
    have := cmp_spec [a.hour, a.minute, a.second, a.micro] [b.hour, b.minute, b.second, b.micro] rfl
    rw [h0] at this
    unfold IsCmp at this
    rcases this with ⟨_, hc⟩ | ⟨_, hc⟩ | ⟨n1, n2, _⟩
    · omega
    · omega
    · rcases lex_total [a.hour, a.minute, a.second, a.micro] [b.hour, b.minute, b.second, b.micro] rfl with h1 | h1 | h1
      · exact absurd h1 n1
      · simpa using h1
      · exact absurd h1 n2
  have hsame : a.utcoffset = b.utcoffset →
      (a.hour = b.hour ∧ a.minute = b.minute ∧ a.second = b.second ∧ a.micro = b.micro) →
      a.hash = b.hash ∧ ∃ k, a.hash = .ok k := by
    rintro hoff ⟨e1, e2, e3, e4⟩
    cases hx : a.utcoffset with
    | none =>
      rw [ka hx, kb (by rw [← hoff, hx]), e1, e2, e3, e4]
      exact ⟨rfl, _, rfl⟩
    | some x =>
      have p := ka' x hx (oa x hx)
      have q := kb' x (by rw [← hoff, hx]) (oa x hx)
      simp only at p q
      rw [p, q, e1, e2, e3, e4]
      exact ⟨rfl, _, rfl⟩
  unfold TimeOf.cmp at h
  simp only at h
  split at h
  · rename_i hid
    refine hsame ?_ (hbase h)
    unfold TimeOf.utcoffset
    rw [hs hid]
  · split at h
    · rename_i hoff
      exact hsame hoff (hbase h)
    · cases hx : a.utcoffset with
      | none =>
        rw [hx] at h
        simp at h
      | some x =>
        cases hy : b.utcoffset with
        | none => rw [hx, hy] at h; simp at h
        | some y =>
          rw [hx, hy] at h
          simp only at h
          obtain ⟨ox, dx⟩ := oa x hx
          obtain ⟨oy, dy⟩ := ob y hy
          have hc := time_compare_partial (a := ⟨a.hour, a.minute, a.second, a.micro, x⟩)
            (b := ⟨b.hour, b.minute, b.second, b.micro, y⟩) va vb dx dy
          rw [h] at hc
          have hu : TM.utc ⟨a.hour, a.minute, a.second, a.micro, x⟩ = TM.utc ⟨b.hour, b.minute, b.second, b.micro, y⟩ := by
            unfold IsCmp at hc
            omega
          unfold TM.utc at hu
          simp only at hu
          obtain ⟨wx, hwx⟩ := dx
          obtain ⟨wy, hwy⟩ := dy
          have hn : a.hour * 60 + a.minute - x.total / 60000000 = b.hour * 60 + b.minute - y.total / 60000000 := by omega
          have e3 : a.second = b.second := by omega
          have e4 : a.micro = b.micro := by omega
          have p := ka' x hx (oa x hx)
          have q := kb' y hy (ob y hy)
          simp only at p q
          rw [p, q, hn, e3, e4]
          exact ⟨rfl, _, rfl⟩

/-- 10:30 at UTC+1:30 and 9:00 UTC. -/
def tA : TimeOf := ⟨10, 30, 0, 0, false, some (1, some ⟨0, 5400, 0⟩)⟩
def tB : TimeOf := ⟨9, 0, 0, 0, false, some (2, some ⟨0, 0, 0⟩)⟩

example : tA.cmp tB = 0 ∧ tA.hash = .ok (.bytes [9, 0, 0, 0, 0, 0]) ∧ tB.hash = .ok (.bytes [9, 0, 0, 0, 0, 0]) :=
  ⟨by decide, rfl, rfl⟩

/-- **C172, disagreement.** A time of day whose offset has seconds cannot be hashed: an assertion fails.  (Python's own
`time` can.) -/
theorem time_hash_fails : ({ tA with tz := some (1, some ⟨0, 5430, 0⟩) } : TimeOf).hash = .error .assertion := rfl

/-! ### Taking apart and putting together -/

/-- **C173.** A moment is put together from its date and its time of day. -/
theorem combine_parts {m : Moment} (h : m.clock.Valid) :
    combine m.date m.timetz none = .ok m ∧ combine m.date m.time (some m.tz) = .ok m ∧
    combine m.date m.time none = .ok ⟨m.clock, none⟩ := by
  obtain ⟨d, h1, _, h3, h4, _⟩ := ymd_spec h
  have hy : (⟨⟨m.date, 0, 0, 0, 0, false⟩, none⟩ : Moment).ymd = .ok d := h1
  unfold combine
  simp only [hy, bind, Except.bind]
  exact ⟨mkMoment_ymd h h3 h4 m.tz m.clock.fold, mkMoment_ymd h h3 h4 m.tz m.clock.fold,
    mkMoment_ymd h h3 h4 none m.clock.fold⟩

/-- **C173.** `replace` changes exactly the fields it is given, and fails exactly if the result would not be a date and
time in the years 1 to 9999. -/
theorem replace_fields {m : Moment} (c : Changes) {d : Ymd} (hd : m.ymd = .ok d) :
    let date : Ymd := ⟨c.year.getD d.year, c.month.getD d.month, c.day.getD d.day⟩
    let hour := c.hour.getD m.clock.hour
    let minute := c.minute.getD m.clock.minute
    let second := c.second.getD m.clock.second
    let micro := c.micro.getD m.clock.micro
    if date.Valid ∧ (1 ≤ date.year ∧ date.year ≤ 9999) ∧ (0 ≤ hour ∧ hour < 24) ∧ (0 ≤ minute ∧ minute < 60) ∧
        (0 ≤ second ∧ second < 60) ∧ (0 ≤ micro ∧ micro < 1000000) then
      ∃ r : Moment, m.replace c = .ok r ∧ r.clock.Valid ∧ r.ymd = .ok date ∧ r.clock.hour = hour ∧
        r.clock.minute = minute ∧ r.clock.second = second ∧ r.clock.micro = micro ∧
        r.tz = c.tz.getD m.tz ∧ r.clock.fold = c.fold.getD m.clock.fold
    else m.replace c = .error .value := by
  intro date hour minute second micro
  have he : m.replace c = mkMoment date.year date.month date.day hour minute second micro (c.tz.getD m.tz)
      (c.fold.getD m.clock.fold) := by
    unfold Moment.replace
    rw [hd]
    rfl
  rw [he]
  unfold mkMoment
  have hdate : (⟨date.year, date.month, date.day⟩ : Ymd) = date := rfl
  rw [hdate, mkDate_spec]
  by_cases hv : date.Valid ∧ 1 ≤ date.year ∧ date.year ≤ 9999
  · rw [if_pos hv, Option.bind_some, ymd2ord_valid hv.1]
    simp only
    by_cases h1 : 0 ≤ hour ∧ hour ≤ 23
    swap
    · rw [if_pos h1, if_neg (by omega)]
    rw [if_neg (not_not.mpr h1)]
    by_cases h2 : 0 ≤ minute ∧ minute ≤ 59
    swap
    · rw [if_pos h2, if_neg (by omega)]
    rw [if_neg (not_not.mpr h2)]
    by_cases h3 : 0 ≤ second ∧ second ≤ 59
    swap
    · rw [if_pos h3, if_neg (by omega)]
    rw [if_neg (not_not.mpr h3)]
    by_cases h4 : 0 ≤ micro ∧ micro ≤ 999999
    swap
    · rw [if_pos h4, if_neg (by omega)]
    rw [if_neg (not_not.mpr h4), if_pos ⟨hv.1, hv.2, by omega, by omega, by omega, by omega⟩]
    have hr := (date_range hv.1).mp hv.2
    unfold maxOrdinal at hr
    have hval : Reading.Valid ⟨ordOf date, hour, minute, second, micro, c.fold.getD m.clock.fold⟩ := by
      unfold Reading.Valid; simp only; omega
    refine ⟨_, rfl, hval, ?_, rfl, rfl, rfl, rfl, rfl, rfl⟩
    obtain ⟨d', p1, p2, _, _, p5⟩ := ymd_spec (m := ⟨⟨ordOf date, hour, minute, second, micro, c.fold.getD m.clock.fold⟩, c.tz.getD m.tz⟩) hval
    rw [p1, ordOf_inj p2 hv.1 p5]
  · rw [if_neg hv, Option.bind_none, if_neg (fun hc => hv ⟨hc.1, hc.2.1⟩)]

example : (mB false).ymd = .ok ⟨1970, 2, 11⟩ ∧
    ((mB false).replace { month := some 3, fold := some true }).map (·.clock) = .ok ⟨719232, 17, 30, 0, 25, true⟩ ∧
    ((mB false).replace { day := some 29 }).map (·.clock) = .error .value := ⟨by rfl, by rfl, by rfl⟩

/-! ### Time tuples -/

theorem buildTuple_spec {f : Ymd → Int} (hf : NumbersDays f) {d : Ymd} (hv : d.Valid) (hh mm ss flag : Int) :
    buildTuple d hh mm ss flag = .ok ⟨d.year, d.month, d.day, hh, mm, ss, (f d + 6) % 7,
      f d - f ⟨d.year, 1, 1⟩ + 1, flag⟩ := by
  have h1 := numbering_unique hf hv
  have hj : (⟨d.year, 1, 1⟩ : Ymd).Valid := by
    unfold Ymd.Valid; have := monthLen_pos d.year 1; simp only; omega
  have h2 := numbering_unique hf hj
  unfold buildTuple
  rw [ymd2ord_valid hv]
  simp only [orOverflow, bind, Except.bind, pure, Except.pure]
  rw [fmod_lit _ (by omega), h1, h2, daysBeforeMonth_eq ⟨hv.1, hv.2.1⟩]
  congr 2
  unfold ordOf
  simp only [dbm_first]
  omega

/-- **C174.** A time tuple holds the fields of the clock, the day of the week and the day of the year, and a flag: 1 if
daylight saving time is in force, 0 if not, -1 if unknown. -/
theorem timetuple_fields {f : Ymd → Int} (hf : NumbersDays f) {m : Moment} (hm : m.Ok) {d : Ymd} (hd : m.ymd = .ok d) :
    ∃ flag : Int, m.timetuple = .ok ⟨d.year, d.month, d.day, m.clock.hour, m.clock.minute, m.clock.second, (f d + 6) % 7,
      f d - f ⟨d.year, 1, 1⟩ + 1, flag⟩ ∧ f d = m.clock.ord ∧
      (match m.tz.bind (·.dst m.clock) with
        | none => flag = -1
        | some s => (s.total = 0 → flag = 0) ∧ (s.total ≠ 0 → flag = 1)) := by
  obtain ⟨d', h1, h2, _, _, h5⟩ := ymd_spec hm.1
  rw [hd] at h1
  injection h1 with h1
  subst h1
  have hord : f d = m.clock.ord := by rw [numbering_unique hf h2, h5]
  unfold Moment.timetuple
  rw [dst_eq hm]
  cases hdst : m.tz.bind (·.dst m.clock) with
  | none =>
    simp only [bind, Except.bind, hd]
    exact ⟨-1, buildTuple_spec hf h2 _ _ _ _, hord, rfl⟩
  | some s =>
    simp only [bind, Except.bind, hd]
    refine ⟨_, buildTuple_spec hf h2 _ _ _ _, hord, ?_, ?_⟩
    · intro h0
      rw [if_neg]
      simp only [ne_eq, not_not]
      have hs : OffsetOk s := by
        obtain ⟨z, hz, hzs⟩ := Option.bind_eq_some_iff.mp hdst
        exact hm.2 z hz _ s (.inr hzs)
      exact canonical_unique hs.1 (by decide) (by rw [h0]; decide)
    · intro h0
      rw [if_pos]
      rintro rfl
      exact h0 (by decide)

/-- **C174.** The UTC time tuple of an aware moment holds the fields of a UTC clock at its instant; that of a naive moment
the fields of its own clock.  It overflows exactly if the UTC time is outside the years 1 to 9999. -/
theorem utctimetuple_fields {f : Ymd → Int} (hf : NumbersDays f) {m : Moment} (hm : m.Ok) :
    let w := m.clock.wall - (m.off.map Delta.total).getD 0
    if Fits w then
      ∃ (c : Reading) (d : Ymd), c.Valid ∧ c.wall = w ∧ d.Valid ∧ f d = c.ord ∧
        m.utctimetuple = .ok ⟨d.year, d.month, d.day, c.hour, c.minute, c.second, (f d + 6) % 7,
          f d - f ⟨d.year, 1, 1⟩ + 1, 0⟩
    else m.utctimetuple = .error .overflow := by
  intro w
  have hself : w = m.clock.wall → ∀ (o : Option Delta), m.off = o → (o = none ∨ o = some ⟨0, 0, 0⟩) →
      if Fits w then
      ∃ (c : Reading) (d : Ymd), c.Valid ∧ c.wall = w ∧ d.Valid ∧ f d = c.ord ∧
        m.utctimetuple = .ok ⟨d.year, d.month, d.day, c.hour, c.minute, c.second, (f d + 6) % 7,
          f d - f ⟨d.year, 1, 1⟩ + 1, 0⟩
      else m.utctimetuple = .error .overflow := by
    intro hw o ho hcase
    rw [if_pos (by rw [hw]; exact fits_of_valid hm.1)]
    obtain ⟨d, h1, h2, _, _, h5⟩ := ymd_spec hm.1
    refine ⟨m.clock, d, hm.1, hw.symm, h2, by rw [numbering_unique hf h2, h5], ?_⟩
    unfold Moment.utctimetuple
    rw [utcoffset_eq hm, ho]
    rcases hcase with rfl | rfl
    · simp only [bind, Except.bind, pure, Except.pure, h1]
      exact buildTuple_spec hf h2 _ _ _ _
    · simp only [bind, Except.bind, pure, Except.pure, ne_eq, not_true_eq_false, if_false, h1]
      exact buildTuple_spec hf h2 _ _ _ _
  cases ho : m.off with
  | none => exact hself (by simp [w, ho]) none ho (.inl rfl)
  | some o =>
    have hw : w = m.clock.wall - o.total := by simp [w, ho]
    by_cases h0 : o = ⟨0, 0, 0⟩
    · subst h0
      exact hself (by rw [hw]; have : (⟨0, 0, 0⟩ : Delta).total = 0 := by decide
                      omega) _ ho (.inr rfl)
    · obtain ⟨s1, s2⟩ := subDelta_spec hm.1 (off_ok hm ho)
      rw [← hw] at s1 s2
      unfold Moment.utctimetuple
      rw [utcoffset_eq hm, ho]
      simp only [bind, Except.bind, pure, Except.pure, ne_eq, h0, not_false_eq_true, if_true]
      split
      · rename_i hfit
        obtain ⟨c, hc, vc, wc, _⟩ := s1 hfit
        obtain ⟨d, h1, h2, _, _, h5⟩ := ymd_spec (m := ⟨c, m.tz⟩) vc
        refine ⟨c, d, vc, wc, h2, by rw [numbering_unique hf h2, h5], ?_⟩
        rw [hc]
        simp only [h1]
        exact buildTuple_spec hf h2 _ _ _ _
      · rename_i hfit
        rw [s2 hfit]

example : mA.utctimetuple = .ok ⟨2023, 12, 31, 23, 5, 0, 6, 365, 0⟩ ∧ mA.timetuple = .ok ⟨2024, 1, 1, 0, 5, 0, 0, 1, 0⟩ :=
  ⟨by rfl, by rfl⟩

end Verif.Zones
