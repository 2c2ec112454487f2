import Verif.Zones.Lemmas

/-! Helper lemmas about local time. -/

namespace Verif.Zones

open Verif.Dates

/-- `_mktime` on whole seconds, when nothing overflows. -/
def solve (off : Int → Int) (t : Int) (fold : Bool) : Int :=
  let a := off t
  let u1 := t - a
  if u1 + off u1 = t then
    let b := off (u1 + if fold then 86400 else -86400)
    if a = b then u1
    else if (t - b) + off (t - b) = t then t - b else u1
  else
    let b := off u1
    if (t - b) + off (t - b) = t then t - b
    else if fold then min u1 (t - b) else max u1 (t - b)

/-- The wall clock in whole seconds since 1970. -/
def Reading.seconds (c : Reading) : Int := (c.wall - epoch) / 1000000

/-- Three days away from the ends of the calendar. -/
def Reading.Inner (c : Reading) : Prop := 4 ≤ c.ord ∧ c.ord ≤ 3652056

instance (c : Reading) : Decidable c.Inner := by unfold Reading.Inner; infer_instance

theorem mktime_eq {off : Int → Int} (hp : Proper off) {m : Moment} (hv : m.clock.Valid) (hi : m.clock.Inner)
    (hz : m.tz = none) : m.mktime off = .ok (solve off m.clock.seconds m.clock.fold) := by
  obtain ⟨t, ht, _, tt⟩ := sub_same (a := m) (b := epochNaive) hv epoch_valid (by unfold Moment.tzId; rw [hz]; rfl)
  rw [epoch_wall] at tt
  have hT : t.total / 1000000 = m.clock.seconds := by rw [tt]; rfl
  have hb : 3 * 86400 ≤ m.clock.seconds + 719163 * 86400 - 86400 ∧
      m.clock.seconds + 719163 * 86400 + 3 * 86400 < 3652060 * 86400 := by
    unfold Reading.seconds Reading.wall epoch
    unfold Reading.Valid at hv
    unfold Reading.Inner at hi
    omega
  have hl : ∀ u, m.clock.seconds - 172800 ≤ u → u ≤ m.clock.seconds + 172800 → localSeconds off u = .ok (u + off u) := by
    intro u h1 h2
    apply localSeconds_spec
    have := hp u
    unfold Fits epoch
    omega
  unfold Moment.mktime
  simp only [ht, bind, Except.bind, pure, Except.pure, floor_seconds, hT]
  generalize m.clock.seconds = s at *
  rw [hl s (by omega) (by omega)]
  simp only
  have e : s + off s - s = off s := by omega
  rw [e]
  have h0 := hp s
  rw [hl (s - off s) (by omega) (by omega)]
  simp only
  unfold solve
  simp only
  split
  · have : -86400 ≤ (if m.clock.fold = true then (86400 : Int) else -86400) ∧
        (if m.clock.fold = true then (86400 : Int) else -86400) ≤ 86400 := by split <;> omega
    generalize (if m.clock.fold = true then (86400 : Int) else -86400) = k at *
    rw [hl (s - off s + k) (by omega) (by omega)]
    simp only
    have e2 : s - off s + k + off (s - off s + k) - (s - off s + k) = off (s - off s + k) := by omega
    rw [e2]
    split
    · rfl
    · have h2 := hp (s - off s + k)
      rw [hl (s - off (s - off s + k)) (by omega) (by omega)]
      simp only
      split <;> rfl
  · rename_i hne
    have e2 : s - off s + off (s - off s) - (s - off s) = off (s - off s) := by omega
    rw [e2]
    rw [if_neg (by omega)]
    have h2 := hp (s - off s)
    rw [hl (s - off (s - off s)) (by omega) (by omega)]
    simp only
    split <;> rfl

theorem solve_spec {off : Int → Int} (hp : Proper off) {t : Int} (hc : OneChange off t 172800) (fold : Bool) :
    (Shows off (solve off t fold) t ∧ ∀ v, Shows off v t → if fold then v ≤ solve off t fold else solve off t fold ≤ v) ∨
    ((∀ v, ¬ Shows off v t) ∧
      ∃ T, SkippedAt off T t ∧ solve off t fold = t - if fold then off T else off (T - 1)) := by
  obtain ⟨T, a, b, a1, a2, b1, b2, ab, ba, H⟩ := hc
  have H1 : ∀ u, t - 172800 ≤ u → u ≤ t + 172800 → (u < T ∧ off u = a) ∨ (T ≤ u ∧ off u = b) := by
    intro u h1 h2
    have := H u h1 h2
    split at this
    · exact .inl ⟨by assumption, this⟩
    · exact .inr ⟨by omega, this⟩
  have hsol : ∀ v, Shows off v t → (v < T ∧ v = t - a) ∨ (T ≤ v ∧ v = t - b) := by
    intro v hv
    unfold Shows at hv
    have := hp v
    rcases H1 v (by omega) (by omega) with h | h <;> omega
  have h0 := H1 t (by omega) (by omega)
  have hp0 := hp t
  have h1 := H1 (t - off t) (by omega) (by omega)
  unfold solve
  simp only
  by_cases hs : t - off t + off (t - off t) = t
  · rw [if_pos hs]
    left
    generalize hk : (if fold = true then (86400 : Int) else -86400) = k
    have h2 := H1 (t - off t + k) (by cases fold <;> simp at hk <;> omega) (by cases fold <;> simp at hk <;> omega)
    by_cases hab : off t = off (t - off t + k)
    · rw [if_pos hab]
      refine ⟨hs, fun v hv => ?_⟩
      have := hsol v hv
      cases fold
      · simp only [Bool.false_eq_true, if_false] at hk ⊢
        omega
      · simp only [if_true] at hk ⊢
        omega
    · rw [if_neg hab]
      have hp2 := hp (t - off t + k)
      have h3 := H1 (t - off (t - off t + k)) (by omega) (by omega)
      split
      · rename_i hs2
        refine ⟨hs2, fun v hv => ?_⟩
        have := hsol v hv
        cases fold
        · simp only [Bool.false_eq_true, if_false] at hk ⊢
          omega
        · simp only [if_true] at hk ⊢
          omega
      · rename_i hs2
        refine ⟨hs, fun v hv => ?_⟩
        have := hsol v hv
        cases fold
        · simp only [Bool.false_eq_true, if_false] at hk ⊢
          omega
        · simp only [if_true] at hk ⊢
          omega
  · rw [if_neg hs]
    have hp2 := hp (t - off t)
    have h3 := H1 (t - off (t - off t)) (by omega) (by omega)
    split
    · rename_i hs2
      left
      refine ⟨hs2, fun v hv => ?_⟩
      have := hsol v hv
      cases fold
      · simp only [Bool.false_eq_true, if_false]
        omega
      · simp only [if_true]
        omega
    · rename_i hs2
      right
      refine ⟨fun v hv => ?_, T, ?_, ?_⟩
      · have := hsol v hv
        unfold Shows at hv
        omega
      · have g1 := H1 T (by omega) (by omega)
        have g2 := H1 (T - 1) (by omega) (by omega)
        unfold SkippedAt
        omega
      · have g1 := H1 T (by omega) (by omega)
        have g2 := H1 (T - 1) (by omega) (by omega)
        cases fold
        · simp only [Bool.false_eq_true, if_false]
          omega
        · simp only [if_true]
          omega

/-! ### Timestamps -/

theorem roundEven_spec (q : ℚ) : NearestEven q (roundEven q) := by
  have h1 := Int.floor_le q
  have h2 := Int.lt_floor_add_one q
  unfold roundEven NearestEven
  simp only
  split
  · rename_i h
    rw [abs_of_nonneg (by linarith)]
    exact ⟨h.le, fun e => absurd e h.ne⟩
  · split
    · rename_i h3 h
      split
      · rename_i he
        rw [abs_of_nonneg (by linarith)]
        exact ⟨h.le, fun _ => he⟩
      · rename_i he
        push_cast
        rw [abs_of_nonpos (by linarith)]
        exact ⟨by linarith, fun _ => by omega⟩
    · rename_i h3 h
      push_cast
      rw [abs_of_nonpos (by linarith)]
      have h4 : 1 / 2 < q - ⌊q⌋ := lt_of_le_of_ne (not_lt.mp h3) (Ne.symm h)
      refine ⟨by linarith, fun e => ?_⟩
      exfalso
      linarith

theorem nearestEven_unique {q : ℚ} {n k : Int} (hn : NearestEven q n) (hk : NearestEven q k) : n = k := by
  obtain ⟨n1, n2⟩ := hn
  obtain ⟨k1, k2⟩ := hk
  rw [abs_le] at n1 k1
  have a1 : ((n - k : Int) : ℚ) ≤ 1 := by push_cast; linarith [n1.1, n1.2, k1.1, k1.2]
  have a2 : (-1 : ℚ) ≤ ((n - k : Int) : ℚ) := by push_cast; linarith [n1.1, n1.2, k1.1, k1.2]
  have b1 : n - k ≤ 1 := by exact_mod_cast a1
  have b2 : -1 ≤ n - k := by exact_mod_cast a2
  rcases (by omega : n = k ∨ n = k + 1 ∨ k = n + 1) with h | h | h
  · exact h
  · exfalso
    subst h
    push_cast at n1 n2
    have e : q - k = 1 / 2 := by linarith [n1.1, n1.2, k1.1, k1.2]
    have p1 := k2 (by rw [e]; norm_num)
    have p2 := n2 (by rw [show q - (k + 1) = -(1 / 2) by linarith]; norm_num)
    omega
  · exfalso
    subst h
    push_cast at k1 k2
    have e : q - n = 1 / 2 := by linarith [n1.1, n1.2, k1.1, k1.2]
    have p1 := n2 (by rw [e]; norm_num)
    have p2 := k2 (by rw [show q - (n + 1) = -(1 / 2) by linarith]; norm_num)
    omega

theorem splitStamp_spec (x : ℚ) :
    0 ≤ (splitStamp x).2 ∧ (splitStamp x).2 < 1000000 ∧
    NearestEven (x * 1000000) ((splitStamp x).1 * 1000000 + (splitStamp x).2) := by
  unfold splitStamp
  simp only
  generalize ht : (if x < 0 then ⌈x⌉ else ⌊x⌋) = t
  have hb : -1 < x - t ∧ x - t < 1 := by
    rw [← ht]
    split
    · have := Int.ceil_lt_add_one x
      have := Int.le_ceil x
      constructor <;> linarith
    · have := Int.lt_floor_add_one x
      have := Int.floor_le x
      constructor <;> linarith
  have hr := roundEven_spec ((x - t) * 1000000)
  generalize roundEven ((x - t) * 1000000) = us at hr
  have hsh : NearestEven (x * 1000000) (t * 1000000 + us) := by
    unfold NearestEven at hr ⊢
    have e : x * 1000000 - ((t * 1000000 + us : Int) : ℚ) = (x - t) * 1000000 - us := by push_cast; linarith
    rw [e]
    refine ⟨hr.1, fun h => ?_⟩
    have := hr.2 h
    omega
  have hus : -1000000 ≤ us ∧ us ≤ 1000000 := by
    have h1 := hr.1
    rw [abs_le] at h1
    have c1 : (-1000001 : ℚ) < us := by linarith [h1.1, h1.2, hb.1, hb.2]
    have c2 : (us : ℚ) < 1000001 := by linarith [h1.1, h1.2, hb.1, hb.2]
    have d1 : (-1000001 : Int) < us := by exact_mod_cast c1
    have d2 : us < 1000001 := by exact_mod_cast c2
    omega
  split
  · refine ⟨by simp only; omega, by simp only; omega, ?_⟩
    simp only
    rw [show (t + 1) * 1000000 + (us - 1000000) = t * 1000000 + us by ring]
    exact hsh
  · split
    · refine ⟨by simp only; omega, by simp only; omega, ?_⟩
      simp only
      rw [show (t - 1) * 1000000 + (us + 1000000) = t * 1000000 + us by ring]
      exact hsh
    · exact ⟨by simp only; omega, by simp only; omega, hsh⟩

/-! ### Naive moments from timestamps -/

theorem eq_naive {a b : Moment} (ha : a.clock.Valid) (hb : b.clock.Valid) (h : a.tzId = b.tzId) :
    a.eq b = .ok (decide (a.clock.wall = b.clock.wall)) := by
  unfold Moment.eq Moment.cmp
  simp only [h, if_true, bind, Except.bind, pure, Except.pure]
  congr 1
  have h1 := cmp_spec [a.clock.ord, a.clock.hour, a.clock.minute, a.clock.second, a.clock.micro]
    [b.clock.ord, b.clock.hour, b.clock.minute, b.clock.second, b.clock.micro] rfl
  have l1 := wall_lex (a := ⟨a.clock.ord, a.clock.hour, a.clock.minute, a.clock.second, a.clock.micro, none⟩)
    (b := ⟨b.clock.ord, b.clock.hour, b.clock.minute, b.clock.second, b.clock.micro, none⟩) ha hb
  have l2 := wall_lex (b := ⟨a.clock.ord, a.clock.hour, a.clock.minute, a.clock.second, a.clock.micro, none⟩)
    (a := ⟨b.clock.ord, b.clock.hour, b.clock.minute, b.clock.second, b.clock.micro, none⟩) hb ha
  have h2 := isCmp_congr h1 l1 l2
  have w1 : DT.wall ⟨a.clock.ord, a.clock.hour, a.clock.minute, a.clock.second, a.clock.micro, none⟩ = a.clock.wall := rfl
  have w2 : DT.wall ⟨b.clock.ord, b.clock.hour, b.clock.minute, b.clock.second, b.clock.micro, none⟩ = b.clock.wall := rfl
  rw [w1, w2] at h2
  unfold IsCmp at h2
  generalize Verif.Dates.cmp _ _ = c at h2
  rw [beq_eq_decide]
  congr 1
  rw [eq_iff_iff]
  omega

/-- The naive moment that `_fromtimestamp` makes, when nothing overflows. -/
theorem fromStamp_naive {conv : Int → Int} {off : Int → Int} {utc : Bool} {x : ℚ}
    (hconv : ∀ u, (if utc then u else u + off u) = conv u)
    (hin : ∀ u, (splitStamp x).1 - 172800 ≤ u → u ≤ (splitStamp x).1 → Fits (conv u * 1000000 + (splitStamp x).2 + epoch))
    (hp : ∀ u, -86400 < conv u - u ∧ conv u - u < 86400) :
    ∃ c : Reading, fromStamp off x utc none = .ok ⟨c, none⟩ ∧ c.Valid ∧ c.micro = (splitStamp x).2 ∧
      c.wall = conv (splitStamp x).1 * 1000000 + (splitStamp x).2 + epoch ∧
      c.fold = decide (
        conv (splitStamp x).1 - conv ((splitStamp x).1 - 86400) < 86400 ∧
        conv ((splitStamp x).1 + (conv (splitStamp x).1 - conv ((splitStamp x).1 - 86400) - 86400)) =
          conv (splitStamp x).1) := by
  obtain ⟨s1, s2, _⟩ := splitStamp_spec x
  unfold fromStamp
  generalize (splitStamp x).1 = t at *
  generalize (splitStamp x).2 = us at *
  simp only [hconv]
  obtain ⟨p, _⟩ := stampOf_spec (s := conv t) ⟨s1, s2⟩ none
  obtain ⟨c, hc, vc, wc, fc, mc⟩ := p (hin t (by omega) (by omega))
  obtain ⟨p', _⟩ := stampOf_spec (s := conv (t - 86400)) ⟨s1, s2⟩ none
  obtain ⟨c', hc', vc', wc', fc', mc'⟩ := p' (hin (t - 86400) (by omega) (by omega))
  obtain ⟨d, hd, cd, td⟩ := sub_same (a := ⟨c, none⟩) (b := ⟨c', none⟩) vc vc' rfl
  simp only at td
  have hday : delta3 0 86400 0 = some ⟨1, 0, 0⟩ := by decide
  have ht0 := hp t
  have ht1 := hp (t - 86400)
  obtain ⟨q1, _⟩ := delta3_spec (d.days - 1) (d.seconds - 0) (d.micros - 0)
  have f1 : ((d.days - 1) * 86400 + (d.seconds - 0)) * 1000000 + (d.micros - 0) =
      (conv t - conv (t - 86400) - 86400) * 1000000 := by
    have : d.total = (conv t - conv (t - 86400)) * 1000000 := by rw [td, wc, wc']; ring
    unfold Delta.total at this
    omega
  rw [f1] at q1
  obtain ⟨g, hg, cg, tg⟩ := q1 (by unfold InRange; omega)
  have hg' : deltaSub d ⟨1, 0, 0⟩ = some g := hg
  have hfd : deltaFloordiv g ⟨0, 1, 0⟩ = conv t - conv (t - 86400) - 86400 := by
    rw [floor_seconds, tg]; omega
  have hneg : g.days < 0 ↔ conv t - conv (t - 86400) < 86400 := by
    have : (g.days * 86400 + g.seconds) * 1000000 + g.micros = (conv t - conv (t - 86400) - 86400) * 1000000 := tg
    unfold Delta.Canonical at cg
    omega
  simp only [hc, hc', bind, Except.bind, hd, hday, orOverflow, hg', hfd, pure, Except.pure]
  by_cases hn : g.days < 0
  · rw [if_pos hn]
    have hn' := hneg.mp hn
    obtain ⟨r, _⟩ := stampOf_spec (s := conv (t + (conv t - conv (t - 86400) - 86400))) ⟨s1, s2⟩ none
    obtain ⟨c2, hc2, vc2, wc2, _, _⟩ := r (hin _ (by omega) (by omega))
    rw [hc2]
    simp only
    rw [eq_naive (a := ⟨c2, none⟩) (b := ⟨c, none⟩) vc2 vc rfl]
    simp only
    by_cases he : conv (t + (conv t - conv (t - 86400) - 86400)) = conv t
    · have : c2.wall = c.wall := by rw [wc, wc2, he]
      simp only [this, decide_true, if_true]
      exact ⟨_, rfl, vc, mc, wc, by simp [hn', he]⟩
    · have : c2.wall ≠ c.wall := by rw [wc, wc2]; omega
      simp only [this, decide_false, Bool.false_eq_true, if_false]
      exact ⟨_, rfl, vc, mc, wc, by simp [fc, he]⟩
  · rw [if_neg hn]
    refine ⟨_, rfl, vc, mc, wc, ?_⟩
    rw [hneg] at hn
    simp [fc, hn]

end Verif.Zones
