import Verif.Dates.Model
import Mathlib.Tactic.Linarith
import Mathlib.Tactic.IntervalCases
/-
Helper lemmas about the calendar.
-/
namespace Verif.Dates

theorem fdiv_lit (a : Int) {b : Int} (h : 0 ≤ b) : a.fdiv b = a / b := Int.fdiv_eq_ediv_of_nonneg a h
theorem fmod_lit (a : Int) {b : Int} (h : 0 ≤ b) : a.fmod b = a % b := Int.fmod_eq_emod_of_nonneg a h

theorem leap_iff (y : Int) : Leap y ↔ y % 4 = 0 ∧ (y % 100 = 0 → y % 400 = 0) := by
  unfold Leap; omega

theorem isLeap_eq (y : Int) : isLeap y = decide (Leap y) := by
  unfold isLeap
  rw [fmod_lit _ (by omega), fmod_lit _ (by omega), fmod_lit _ (by omega)]
  rw [Bool.eq_iff_iff, decide_eq_true_iff, leap_iff]
  simp only [Bool.and_eq_true, beq_iff_eq, Bool.or_eq_true, bne_iff_ne, ne_eq]
  omega

theorem isLeapInt_eq (y : Int) : isLeapInt y = if Leap y then 1 else 0 := by
  unfold isLeapInt b2i
  rw [fmod_lit _ (by omega), fmod_lit _ (by omega), fmod_lit _ (by omega)]
  by_cases h4 : y % 4 = 0 <;> by_cases h100 : y % 100 = 0 <;> by_cases h400 : y % 400 = 0 <;>
    simp [h4, h100, h400, leap_iff]

/-- 1 in leap years. -/
abbrev lp (y : Int) : Int := if Leap y then 1 else 0

theorem daysInMonth_eq {y m : Int} (h : 1 ≤ m ∧ m ≤ 12) : daysInMonth y m = monthLen y m := by
  unfold daysInMonth monthLen
  rw [isLeapInt_eq]
  obtain ⟨h1, h2⟩ := h
  by_cases hl : Leap y <;> interval_cases m <;> simp [hl]

theorem daysBeforeYear_eq (y : Int) :
    daysBeforeYear y = (y - 1) * 365 + (y - 1) / 4 - (y - 1) / 100 + (y - 1) / 400 := by
  unfold daysBeforeYear
  simp only
  rw [fdiv_lit _ (by omega), fdiv_lit _ (by omega), fdiv_lit _ (by omega)]

theorem daysBeforeYear_succ (y : Int) : daysBeforeYear (y + 1) = daysBeforeYear y + 365 + lp y := by
  rw [daysBeforeYear_eq, daysBeforeYear_eq]
  unfold lp
  by_cases h : Leap y
  · rw [if_pos h]; rw [leap_iff] at h; omega
  · rw [if_neg h]; rw [leap_iff] at h; omega

/-- Days before a month. -/
def dbm (y m : Int) : Int :=
  (if m = 1 then 0 else if m = 2 then 31 else if m = 3 then 59 else if m = 4 then 90 else if m = 5 then 120
   else if m = 6 then 151 else if m = 7 then 181 else if m = 8 then 212 else if m = 9 then 243
   else if m = 10 then 273 else if m = 11 then 304 else 334) + (if m > 2 then lp y else 0)

theorem daysBeforeMonth_eq {y m : Int} (h : 1 ≤ m ∧ m ≤ 12) : daysBeforeMonth y m = dbm y m := by
  unfold daysBeforeMonth dbm b2i
  rw [isLeapInt_eq]
  obtain ⟨h1, h2⟩ := h
  by_cases hl : Leap y <;> interval_cases m <;> simp [hl, lp, daysBeforeMonthTable, daysInMonthTable]

/-- The day number of a date. -/
def ordOf (d : Ymd) : Int := daysBeforeYear d.year + dbm d.year d.month + d.day

theorem ymd2ord_valid {d : Ymd} (h : d.Valid) : ymd2ord d = some (ordOf d) := by
  obtain ⟨h1, h2, h3, h4⟩ := h
  unfold ymd2ord
  rw [if_pos ⟨h1, h2⟩, if_pos ⟨h3, by rw [daysInMonth_eq ⟨h1, h2⟩]; exact h4⟩, daysBeforeMonth_eq ⟨h1, h2⟩]
  rfl

theorem ymd2ord_invalid {d : Ymd} (h : ¬ d.Valid) : ymd2ord d = none := by
  unfold ymd2ord
  by_cases hm : 1 ≤ d.month ∧ d.month ≤ 12
  · rw [if_pos hm, if_neg]
    rw [daysInMonth_eq hm]
    intro hd
    exact h ⟨hm.1, hm.2, hd.1, hd.2⟩
  · rw [if_neg hm]

theorem dbm_step {y m : Int} (h : 1 ≤ m ∧ m < 12) : dbm y (m + 1) = dbm y m + monthLen y m := by
  obtain ⟨h1, h2⟩ := h
  unfold dbm monthLen lp
  by_cases hl : Leap y <;> interval_cases m <;> simp [hl]

theorem dbm_last (y : Int) : dbm y 12 + monthLen y 12 = 365 + lp y := by
  unfold dbm monthLen lp
  by_cases hl : Leap y <;> simp [hl]

theorem dbm_first (y : Int) : dbm y 1 = 0 := by simp [dbm]

theorem monthLen_pos (y m : Int) : 28 ≤ monthLen y m ∧ monthLen y m ≤ 31 := by
  unfold monthLen
  split
  · split <;> omega
  · split <;> omega

theorem valid_next {d : Ymd} (h : d.Valid) : d.next.Valid := by
  obtain ⟨h1, h2, h3, h4⟩ := h
  unfold Ymd.next
  split
  · exact ⟨h1, h2, by simp only; omega, by simp only; omega⟩
  · split
    · exact ⟨by simp only; omega, by simp only; omega, by simp only; omega,
        by have := monthLen_pos d.year (d.month + 1); simp only; omega⟩
    · exact ⟨by simp only; omega, by simp only; omega, by simp only; omega,
        by have := monthLen_pos (d.year + 1) 1; simp only; omega⟩

theorem ordOf_next {d : Ymd} (h : d.Valid) : ordOf d.next = ordOf d + 1 := by
  obtain ⟨h1, h2, h3, h4⟩ := h
  obtain ⟨y, m, dd⟩ := d
  dsimp only at h1 h2 h3 h4
  unfold Ymd.next
  dsimp only
  split
  · unfold ordOf; dsimp only; omega
  · split
    · rename_i hd hm
      unfold ordOf
      dsimp only
      rw [dbm_step ⟨h1, hm⟩]
      omega
    · rename_i hd hm
      have : m = 12 := by omega
      subst this
      unfold ordOf
      dsimp only
      rw [daysBeforeYear_succ, dbm_first]
      have := dbm_last y
      omega

theorem dbm_bounds {y m d : Int} (hm : 1 ≤ m ∧ m ≤ 12) (hd : 1 ≤ d ∧ d ≤ monthLen y m) :
    1 ≤ dbm y m + d ∧ dbm y m + d ≤ 365 + lp y := by
  obtain ⟨h1, h2⟩ := hm
  unfold dbm monthLen lp at *
  by_cases hl : Leap y <;> interval_cases m <;> simp [hl] at * <;> omega

theorem dbm_mono {y m m' d d' : Int} (hm : 1 ≤ m ∧ m ≤ 12) (hd : 1 ≤ d ∧ d ≤ monthLen y m)
    (hm' : 1 ≤ m' ∧ m' ≤ 12) (hd' : 1 ≤ d' ∧ d' ≤ monthLen y m') (h : m < m') : dbm y m + d < dbm y m' + d' := by
  have key : ∀ k : Nat, ∀ m : Int, 1 ≤ m → m + k + 1 ≤ 12 → dbm y m + monthLen y m ≤ dbm y (m + k + 1) := by
    intro k
    induction k with
    | zero => intro m h1 h2; have := dbm_step (y := y) (m := m) ⟨h1, by omega⟩; simp only [Nat.cast_zero, add_zero]; omega
    | succ k ih =>
      intro m h1 h2
      have h3 := ih m h1 (by push_cast at h2; omega)
      have h4 := dbm_step (y := y) (m := m + k + 1) ⟨by omega, by push_cast at h2; omega⟩
      have h5 := monthLen_pos y (m + k + 1)
      push_cast
      rw [show m + (k + 1 : Int) + 1 = m + k + 1 + 1 by omega, h4]
      omega
  have := key (m' - m - 1).toNat m hm.1 (by omega)
  rw [show m + ((m' - m - 1).toNat : Int) + 1 = m' by omega] at this
  omega

theorem year_mono {y y' : Int} (h : y < y') : daysBeforeYear y + 365 + lp y ≤ daysBeforeYear y' := by
  rw [← daysBeforeYear_succ, daysBeforeYear_eq, daysBeforeYear_eq]
  omega

theorem ordOf_lt {a b : Ymd} (ha : a.Valid) (hb : b.Valid) (h : a.Before b) : ordOf a < ordOf b := by
  obtain ⟨a1, a2, a3, a4⟩ := ha
  obtain ⟨b1, b2, b3, b4⟩ := hb
  obtain ⟨y, m, d⟩ := a
  obtain ⟨y', m', d'⟩ := b
  dsimp only [Ymd.Before] at *
  unfold ordOf
  dsimp only
  rcases h with h | ⟨rfl, h | ⟨rfl, h⟩⟩
  · have h1 := year_mono h
    have h2 := dbm_bounds ⟨a1, a2⟩ ⟨a3, a4⟩
    have h3 := dbm_bounds ⟨b1, b2⟩ ⟨b3, b4⟩
    omega
  · have := dbm_mono ⟨a1, a2⟩ ⟨a3, a4⟩ ⟨b1, b2⟩ ⟨b3, b4⟩ h
    omega
  · omega

theorem before_trichotomy (a b : Ymd) : a.Before b ∨ a = b ∨ b.Before a := by
  obtain ⟨y, m, d⟩ := a
  obtain ⟨y', m', d'⟩ := b
  dsimp only [Ymd.Before]
  rw [Ymd.mk.injEq]
  omega

theorem ordOf_inj {a b : Ymd} (ha : a.Valid) (hb : b.Valid) (h : ordOf a = ordOf b) : a = b := by
  rcases before_trichotomy a b with h' | h' | h'
  · have := ordOf_lt ha hb h'; omega
  · exact h'
  · have := ordOf_lt hb ha h'; omega

theorem ordOf_lt_iff {a b : Ymd} (ha : a.Valid) (hb : b.Valid) : ordOf a < ordOf b ↔ a.Before b := by
  constructor
  · intro h
    rcases before_trichotomy a b with h' | h' | h'
    · exact h'
    · subst h'; omega
    · have := ordOf_lt hb ha h'; omega
  · exact ordOf_lt ha hb

/-! ### `_ord2ymd` -/

/-- Length of a month given the leapness. -/
def mlen (leap : Bool) (m : Int) : Int :=
  if m = 2 then (if leap then 29 else 28) else if m = 4 ∨ m = 6 ∨ m = 9 ∨ m = 11 then 30 else 31

def dbmL (leap : Bool) (m : Int) : Int :=
  (if m = 1 then 0 else if m = 2 then 31 else if m = 3 then 59 else if m = 4 then 90 else if m = 5 then 120
   else if m = 6 then 151 else if m = 7 then 181 else if m = 8 then 212 else if m = 9 then 243
   else if m = 10 then 273 else if m = 11 then 304 else 334) + (if m > 2 then (if leap then 1 else 0) else 0)

theorem monthDay_table : ∀ leap : Bool, ∀ n : Fin 366, (n.val < 365 ∨ leap = true) →
    1 ≤ (monthDay leap n.val).1 ∧ (monthDay leap n.val).1 ≤ 12 ∧ 1 ≤ (monthDay leap n.val).2 ∧
    (monthDay leap n.val).2 ≤ mlen leap (monthDay leap n.val).1 ∧
    dbmL leap (monthDay leap n.val).1 + (monthDay leap n.val).2 = n.val + 1 := by decide +kernel

theorem monthDay_spec {y n : Int} (h : 0 ≤ n ∧ n < 365 + lp y) :
    (⟨y, (monthDay (decide (Leap y)) n).1, (monthDay (decide (Leap y)) n).2⟩ : Ymd).Valid ∧
    dbm y (monthDay (decide (Leap y)) n).1 + (monthDay (decide (Leap y)) n).2 = n + 1 := by
  have h366 : n.toNat < 366 := by
    have : lp y ≤ 1 := by unfold lp; split <;> omega
    omega
  have := monthDay_table (decide (Leap y)) ⟨n.toNat, h366⟩ (by
    by_cases hl : Leap y
    · right; simp [hl]
    · left; unfold lp at h; rw [if_neg hl] at h; dsimp only; omega)
  dsimp only at this
  rw [show ((n.toNat : Nat) : Int) = n by omega] at this
  obtain ⟨h1, h2, h3, h4, h5⟩ := this
  have e1 : ∀ m, mlen (decide (Leap y)) m = monthLen y m := by
    intro m; unfold mlen monthLen; simp
  have e2 : ∀ m, dbmL (decide (Leap y)) m = dbm y m := by
    intro m; unfold dbmL dbm lp; simp
  rw [e1] at h4
  rw [e2] at h5
  exact ⟨⟨h1, h2, h3, h4⟩, h5⟩

theorem ord2ymd_spec (n : Int) : ∃ d, ord2ymd n = some d ∧ d.Valid ∧ ordOf d = n := by
  have e400 : di400y = 146097 := by decide
  have e100 : di100y = 36524 := by decide
  have e4 : di4y = 1461 := by decide
  unfold ord2ymd
  simp only [e400, e100, e4]
  rw [fdiv_lit _ (by omega), fmod_lit (n - 1) (by omega), fdiv_lit _ (by omega), fmod_lit ((n - 1) % 146097) (by omega),
    fdiv_lit _ (by omega), fmod_lit ((n - 1) % 146097 % 36524) (by omega), fdiv_lit _ (by omega),
    fmod_lit ((n - 1) % 146097 % 36524 % 1461) (by omega)]
  obtain ⟨a, ha⟩ : ∃ a, a = (n - 1) / 146097 := ⟨_, rfl⟩
  obtain ⟨r, hr⟩ : ∃ r, r = (n - 1) % 146097 := ⟨_, rfl⟩
  rw [← hr, ← ha]
  obtain ⟨b, hb⟩ : ∃ b, b = r / 36524 := ⟨_, rfl⟩
  obtain ⟨s, hs⟩ : ∃ s, s = r % 36524 := ⟨_, rfl⟩
  rw [← hs, ← hb]
  obtain ⟨c, hc⟩ : ∃ c, c = s / 1461 := ⟨_, rfl⟩
  obtain ⟨t, ht⟩ : ∃ t, t = s % 1461 := ⟨_, rfl⟩
  rw [← ht, ← hc]
  obtain ⟨e, he⟩ : ∃ e, e = t / 365 := ⟨_, rfl⟩
  obtain ⟨u, hu⟩ : ∃ u, u = t % 365 := ⟨_, rfl⟩
  rw [← hu, ← he]
  have hn : n = 146097 * a + r + 1 ∧ 0 ≤ r ∧ r < 146097 := by omega
  have hr' : r = 36524 * b + s ∧ 0 ≤ s ∧ s < 36524 ∧ 0 ≤ b ∧ b ≤ 4 := by omega
  have hs' : s = 1461 * c + t ∧ 0 ≤ t ∧ t < 1461 ∧ 0 ≤ c ∧ c ≤ 24 := by omega
  have ht' : t = 365 * e + u ∧ 0 ≤ u ∧ u < 365 ∧ 0 ≤ e ∧ e ≤ 4 := by omega
  clear ha hr hb hs hc ht he hu
  by_cases hcase : e = 4 ∨ b = 4
  · rw [if_pos hcase, if_pos (by omega)]
    refine ⟨_, rfl, ⟨by simp only; omega, by simp only; omega, by simp only; omega, ?_⟩, ?_⟩
    · simp [monthLen]
    · unfold ordOf
      simp only
      have h1 := daysBeforeYear_succ (a * 400 + 1 + (b * 100 + c * 4 + e) - 1)
      have h2 := dbm_last (a * 400 + 1 + (b * 100 + c * 4 + e) - 1)
      have h3 : monthLen (a * 400 + 1 + (b * 100 + c * 4 + e) - 1) 12 = 31 := by simp [monthLen]
      rw [show a * 400 + 1 + (b * 100 + c * 4 + e) - 1 + 1 = a * 400 + 1 + (b * 100 + c * 4 + e) by omega,
        daysBeforeYear_eq (a * 400 + 1 + (b * 100 + c * 4 + e))] at h1
      rw [show a * 400 + 1 + (b * 100 + c * 4 + e) - 1 = 400 * a + 100 * b + 4 * c + e by omega] at *
      rcases hcase with he | hb
      · have hb : b ≤ 3 := by omega
        have hc : c ≤ 23 := by omega
        have q1 : (400 * a + 100 * b + 4 * c + e) / 4 = 100 * a + 25 * b + c + 1 := by omega
        have q2 : (400 * a + 100 * b + 4 * c + e) / 100 = 4 * a + b := by omega
        have q3 : (400 * a + 100 * b + 4 * c + e) / 400 = a := by omega
        rw [q1, q2, q3] at h1
        omega
      · have hz : c = 0 ∧ e = 0 := by omega
        have q1 : (400 * a + 100 * b + 4 * c + e) / 4 = 100 * a + 100 := by omega
        have q2 : (400 * a + 100 * b + 4 * c + e) / 100 = 4 * a + 4 := by omega
        have q3 : (400 * a + 100 * b + 4 * c + e) / 400 = a + 1 := by omega
        rw [q1, q2, q3] at h1
        omega
  · rw [if_neg hcase]
    obtain ⟨y, hy⟩ : ∃ y, y = a * 400 + 1 + (b * 100 + c * 4 + e) := ⟨_, rfl⟩
    rw [← hy]
    have hleap : (decide (e = 3) && (decide (c ≠ 24) || decide (b = 3))) = decide (Leap y) := by
      rw [Bool.eq_iff_iff]
      simp only [Bool.and_eq_true, decide_eq_true_iff, Bool.or_eq_true, leap_iff]
      omega
    rw [hleap, isLeap_eq, if_pos rfl]
    have hu' : 0 ≤ u ∧ u < 365 + lp y := by unfold lp; split <;> omega
    obtain ⟨h1, h2⟩ := monthDay_spec hu'
    obtain ⟨v1, v2, v3, v4⟩ := h1
    dsimp only at v1 v2 v3 v4
    rw [if_pos ⟨by omega, by rw [daysInMonth_eq ⟨v1, v2⟩]; omega⟩]
    refine ⟨_, rfl, ⟨v1, v2, v3, v4⟩, ?_⟩
    unfold ordOf
    simp only
    rw [add_assoc, h2, daysBeforeYear_eq]
    have q0 : y - 1 = 400 * a + 100 * b + 4 * c + e := by omega
    rw [q0]
    have q1 : (400 * a + 100 * b + 4 * c + e) / 4 = 100 * a + 25 * b + c := by omega
    have q2 : (400 * a + 100 * b + 4 * c + e) / 100 = 4 * a + b := by omega
    have q3 : (400 * a + 100 * b + 4 * c + e) / 400 = a := by omega
    rw [q1, q2, q3]
    omega

/-! ### Lexicographic comparison -/

/-- Lexicographic order of integer sequences. -/
def Lex : List Int → List Int → Prop
  | a :: x, b :: y => a < b ∨ (a = b ∧ Lex x y)
  | _, _ => False

theorem lexLt_cons (a b : Int) (x y : List Int) :
    lexLt (a :: x) (b :: y) = (decide (a < b) || (decide (a = b) && lexLt x y)) := by
  rw [Bool.eq_iff_iff]
  unfold lexLt
  simp only [List.any_eq_true, List.all_eq_true, List.mem_range, Bool.and_eq_true, Bool.or_eq_true,
    decide_eq_true_iff, List.length_cons]
  constructor
  · rintro ⟨i, hi, hall, hlt⟩
    cases i with
    | zero => left; simpa using hlt
    | succ i =>
      right
      refine ⟨by simpa using hall 0 (by omega), i, by omega, fun j hj => ?_, by simpa using hlt⟩
      simpa using hall (j + 1) (by omega)
  · rintro (h | ⟨rfl, i, hi, hall, hlt⟩)
    · exact ⟨0, by omega, by simp, by simpa using h⟩
    · refine ⟨i + 1, by omega, fun j hj => ?_, by simpa using hlt⟩
      cases j with
      | zero => simp
      | succ j => simpa using hall j (by omega)

theorem lexLt_iff (x y : List Int) (h : x.length = y.length) : lexLt x y = true ↔ Lex x y := by
  induction x generalizing y with
  | nil => simp [lexLt, Lex]
  | cons a x ih =>
    cases y with
    | nil => simp at h
    | cons b y =>
      rw [lexLt_cons]
      simp only [Bool.or_eq_true, Bool.and_eq_true, decide_eq_true_iff, Lex]
      rw [ih y (by simpa using h)]

theorem lex_asymm (x y : List Int) : Lex x y → ¬ Lex y x := by
  induction x generalizing y with
  | nil => intro h; simp [Lex] at h
  | cons a x ih =>
    cases y with
    | nil => intro h; simp [Lex] at h
    | cons b y =>
      simp only [Lex]
      rintro (h | ⟨rfl, h⟩) (h' | ⟨h1, h'⟩)
      · omega
      · omega
      · omega
      · exact ih y h h'

theorem lex_total (x y : List Int) (h : x.length = y.length) : Lex x y ∨ x = y ∨ Lex y x := by
  induction x generalizing y with
  | nil => cases y with
    | nil => simp
    | cons b y => simp at h
  | cons a x ih =>
    cases y with
    | nil => simp at h
    | cons b y =>
      simp only [Lex, List.cons.injEq]
      rcases ih y (by simpa using h) with h' | h' | h' <;> rcases Int.lt_trichotomy a b with h'' | h'' | h'' <;>
        simp [h', h'']

theorem cmp_spec (x y : List Int) (h : x.length = y.length) : IsCmp (Lex x y) (Lex y x) (cmp x y) := by
  have h1 := lexLt_iff x y h
  have h2 := lexLt_iff y x h.symm
  unfold cmp b2i IsCmp
  by_cases a : Lex x y
  · have b := lex_asymm _ _ a
    left
    refine ⟨a, ?_⟩
    rw [if_neg (fun c => b (h2.mp c)), if_pos (h1.mpr a)]
    rfl
  · by_cases b : Lex y x
    · right; left
      refine ⟨b, ?_⟩
      rw [if_pos (h2.mpr b), if_neg (fun c => a (h1.mp c))]
      rfl
    · right; right
      refine ⟨a, b, ?_⟩
      rw [if_neg (fun c => b (h2.mp c)), if_neg (fun c => a (h1.mp c))]
      rfl

theorem isCmp_congr {p q p' q' : Prop} {c : Int} (h : IsCmp p q c) (hp : p ↔ p') (hq : q ↔ q') : IsCmp p' q' c := by
  unfold IsCmp at *
  rwa [hp, hq] at h

end Verif.Dates
