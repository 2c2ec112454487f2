import Verif.DateRepr.Model
import Verif.DateText.Write
import Verif.Dates.Props
/-
The texts of `ctime` and of formats.
-/
namespace Verif.DateRepr

open Verif.Dates (Ymd Delta ymd2ord deltaNeg NumbersDays)
open Verif.DateText (Str IsDigit value Numeral Clock OffsetOk DayOk dec decInt pad)

/-! ### `ctime` -/

theorem spacePad_spec {n : Int} (h0 : 1 ≤ n) (h1 : n ≤ 31) :
    (n < 10 ∧ ∃ x, spacePad n = ' ' :: x ∧ Numeral 1 x n) ∨ (10 ≤ n ∧ Numeral 2 (spacePad n) n) := by
  have key : ∀ k : Fin 32, 1 ≤ k.val → ((k.val < 10 ∧ spacePad k.val = ' ' :: (spacePad k.val).tail ∧ (spacePad k.val).tail.length = 1 ∧
      (∀ c ∈ (spacePad k.val).tail, IsDigit c) ∧ value (spacePad k.val).tail = k.val) ∨
      (10 ≤ k.val ∧ (spacePad k.val).length = 2 ∧ (∀ c ∈ spacePad k.val, IsDigit c) ∧ value (spacePad k.val) = k.val)) := by
    decide +kernel
  have hk := key ⟨n.toNat, by omega⟩ (by simp only; omega)
  have hn : ((n.toNat : Nat) : Int) = n := Int.toNat_of_nonneg (by omega)
  simp only [hn] at hk
  rcases hk with ⟨a, b, c, d, e⟩ | ⟨a, b, c, d⟩
  · exact Or.inl ⟨by omega, _, b, c, d, e.symm⟩
  · exact Or.inr ⟨by omega, b, c, d.symm⟩

theorem ctime_spec {f : Ymd → Int} (hf : NumbersDays f) {d : Ymd} (hd : DayOk d) {c : Clock} (hc : c.Valid) :
    ∃ s, ctime d c = some s ∧ CtimeText f s d c := by
  obtain ⟨hv, hy1, hy2⟩ := hd
  have hfd := Verif.Dates.numbering_unique hf hv
  unfold ctime
  rw [Verif.Dates.ymd2ord_valid hv, ← hfd]
  obtain ⟨i, hi, hid⟩ : ∃ i : Nat, i < 7 ∧ (7 : Int) ∣ f d - 1 - i :=
    ⟨((f d - 1) % 7).toNat, by omega, by omega⟩
  have hw : ((if (f d).fmod 7 = 0 then 7 else (f d).fmod 7) - 1).toNat = i := by
    rw [Verif.Dates.fmod_lit _ (show (0 : Int) ≤ 7 by omega)]
    split <;> omega
  obtain ⟨wd, hwd⟩ : ∃ wd, weekdayText[i]? = some wd := by
    have : i < weekdayText.length := hi
    exact ⟨_, List.getElem?_eq_getElem this⟩
  obtain ⟨hm1, hm2, hd1, hd2⟩ := hv
  obtain ⟨mon, hmon⟩ : ∃ mon, monthText[(d.month - 1).toNat]? = some mon := by
    have : (d.month - 1).toNat < monthText.length := by
      show (d.month - 1).toNat < 12
      omega
    exact ⟨_, List.getElem?_eq_getElem this⟩
  have e1 : dayNames = weekdayText := rfl
  have e2 : monthNames = monthText := rfl
  simp only [bind, Option.bind, hw, e1, e2, hwd, hmon]
  refine ⟨_, rfl, wd, mon, spacePad d.day, pad 2 c.hour, pad 2 c.minute, pad 2 c.second, pad 4 d.year, ?_, ⟨i, hi, hwd, hid⟩,
    ⟨_, hmon, by omega⟩, ?_, ?_, ?_, ?_, ?_⟩
  · simp
  · exact spacePad_spec hd1 (le_trans hd2 ((Verif.Dates.monthLen_pos _ _).2))
  · obtain ⟨h0, h1, _⟩ := hc
    exact Verif.DateText.pad_numeral (by decide) h0 (by omega)
  · unfold Clock.Valid at hc
    exact Verif.DateText.pad_numeral (by decide) (by omega) (by omega)
  · unfold Clock.Valid at hc
    exact Verif.DateText.pad_numeral (by decide) (by omega) (by omega)
  · exact Verif.DateText.pad_numeral (by decide) (by omega) (by omega)

theorem weekday_length {i : Nat} {w : Str} (h : weekdayText[i]? = some w) : w.length = 3 := by
  have : ∀ w ∈ weekdayText, w.length = 3 := by decide
  exact this w (List.mem_of_getElem? h)

theorem month_length {i : Nat} {w : Str} (h : monthText[i]? = some w) : w.length = 3 := by
  have : ∀ w ∈ monthText, w.length = 3 := by decide
  exact this w (List.mem_of_getElem? h)

theorem month_inj {i j : Nat} {w : Str} (hi : monthText[i]? = some w) (hj : monthText[j]? = some w) : i = j := by
  have hn : monthText.Nodup := by decide
  have h1 := (List.getElem?_eq_some_iff.mp hi).1
  exact (List.getElem?_inj h1 hn).mp (hi.trans hj.symm)

theorem numeral_inj {w : Nat} {s : Str} {a b : Int} (ha : Numeral w s a) (hb : Numeral w s b) : a = b :=
  ha.2.2.trans hb.2.2.symm

theorem day_field {dd : Str} {a b : Int} (ha : (a < 10 ∧ ∃ x, dd = ' ' :: x ∧ Numeral 1 x a) ∨ (10 ≤ a ∧ Numeral 2 dd a))
    (hb : (b < 10 ∧ ∃ x, dd = ' ' :: x ∧ Numeral 1 x b) ∨ (10 ≤ b ∧ Numeral 2 dd b)) : dd.length = 2 ∧ a = b := by
  have hsp : ¬ IsDigit ' ' := by decide
  rcases ha with ⟨_, x, rfl, h1⟩ | ⟨_, h1⟩
  · rcases hb with ⟨_, y, h2, h3⟩ | ⟨_, h3⟩
    · rw [List.cons.injEq] at h2
      rw [← h2.2] at h3
      exact ⟨by simp [h1.1], numeral_inj h1 h3⟩
    · exact absurd (h3.2.1 ' ' (List.mem_cons_self ..)) hsp
  · rcases hb with ⟨_, y, rfl, h3⟩ | ⟨_, h3⟩
    · exact absurd (h1.2.1 ' ' (List.mem_cons_self ..)) hsp
    · exact ⟨h1.1, numeral_inj h1 h3⟩

theorem day_field_length {dd : Str} {a : Int} (ha : (a < 10 ∧ ∃ x, dd = ' ' :: x ∧ Numeral 1 x a) ∨ (10 ≤ a ∧ Numeral 2 dd a)) : dd.length = 2 := (day_field ha ha).1

theorem ctime_inj {f : Ymd → Int} {s : Str} {d d' : Ymd} {c c' : Clock} (h : CtimeText f s d c) (h' : CtimeText f s d' c') :
    d = d' ∧ c.hour = c'.hour ∧ c.minute = c'.minute ∧ c.second = c'.second := by
  obtain ⟨wd, mon, dd, hh, mm, ss, yy, e, ⟨i, _, a1, _⟩, ⟨j, a2, a2'⟩, a3, a4, a5, a6, a7⟩ := h
  obtain ⟨wd', mon', dd', hh', mm', ss', yy', e', ⟨i', _, b1, _⟩, ⟨j', b2, b2'⟩, b3, b4, b5, b6, b7⟩ := h'
  rw [e] at e'
  obtain ⟨_, e'⟩ := List.append_inj e' (by rw [weekday_length a1, weekday_length b1])
  rw [List.cons.injEq] at e'
  obtain ⟨q2, e'⟩ := List.append_inj e'.2 (by rw [month_length a2, month_length b2])
  rw [List.cons.injEq] at e'
  obtain ⟨q3, e'⟩ := List.append_inj e'.2 (by rw [day_field_length a3, day_field_length b3])
  rw [List.cons.injEq] at e'
  obtain ⟨q4, e'⟩ := List.append_inj e'.2 (by rw [a4.1, b4.1])
  rw [List.cons.injEq] at e'
  obtain ⟨q5, e'⟩ := List.append_inj e'.2 (by rw [a5.1, b5.1])
  rw [List.cons.injEq] at e'
  obtain ⟨q6, e'⟩ := List.append_inj e'.2 (by rw [a6.1, b6.1])
  rw [List.cons.injEq] at e'
  have q7 := e'.2
  subst q2 q3 q4 q5 q6 q7
  have m1 := month_inj a2 b2
  have m2 := (day_field a3 b3).2
  have m3 := numeral_inj a7 b7
  refine ⟨?_, numeral_inj a4 b4, numeral_inj a5 b5, numeral_inj a6 b6⟩
  obtain ⟨y, mo, da⟩ := d
  obtain ⟨y', mo', da'⟩ := d'
  simp only at m2 m3 a2' b2'
  rw [m2, m3, a2', b2', m1]

/-! ### Formats -/

theorem zText_spec (off : Option Delta) (ho : ∀ o ∈ off, OffsetOk o) : ∃ s, zText off = some s ∧ BasicOffset s (off.map Delta.total) := by
  cases off with
  | none => exact ⟨[], rfl, rfl⟩
  | some o =>
    have hok := ho o rfl
    unfold zText
    have main : ∀ (sign : Char) (r : Delta), r.Canonical → 0 ≤ r.total → r.total < 86400000000 →
        ((sign = '+' ∧ o.total = r.total) ∨ (sign = '-' ∧ o.total < 0 ∧ o.total = -r.total)) →
        ∃ s, (let total := Verif.Dates.toMicros r
          let h := total.fdiv 3600000000
          let rest := total.fmod 3600000000
          let m := rest.fdiv 60000000
          let s := (rest.fmod 60000000).fdiv 1000000
          let u := r.micros
          if u ≠ 0 then sign :: (pad 2 h ++ pad 2 m ++ pad 2 s ++ '.' :: pad 6 u)
          else if s ≠ 0 then sign :: (pad 2 h ++ pad 2 m ++ pad 2 s)
          else sign :: (pad 2 h ++ pad 2 m)) = s ∧ BasicOffset s (some o.total) := by
      intro sign r hr h0 h1 hs
      obtain ⟨p1, p2, p3⟩ := Verif.DateText.delta_parts hr h0 h1
      refine ⟨_, rfl, ?_⟩
      simp only [Verif.Dates.toMicros_eq, Verif.Dates.fmod_lit _ (show (0 : Int) ≤ 3600000000 by omega),
        Verif.Dates.fmod_lit _ (show (0 : Int) ≤ 60000000 by omega), Verif.Dates.fdiv_lit _ (show (0 : Int) ≤ 3600000000 by omega),
        Verif.Dates.fdiv_lit _ (show (0 : Int) ≤ 60000000 by omega), Verif.Dates.fdiv_lit _ (show (0 : Int) ≤ 1000000 by omega), p3]
      generalize r.total = t at *
      have n1 : Numeral 2 (pad 2 (t / 3600000000)) (t / 3600000000) := Verif.DateText.pad_numeral (by decide) (by omega) (by omega)
      have n2 : Numeral 2 (pad 2 (t % 3600000000 / 60000000)) (t % 3600000000 / 60000000) := Verif.DateText.pad_numeral (by decide) (by omega) (by omega)
      have n3 : Numeral 2 (pad 2 (t % 3600000000 % 60000000 / 1000000)) (t % 3600000000 % 60000000 / 1000000) :=
        Verif.DateText.pad_numeral (by decide) (by omega) (by omega)
      have n4 : Numeral 6 (pad 6 (t % 1000000)) (t % 1000000) := Verif.DateText.pad_numeral (by decide) (by omega) (by omega)
      split
      · rename_i hu
        refine ⟨sign, _, _, _, _, _, _, _, _, ?_, n1, n2, by omega, by omega, Or.inr ⟨n3, by omega, Or.inr ⟨_, rfl, n4, hu⟩⟩, ?_⟩
        · simp
        · rcases hs with ⟨a, b⟩ | ⟨a, b, c⟩
          · exact Or.inl ⟨a, by omega⟩
          · exact Or.inr ⟨a, b, by omega⟩
      · rename_i hu
        split
        · rename_i hs0
          refine ⟨sign, _, _, _, [], _, _, _, 0, ?_, n1, n2, by omega, by omega, Or.inr ⟨n3, by omega, Or.inl ⟨rfl, hs0, rfl⟩⟩, ?_⟩
          · simp
          · rcases hs with ⟨a, b⟩ | ⟨a, b, c⟩
            · exact Or.inl ⟨a, by omega⟩
            · exact Or.inr ⟨a, b, by omega⟩
        · rename_i hs0
          refine ⟨sign, _, _, [], [], _, _, 0, 0, ?_, n1, n2, by omega, by omega, Or.inl ⟨rfl, rfl, rfl, rfl⟩, ?_⟩
          · simp
          · rcases hs with ⟨a, b⟩ | ⟨a, b, c⟩
            · exact Or.inl ⟨a, by omega⟩
            · exact Or.inr ⟨a, b, by omega⟩
    obtain ⟨hcan, hlo, hhi⟩ := hok
    by_cases hneg : o.days < 0
    · obtain ⟨r, e1, e2, e3⟩ := Verif.DateText.deltaNeg_ok (o := o) ⟨hcan, hlo, hhi⟩
      have hlt : o.total < 0 := by
        unfold Delta.Canonical at hcan
        unfold Delta.total
        omega
      obtain ⟨s, hs1, hs2⟩ := main '-' r e2 (by omega) (by omega) (Or.inr ⟨rfl, hlt, by omega⟩)
      refine ⟨s, ?_, hs2⟩
      simp only [if_pos hneg, e1, Option.map_some]
      exact congrArg some hs1
    · have hge : 0 ≤ o.total := by
        unfold Delta.Canonical at hcan
        unfold Delta.total
        omega
      obtain ⟨s, hs1, hs2⟩ := main '+' o hcan hge hhi (Or.inl ⟨rfl, rfl⟩)
      refine ⟨s, ?_, hs2⟩
      simp only [if_neg hneg, Option.map_some]
      exact congrArg some hs1

theorem digit_no_percent {s : Str} (h : ∀ c ∈ s, IsDigit c) : '%' ∉ s := fun hm => absurd (h _ hm) (by decide)

theorem basic_no_percent {s : Str} {t : Option Int} (h : BasicOffset s t) : '%' ∉ s := by
  cases t with
  | none =>
    have : s = [] := h
    rw [this]
    exact List.not_mem_nil
  | some t =>
    obtain ⟨sign, hh, mm, ss, us, _, _, _, _, rfl, n1, n2, _, _, n3, hs⟩ := h
    have h1 := digit_no_percent n1.2.1
    have h2 := digit_no_percent n2.2.1
    have h0 : sign ≠ '%' := by
      rcases hs with ⟨rfl, _⟩ | ⟨rfl, _⟩ <;> decide
    have h3 : '%' ∉ ss := by
      rcases n3 with ⟨rfl, _⟩ | ⟨n, _⟩
      · exact List.not_mem_nil
      · exact digit_no_percent n.2.1
    have h4 : '%' ∉ us := by
      rcases n3 with ⟨_, rfl, _⟩ | ⟨_, _, ⟨rfl, _⟩ | ⟨x, rfl, n, _⟩⟩
      · exact List.not_mem_nil
      · exact List.not_mem_nil
      · intro hm
        rcases List.mem_cons.mp hm with hm | hm
        · exact absurd hm (by decide)
        · exact digit_no_percent n.2.1 hm
    simp only [List.mem_cons, List.mem_append, h1, h2, h3, h4, or_false]
    exact fun h => h0 h.symm

variable {lone : Str} {directive : Char → Str}

theorem expand_other {c : Char} (hc : c ≠ '%') (s : Str) : expandFormat lone directive (c :: s) = c :: expandFormat lone directive s := by
  rw [expandFormat.eq_def]
  split
  · rename_i h
    cases h
  · rename_i h
    rw [List.cons.injEq] at h
    exact absurd h.1 hc
  · rename_i h
    rw [List.cons.injEq] at h
    rw [h.1, h.2]

theorem expand_directive (c : Char) (s : Str) : expandFormat lone directive ('%' :: c :: s) = directive c ++ expandFormat lone directive s := by
  rw [expandFormat]

theorem expand_plain {l : Str} (hl : '%' ∉ l) (s : Str) : expandFormat lone directive (l ++ s) = l ++ expandFormat lone directive s := by
  induction l with
  | nil => rfl
  | cons c l ih =>
    rw [List.mem_cons, not_or] at hl
    rw [List.cons_append, expand_other (Ne.symm hl.1), ih hl.2, List.cons_append]

theorem expand_escape (hp : directive '%' = ['%']) (n s : Str) :
    expandFormat lone directive (escapePercent n ++ s) = n ++ expandFormat lone directive s := by
  induction n with
  | nil => rfl
  | cons c n ih =>
    have hcons : escapePercent (c :: n) = (if c = '%' then ['%', '%'] else [c]) ++ escapePercent n := rfl
    rw [hcons]
    split
    · rename_i h
      subst h
      show expandFormat lone directive ('%' :: '%' :: (escapePercent n ++ s)) = _
      rw [expand_directive, hp, ih]
      rfl
    · rename_i h
      show expandFormat lone directive (c :: (escapePercent n ++ s)) = _
      rw [expand_other h, ih]
      rfl

theorem wrap_expand (hp : directive '%' = ['%']) {f z : Str} (name : Str) (hf : '%' ∉ f) (hz : '%' ∉ z) (fmt : Str) :
    expandFormat lone directive (wrapFormat f z name fmt) =
      expandFormat lone (fun c => if c = 'f' then f else if c = 'z' then z else if c = 'Z' then name else directive c) fmt := by
  fun_induction wrapFormat f z name fmt with
  | case1 => rfl
  | case2 => rfl
  | case3 rest ih => rw [expand_plain hf, ih, expand_directive, if_pos rfl]
  | case4 rest _ ih => rw [expand_plain hz, ih, expand_directive]; rfl
  | case5 rest _ _ ih => rw [expand_escape hp, ih, expand_directive]; rfl
  | case6 c rest h1 h2 h3 ih => rw [expand_directive, ih, expand_directive, if_neg h1, if_neg h2, if_neg h3]
  | case7 c rest h1 h2 ih =>
    have hc : c ≠ '%' := by
      rintro rfl
      cases rest with
      | nil => exact h1 rfl rfl
      | cons d rest => exact h2 _ _ rfl rfl
    rw [expand_other hc, ih, expand_other hc]

end Verif.DateRepr
