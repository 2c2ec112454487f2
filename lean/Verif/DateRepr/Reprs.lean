import Verif.DateRepr.Lemmas
import Mathlib.Tactic.Tauto
/-
The texts of `repr` as expressions, and their values.
-/
namespace Verif.DateRepr

open Verif.Dates (Ymd Delta)
open Verif.DateText (Str IsDigit value Clock OffsetOk DayOk dec decInt)

def mkArgs : List (Str × Expr) → Args
  | [] => .nil
  | (k, e) :: rest => .cons k e (mkArgs rest)

theorem print_mkArgs (quote : Str → Str) (l : List (Str × Expr)) :
    printArgs quote (mkArgs l) = joinArgs (l.map fun a => keyText a.1 ++ printExpr quote a.2) := by
  induction l with
  | nil => rfl
  | cons a l ih =>
    obtain ⟨k, e⟩ := a
    cases l with
    | nil => simp [mkArgs, printArgs, joinArgs]
    | cons b l =>
      obtain ⟨k', e'⟩ := b
      simp only [mkArgs, List.map_cons, joinArgs] at ih ⊢
      rw [printArgs, ih]

theorem good_mkArgs (l : List (Str × Expr)) (h : ∀ a ∈ l, (∀ c ∈ a.1, nameChar c = true) ∧ a.2.Good) : (mkArgs l).Good := by
  induction l with
  | nil => unfold mkArgs Args.Good; trivial
  | cons a l ih =>
    unfold mkArgs Args.Good
    have := h a (List.mem_cons_self ..)
    exact ⟨this.1, this.2, ih fun b hb => h b (List.mem_cons_of_mem _ hb)⟩

/-- The values of a list of arguments. -/
def evalList : List (Str × Expr) → Option (List (Str × Value))
  | [] => some []
  | (k, e) :: rest => (evalExpr e).bind fun v => (evalList rest).map fun l => (k, v) :: l

theorem eval_mkArgs (l : List (Str × Expr)) : evalArgs (mkArgs l) = evalList l := by
  induction l with
  | nil => rfl
  | cons a l ih =>
    unfold mkArgs evalArgs evalList
    rw [ih]

theorem joinArgs_append {a b : List Str} (ha : a ≠ []) (hb : b ≠ []) : joinArgs (a ++ b) = joinArgs a ++ ',' :: ' ' :: joinArgs b := by
  induction a with
  | nil => exact absurd rfl ha
  | cons x xs ih =>
    cases xs with
    | nil =>
      cases b with
      | nil => exact absurd rfl hb
      | cons y ys => rfl
    | cons z zs =>
      have := ih (by simp)
      simp only [List.cons_append, joinArgs] at this ⊢
      rw [this]
      simp

/-! ### Durations -/

def deltaArgs (t : Delta) : List (Str × Expr) :=
  let l := (if t.days ≠ 0 then [(kDays, Expr.int t.days)] else []) ++ (if t.seconds ≠ 0 then [(kSeconds, Expr.int t.seconds)] else []) ++
    (if t.micros ≠ 0 then [(kMicroseconds, Expr.int t.micros)] else [])
  if l.isEmpty then [([], .int 0)] else l

def deltaExpr (t : Delta) : Expr := .call cTimedelta (mkArgs (deltaArgs t))

theorem deltaRepr_eq (quote : Str → Str) (t : Delta) : deltaRepr t = printExpr quote (deltaExpr t) := by
  have hz : decInt 0 = ['0'] := by decide
  unfold deltaRepr deltaExpr printExpr
  rw [print_mkArgs]
  unfold deltaArgs
  by_cases h1 : t.days = 0 <;> by_cases h2 : t.seconds = 0 <;> by_cases h3 : t.micros = 0 <;>
    simp [h1, h2, h3, joinArgs, keyText, printExpr, keyed, kDays, kSeconds, kMicroseconds, hz]

theorem names_good : GoodName cTimedelta ∧ GoodName cDate ∧ GoodName cTime ∧ GoodName cDatetime ∧ GoodName cTimezone ∧ GoodName cUtc := by
  unfold GoodName
  decide

theorem keys_good : (∀ c ∈ kDays, nameChar c = true) ∧ (∀ c ∈ kSeconds, nameChar c = true) ∧ (∀ c ∈ kMicroseconds, nameChar c = true) ∧
    (∀ c ∈ kTzinfo, nameChar c = true) ∧ ∀ c ∈ kFold, nameChar c = true := by
  decide

theorem deltaExpr_good (t : Delta) : (deltaExpr t).Good := by
  unfold deltaExpr Expr.Good
  refine ⟨names_good.1, good_mkArgs _ ?_⟩
  intro a ha
  obtain ⟨k1, k2, k3, _⟩ := keys_good
  have hint : ∀ v, (Expr.int v).Good := fun v => by unfold Expr.Good; trivial
  have hm : a = ([], .int 0) ∨ a = (kDays, .int t.days) ∨ a = (kSeconds, .int t.seconds) ∨ a = (kMicroseconds, .int t.micros) := by
    have key : ∀ (p q r : Prop) [Decidable p] [Decidable q] [Decidable r] (x y z w : Str × Expr),
        a ∈ (if ((if p then [x] else []) ++ (if q then [y] else []) ++ (if r then [z] else [])).isEmpty = true then [w]
          else (if p then [x] else []) ++ (if q then [y] else []) ++ (if r then [z] else [])) → a = w ∨ a = x ∨ a = y ∨ a = z := by
      intro p q r _ _ _ x y z w h
      by_cases h1 : p <;> by_cases h2 : q <;> by_cases h3 : r <;> simp [h1, h2, h3] at h <;> tauto
    exact key _ _ _ _ _ _ _ ha
  rcases hm with rfl | rfl | rfl | rfl
  · exact ⟨fun c hc => (nomatch hc), hint 0⟩
  · exact ⟨k1, hint _⟩
  · exact ⟨k2, hint _⟩
  · exact ⟨k3, hint _⟩

theorem eval_delta {t : Delta} (h : t.Canonical) : evalExpr (deltaExpr t) = some (.delta t) := by
  unfold deltaExpr evalExpr
  rw [eval_mkArgs]
  obtain ⟨d, s, u⟩ := t
  have hc : construct cTimedelta = makeDelta := rfl
  rw [hc]
  unfold deltaArgs
  by_cases h1 : d = 0 <;> by_cases h2 : s = 0 <;> by_cases h3 : u = 0 <;>
    simp [h1, h2, h3, evalList, evalExpr, makeDelta, bindArgs, intArg, List.lookup, kDays, kSeconds, kMicroseconds] <;>
    simp_all

/-! ### Days and time zones -/

def dateExpr (d : Ymd) : Expr := .call cDate (mkArgs [([], .int d.year), ([], .int d.month), ([], .int d.day)])

theorem dateRepr_eq (quote : Str → Str) (d : Ymd) : dateRepr d = printExpr quote (dateExpr d) := by
  unfold dateRepr dateExpr printExpr
  rw [print_mkArgs]
  simp [keyText, printExpr]

theorem int_good (v : Int) : (Expr.int v).Good := by
  unfold Expr.Good
  trivial

theorem plain_good : ∀ c ∈ ([] : Str), nameChar c = true := fun _ hc => (nomatch hc)

theorem dateExpr_good (d : Ymd) : (dateExpr d).Good := by
  unfold dateExpr Expr.Good
  refine ⟨names_good.2.1, good_mkArgs _ ?_⟩
  intro a ha
  simp only [List.mem_cons, List.not_mem_nil, or_false] at ha
  rcases ha with rfl | rfl | rfl <;> exact ⟨plain_good, int_good _⟩

theorem eval_date {d : Ymd} (h : DayOk d) : evalExpr (dateExpr d) = some (.date d) := by
  unfold dateExpr evalExpr
  rw [eval_mkArgs]
  have hc : construct cDate = makeDate := rfl
  rw [hc]
  simp [evalList, evalExpr, makeDate, bindArgs, intArg, List.lookup, kYear, kMonth, kDay, h]

def zoneExpr : Zone → Expr
  | .utc => .name cUtc
  | .fixed off none => .call cTimezone (mkArgs [([], deltaExpr off)])
  | .fixed off (some name) => .call cTimezone (mkArgs [([], deltaExpr off), ([], .text name)])

theorem zoneRepr_eq (quote : Str → Str) (z : Zone) : zoneRepr quote z = printExpr quote (zoneExpr z) := by
  rcases z with _ | ⟨off, _ | name⟩
  · unfold zoneExpr printExpr zoneRepr
    rfl
  · simp only [zoneExpr, printExpr, zoneRepr]
    rw [print_mkArgs, deltaRepr_eq quote]
    simp [keyText, joinArgs]
  · simp only [zoneExpr, printExpr, zoneRepr]
    rw [print_mkArgs, deltaRepr_eq quote]
    simp [keyText, joinArgs, printExpr]

theorem zoneExpr_good (z : Zone) : (zoneExpr z).Good := by
  have ht : ∀ s, (Expr.text s).Good := fun s => by unfold Expr.Good; trivial
  rcases z with _ | ⟨off, _ | name⟩
  · unfold zoneExpr Expr.Good
    exact names_good.2.2.2.2.2
  · unfold zoneExpr Expr.Good
    refine ⟨names_good.2.2.2.2.1, good_mkArgs _ ?_⟩
    intro a ha
    rw [List.mem_singleton] at ha
    subst ha
    exact ⟨plain_good, deltaExpr_good _⟩
  · unfold zoneExpr Expr.Good
    refine ⟨names_good.2.2.2.2.1, good_mkArgs _ ?_⟩
    intro a ha
    simp only [List.mem_cons, List.not_mem_nil, or_false] at ha
    rcases ha with rfl | rfl
    · exact ⟨plain_good, deltaExpr_good _⟩
    · exact ⟨plain_good, ht _⟩

theorem offset_canonical {off : Delta} (h : OffsetOk off) : off.Canonical := by
  unfold OffsetOk at h
  exact h.1

theorem eval_zone {z : Zone} (h : z.Ok) : evalExpr (zoneExpr z) = some (.zone z) := by
  have hc : construct cTimezone = makeZone := rfl
  rcases z with _ | ⟨off, _ | name⟩
  · unfold zoneExpr evalExpr
    rfl
  · unfold zoneExpr evalExpr
    rw [eval_mkArgs, hc]
    obtain ⟨h1, h2⟩ := h
    simp [evalList, eval_delta (offset_canonical h1), makeZone, bindArgs, List.lookup, kOffset, kName, h1, h2 rfl]
  · unfold zoneExpr evalExpr
    rw [eval_mkArgs, hc]
    obtain ⟨h1, h2⟩ := h
    simp [evalList, evalExpr, eval_delta (offset_canonical h1), makeZone, bindArgs, List.lookup, kOffset, kName, h1]

/-! ### Times -/

def zoneFold (z : Option Zone) (fold : Int) : List (Str × Expr) :=
  (match z with
    | some z => [(kTzinfo, zoneExpr z)]
    | none => []) ++ if fold ≠ 0 then [(kFold, .int 1)] else []

theorem dropLast_callText (p b : Str) : (callText p b).dropLast = p ++ '(' :: b := by
  unfold callText
  rw [show p ++ '(' :: (b ++ [')']) = (p ++ '(' :: b) ++ [')'] by simp, List.dropLast_concat]

theorem addZoneFold_eq (quote : Str → Str) (p : Str) {l : List (Str × Expr)} (hl : l ≠ []) (z : Option Zone) (fold : Int) :
    addZoneFold quote (printExpr quote (.call p (mkArgs l))) z fold = printExpr quote (.call p (mkArgs (l ++ zoneFold z fold))) := by
  unfold printExpr
  rw [print_mkArgs, print_mkArgs, List.map_append]
  have hm : (l.map fun a => keyText a.1 ++ printExpr quote a.2) ≠ [] := by simpa using hl
  generalize (l.map fun a => keyText a.1 ++ printExpr quote a.2) = m at hm
  have hdec : decInt 1 = ['1'] := by decide
  have hk1 : keyText kTzinfo = kTzinfo ++ ['='] := rfl
  have hk2 : keyText kFold = kFold ++ ['='] := rfl
  have hcat : ∀ b c : Str, callText p b = callText p c ↔ b = c := by
    intro b c
    unfold callText
    simp
  cases z with
  | none =>
    by_cases hf : fold = 0
    · simp [addZoneFold, zoneFold, hf]
    · unfold addZoneFold zoneFold
      simp only [hf, ne_eq, not_false_eq_true, if_true, dropLast_callText, List.nil_append, List.map_cons, List.map_nil]
      rw [joinArgs_append hm (by simp)]
      simp [joinArgs, printExpr, hdec, hk2, callText]
  | some z =>
    by_cases hf : fold = 0
    · unfold addZoneFold zoneFold
      simp only [hf, ne_eq, not_true_eq_false, if_false, dropLast_callText, List.append_nil, List.map_cons, List.map_nil]
      rw [joinArgs_append hm (by simp), zoneRepr_eq]
      simp [joinArgs, hk1, callText]
    · unfold addZoneFold zoneFold
      simp only [hf, ne_eq, not_false_eq_true, if_true, dropLast_callText, List.map_cons, List.map_nil, List.cons_append, List.nil_append]
      rw [joinArgs_append hm (by simp), zoneRepr_eq]
      rw [List.dropLast_concat]
      simp [joinArgs, printExpr, hdec, hk1, hk2, callText]

theorem zoneFold_good (z : Option Zone) (fold : Int) : ∀ a ∈ zoneFold z fold, (∀ c ∈ a.1, nameChar c = true) ∧ a.2.Good := by
  obtain ⟨_, _, _, k4, k5⟩ := keys_good
  intro a ha
  unfold zoneFold at ha
  rcases List.mem_append.mp ha with ha | ha
  · cases z with
    | none => cases ha
    | some z =>
      rw [List.mem_singleton] at ha
      subst ha
      exact ⟨k4, zoneExpr_good z⟩
  · split at ha
    · rw [List.mem_singleton] at ha
      subst ha
      exact ⟨k5, int_good 1⟩
    · cases ha

def timeArgs (c : Clock) : List (Str × Expr) :=
  ([], .int c.hour) :: ([], .int c.minute) :: (if c.micro ≠ 0 then [([], .int c.second), ([], .int c.micro)]
    else if c.second ≠ 0 then [([], .int c.second)] else [])

def timeExpr (c : Clock) (z : Option Zone) (fold : Int) : Expr := .call cTime (mkArgs (timeArgs c ++ zoneFold z fold))

theorem timeRepr_eq (quote : Str → Str) (c : Clock) (z : Option Zone) (fold : Int) : timeRepr quote c z fold = printExpr quote (timeExpr c z fold) := by
  unfold timeRepr timeExpr
  rw [← addZoneFold_eq quote cTime (by unfold timeArgs; simp)]
  unfold printExpr
  rw [print_mkArgs]
  unfold timeArgs
  by_cases h1 : c.micro = 0 <;> by_cases h2 : c.second = 0 <;> simp [h1, h2, keyText, printExpr, joinArgs]

theorem plain_ints_good {l : List (Str × Expr)} (h : ∀ a ∈ l, ∃ v, a = ([], Expr.int v)) : ∀ a ∈ l, (∀ c ∈ a.1, nameChar c = true) ∧ a.2.Good := by
  intro a ha
  obtain ⟨v, rfl⟩ := h a ha
  exact ⟨plain_good, int_good v⟩

theorem timeExpr_good (c : Clock) (z : Option Zone) (fold : Int) : (timeExpr c z fold).Good := by
  unfold timeExpr Expr.Good
  refine ⟨names_good.2.2.1, good_mkArgs _ ?_⟩
  intro a ha
  rcases List.mem_append.mp ha with ha | ha
  · refine plain_ints_good (fun b hb => ?_) a ha
    unfold timeArgs at hb
    simp only [List.mem_cons] at hb
    rcases hb with hb | hb | hb
    · exact ⟨_, hb⟩
    · exact ⟨_, hb⟩
    · split at hb
      · simp only [List.mem_cons, List.not_mem_nil, or_false] at hb
        rcases hb with hb | hb <;> exact ⟨_, hb⟩
      · split at hb
        · rw [List.mem_singleton] at hb
          exact ⟨_, hb⟩
        · cases hb
  · exact zoneFold_good z fold a ha

theorem eval_time {c : Clock} {z : Option Zone} {fold : Int} (hc : c.Valid) (hz : ∀ w ∈ z, w.Ok) (hf : fold = 0 ∨ fold = 1) :
    evalExpr (timeExpr c z fold) = some (.time c z fold) := by
  unfold timeExpr evalExpr
  rw [eval_mkArgs]
  have hk : construct cTime = makeTime := rfl
  rw [hk]
  obtain ⟨h, m, s, u⟩ := c
  suffices hs : (evalList (timeArgs ⟨h, m, s, u⟩ ++ zoneFold z fold)).bind makeTime =
      if Clock.Valid ⟨h, m, s, u⟩ ∧ (fold = 0 ∨ fold = 1) then some (.time ⟨h, m, s, u⟩ z fold) else none by
    rw [hs, if_pos ⟨hc, hf⟩]
  unfold timeArgs zoneFold
  cases z with
  | none =>
    rcases hf with rfl | rfl <;> obtain rfl | h1 := eq_or_ne u 0 <;> obtain rfl | h2 := eq_or_ne s 0 <;>
      (conv_lhs => simp only [*, ne_eq, not_true_eq_false, not_false_eq_true, if_true, if_false, List.cons_append, List.nil_append, evalList, evalExpr, Option.bind_some, Option.map_some, one_ne_zero]) <;>
      rfl
  | some z =>
    have hzone := eval_zone (hz z rfl)
    rcases hf with rfl | rfl <;> obtain rfl | h1 := eq_or_ne u 0 <;> obtain rfl | h2 := eq_or_ne s 0 <;>
      (conv_lhs => simp only [*, ne_eq, not_true_eq_false, not_false_eq_true, if_true, if_false, List.cons_append, List.nil_append, evalList, evalExpr, Option.bind_some, Option.map_some, one_ne_zero]) <;>
      rfl

def stampArgs (d : Ymd) (c : Clock) : List (Str × Expr) :=
  ([], .int d.year) :: ([], .int d.month) :: ([], .int d.day) :: timeArgs c

def stampExpr (d : Ymd) (c : Clock) (z : Option Zone) (fold : Int) : Expr := .call cDatetime (mkArgs (stampArgs d c ++ zoneFold z fold))

theorem stampRepr_eq (quote : Str → Str) (d : Ymd) (c : Clock) (z : Option Zone) (fold : Int) :
    stampRepr quote d c z fold = printExpr quote (stampExpr d c z fold) := by
  unfold stampRepr stampExpr
  rw [← addZoneFold_eq quote cDatetime (by unfold stampArgs; simp)]
  simp only
  unfold printExpr
  rw [print_mkArgs]
  unfold stampArgs timeArgs
  by_cases h1 : c.micro = 0 <;> by_cases h2 : c.second = 0 <;> simp [h1, h2, keyText, printExpr, joinArgs]

theorem stampExpr_good (d : Ymd) (c : Clock) (z : Option Zone) (fold : Int) : (stampExpr d c z fold).Good := by
  unfold stampExpr Expr.Good
  refine ⟨names_good.2.2.2.1, good_mkArgs _ ?_⟩
  intro a ha
  rcases List.mem_append.mp ha with ha | ha
  · refine plain_ints_good (fun b hb => ?_) a ha
    unfold stampArgs timeArgs at hb
    simp only [List.mem_cons] at hb
    rcases hb with hb | hb | hb | hb | hb | hb
    · exact ⟨_, hb⟩
    · exact ⟨_, hb⟩
    · exact ⟨_, hb⟩
    · exact ⟨_, hb⟩
    · exact ⟨_, hb⟩
    · split at hb
      · simp only [List.mem_cons, List.not_mem_nil, or_false] at hb
        rcases hb with hb | hb <;> exact ⟨_, hb⟩
      · split at hb
        · rw [List.mem_singleton] at hb
          exact ⟨_, hb⟩
        · cases hb
  · exact zoneFold_good z fold a ha

theorem eval_stamp {d : Ymd} {c : Clock} {z : Option Zone} {fold : Int} (hd : DayOk d) (hc : c.Valid) (hz : ∀ w ∈ z, w.Ok) (hf : fold = 0 ∨ fold = 1) :
    evalExpr (stampExpr d c z fold) = some (.stamp d c z fold) := by
  unfold stampExpr evalExpr
  rw [eval_mkArgs]
  have hk : construct cDatetime = makeStamp := rfl
  rw [hk]
  obtain ⟨h, m, s, u⟩ := c
  obtain ⟨y, mo, da⟩ := d
  suffices hs : (evalList (stampArgs ⟨y, mo, da⟩ ⟨h, m, s, u⟩ ++ zoneFold z fold)).bind makeStamp =
      if DayOk ⟨y, mo, da⟩ ∧ Clock.Valid ⟨h, m, s, u⟩ ∧ (fold = 0 ∨ fold = 1) then some (.stamp ⟨y, mo, da⟩ ⟨h, m, s, u⟩ z fold) else none by
    rw [hs, if_pos ⟨hd, hc, hf⟩]
  unfold stampArgs timeArgs zoneFold
  cases z with
  | none =>
    rcases hf with rfl | rfl <;> obtain rfl | h1 := eq_or_ne u 0 <;> obtain rfl | h2 := eq_or_ne s 0 <;>
      (conv_lhs => simp only [*, ne_eq, not_true_eq_false, not_false_eq_true, if_true, if_false, List.cons_append, List.nil_append, evalList, evalExpr, Option.bind_some, Option.map_some, one_ne_zero]) <;>
      rfl
  | some z =>
    have hzone := eval_zone (hz z rfl)
    rcases hf with rfl | rfl <;> obtain rfl | h1 := eq_or_ne u 0 <;> obtain rfl | h2 := eq_or_ne s 0 <;>
      (conv_lhs => simp only [*, ne_eq, not_true_eq_false, not_false_eq_true, if_true, if_false, List.cons_append, List.nil_append, evalList, evalExpr, Option.bind_some, Option.map_some, one_ne_zero]) <;>
      rfl

end Verif.DateRepr
