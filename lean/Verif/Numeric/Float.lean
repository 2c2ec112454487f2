import Verif.Numeric.Lemmas
import Verif.Numeric.Spec
import Mathlib.Tactic.NormNum
import Mathlib.Tactic.FieldSimp
namespace Verif.Numeric

set_option linter.unusedTactic false
set_option linter.unreachableTactic false

attribute [local irreducible] floatOfInt

theorem b2i_eq (b : Bool) : b2i b = if b then 1 else 0 := rfl

/-- A finite operand after promotions has this value. -/
def term (E : Env) : Val → Option ℚ
  | .realF q => some q
  | .finF q => some (E.lit q)
  | _ => none

theorem term_floatTerm {E : Env} (hE : E.real = true) {v : Val} {x : ℚ} (h : term E v = some x) :
    floatTerm E v = some (.inl x) := by
  cases v <;> simp [term] at h <;> simp [floatTerm, hE, h]

theorem lit_zero {E : Env} (ok : E.Ok) : E.lit 0 = 0 := by
  have := ok.int 0 (by decide)
  simpa using this

theorem lit_neg_one {E : Env} (ok : E.Ok) : E.lit (-1) = -1 := by
  have := ok.int (-1) (by decide)
  simpa using this

theorem core_fin {E : Env} (hE : E.real = true) (op : Op) (hop : op.isArith) {a b : Val} {x y : ℚ}
    (ha : term E a = some x) (hb : term E b = some y) :
    (core E op a b).map (num E) = (Py.farith .fin op (.fin x) (.fin y)).map .flt := by
  have fa := term_floatTerm hE ha
  have fb := term_floatTerm hE hb
  have hna : ∀ f, a ≠ .nonFin f := by rintro f rfl; simp [term] at ha
  have hnb : ∀ f, b ≠ .nonFin f := by rintro f rfl; simp [term] at hb
  have hdm : floatDivmod E a b = if y = 0 then .error .zeroDivision else
      .ok (.symInt ⌊x / y⌋, .realF (x - y * ⌊x / y⌋)) := by
    cases a <;> simp [term] at ha <;> cases b <;> simp [term] at hb <;>
      simp [floatDivmod, ha, hb]
  have hpd : Py.fdivmod .fin (.fin x) (.fin y) = if y = 0 then .error .zeroDivision else
      .ok (.fin ⌊x / y⌋, .fin (x - y * ⌊x / y⌋)) := by
    simp [Py.fdivmod]
  have hc : ∀ o : Op, o.isCmp = false → o ≠ .floordiv → o ≠ .mod →
      core E o a b = floatArith E o a b := by
    intro o h1 h2 h3
    cases a <;> simp [term] at ha <;> cases b <;> simp [term] at hb <;> cases o <;>
      first | rfl | exact absurd rfl h2 | exact absurd rfl h3 | exact absurd h1.symm Bool.false_ne_true
  cases op <;> first | exact absurd hop Bool.false_ne_true | skip
  · rw [hc _ rfl (by decide) (by decide)]; simp [floatArith, fa, fb, smtReal, Py.farith, Py.fadd, Except.map, num]
  · rw [hc _ rfl (by decide) (by decide)]
    simp [floatArith, fa, fb, smtReal, Py.farith, Py.fadd, Py.fsub, Py.fneg, Except.map, num, sub_eq_add_neg]
  · rw [hc _ rfl (by decide) (by decide)]; simp [floatArith, fa, fb, smtReal, Py.farith, Py.fmul, Except.map, num]
  · rw [hc _ rfl (by decide) (by decide)]
    simp only [floatArith, fa, fb, smtReal, Py.farith, Py.fdiv, Fl.fin.injEq]
    by_cases h0 : y = 0
    · simp [h0, Except.map]
    · simp [h0, Except.map, num]
  · simp only [core, handle, hdm, Py.farith, hpd]
    by_cases h0 : y = 0
    · simp [h0, Except.map, bind, Except.bind]
    · simp [h0, Except.map, bind, Except.bind, symIntFloat, hE, num]
  · simp only [core, handle, hdm, Py.farith, hpd]
    by_cases h0 : y = 0
    · simp [h0, Except.map]
    · simp [h0, Except.map, num]

/-- Not a finite float. -/
def NF (f : Fl) : Prop := ∀ q, f ≠ .fin q

/-- The sign that stands for a finite operand. -/
def sgn (x : ℚ) : ℚ := if x > 0 then 1 else if x < 0 then -1 else 0

theorem sgn_pos (x : ℚ) : 0 < sgn x ↔ 0 < x := by
  unfold sgn
  split
  · simp_all
  · split
    · constructor
      · intro h; norm_num at h
      · intro h; linarith
    · simp_all

theorem sgn_neg (x : ℚ) : sgn x < 0 ↔ x < 0 := by
  unfold sgn
  split
  · constructor
    · intro h; norm_num at h
    · intro h; linarith
  · split
    · simp_all
    · simp_all

theorem sgn_zero (x : ℚ) : sgn x = 0 ↔ x = 0 := by
  have h1 := sgn_pos x
  have h2 := sgn_neg x
  constructor
  · intro h
    rw [h] at h1 h2
    rcases lt_trichotomy x 0 with h' | h' | h'
    · exact absurd (h2.2 h') (lt_irrefl _)
    · exact h'
    · exact absurd (h1.2 h') (lt_irrefl _)
  · rintro rfl; rfl

theorem comparable_term {E : Env} (ok : E.Ok) {v : Val} {x : ℚ} (h : term E v = some x) :
    ∃ s : Int, finiteComparable v = some s ∧ (s : ℚ) = sgn x := by
  cases v <;> simp [term] at h
  · subst h
    refine ⟨_, rfl, ?_⟩
    unfold sgn
    split <;> [simp; (split <;> simp)]
  · subst h
    refine ⟨_, rfl, ?_⟩
    unfold sgn
    have h1 := ok.pos
    have h2 := ok.neg
    rename_i q
    by_cases a1 : 0 < q
    · simp [a1, (h1 q).2 a1]
    · have a2 : ¬ 0 < E.lit q := fun h => a1 ((h1 q).1 h)
      by_cases b1 : q < 0
      · simp [a1, a2, b1, (h2 q).2 b1]
      · have b2 : ¬ E.lit q < 0 := fun h => b1 ((h2 q).1 h)
        simp [a1, a2, b1, b2]

/-- With an infinity or NaN on the right only the sign of the left operand matters. -/
theorem farith_right (rnd rnd' : ℚ → Fl) (op : Op) (h1 : op ≠ .floordiv) (h2 : op ≠ .mod) {f : Fl}
    (hf : NF f) {x x' : ℚ} (hp : 0 < x' ↔ 0 < x) (hn : x' < 0 ↔ x < 0) :
    Py.farith rnd op (.fin x') f = Py.farith rnd' op (.fin x) f := by
  have h0 : x' = 0 ↔ x = 0 := by
    constructor
    · rintro rfl
      rcases lt_trichotomy x 0 with h | h | h
      · exact absurd (hn.2 h) (lt_irrefl _)
      · exact h
      · exact absurd (hp.2 h) (lt_irrefl _)
    · rintro rfl
      rcases lt_trichotomy x' 0 with h | h | h
      · exact absurd (hn.1 h) (lt_irrefl _)
      · exact h
      · exact absurd (hp.1 h) (lt_irrefl _)
  cases f with
  | fin q => exact absurd rfl (hf q)
  | inf s => cases op <;> simp_all [Py.farith, Py.fadd, Py.fsub, Py.fneg, Py.fmul, Py.infTimes, Py.fdiv]
  | nan => cases op <;> simp_all [Py.farith, Py.fadd, Py.fsub, Py.fneg, Py.fmul, Py.fdiv]

theorem farith_left (rnd rnd' : ℚ → Fl) (op : Op) (h1 : op ≠ .floordiv) (h2 : op ≠ .mod) {f : Fl}
    (hf : NF f) {x x' : ℚ} (hp : 0 < x' ↔ 0 < x) (hn : x' < 0 ↔ x < 0) :
    Py.farith rnd op f (.fin x') = Py.farith rnd' op f (.fin x) := by
  have h0 : x' = 0 ↔ x = 0 := by
    constructor
    · rintro rfl
      rcases lt_trichotomy x 0 with h | h | h
      · exact absurd (hn.2 h) (lt_irrefl _)
      · exact h
      · exact absurd (hp.2 h) (lt_irrefl _)
    · rintro rfl
      rcases lt_trichotomy x' 0 with h | h | h
      · exact absurd (hn.1 h) (lt_irrefl _)
      · exact h
      · exact absurd (hp.1 h) (lt_irrefl _)
  cases f with
  | fin q => exact absurd rfl (hf q)
  | inf s => cases op <;> simp_all [Py.farith, Py.fadd, Py.fsub, Py.fneg, Py.fmul, Py.infTimes, Py.fdiv]
  | nan => cases op <;> simp_all [Py.farith, Py.fadd, Py.fsub, Py.fneg, Py.fmul, Py.fdiv]

theorem num_pyFloat {E : Env} (ok : E.Ok) {v : Fl} (h : NF v ∨ v = .fin 0) :
    num E (.pyFloat v) = .flt v := by
  rcases h with h | rfl
  · cases v with
    | fin q => exact absurd rfl (h q)
    | inf s => rfl
    | nan => rfl
  · simp [num, lit_zero ok]

theorem nf_inf (s : Bool) : NF (.inf s) := fun _ h => by cases h

theorem nf_nan : NF .nan := fun _ h => by cases h

theorem nf_infTimes (s : Bool) (q : ℚ) : NF (Py.infTimes s q) := by
  unfold Py.infTimes
  split
  · exact nf_nan
  · exact nf_inf _

theorem fadd_nf {rnd : ℚ → Fl} {x y : Fl} (h : NF x ∨ NF y) : NF (Py.fadd rnd x y) := by
  cases x <;> cases y
  case fin.fin => rcases h with h | h <;> exact absurd rfl (h _)
  case inf.inf s t =>
    show NF (if s = t then .inf s else .nan)
    split
    · exact nf_inf _
    · exact nf_nan
  all_goals first | exact nf_nan | exact nf_inf _

theorem fmul_nf {rnd : ℚ → Fl} {x y : Fl} (h : NF x ∨ NF y) : NF (Py.fmul rnd x y) := by
  cases x <;> cases y
  case fin.fin => rcases h with h | h <;> exact absurd rfl (h _)
  all_goals first | exact nf_nan | exact nf_inf _ | exact nf_infTimes _ _

/-- `+ - * /` with an infinity or NaN never give a finite number other than zero. -/
theorem farith_nf {rnd : ℚ → Fl} {op : Op} (h1 : op ≠ .floordiv) (h2 : op ≠ .mod) {x y v : Fl}
    (h : NF x ∨ NF y) (hv : Py.farith rnd op x y = .ok v) : NF v ∨ v = .fin 0 := by
  cases op
  case floordiv => exact absurd rfl h1
  case mod => exact absurd rfl h2
  case add => cases hv; exact .inl (fadd_nf h)
  case sub =>
      cases hv
      refine .inl (fadd_nf (h.imp_right fun h => ?_))
      cases y with
      | fin q => exact absurd rfl (h q)
      | inf s => exact nf_inf _
      | nan => exact nf_nan
  case mul => cases hv; exact .inl (fmul_nf h)
  case truediv =>
      simp only [Py.farith, Py.fdiv] at hv
      split at hv
      · cases hv
      · cases hv
        cases x <;> cases y
        case fin.fin => rcases h with h | h <;> exact absurd rfl (h _)
        all_goals first | exact .inl nf_nan | exact .inl (nf_inf _) | exact .inr rfl
  all_goals cases hv

theorem nativeNF_num {E : Env} (ok : E.Ok) {op : Op} (hop : op.isArith) (h1 : op ≠ .floordiv)
    (h2 : op ≠ .mod) {x y : Fl} (h : NF x ∨ NF y) :
    (nativeNF E op x y).map (num E) = (Py.farith E.rnd op x y).map .flt := by
  have e : nativeNF E op x y = (Py.farith E.rnd op x y).map .pyFloat := by
    cases op <;> first | rfl | exact absurd hop Bool.false_ne_true
  rw [e]
  cases hv : Py.farith E.rnd op x y with
  | error e => rfl
  | ok v => exact congrArg Except.ok (num_pyFloat ok (farith_nf h1 h2 h hv))

theorem divmod_left_nf {E : Env} {f : Fl} (hf : NF f) {b : Val} {y : ℚ} (hb : term E b = some y) :
    floatDivmod E (.nonFin f) b =
        (if y = 0 then .error .zeroDivision else .ok (.pyFloat .nan, .pyFloat .nan)) ∧
      Py.fdivmod .fin f (.fin y) =
        (if y = 0 then .error .zeroDivision else .ok (.nan, .nan)) := by
  constructor
  · cases b <;> simp [term] at hb <;> simp [floatDivmod, hb]
  · cases f with
    | fin q => exact absurd rfl (hf q)
    | inf s => simp [Py.fdivmod]
    | nan => simp [Py.fdivmod]

theorem divmod_right_nf {E : Env} (ok : E.Ok) (hE : E.real = true) {f : Fl} (hf : NF f) {a : Val}
    {x : ℚ} (ha : term E a = some x) :
    ∃ u v, floatDivmod E a (.nonFin f) = .ok (u, v) ∧ (∀ n, u ≠ .symInt n) ∧
      ∃ p q, Py.fdivmod .fin (.fin x) f = .ok (p, q) ∧ num E u = .flt p ∧ num E v = .flt q := by
  have h0 := lit_zero ok
  have h1 := lit_neg_one ok
  have hna : ∀ g, a ≠ .nonFin g := by rintro g rfl; simp [term] at ha
  cases f with
  | fin q => exact absurd rfl (hf q)
  | nan =>
      refine ⟨.pyFloat .nan, .pyFloat .nan, ?_, by simp, .nan, .nan, by simp [Py.fdivmod], rfl, rfl⟩
      cases a <;> simp [term] at ha <;> simp [floatDivmod]
  | inf s =>
      have hv : ∃ v, num E v = .flt (.fin x) ∧ floatDivmod E a (.nonFin (.inf s)) =
          .ok (if xor (decide (x ≥ 0)) (decide (s = false)) then
            if x = 0 then (.pyFloat (.fin 0), .pyFloat (.fin 0))
            else (.pyFloat (.fin (-1)), .pyFloat (.inf s))
          else (.pyFloat (.fin 0), v)) := by
        cases a <;> simp [term] at ha
        · subst ha
          rename_i q
          refine ⟨.realF q, rfl, ?_⟩
          simp only [floatDivmod]
          cases s <;> simp <;> split <;> try rfl
          all_goals split <;> rfl
        · subst ha
          rename_i q
          refine ⟨.pyFloat (.fin q), by simp [num, hE], ?_⟩
          simp only [floatDivmod]
          cases s <;> simp <;> split <;> try rfl
          all_goals split <;> rfl
      obtain ⟨v, hv, e⟩ := hv
      rw [e]
      rcases lt_trichotomy x 0 with hx | hx | hx
      · have n0 : ¬ x ≥ 0 := not_le.2 hx
        have n1 : x ≠ 0 := ne_of_lt hx
        cases s
        · exact ⟨.pyFloat (.fin (-1)), .pyFloat (.inf false), by simp [n0, n1], by simp, .fin (-1),
            .inf false, by simp [Py.fdivmod, n1, hx], by simp [num, h1], rfl⟩
        · exact ⟨.pyFloat (.fin 0), v, by simp [n0], by simp, .fin 0, .fin x,
            by simp [Py.fdivmod, n1, hx], by simp [num, h0], hv⟩
      · subst hx
        cases s
        · exact ⟨.pyFloat (.fin 0), v, by simp, by simp, .fin 0, .fin 0,
            by simp [Py.fdivmod], by simp [num, h0], hv⟩
        · exact ⟨.pyFloat (.fin 0), .pyFloat (.fin 0), by simp, by simp, .fin 0, .fin 0,
            by simp [Py.fdivmod], by simp [num, h0], by simp [num, h0]⟩
      · have n0 : x ≥ 0 := le_of_lt hx
        have n1 : x ≠ 0 := ne_of_gt hx
        have n2 : ¬ x < 0 := not_lt.2 n0
        cases s
        · exact ⟨.pyFloat (.fin 0), v, by simp [n0], by simp, .fin 0, .fin x,
            by simp [Py.fdivmod, n1, n2], by simp [num, h0], hv⟩
        · exact ⟨.pyFloat (.fin (-1)), .pyFloat (.inf true), by simp [n0, n1], by simp, .fin (-1),
            .inf true, by simp [Py.fdivmod, n1, n2], by simp [num, h1], rfl⟩

theorem core_left {E : Env} (ok : E.Ok) (op : Op) (hop : op.isArith) {f : Fl}
    (hf : NF f) {b : Val} {y : ℚ} (hb : term E b = some y) :
    (core E op (.nonFin f) b).map (num E) = (Py.farith .fin op f (.fin y)).map .flt := by
  obtain ⟨d1, d2⟩ := divmod_left_nf hf hb
  obtain ⟨s, hs, es⟩ := comparable_term ok hb
  by_cases hfd : op = .floordiv
  · subst hfd
    simp only [core, handle, d1, Py.farith, d2]
    split <;> rfl
  by_cases hmd : op = .mod
  · subst hmd
    simp only [core, handle, d1, Py.farith, d2]
    split <;> rfl
  have e : core E op (.nonFin f) b = nativeNF E op f (.fin s) := by
    have : core E op (.nonFin f) b =
        (match Val.nonFin f, finiteComparable b with
          | .nonFin f, some s => nativeNF E op f (.fin s)
          | _, _ => .error .internal) := by
      cases op <;> first | rfl | exact absurd rfl hfd | exact absurd rfl hmd
    rw [this, hs]
  rw [e, nativeNF_num ok hop hfd hmd (.inl hf), es,
    farith_left E.rnd .fin op hfd hmd hf (sgn_pos y) (sgn_neg y)]

theorem core_right {E : Env} (ok : E.Ok) (hE : E.real = true) (op : Op) (hop : op.isArith) {f : Fl}
    (hf : NF f) {a : Val} {x : ℚ} (ha : term E a = some x) :
    (core E op a (.nonFin f)).map (num E) = (Py.farith .fin op (.fin x) f).map .flt := by
  obtain ⟨u, v, d1, hu, p, q, d2, hp, hq⟩ := divmod_right_nf ok hE hf ha
  obtain ⟨s, hs, es⟩ := comparable_term ok ha
  by_cases hfd : op = .floordiv
  · subst hfd
    simp only [core, handle, d1, Py.farith, d2]
    cases u with
    | symInt n => exact absurd rfl (hu n)
    | _ => exact congrArg Except.ok hp
  by_cases hmd : op = .mod
  · subst hmd
    simp only [core, handle, d1, Py.farith, d2]
    exact congrArg Except.ok hq
  have e : core E op a (.nonFin f) = nativeNF E op (.fin s) f := by
    have : core E op a (.nonFin f) =
        (match finiteComparable a, Val.nonFin f with
          | some s, .nonFin f => nativeNF E op (.fin s) f
          | _, _ => .error .internal) := by
      cases a <;> simp [term] at ha <;>
        (cases op <;> first | rfl | exact absurd rfl hfd | exact absurd rfl hmd)
    rw [this, hs]
  rw [e, nativeNF_num ok hop hfd hmd (.inr hf), es,
    farith_right E.rnd .fin op hfd hmd hf (sgn_pos x) (sgn_neg x)]

/-! Comparisons -/

theorem feq_comm (x y : Fl) : Py.feq x y = Py.feq y x := by
  cases x <;> cases y <;> simp [Py.feq, eq_comm]

theorem fcmp_flip {op : Op} (h : op.isCmp) (x y : Fl) :
    Py.fcmp (flip op) y x = Py.fcmp op x y := by
  cases op <;> first
    | exact absurd h Bool.false_ne_true
    | simp [flip, Py.fcmp, feq_comm x y]

theorem smtRealCmp_eq {op : Op} (h : op.isCmp) (x y : ℚ) :
    smtRealCmp op x y = Py.fcmp op (.fin x) (.fin y) := by
  cases op <;> first
    | exact absurd h Bool.false_ne_true
    | simp [smtRealCmp, Py.fcmp, Py.feq, Py.flt]
  · rw [decide_eq_decide.2 (le_iff_lt_or_eq (a := y) (b := x)), Bool.decide_or]
    congr 1
    exact decide_eq_decide.2 eq_comm
  · rw [decide_eq_decide.2 (le_iff_lt_or_eq (a := x) (b := y)), Bool.decide_or]

theorem smtIntCmp_eq {op : Op} (h : op.isCmp) (x y : Int) :
    smtIntCmp op x y = Py.fcmp op (.fin x) (.fin y) := by
  rw [← smtRealCmp_eq h]
  cases op <;> first
    | exact absurd h Bool.false_ne_true
    | simp [smtRealCmp, smtIntCmp]

/-- Comparisons with an infinity or NaN do not depend on the finite number. -/
theorem fcmp_left (op : Op) {f : Fl} (hf : NF f) (x y : ℚ) :
    Py.fcmp op f (.fin x) = Py.fcmp op f (.fin y) := by
  cases f with
  | fin q => exact absurd rfl (hf q)
  | inf s => cases op <;> rfl
  | nan => cases op <;> rfl

theorem cmp_real_real {E : Env} (hE : E.real = true) {op : Op} (hop : op.isCmp) (x y : ℚ) (k : Nat) :
    binopWith T E (k + 1) op (.realF x) (.realF y) =
      .ok (.symBool (Py.fcmp op (.fin x) (.fin y))) := by
  obtain ⟨real, lit, rnd, rpow⟩ := E
  subst hE
  rw [← smtRealCmp_eq hop]
  cases op <;> first | rfl | exact absurd hop Bool.false_ne_true

theorem cmp_real_fin {E : Env} (hE : E.real = true) {op : Op} (hop : op.isCmp) (x y : ℚ) (k : Nat) :
    binopWith T E (k + 2) op (.realF x) (.pyFloat (.fin y)) =
      .ok (.symBool (Py.fcmp op (.fin x) (.fin (E.lit y)))) := by
  obtain ⟨real, lit, rnd, rpow⟩ := E
  subst hE
  rw [← smtRealCmp_eq hop]
  cases op <;> first | rfl | exact absurd hop Bool.false_ne_true

theorem cmp_real_nf {E : Env} {op : Op} (hop : op.isCmp) (x : ℚ) {f : Fl}
    (hf : NF f) (k : Nat) :
    binopWith T E (k + 2) op (.realF x) (.pyFloat f) = .ok (.pyBool (Py.fcmp op (.fin x) f)) := by
  have e : binopWith T E (k + 2) op (.realF x) (.pyFloat f) =
      .ok (.pyBool (Py.fcmp (flip op) f (.fin x))) := by
    cases f with
    | fin q => exact absurd rfl (hf q)
    | inf s => cases op <;> first | rfl | exact absurd hop Bool.false_ne_true
    | nan => cases op <;> first | rfl | exact absurd hop Bool.false_ne_true
  rw [e, fcmp_flip hop]

theorem cmp_real_float {E : Env} (hE : E.real = true) {op : Op} (hop : op.isCmp) (x : ℚ) (f : Fl)
    (k : Nat) : (binopWith T E (k + 2) op (.realF x) (.pyFloat f)).map truth =
      .ok (some (Py.compare op (.flt (.fin x)) (num E (.pyFloat f)))) := by
  cases f with
  | fin q => rw [cmp_real_fin hE hop]; simp [num, hE, Py.compare, Py.toFl, Except.map, truth]
  | inf s => rw [cmp_real_nf hop x (nf_inf s)]; rfl
  | nan => rw [cmp_real_nf hop x nf_nan]; rfl

theorem cmp_real {E : Env} (ok : E.Ok) (hE : E.real = true) {op : Op} (hop : op.isCmp) (x : ℚ)
    {b : Val} (hb : b.plain) (sb : Small b) (k : Nat) :
    (binopWith T E (k + 4) op (.realF x) b).map truth =
      .ok (some (Py.compare op (.flt (.fin x)) (num E b))) := by
  have hp : op.isPlain := by unfold Op.isPlain; rw [hop]; rfl
  have hint : ∀ n k, Small (.pyInt n) →
      (binopWith T E (k + 3) op (.realF x) (.pyInt n)).map truth =
      .ok (some (Py.compare op (.flt (.fin x)) (.int n))) := by
    intro n k sn
    rw [real_native hp (floatOfInt_small (sn n rfl)), cmp_real_float hE hop]
    simp [num, hE, ok.int n (sn n rfl), Py.compare, Py.toFl]
  cases b with
  | symBool b =>
      rw [show binopWith T E (k + 4) op (.realF x) (.symBool b) =
          binopWith T E (k + 2) op (.realF x) (.realF (b2i b)) by
        obtain ⟨real, lit, rnd, rpow⟩ := E
        subst hE
        cases op <;> first | rfl | exact absurd hop Bool.false_ne_true]
      rw [cmp_real_real hE hop]
      rfl
  | symInt n =>
      rw [show binopWith T E (k + 4) op (.realF x) (.symInt n) =
          binopWith T E (k + 3) op (.realF x) (.realF n) by
        obtain ⟨real, lit, rnd, rpow⟩ := E
        subst hE
        cases op <;> first | rfl | exact absurd hop Bool.false_ne_true]
      rw [cmp_real_real hE hop]
      rfl
  | realF y => rw [cmp_real_real hE hop]; rfl
  | pyBool b =>
      rw [show binopWith T E (k + 4) op (.realF x) (.pyBool b) =
          binopWith T E (k + 3) op (.realF x) (.pyInt (b2i b)) by
        cases op <;> first | rfl | exact absurd hop Bool.false_ne_true]
      exact hint _ _ (small_bool b)
  | pyInt n => exact hint n _ sb
  | pyFloat f => exact cmp_real_float hE hop x f _
  | precise f => exact absurd hb Bool.false_ne_true
  | finF f => exact absurd hb Bool.false_ne_true
  | nonFin f => exact absurd hb Bool.false_ne_true

theorem cmp_float {E : Env} (ok : E.Ok) (hE : E.real = true) {op : Op} (hop : op.isCmp) {a b : Val}
    (ha : a.plain) (hb : b.plain) (sb : Small b) (hs : a.isSym) (hf : a.isFloat ∨ b.isFloat) :
    (binopWith T E 6 op a b).map truth = .ok (some (Py.compare op (num E a) (num E b))) := by
  have key : ∀ n : Int, ∀ b : Val, b.plain → Small b → b.isFloat →
      (binopWith T E 5 op (.symInt n) b).map truth =
        .ok (some (Py.compare op (.int n) (num E b))) := by
    intro n b hb sb hf
    rw [show binopWith T E 5 op (.symInt n) b = binopWith T E 4 op (.realF n) b by
      obtain ⟨real, lit, rnd, rpow⟩ := E
      subst hE
      cases b <;> first
        | exact absurd hf Bool.false_ne_true
        | (cases op <;> first | rfl | exact absurd hop Bool.false_ne_true)]
    exact cmp_real ok hE hop n hb sb 0
  cases a with
  | symBool x =>
      have hf' := hf.resolve_left Bool.false_ne_true
      rw [show binopWith T E 6 op (.symBool x) b = binopWith T E 5 op (.symInt (b2i x)) b by
        cases b <;> first
          | exact absurd hf' Bool.false_ne_true
          | (cases op <;> first | rfl | exact absurd hop Bool.false_ne_true)]
      exact key _ b hb sb hf'
  | symInt n =>
      have hf' := hf.resolve_left Bool.false_ne_true
      rw [show binopWith T E 6 op (.symInt n) b = binopWith T E 5 op (.realF n) b by
        obtain ⟨real, lit, rnd, rpow⟩ := E
        subst hE
        cases b <;> first
          | exact absurd hf' Bool.false_ne_true
          | (cases op <;> first | rfl | exact absurd hop Bool.false_ne_true)]
      exact cmp_real ok hE hop n hb sb 1
  | realF x => exact cmp_real ok hE hop x hb sb 2
  | precise f => exact absurd ha Bool.false_ne_true
  | _ => exact absurd hs Bool.false_ne_true

end Verif.Numeric
