import Verif.Numeric.Bits
namespace Verif.Numeric

set_option linter.unusedTactic false
set_option linter.unreachableTactic false

attribute [local irreducible] floatOfInt

theorem isInt_val {v : Val} (h : IsInt v) (E : Env) : ∃ x, intVal v = some x ∧ num E v = .int x := by
  rcases h with ⟨b, rfl⟩ | ⟨n, rfl⟩ | ⟨b, rfl⟩ | ⟨n, rfl⟩ <;> exact ⟨_, rfl, rfl⟩

theorem symbolic_isSym {v : Val} (h : IsSymbolic v) : v.isSym = true := by
  rcases h with ⟨b, rfl⟩ | ⟨n, rfl⟩ | ⟨b, rfl⟩ | ⟨n, rfl⟩ <;> rfl

theorem symbolic_or {a b : Val} (h : IsSymbolic a ∨ IsSymbolic b) : a.isSym ∨ b.isSym :=
  h.imp symbolic_isSym symbolic_isSym

theorem operand_plain {v : Val} (h : IsOperand v) : v.plain = true := by
  rcases h with ⟨b, rfl⟩ | ⟨n, rfl⟩ | ⟨b, rfl⟩ | ⟨n, rfl⟩ | ⟨n, rfl⟩ | ⟨n, rfl⟩ <;> rfl

theorem inRange_small {v : Val} (h : InRange v) : Small v := by
  intro n e
  have := h n e
  omega

theorem conv_cases {E : Env} (ok : E.Ok) (hE : E.real = true) {v : Val} (hv : v.plain) (sv : Small v) :
    (∃ x, term E (conv v) = some x ∧ Py.toFl (num E v) = .fin x) ∨
      ∃ f, v = .pyFloat f ∧ NF f := by
  cases v with
  | symBool b => exact .inl ⟨_, rfl, rfl⟩
  | symInt n => exact .inl ⟨_, rfl, rfl⟩
  | realF q => exact .inl ⟨_, rfl, rfl⟩
  | pyBool b =>
      refine .inl ⟨_, rfl, ?_⟩
      show Fl.fin _ = Fl.fin (E.lit (b2i b))
      rw [ok.int (b2i b) (by cases b <;> decide)]
      rfl
  | pyInt n =>
      refine .inl ⟨_, rfl, ?_⟩
      show Fl.fin _ = Fl.fin (E.lit n)
      rw [ok.int n (sv n rfl)]
  | pyFloat f =>
      cases f with
      | fin q => exact .inl ⟨_, rfl, by simp [num, hE, Py.toFl]⟩
      | inf s => exact .inr ⟨_, rfl, nf_inf s⟩
      | nan => exact .inr ⟨_, rfl, nf_nan⟩
  | precise f => exact absurd hv Bool.false_ne_true
  | finF f => exact absurd hv Bool.false_ne_true
  | nonFin f => exact absurd hv Bool.false_ne_true

theorem isFloat_num {E : Env} {v : Val} (h : v.isFloat) : ∃ f, num E v = .flt f := by
  cases v with
  | realF q => exact ⟨_, rfl⟩
  | pyFloat f => cases f <;> exact ⟨_, rfl⟩
  | _ => exact absurd h Bool.false_ne_true

theorem arith_toFl {E : Env} {op : Op} {a b : Val} (hf : a.isFloat ∨ b.isFloat ∨ op = .truediv) :
    Py.arith .fin op (num E a) (num E b) =
      (Py.farith .fin op (Py.toFl (num E a)) (Py.toFl (num E b))).map .flt := by
  rcases hf with h | h | rfl
  · obtain ⟨f, e⟩ := isFloat_num (E := E) h
    rw [e]; rfl
  · obtain ⟨f, e⟩ := isFloat_num (E := E) h
    rw [e]
    cases num E a <;> rfl
  · cases hx : num E a <;> cases hy : num E b <;> try rfl
    rename_i x y
    simp only [Py.arith, Py.iarith, Py.farith, Py.toFl, Py.fdiv, Fl.fin.injEq, Int.cast_eq_zero]
    split <;> rfl

theorem conv_nf {f : Fl} (h : NF f) : conv (.pyFloat f) = .nonFin f := by
  cases f with
  | fin q => exact absurd rfl (h q)
  | inf s => rfl
  | nan => rfl

theorem num_nf (E : Env) {f : Fl} (h : NF f) : num E (.pyFloat f) = .flt f := by
  cases f with
  | fin q => exact absurd rfl (h q)
  | inf s => rfl
  | nan => rfl

theorem core_num {E : Env} (ok : E.Ok) (hE : E.real = true) {op : Op} (hop : op.isArith) {a b : Val}
    (ha : a.plain) (hb : b.plain) (sa : Small a) (sb : Small b) (hs : a.isSym ∨ b.isSym)
    (hf : a.isFloat ∨ b.isFloat ∨ op = .truediv) :
    (core E op (conv a) (conv b)).map (num E) = Py.arith .fin op (num E a) (num E b) := by
  rw [arith_toFl hf]
  rcases conv_cases ok hE ha sa with ⟨x, tx, ex⟩ | ⟨f, rfl, nf⟩
  · rcases conv_cases ok hE hb sb with ⟨y, ty, ey⟩ | ⟨g, rfl, ng⟩
    · rw [ex, ey]; exact core_fin hE op hop tx ty
    · rw [ex, conv_nf ng, num_nf E ng]; exact core_right ok hE op hop ng tx
  · rcases conv_cases ok hE hb sb with ⟨y, ty, ey⟩ | ⟨g, rfl, ng⟩
    · rw [ey, conv_nf nf, num_nf E nf]; exact core_left ok op hop nf ty
    · exact hs.elim (fun h => absurd h Bool.false_ne_true) (fun h => absurd h Bool.false_ne_true)

theorem fmul_comm (x y : Fl) : Py.fmul .fin x y = Py.fmul .fin y x := by
  cases x <;> cases y <;> simp [Py.fmul, mul_comm, Bool.xor_comm]

theorem arith_mul_comm (x y : Num) : Py.arith .fin .mul x y = Py.arith .fin .mul y x := by
  cases x <;> cases y <;> simp [Py.arith, Py.iarith, Py.farith, fmul_comm, Py.toFl, Int.mul_comm]

theorem float_oper {E : Env} (ok : E.Ok) (hE : E.real = true) {op : Op} (hop : op.isArith) {a b : Val}
    (ha : a.plain) (hb : b.plain) (sa : Small a) (sb : Small b) (hs : a.isSym ∨ b.isSym)
    (hf : a.isFloat ∨ b.isFloat ∨ op = .truediv) :
    (oper E op a b).map (num E) = Py.arith .fin op (num E a) (num E b) := by
  have h1 := float_binop hE op hop ha hb sa sb hs hf
  have h2 := core_num ok hE hop ha hb sa sb hs hf
  rw [← h1] at h2
  have pa : a.isPrecise = false := by cases a <;> first | rfl | exact absurd ha Bool.false_ne_true
  have pb : b.isPrecise = false := by cases b <;> first | rfl | exact absurd hb Bool.false_ne_true
  have hc : op.isCmp = false := by cases op <;> first | rfl | exact absurd hop Bool.false_ne_true
  rw [oper_eq]
  unfold operT dispatch
  by_cases hsa : a.isSym
  · rw [if_pos hsa, pa, if_neg (by simp)]; exact h2
  · have hsb := hs.resolve_left hsa
    rw [if_neg hsa, if_pos hsb, hc, pb, if_neg (by simp)]
    by_cases hm : op = .mul ∧ b.isIntable
    · rw [if_pos hm]
      obtain ⟨rfl, -⟩ := hm
      have hf' : b.isFloat ∨ a.isFloat ∨ Op.mul = .truediv := by
        rcases hf with h | h | h
        · exact .inr (.inl h)
        · exact .inl h
        · cases h
      rw [float_binop hE .mul hop hb ha sb sa hs.symm hf',
        core_num ok hE hop hb ha sb sa hs.symm hf', arith_mul_comm]
    · rw [if_neg hm, if_neg (by simp)]; exact h2

theorem compare_flip {op : Op} (h : op.isCmp) (x y : Num) :
    Py.compare (flip op) y x = Py.compare op x y := fcmp_flip h _ _

theorem flip_isCmp {op : Op} (h : op.isCmp) : (flip op).isCmp := by
  cases op <;> first | rfl | exact absurd h Bool.false_ne_true

theorem cmp_oper_float {E : Env} (ok : E.Ok) (hE : E.real = true) {op : Op} (hop : op.isCmp) {a b : Val}
    (ha : a.plain) (hb : b.plain) (sa : Small a) (sb : Small b) (hs : a.isSym ∨ b.isSym)
    (hf : a.isFloat ∨ b.isFloat) :
    (oper E op a b).map truth = .ok (some (Py.compare op (num E a) (num E b))) := by
  have pa : a.isPrecise = false := by cases a <;> first | rfl | exact absurd ha Bool.false_ne_true
  rw [oper_eq]
  unfold operT dispatch
  by_cases hsa : a.isSym
  · rw [if_pos hsa, pa, if_neg (by simp)]; exact cmp_float ok hE hop ha hb sb hsa hf
  · have hsb := hs.resolve_left hsa
    rw [if_neg hsa, if_pos hsb, if_pos hop, cmp_float ok hE (flip_isCmp hop) hb ha sa hsb hf.symm,
      compare_flip hop]

theorem cmp_oper_int (E : Env) {op : Op} (hop : op.isCmp) {a b : Val} (ha : IsInt a) (hb : IsInt b)
    (hs : a.isSym ∨ b.isSym) :
    (oper E op a b).map truth = .ok (some (Py.compare op (num E a) (num E b))) := by
  obtain ⟨x, hx, ex⟩ := isInt_val ha E
  obtain ⟨y, hy, ey⟩ := isInt_val hb E
  rw [int_cmp_oper E op hop hx hy hs, smtIntCmp_eq hop, ex, ey]
  rfl

theorem oper_left (E : Env) (op : Op) {a b : Val} (h : a.isSym) (p : a.isPrecise = false) :
    oper E op a b = binopWith T E 6 op a b := by
  rw [oper_eq]
  unfold operT dispatch
  rw [if_pos h, p, if_neg (by simp)]

theorem real_mul {E : Env} (hE : E.real = true) (q : ℚ) {n : Int} (hn : Small (.pyInt n)) :
    oper E .mul (.realF q) (.pyInt n) = .ok (.realF (q * E.lit n)) := by
  rw [oper_left E .mul rfl rfl, bin_real_int hE .mul rfl q n hn 3]
  obtain ⟨real, lit, rnd, rpow⟩ := E
  subst hE
  rfl

theorem int_div {E : Env} (hE : E.real = true) (m : Int) {n : Int} (hn : Small (.pyInt n))
    (h0 : E.lit n ≠ 0) :
    oper E .truediv (.symInt m) (.pyInt n) = .ok (.realF (m / E.lit n)) := by
  rw [oper_left E .truediv rfl rfl, bin_symInt hE .truediv rfl m rfl hn (.inr rfl) 1]
  obtain ⟨real, lit, rnd, rpow⟩ := E
  subst hE
  simp only [core, conv, floatArith, floatTerm, smtReal, Op.isCmp, if_true]
  rw [if_neg (by decide), if_neg h0]
  rfl

/-! Precise floats -/

/-- A precise float or a native one. -/
def flVal : Val → Option Fl
  | .precise f => some f
  | .pyFloat f => some f
  | _ => none

theorem precise_arith {E : Env} (hE : E.real = false) {op : Op}
    (hop : op = .add ∨ op = .sub ∨ op = .mul ∨ op = .truediv) {a b : Val} {f g : Fl}
    (ha : flVal a = some f) (hb : flVal b = some g) (hs : a.isSym ∨ b.isSym) :
    oper E op a b = (Py.farith E.rnd op f g).map .precise := by
  obtain ⟨real, lit, rnd, rpow⟩ := E
  subst hE
  rw [oper_eq]
  cases a <;> cases ha <;> cases b <;> cases hb <;>
    first
    | exact hs.elim (fun h => absurd h Bool.false_ne_true) (fun h => absurd h Bool.false_ne_true)
    | (rcases hop with rfl | rfl | rfl | rfl <;> rfl)
    | (cases f <;> cases g <;> rcases hop with rfl | rfl | rfl | rfl <;> rfl)

theorem precise_cmp {E : Env} (hE : E.real = false) {op : Op} (hop : op.isCmp) {a b : Val} {f g : Fl}
    (ha : flVal a = some f) (hb : flVal b = some g) (hs : a.isSym ∨ b.isSym) :
    oper E op a b = .ok (.symBool (Py.fcmp op f g)) := by
  have hf := fcmp_flip hop f g
  obtain ⟨real, lit, rnd, rpow⟩ := E
  subst hE
  rw [oper_eq]
  cases a <;> cases ha <;> cases b <;> cases hb <;>
    first
    | exact hs.elim (fun h => absurd h Bool.false_ne_true) (fun h => absurd h Bool.false_ne_true)
    | (cases op <;> first | rfl | exact absurd hop Bool.false_ne_true | (rw [← hf]; rfl))
    | (cases g <;> cases op <;> first | rfl | exact absurd hop Bool.false_ne_true | (rw [← hf]; rfl))
    | (cases f <;> cases op <;> first | rfl | exact absurd hop Bool.false_ne_true | (rw [← hf]; rfl))

theorem precise_floordiv {E : Env} (hE : E.real = false) {a b : Val} {f g : Fl}
    (ha : flVal a = some f) (hb : flVal b = some g) (hs : a.isSym ∨ b.isSym) :
    oper E .floordiv a b = (Py.fdiv E.rnd f g).bind fun r => preciseFloor E (.precise r) := by
  have ht := precise_arith hE (op := .truediv) (by simp) ha hb hs
  rw [oper_eq] at ht ⊢
  unfold operT dispatch at ht ⊢
  by_cases hsa : a.isSym
  · have pa : a.isPrecise = true := by
      cases a <;> first | rfl | exact absurd hsa Bool.false_ne_true | cases ha
    rw [if_pos hsa, if_neg (by simp)] at ht
    rw [if_pos hsa, if_pos ⟨pa, rfl⟩, ht]
    show Except.bind (Except.map _ (Py.fdiv E.rnd f g)) _ = _
    cases Py.fdiv E.rnd f g <;> rfl
  · have hsb := hs.resolve_left hsa
    have pb : b.isPrecise = true := by
      cases b <;> first | rfl | exact absurd hsb Bool.false_ne_true | cases hb
    rw [if_neg hsa, if_pos hsb, if_neg (by decide), if_neg (fun h => by cases h.1), if_neg (by simp)] at ht
    rw [if_neg hsa, if_pos hsb, if_neg (by decide), if_neg (fun h => by cases h.1), if_pos ⟨pb, rfl⟩, ht]
    show Except.bind (Except.map _ (Py.fdiv E.rnd f g)) _ = _
    cases Py.fdiv E.rnd f g <;> rfl

theorem precise_mod {E : Env} (hE : E.real = false) {a b : Val} {f g : Fl}
    (ha : flVal a = some f) (hb : flVal b = some g) (hs : a.isSym ∨ b.isSym) :
    oper E .mod a b = (smtFp E .mod f g).map .precise := by
  obtain ⟨real, lit, rnd, rpow⟩ := E
  subst hE
  rw [oper_eq]
  cases a <;> cases ha <;> cases b <;> cases hb <;>
    first
    | exact hs.elim (fun h => absurd h Bool.false_ne_true) (fun h => absurd h Bool.false_ne_true)
    | rfl
    | (cases f <;> cases g <;> rfl)

end Verif.Numeric
