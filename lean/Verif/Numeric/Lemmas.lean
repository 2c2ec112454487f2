import Verif.Numeric.Table
import Verif.Ints.Props
import Mathlib.Tactic.Linarith
import Mathlib.Tactic.Ring
namespace Verif.Numeric

/-- `+ - * // % **`. -/
def Op.isIntArith : Op → Bool
  | .add | .sub | .mul | .floordiv | .mod | .pow => true
  | _ => false

set_option linter.unusedTactic false
set_option linter.unreachableTactic false

/-- The table as a search. -/
abbrev T : Op → Cls → Cls → Option Fn := fun op a b => tab a b op

theorem int_arith_dispatch (E : Env) (k : Nat) (op : Op) (hop : op.isIntArith) {a b : Val}
    {x y : Int} (ha : intVal a = some x) (hb : intVal b = some y) (hs : a.isSym ∨ b.isSym) :
    dispatch E (binopWith T E (k + 3)) op a b = (smtInt op x y).map .symInt := by
  cases a <;> cases ha <;> cases b <;> cases hb <;> cases op <;>
    first
    | rfl
    | exact absurd hop Bool.false_ne_true
    | exact hs.elim (fun h => absurd h Bool.false_ne_true) (fun h => absurd h Bool.false_ne_true)
    | exact congrArg (fun n => Except.ok (Val.symInt n)) (Int.mul_comm _ _)

theorem int_arith_oper (E : Env) (op : Op) (hop : op.isIntArith) {a b : Val} {x y : Int}
    (ha : intVal a = some x) (hb : intVal b = some y) (hs : a.isSym ∨ b.isSym) :
    oper E op a b = (smtInt op x y).map .symInt := by
  rw [oper_eq]
  exact int_arith_dispatch E 3 op hop ha hb hs

theorem smtIntCmp_flip (op : Op) (h : op.isCmp) (x y : Int) :
    smtIntCmp (flip op) y x = smtIntCmp op x y := by
  cases op <;> first | exact absurd h Bool.false_ne_true | skip
  · simp only [flip, smtIntCmp]; exact decide_eq_decide.2 eq_comm
  · simp only [flip, smtIntCmp]; exact decide_eq_decide.2 ne_comm
  all_goals rfl

theorem int_cmp_oper (E : Env) (op : Op) (hop : op.isCmp) {a b : Val} {x y : Int}
    (ha : intVal a = some x) (hb : intVal b = some y) (hs : a.isSym ∨ b.isSym) :
    oper E op a b = .ok (.symBool (smtIntCmp op x y)) := by
  have hf := smtIntCmp_flip op hop x y
  rw [oper_eq]
  cases a <;> cases ha <;> cases b <;> cases hb <;> cases op <;>
    first
    | rfl
    | exact absurd hop Bool.false_ne_true
    | exact hs.elim (fun h => absurd h Bool.false_ne_true) (fun h => absurd h Bool.false_ne_true)
    | (rw [← hf]; rfl)
    | (rename_i p q; cases p <;> cases q <;> rfl)

/-! Steps of the dispatch -/

theorem step_forward {look : Op → Cls → Cls → Option Fn} {E : Env} {n : Nat} {op : Op} {a b : Val}
    {p : Promo} (h : look op a.cls b.cls = some (.forward p)) :
    binopWith look E (n + 1) op a b = (do
      let r ← promote E p a b
      binopWith look E n op r.1 r.2) := by
  simp only [binopWith, h]

theorem step_backward {look : Op → Cls → Cls → Option Fn} {E : Env} {n : Nat} {op : Op} {a b : Val}
    {p : Promo} (h : look op a.cls b.cls = some (.backward p)) :
    binopWith look E (n + 1) op a b = (do
      let r ← promote E p b a
      binopWith look E n op r.2 r.1) := by
  simp only [binopWith, h]

/-- Comparisons and `+ - * / // % **`. -/
def Op.isPlain (op : Op) : Bool := op.isCmp || op.isArith || decide (op = .pow)

theorem real_native {E : Env} {k : Nat} {op : Op} (hop : op.isPlain) {q v : ℚ} {n : Int}
    (h : floatOfInt n = .ok v) :
    binopWith T E (k + 1) op (.realF q) (.pyInt n) =
      binopWith T E k op (.realF q) (.pyFloat (.fin v)) := by
  rw [step_backward (p := .nativeToFloat)
    (by cases op <;> first | rfl | exact absurd hop Bool.false_ne_true)]
  simp only [promote, h]
  rfl

theorem native_real {E : Env} {k : Nat} {op : Op} (hop : op.isPlain) {q v : ℚ} {n : Int}
    (h : floatOfInt n = .ok v) :
    binopWith T E (k + 1) op (.pyInt n) (.realF q) =
      binopWith T E k op (.pyFloat (.fin v)) (.realF q) := by
  rw [step_forward (p := .nativeToFloat)
    (by cases op <;> first | rfl | exact absurd hop Bool.false_ne_true)]
  simp only [promote, h]
  rfl

theorem log2_le {m : Nat} (h : m ≤ 2 ^ 53) : Nat.log2 m ≤ 53 := by
  by_cases h0 : m = 0
  · subst h0; decide
  · have := Nat.log2_self_le h0
    by_contra hc
    have : 2 ^ 54 ≤ 2 ^ m.log2 := Nat.pow_le_pow_right (by omega) (by omega)
    omega

theorem floatOfInt_small {n : Int} (h : n.natAbs ≤ 2 ^ 53) : floatOfInt n = .ok (n : ℚ) := by
  have hv : (let u := 2 ^ (Nat.log2 n.natAbs + 1 - 53)
      (if 2 * (n.natAbs % u) < u then n.natAbs / u
        else if u < 2 * (n.natAbs % u) then n.natAbs / u + 1
        else n.natAbs / u + n.natAbs / u % 2) * u) = n.natAbs := by
    have hl := log2_le h
    rcases Nat.lt_or_ge (Nat.log2 n.natAbs) 53 with hlt | hge
    · rw [show Nat.log2 n.natAbs + 1 - 53 = 0 by omega]
      simp [Nat.mod_one]
    · have e : Nat.log2 n.natAbs = 53 := by omega
      have h0 : n.natAbs ≠ 0 := by
        intro h0
        rw [h0] at e
        revert e; decide
      have h1 := Nat.log2_self_le h0
      rw [e] at h1
      have e2 : n.natAbs = 2 ^ 53 := by omega
      rw [e2]
      decide +kernel
  unfold floatOfInt
  simp only at hv ⊢
  rw [hv, if_neg (by omega)]
  congr 1
  split
  · rename_i hneg
    have : ((n.natAbs : Int) : ℚ) = ((-n : Int) : ℚ) := by congr 1; omega
    rw [Int.cast_natCast] at this
    rw [this]; push_cast; ring
  · have : ((n.natAbs : Int) : ℚ) = ((n : Int) : ℚ) := by congr 1; omega
    rw [Int.cast_natCast] at this
    exact this

attribute [local irreducible] floatOfInt

/-- An operand of the program under test, on a path with real-based floats. -/
def Val.plain : Val → Bool
  | .precise _ | .finF _ | .nonFin _ => false
  | _ => true

/-- Float operands. -/
def Val.isFloat : Val → Bool
  | .realF _ | .pyFloat _ => true
  | _ => false

/-- An operand after all promotions. -/
def conv : Val → Val
  | .symBool b => .realF (b2i b)
  | .symInt n => .realF n
  | .pyBool b => .finF (b2i b)
  | .pyInt n => .finF n
  | .pyFloat (.fin q) => .finF q
  | .pyFloat f => .nonFin f
  | v => v

/-- Arithmetic after all promotions. -/
def core (E : Env) (op : Op) (a b : Val) : Except Err Val :=
  match op with
  | .floordiv => handle E (fun _ _ _ => .error .fuel) .floatFloordiv op a b
  | .mod => handle E (fun _ _ _ => .error .fuel) .floatMod op a b
  | _ =>
    match a, b with
    | .nonFin _, _ => handle E (fun _ _ _ => .error .fuel) .nonFinLeft op a b
    | _, .nonFin _ => handle E (fun _ _ _ => .error .fuel) .nonFinRight op a b
    | _, _ => if op.isCmp then floatCmp E op a b else floatArith E op a b

def Small (v : Val) : Prop := ∀ n, v = .pyInt n → n.natAbs ≤ 2 ^ 53

theorem conv_realF (q : ℚ) : conv (.realF q) = .realF q := rfl

theorem bin_real_real {E : Env} (hE : E.real = true) (op : Op) (hop : op.isArith) (x y : ℚ)
    (k : Nat) : binopWith T E (k + 1) op (.realF x) (.realF y) =
      core E op (.realF x) (.realF y) := by
  obtain ⟨real, lit, rnd, rpow⟩ := E
  subst hE
  cases op <;> first | rfl | exact absurd hop Bool.false_ne_true

theorem bin_real_float {E : Env} (hE : E.real = true) (op : Op) (hop : op.isArith) (x : ℚ) (f : Fl)
    (k : Nat) : binopWith T E (k + 2) op (.realF x) (.pyFloat f) =
      core E op (.realF x) (conv (.pyFloat f)) := by
  obtain ⟨real, lit, rnd, rpow⟩ := E
  subst hE
  cases f <;> cases op <;> first | rfl | exact absurd hop Bool.false_ne_true

theorem bin_float_real {E : Env} (hE : E.real = true) (op : Op) (hop : op.isArith) (x : ℚ) (f : Fl)
    (k : Nat) : binopWith T E (k + 2) op (.pyFloat f) (.realF x) =
      core E op (conv (.pyFloat f)) (.realF x) := by
  obtain ⟨real, lit, rnd, rpow⟩ := E
  subst hE
  cases f <;> cases op <;> first | rfl | exact absurd hop Bool.false_ne_true

theorem bin_real_int {E : Env} (hE : E.real = true) (op : Op) (hop : op.isArith) (x : ℚ) (n : Int)
    (sn : Small (.pyInt n)) (k : Nat) : binopWith T E (k + 3) op (.realF x) (.pyInt n) =
      core E op (.realF x) (conv (.pyInt n)) := by
  rw [real_native (by unfold Op.isPlain; rw [hop]; simp) (floatOfInt_small (sn n rfl)),
    bin_real_float hE op hop]
  rfl

theorem bin_int_real {E : Env} (hE : E.real = true) (op : Op) (hop : op.isArith) (x : ℚ) (n : Int)
    (sn : Small (.pyInt n)) (k : Nat) : binopWith T E (k + 3) op (.pyInt n) (.realF x) =
      core E op (conv (.pyInt n)) (.realF x) := by
  rw [native_real (by unfold Op.isPlain; rw [hop]; simp) (floatOfInt_small (sn n rfl)),
    bin_float_real hE op hop]
  rfl

theorem small_bool (b : Bool) : Small (.pyInt (b2i b)) := by
  intro n h
  cases h
  cases b <;> decide

theorem bin_real_bool {E : Env} (hE : E.real = true) (op : Op) (hop : op.isArith) (x : ℚ) (b : Bool)
    (k : Nat) : binopWith T E (k + 4) op (.realF x) (.pyBool b) =
      core E op (.realF x) (conv (.pyBool b)) := by
  rw [show binopWith T E (k + 4) op (.realF x) (.pyBool b) =
      binopWith T E (k + 3) op (.realF x) (.pyInt (b2i b)) by
    cases op <;> first | rfl | exact absurd hop Bool.false_ne_true]
  rw [bin_real_int hE op hop _ _ (small_bool b)]
  rfl

theorem bin_bool_real {E : Env} (hE : E.real = true) (op : Op) (hop : op.isArith) (x : ℚ) (b : Bool)
    (k : Nat) : binopWith T E (k + 4) op (.pyBool b) (.realF x) =
      core E op (conv (.pyBool b)) (.realF x) := by
  rw [show binopWith T E (k + 4) op (.pyBool b) (.realF x) =
      binopWith T E (k + 3) op (.pyInt (b2i b)) (.realF x) by
    cases op <;> first | rfl | exact absurd hop Bool.false_ne_true]
  rw [bin_int_real hE op hop _ _ (small_bool b)]
  rfl

theorem bin_real {E : Env} (hE : E.real = true) (op : Op) (hop : op.isArith) (x : ℚ) {b : Val}
    (hb : b.plain) (sb : Small b) (k : Nat) : binopWith T E (k + 4) op (.realF x) b =
      core E op (.realF x) (conv b) := by
  cases b with
  | symBool b =>
      rw [show binopWith T E (k + 4) op (.realF x) (.symBool b) =
          binopWith T E (k + 2) op (.realF x) (.realF (b2i b)) by
        obtain ⟨real, lit, rnd, rpow⟩ := E
        subst hE
        cases op <;> first | rfl | exact absurd hop Bool.false_ne_true]
      exact bin_real_real hE op hop _ _ _
  | symInt n =>
      rw [show binopWith T E (k + 4) op (.realF x) (.symInt n) =
          binopWith T E (k + 3) op (.realF x) (.realF n) by
        obtain ⟨real, lit, rnd, rpow⟩ := E
        subst hE
        cases op <;> first | rfl | exact absurd hop Bool.false_ne_true]
      exact bin_real_real hE op hop _ _ _
  | realF y => exact bin_real_real hE op hop _ _ _
  | pyBool b => exact bin_real_bool hE op hop _ _ _
  | pyInt n => exact bin_real_int hE op hop _ _ sb _
  | pyFloat f => exact bin_real_float hE op hop _ _ _
  | precise f => exact absurd hb Bool.false_ne_true
  | finF f => exact absurd hb Bool.false_ne_true
  | nonFin f => exact absurd hb Bool.false_ne_true

theorem bin_real' {E : Env} (hE : E.real = true) (op : Op) (hop : op.isArith) (x : ℚ) {a : Val}
    (ha : a.plain) (sa : Small a) (k : Nat) : binopWith T E (k + 4) op a (.realF x) =
      core E op (conv a) (.realF x) := by
  cases a with
  | symBool b =>
      rw [show binopWith T E (k + 4) op (.symBool b) (.realF x) =
          binopWith T E (k + 2) op (.realF (b2i b)) (.realF x) by
        obtain ⟨real, lit, rnd, rpow⟩ := E
        subst hE
        cases op <;> first | rfl | exact absurd hop Bool.false_ne_true]
      exact bin_real_real hE op hop _ _ _
  | symInt n =>
      rw [show binopWith T E (k + 4) op (.symInt n) (.realF x) =
          binopWith T E (k + 3) op (.realF n) (.realF x) by
        obtain ⟨real, lit, rnd, rpow⟩ := E
        subst hE
        cases op <;> first | rfl | exact absurd hop Bool.false_ne_true]
      exact bin_real_real hE op hop _ _ _
  | realF y => exact bin_real_real hE op hop _ _ _
  | pyBool b => exact bin_bool_real hE op hop _ _ _
  | pyInt n => exact bin_int_real hE op hop _ _ sa _
  | pyFloat f => exact bin_float_real hE op hop _ _ _
  | precise f => exact absurd ha Bool.false_ne_true
  | finF f => exact absurd ha Bool.false_ne_true
  | nonFin f => exact absurd ha Bool.false_ne_true

theorem bin_symInt {E : Env} (hE : E.real = true) (op : Op) (hop : op.isArith) (n : Int) {b : Val}
    (hb : b.plain) (sb : Small b) (hf : b.isFloat ∨ op = .truediv) (k : Nat) :
    binopWith T E (k + 5) op (.symInt n) b = core E op (.realF n) (conv b) := by
  by_cases hl : b.cls = .symInt
  · cases b <;> cases hl
    obtain rfl := hf.resolve_left Bool.false_ne_true
    rename_i m
    rw [show binopWith T E (k + 5) .truediv (.symInt n) (.symInt m) =
        binopWith T E (k + 3) .truediv (.realF n) (.realF m) by
      obtain ⟨real, lit, rnd, rpow⟩ := E
      subst hE
      rfl]
    exact bin_real_real hE _ rfl _ _ _
  · rw [show binopWith T E (k + 5) op (.symInt n) b = binopWith T E (k + 4) op (.realF n) b by
      obtain ⟨real, lit, rnd, rpow⟩ := E
      subst hE
      rcases hf with hf | rfl
      · cases b <;> first
          | exact absurd hf Bool.false_ne_true
          | (cases op <;> first | rfl | exact absurd hop Bool.false_ne_true)
      · cases b <;> first | rfl | exact absurd hb Bool.false_ne_true | exact absurd rfl hl]
    exact bin_real hE op hop _ hb sb _

theorem bin_symInt' {E : Env} (hE : E.real = true) (op : Op) (hop : op.isArith) (n : Int) {a : Val}
    (ha : a.plain) (sa : Small a) (hf : a.isFloat ∨ op = .truediv) (k : Nat) :
    binopWith T E (k + 5) op a (.symInt n) = core E op (conv a) (.realF n) := by
  rw [show binopWith T E (k + 5) op a (.symInt n) = binopWith T E (k + 4) op a (.realF n) by
    obtain ⟨real, lit, rnd, rpow⟩ := E
    subst hE
    rcases hf with hf | rfl
    · cases a <;> first
        | exact absurd hf Bool.false_ne_true
        | (cases op <;> first | rfl | exact absurd hop Bool.false_ne_true)
    · cases a <;> first | rfl | exact absurd ha Bool.false_ne_true]
  exact bin_real' hE op hop _ ha sa _

theorem float_binop {E : Env} (hE : E.real = true) (op : Op)
    (hop : op.isArith) {a b : Val} (ha : a.plain) (hb : b.plain) (sa : Small a) (sb : Small b)
    (hs : a.isSym ∨ b.isSym) (hf : a.isFloat ∨ b.isFloat ∨ op = .truediv) :
    binopWith T E 6 op a b = core E op (conv a) (conv b) := by
  have key : ∀ (x : Bool) (b : Val), b.plain → Small b → (b.isFloat ∨ op = .truediv) →
      binopWith T E 6 op (.symBool x) b = core E op (.realF (b2i x)) (conv b) := by
    intro x b hb sb hf
    rcases hf with hf | rfl
    · rw [show binopWith T E 6 op (.symBool x) b = binopWith T E 5 op (.symInt (b2i x)) b by
        cases b <;> first
          | exact absurd hf Bool.false_ne_true
          | (cases op <;> first | rfl | exact absurd hop Bool.false_ne_true)]
      exact bin_symInt hE op hop _ hb sb (.inl hf) 0
    · cases b with
      | symBool b =>
          rw [show binopWith T E 6 .truediv (.symBool x) (.symBool b) =
              binopWith T E 5 .truediv (.symInt (b2i x)) (.symInt (b2i b)) from rfl]
          exact bin_symInt hE _ hop _ rfl (by intro n h; cases h) (.inr rfl) 0
      | symInt n => exact bin_symInt' hE _ hop n rfl (by intro n h; cases h) (.inr rfl) 1
      | realF y => exact bin_real' hE _ hop y rfl (by intro n h; cases h) 2
      | pyBool b =>
          rw [show binopWith T E 6 .truediv (.symBool x) (.pyBool b) =
              binopWith T E 5 .truediv (.symInt (b2i x)) (.pyInt (b2i b)) from rfl]
          exact bin_symInt hE _ hop _ rfl (small_bool b) (.inr rfl) 0
      | pyInt n =>
          rw [show binopWith T E 6 .truediv (.symBool x) (.pyInt n) =
              binopWith T E 5 .truediv (.symInt (b2i x)) (.pyInt n) from rfl]
          exact bin_symInt hE _ hop _ rfl sb (.inr rfl) 0
      | pyFloat f =>
          rw [show binopWith T E 6 .truediv (.symBool x) (.pyFloat f) =
              binopWith T E 5 .truediv (.symInt (b2i x)) (.pyFloat f) from rfl]
          exact bin_symInt hE _ hop _ rfl sb (.inr rfl) 0
      | precise f => exact absurd hb Bool.false_ne_true
      | finF f => exact absurd hb Bool.false_ne_true
      | nonFin f => exact absurd hb Bool.false_ne_true
  have key' : ∀ (x : Bool) (a : Val), a.plain → Small a → a.isSym = false →
      (a.isFloat ∨ op = .truediv) →
      binopWith T E 6 op a (.symBool x) = core E op (conv a) (.realF (b2i x)) := by
    intro x a ha sa hn hf
    rcases hf with hf | rfl
    · rw [show binopWith T E 6 op a (.symBool x) = binopWith T E 5 op a (.symInt (b2i x)) by
        cases a <;> first
          | exact absurd hf Bool.false_ne_true
          | exact absurd hn.symm Bool.false_ne_true
          | (cases op <;> first | rfl | exact absurd hop Bool.false_ne_true)]
      exact bin_symInt' hE op hop _ ha sa (.inl hf) 0
    · cases a with
      | pyBool b =>
          rw [show binopWith T E 6 .truediv (.pyBool b) (.symBool x) =
              binopWith T E 5 .truediv (.pyInt (b2i b)) (.symInt (b2i x)) from rfl]
          exact bin_symInt' hE _ hop _ rfl (small_bool b) (.inr rfl) 0
      | pyInt n =>
          rw [show binopWith T E 6 .truediv (.pyInt n) (.symBool x) =
              binopWith T E 5 .truediv (.pyInt n) (.symInt (b2i x)) from rfl]
          exact bin_symInt' hE _ hop _ rfl sa (.inr rfl) 0
      | pyFloat f =>
          rw [show binopWith T E 6 .truediv (.pyFloat f) (.symBool x) =
              binopWith T E 5 .truediv (.pyFloat f) (.symInt (b2i x)) from rfl]
          exact bin_symInt' hE _ hop _ rfl sa (.inr rfl) 0
      | symBool b => exact absurd hn.symm Bool.false_ne_true
      | symInt b => exact absurd hn.symm Bool.false_ne_true
      | realF b => exact absurd hn.symm Bool.false_ne_true
      | precise f => exact absurd ha Bool.false_ne_true
      | finF f => exact absurd ha Bool.false_ne_true
      | nonFin f => exact absurd ha Bool.false_ne_true
  cases a with
  | symBool x => exact key x b hb sb (hf.resolve_left Bool.false_ne_true)
  | symInt x => exact bin_symInt hE op hop x hb sb (hf.resolve_left Bool.false_ne_true) 1
  | realF x => exact bin_real hE op hop x hb sb 2
  | precise f => exact absurd ha Bool.false_ne_true
  | finF f => exact absurd ha Bool.false_ne_true
  | nonFin f => exact absurd ha Bool.false_ne_true
  | pyBool _ | pyInt _ | pyFloat _ =>
    have hs' := hs.resolve_left Bool.false_ne_true
    cases b with
    | symBool x =>
        exact key' x _ ha sa rfl
          (hf.imp_right fun h => h.resolve_left Bool.false_ne_true)
    | symInt x =>
        exact bin_symInt' hE op hop x ha sa
          (hf.imp_right fun h => h.resolve_left Bool.false_ne_true) 1
    | realF x => exact bin_real' hE op hop x ha sa 2
    | precise f => exact absurd hb Bool.false_ne_true
    | finF f => exact absurd hb Bool.false_ne_true
    | nonFin f => exact absurd hb Bool.false_ne_true
    | pyBool _ | pyInt _ | pyFloat _ => exact absurd hs' Bool.false_ne_true

end Verif.Numeric
