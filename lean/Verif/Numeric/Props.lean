import Verif.Numeric.More
import Verif.Numeric.Big
import Mathlib.Tactic.Linarith
/-
Theorems about operators on symbolic numbers.
-/
namespace Verif.Numeric

attribute [local irreducible] floatOfInt

/-- An environment for examples: literals are read exactly, arithmetic is ideal. -/
def ideal : Env := ⟨true, id, .fin, fun x _ => x⟩

/-- The same with IEEE floats. -/
def ieee : Env := ⟨false, id, .fin, fun x _ => x⟩

theorem ideal_ok : ideal.Ok := ⟨fun _ => .rfl, fun _ => .rfl, fun _ _ => rfl, fun _ => rfl⟩

/-! ### Integers -/

/-- `+ - * // %` of integers and truth values of any size, at least one of them symbolic, give the
integer that Python gives, or Python's `ZeroDivisionError`. -/
theorem int_arithmetic (E : Env) {op : Op} (hop : op ∈ [Op.add, .sub, .mul, .floordiv, .mod])
    {a b : Val} (ha : IsInt a) (hb : IsInt b) (hs : IsSymbolic a ∨ IsSymbolic b) :
    (oper E op a b).map (num E) = Py.arith .fin op (num E a) (num E b) := by
  obtain ⟨x, hx, ex⟩ := isInt_val ha E
  obtain ⟨y, hy, ey⟩ := isInt_val hb E
  have hi : op.isIntArith := by
    simp only [List.mem_cons, List.not_mem_nil, or_false] at hop
    rcases hop with rfl | rfl | rfl | rfl | rfl <;> rfl
  rw [int_arith_oper E op hi hx hy (symbolic_or hs), ex, ey]
  simp only [List.mem_cons, List.not_mem_nil, or_false] at hop
  rcases hop with rfl | rfl | rfl | rfl | rfl
  · rfl
  · rfl
  · rfl
  · by_cases h : y = 0
    · subst h; rfl
    · rw [smtInt_floordiv x y h]; simp [Py.arith, Py.iarith, h, Except.map, num]
  · by_cases h : y = 0
    · subst h; rfl
    · rw [smtInt_mod x y h]; simp [Py.arith, Py.iarith, h, Except.map, num]

example : (oper ideal .floordiv (.pyInt (-7)) (.symInt 2)).map (num ideal) = .ok (.int (-4)) := by
  rw [oper_eq]; rfl

example : (oper ideal .mod (.symInt 7) (.pyInt (-3))).map (num ideal) = .ok (.int (-2)) := by
  rw [oper_eq]; rfl

example : (oper ideal .add (.symBool true) (.pyBool true)).map (num ideal) = .ok (.int 2) := by
  rw [oper_eq]; rfl

example : (oper ideal .mod (.symInt 7) (.symBool false)).map (num ideal) =
    .error .zeroDivision := by
  rw [oper_eq]; rfl

/-- The result of integer arithmetic stays symbolic. -/
theorem int_arithmetic_symbolic (E : Env) {op : Op}
    (hop : op ∈ [Op.add, .sub, .mul, .floordiv, .mod]) {a b v : Val} (ha : IsInt a) (hb : IsInt b)
    (hs : IsSymbolic a ∨ IsSymbolic b) (hv : oper E op a b = .ok v) : IsSymbolic v := by
  obtain ⟨x, hx, ex⟩ := isInt_val ha E
  obtain ⟨y, hy, ey⟩ := isInt_val hb E
  have hi : op.isIntArith := by
    simp only [List.mem_cons, List.not_mem_nil, or_false] at hop
    rcases hop with rfl | rfl | rfl | rfl | rfl <;> rfl
  rw [int_arith_oper E op hi hx hy (symbolic_or hs)] at hv
  cases hr : smtInt op x y with
  | error e => rw [hr] at hv; cases hv
  | ok n =>
      rw [hr] at hv
      injection hv with e
      exact .inr (.inl ⟨n, e.symm⟩)

example : oper ideal .mul (.pyInt 3) (.symInt 5) = .ok (.symInt 15) := by
  rw [oper_eq]; rfl

/-- A power with a nonnegative integer exponent is exact. -/
theorem int_pow_partial (E : Env) {a b : Val} {x : Int} {n : Nat} (ha : IsInt a) (hb : IsInt b)
    (hs : IsSymbolic a ∨ IsSymbolic b) (ex : num E a = .int x) (ey : num E b = .int n) :
    (oper E .pow a b).map (num E) = .ok (.int (x ^ n)) := by
  obtain ⟨x', hx, ex'⟩ := isInt_val ha E
  obtain ⟨y', hy, ey'⟩ := isInt_val hb E
  rw [ex] at ex'
  rw [ey] at ey'
  cases ex'
  cases ey'
  rw [int_arith_oper E .pow rfl hx hy (symbolic_or hs)]
  simp only [smtInt]
  rw [if_neg (by omega)]
  have : ⌊(x : ℚ) ^ (n : Int)⌋ = x ^ n := by
    rw [zpow_natCast]
    exact_mod_cast Int.floor_intCast (x ^ n)
  rw [this]
  rfl

example : (oper ideal .pow (.symInt (-3)) (.pyInt 3)).map (num ideal) = .ok (.int (-27)) :=
  int_pow_partial ideal (n := 3) (.inr (.inl ⟨_, rfl⟩)) (.inr (.inr (.inr ⟨_, rfl⟩)))
    (.inl (.inr (.inl ⟨_, rfl⟩))) rfl rfl

/-- Disagreement: a power of symbolic integers with a negative exponent is an integer, the
rational power rounded down; in Python it is a float.  `2 ** -1` is 0 instead of 0.5. -/
theorem int_pow_negative (E : Env) :
    oper E .pow (.symInt 2) (.symInt (-1)) = .ok (.symInt 0) := by
  rw [int_arith_oper E .pow rfl (x := 2) (y := -1) rfl rfl (.inl rfl)]
  simp only [smtInt]
  rw [if_neg (by omega)]
  have : ⌊((2 : Int) : ℚ) ^ (-1 : Int)⌋ = 0 := by
    rw [Int.floor_eq_iff]; norm_num
  rw [this]
  rfl

/-! ### Floats as reals -/

/-- `+ - * / // %` with a float among the operands, and `/` of integers: on a path with real-based
floats, the result is Python's in ideal arithmetic, including infinities, NaN and
`ZeroDivisionError`. -/
theorem float_arithmetic {E : Env} (ok : E.Ok) (hE : E.real = true) {op : Op}
    (hop : op ∈ [Op.add, .sub, .mul, .truediv, .floordiv, .mod]) {a b : Val}
    (ha : IsOperand a) (hb : IsOperand b) (ra : InRange a) (rb : InRange b)
    (hs : IsSymbolic a ∨ IsSymbolic b) (hf : ¬ (IsInt a ∧ IsInt b) ∨ op = .truediv) :
    (oper E op a b).map (num E) = Py.arith .fin op (num E a) (num E b) := by
  refine float_oper ok hE ?_ (operand_plain ha) (operand_plain hb) (inRange_small ra)
    (inRange_small rb) (symbolic_or hs) ?_
  · simp only [List.mem_cons, List.not_mem_nil, or_false] at hop
    rcases hop with rfl | rfl | rfl | rfl | rfl | rfl <;> rfl
  · have key : ∀ v, IsOperand v → IsInt v ∨ v.isFloat = true := by
      intro v hv
      rcases hv with ⟨b, rfl⟩ | ⟨n, rfl⟩ | ⟨q, rfl⟩ | ⟨b, rfl⟩ | ⟨n, rfl⟩ | ⟨f, rfl⟩
      · exact .inl (.inl ⟨_, rfl⟩)
      · exact .inl (.inr (.inl ⟨_, rfl⟩))
      · exact .inr rfl
      · exact .inl (.inr (.inr (.inl ⟨_, rfl⟩)))
      · exact .inl (.inr (.inr (.inr ⟨_, rfl⟩)))
      · exact .inr rfl
    rcases hf with hf | hf
    · rcases key a ha with h1 | h1
      · rcases key b hb with h2 | h2
        · exact absurd ⟨h1, h2⟩ hf
        · exact .inr (.inl h2)
      · exact .inl h1
    · exact .inr (.inr hf)

example : (oper ideal .truediv (.symInt 7) (.pyInt 2)).map (num ideal) =
    Py.arith .fin .truediv (.int 7) (.int 2) :=
  float_arithmetic ideal_ok rfl (by simp) (.inr (.inl ⟨_, rfl⟩))
    (.inr (.inr (.inr (.inr (.inl ⟨_, rfl⟩))))) (by rintro n ⟨⟩) (by rintro n ⟨⟩; decide)
    (.inl (.inr (.inl ⟨_, rfl⟩))) (.inr rfl)

example : (oper ideal .mod (.pyFloat (.fin (-15 / 2))) (.realF 2)).map (num ideal) =
    Py.arith .fin .mod (.flt (.fin (-15 / 2))) (.flt (.fin 2)) :=
  float_arithmetic ideal_ok rfl (by simp) (.inr (.inr (.inr (.inr (.inr ⟨_, rfl⟩)))))
    (.inr (.inr (.inl ⟨_, rfl⟩))) (by rintro n ⟨⟩) (by rintro n ⟨⟩)
    (.inr (.inr (.inr (.inl ⟨_, rfl⟩))))
    (.inl (by rintro ⟨⟨_, ⟨⟩⟩ | ⟨_, ⟨⟩⟩ | ⟨_, ⟨⟩⟩ | ⟨_, ⟨⟩⟩, _⟩))

example : (oper ideal .floordiv (.realF (-5)) (.pyFloat (.inf false))).map (num ideal) =
    Py.arith .fin .floordiv (.flt (.fin (-5))) (.flt (.inf false)) :=
  float_arithmetic ideal_ok rfl (by simp) (.inr (.inr (.inl ⟨_, rfl⟩)))
    (.inr (.inr (.inr (.inr (.inr ⟨_, rfl⟩))))) (by rintro n ⟨⟩) (by rintro n ⟨⟩)
    (.inl (.inr (.inr (.inl ⟨_, rfl⟩))))
    (.inl (by rintro ⟨⟨_, ⟨⟩⟩ | ⟨_, ⟨⟩⟩ | ⟨_, ⟨⟩⟩ | ⟨_, ⟨⟩⟩, _⟩))

/-- What the solver is told about the quotient `n` and remainder `r` of floats
(builtinslib.py:940-952) determines them: they are what the model computes. -/
theorem divmod_constraints {x y : ℚ} (h : y ≠ 0) (n : Int) (r : ℚ) :
    (y * n + r = x ∧ (if y > 0 then r ≥ 0 ∧ r < y else r ≤ 0 ∧ y < r)) ↔
      n = ⌊x / y⌋ ∧ r = x - y * ⌊x / y⌋ := by
  constructor
  · rintro ⟨h1, h2⟩
    have hn : n = ⌊x / y⌋ := by
      symm
      rw [Int.floor_eq_iff]
      split at h2
      · rename_i hy
        rw [le_div_iff₀ hy, div_lt_iff₀ hy]
        constructor <;> nlinarith [h2.1, h2.2]
      · rename_i hy
        have hy' : y < 0 := lt_of_le_of_ne (not_lt.1 hy) h
        rw [le_div_iff_of_neg hy', div_lt_iff_of_neg hy']
        constructor <;> nlinarith [h2.1, h2.2]
    refine ⟨hn, ?_⟩
    rw [← hn]
    linarith
  · rintro ⟨rfl, rfl⟩
    refine ⟨by ring, ?_⟩
    have h1 := Int.floor_le (x / y)
    have h2 := Int.lt_floor_add_one (x / y)
    split
    · rename_i hy
      rw [le_div_iff₀ hy] at h1
      rw [div_lt_iff₀ hy] at h2
      constructor <;> nlinarith
    · rename_i hy
      have hy' : y < 0 := lt_of_le_of_ne (not_lt.1 hy) h
      rw [le_div_iff_of_neg hy'] at h1
      rw [div_lt_iff_of_neg hy'] at h2
      constructor <;> nlinarith

example : ((-2 : ℚ) * ((-4 : Int) : ℚ) + (-1) = 7) ∧
    (if (-2 : ℚ) > 0 then (-1 : ℚ) ≥ 0 ∧ (-1 : ℚ) < -2 else (-1 : ℚ) ≤ 0 ∧ (-2 : ℚ) < -1) := by
  norm_num

/-- A power of NaN or of plus infinity with a finite exponent is Python's. -/
theorem pow_base_partial {E : Env} (ok : E.Ok) {f : Fl} (hf : f = .nan ∨ f = .inf false) (y : ℚ) :
    (oper E .pow (.pyFloat f) (.realF y)).map (num E) =
      .ok (.flt (Py.fpowNF f (.fin y))) := by
  have e : oper E .pow (.pyFloat f) (.realF y) =
      .ok (.pyFloat (Py.fpowNF f (.fin ((if y > 0 then 1 else if y < 0 then -1 else 0 : Int))))) := by
    rw [oper_eq]
    rcases hf with rfl | rfl <;> rfl
  rw [e]
  have h0 := lit_zero ok
  have h1 : E.lit 1 = 1 := by simpa using ok.int 1 (by decide)
  rcases lt_trichotomy y 0 with h | h | h
  · have n1 : ¬ y > 0 := not_lt.2 h.le
    have n2 : y ≠ 0 := h.ne
    rcases hf with rfl | rfl <;>
      simp [n1, n2, h, Py.fpowNF, Except.map, num, h0, h1]
  · subst h
    rcases hf with rfl | rfl <;> simp [Py.fpowNF, Except.map, num, h0, h1]
  · have n1 : ¬ y < 0 := not_lt.2 h.le
    have n2 : y ≠ 0 := h.ne'
    have n3 : ¬ (1 : ℚ) < 0 := by norm_num
    rcases hf with rfl | rfl <;>
      simp [n1, n2, n3, h, Py.fpowNF, Except.map, num]

example : (oper ideal .pow (.pyFloat (.inf false)) (.realF (-2))).map (num ideal) =
    .ok (.flt (Py.fpowNF (.inf false) (.fin (-2)))) := pow_base_partial ideal_ok (.inr rfl) _

/-- Disagreement: with an infinite or NaN operand, `**` is computed from the sign of the other
operand, as for the other operators.  `2.0 ** inf` is 1.0 instead of infinity, `2.0 ** nan` is 1.0
instead of NaN, and `(-inf) ** 2.0` is minus infinity instead of infinity. -/
theorem pow_infinite :
    oper ideal .pow (.realF 2) (.pyFloat (.inf false)) = .ok (.pyFloat (.fin 1)) ∧
    Py.fpowNF (.fin 2) (.inf false) = .inf false ∧
    oper ideal .pow (.realF 2) (.pyFloat .nan) = .ok (.pyFloat (.fin 1)) ∧
    Py.fpowNF (.fin 2) .nan = .nan ∧
    oper ideal .pow (.pyFloat (.inf true)) (.realF 2) = .ok (.pyFloat (.inf true)) ∧
    Py.fpowNF (.inf true) (.fin 2) = .inf false := by
  have s : (if (2 : ℚ) > 0 then 1 else if (2 : ℚ) < 0 then -1 else 0 : Int) = 1 := by norm_num
  refine ⟨?_, ?_, ?_, ?_, ?_, ?_⟩
  · have e : oper ideal .pow (.realF 2) (.pyFloat (.inf false)) = .ok (.pyFloat (Py.fpowNF
        (.fin ((if (2 : ℚ) > 0 then 1 else if (2 : ℚ) < 0 then -1 else 0 : Int))) (.inf false))) := by
      rw [oper_eq]; rfl
    rw [e, s]
    simp [Py.fpowNF]
  · simp [Py.fpowNF]
  · have e : oper ideal .pow (.realF 2) (.pyFloat .nan) = .ok (.pyFloat (Py.fpowNF
        (.fin ((if (2 : ℚ) > 0 then 1 else if (2 : ℚ) < 0 then -1 else 0 : Int))) .nan)) := by
      rw [oper_eq]; rfl
    rw [e, s]
    simp [Py.fpowNF]
  · simp [Py.fpowNF]
  · have e : oper ideal .pow (.pyFloat (.inf true)) (.realF 2) = .ok (.pyFloat (Py.fpowNF
        (.inf true) (.fin ((if (2 : ℚ) > 0 then 1 else if (2 : ℚ) < 0 then -1 else 0 : Int))))) := by
      rw [oper_eq]; rfl
    rw [e, s]
    simp [Py.fpowNF]
  · simp [Py.fpowNF]

/-! ### Comparisons -/

/-- Comparisons of integers and truth values of any size are Python's. -/
theorem int_comparisons (E : Env) {op : Op} (hop : op ∈ [Op.eq, .ne, .lt, .le, .gt, .ge]) {a b : Val}
    (ha : IsInt a) (hb : IsInt b) (hs : IsSymbolic a ∨ IsSymbolic b) :
    (oper E op a b).map truth = .ok (some (Py.compare op (num E a) (num E b))) := by
  refine cmp_oper_int E ?_ ha hb (symbolic_or hs)
  simp only [List.mem_cons, List.not_mem_nil, or_false] at hop
  rcases hop with rfl | rfl | rfl | rfl | rfl | rfl <;> rfl

example : oper ideal .lt (.pyInt (10 ^ 30)) (.symInt (10 ^ 30 + 1)) = .ok (.symBool true) := by
  rw [oper_eq]; rfl

example : oper ideal .eq (.symBool true) (.pyInt 1) = .ok (.symBool true) := by
  rw [oper_eq]; rfl

/-- Comparisons with a float are by value, if native integers are not larger than `2 ** 53`. -/
theorem float_comparisons_partial {E : Env} (ok : E.Ok) (hE : E.real = true) {op : Op}
    (hop : op ∈ [Op.eq, .ne, .lt, .le, .gt, .ge]) {a b : Val} (ha : IsOperand a) (hb : IsOperand b)
    (ra : InRange a) (rb : InRange b) (hs : IsSymbolic a ∨ IsSymbolic b) :
    (oper E op a b).map truth = .ok (some (Py.compare op (num E a) (num E b))) := by
  have hc : op.isCmp := by
    simp only [List.mem_cons, List.not_mem_nil, or_false] at hop
    rcases hop with rfl | rfl | rfl | rfl | rfl | rfl <;> rfl
  have key : ∀ v, IsOperand v → IsInt v ∨ v.isFloat = true := by
    intro v hv
    rcases hv with ⟨b, rfl⟩ | ⟨n, rfl⟩ | ⟨q, rfl⟩ | ⟨b, rfl⟩ | ⟨n, rfl⟩ | ⟨f, rfl⟩
    · exact .inl (.inl ⟨_, rfl⟩)
    · exact .inl (.inr (.inl ⟨_, rfl⟩))
    · exact .inr rfl
    · exact .inl (.inr (.inr (.inl ⟨_, rfl⟩)))
    · exact .inl (.inr (.inr (.inr ⟨_, rfl⟩)))
    · exact .inr rfl
  rcases key a ha with h1 | h1
  · rcases key b hb with h2 | h2
    · exact cmp_oper_int E hc h1 h2 (symbolic_or hs)
    · exact cmp_oper_float ok hE hc (operand_plain ha) (operand_plain hb) (inRange_small ra)
        (inRange_small rb) (symbolic_or hs) (.inr h2)
  · exact cmp_oper_float ok hE hc (operand_plain ha) (operand_plain hb) (inRange_small ra)
      (inRange_small rb) (symbolic_or hs) (.inl h1)

example : (oper ideal .lt (.pyFloat (.inf true)) (.symInt 3)).map truth =
    .ok (some (Py.compare .lt (.flt (.inf true)) (.int 3))) :=
  float_comparisons_partial ideal_ok rfl (by simp) (.inr (.inr (.inr (.inr (.inr ⟨_, rfl⟩)))))
    (.inr (.inl ⟨_, rfl⟩)) (by rintro n ⟨⟩) (by rintro n ⟨⟩) (.inr (.inr (.inl ⟨_, rfl⟩)))

example : Py.compare .lt (.flt (.inf true)) (.int 3) = true := rfl

/-- Disagreement: a native integer beyond `2 ** 53` is turned into a float before it is compared
with a symbolic float, so `2.0 ** 53 == 2 ** 53 + 1`; Python compares the values exactly. -/
theorem big_int_equal :
    oper ideal .eq (.realF (2 ^ 53)) (.pyInt (2 ^ 53 + 1)) = .ok (.symBool true) ∧
    Py.compare .eq (.flt (.fin (2 ^ 53))) (.int (2 ^ 53 + 1)) = false := by
  constructor
  · rw [oper_left ideal .eq rfl rfl, real_native rfl floatOfInt_two53, cmp_real_fin rfl rfl]
    simp [Py.fcmp, Py.feq, ideal]
  · simp only [Py.compare, Py.toFl, Py.fcmp, Py.feq]
    norm_num

/-- Disagreement: comparing a symbolic float with a native integer that no float can hold raises
`OverflowError`; Python gives an answer. -/
theorem big_int_overflow :
    oper ideal .lt (.realF 1) (.pyInt (10 ^ 400)) = .error .overflow ∧
    Py.compare .lt (.flt (.fin 1)) (.int (10 ^ 400)) = true := by
  constructor
  · rw [oper_left ideal .lt rfl rfl, step_backward (p := .nativeToFloat) rfl]
    simp only [promote, floatOfInt_huge]
    rfl
  · simp only [Py.compare, Py.toFl, Py.fcmp, Py.flt]
    rw [decide_eq_true_iff]
    push_cast
    exact one_lt_pow₀ (by norm_num) (by norm_num)

/-! ### Bitwise operators -/

/-- `& | ^ << >>` of integers and truth values of any size are Python's, including `ValueError` for
a negative shift. -/
theorem bitwise (E : Env) {op : Op} (hop : op ∈ [Op.and, .or, .xor, .lshift, .rshift]) {a b : Val}
    (ha : IsInt a) (hb : IsInt b) (hs : IsSymbolic a ∨ IsSymbolic b) :
    (oper E op a b).map (num E) = Py.arith .fin op (num E a) (num E b) := by
  obtain ⟨x, hx, ex⟩ := isInt_val ha E
  obtain ⟨y, hy, ey⟩ := isInt_val hb E
  rw [ex, ey]
  refine bit_oper E ?_ hx hy (symbolic_or hs)
  simp only [List.mem_cons, List.not_mem_nil, or_false] at hop
  rcases hop with rfl | rfl | rfl | rfl | rfl <;> rfl

example : oper ideal .and (.symInt (-3)) (.pyInt 7) = .ok (.symInt 5) := by
  rw [oper_eq]; rfl

example : oper ideal .rshift (.symInt (-5)) (.symInt 1) = .ok (.symInt (-3)) := by
  rw [oper_eq]; rfl

example : oper ideal .lshift (.pyInt 3) (.symInt (-1)) = .error .valueError := by
  rw [oper_eq]; rfl

/-- `& | ^` of two truth values is the truth value that Python gives. -/
theorem bool_bitwise (E : Env) {a b : Val} {p q : Bool} (ha : truth a = some p)
    (hb : truth b = some q) (hs : IsSymbolic a ∨ IsSymbolic b) :
    (oper E .and a b).map truth = .ok (some (p && q)) ∧
    (oper E .or a b).map truth = .ok (some (p || q)) ∧
    (oper E .xor a b).map truth = .ok (some (p != q)) := by
  have hs := symbolic_or hs
  rw [oper_eq]
  cases a <;> cases ha <;> cases b <;> cases hb <;>
    first
    | exact hs.elim (fun h => absurd h Bool.false_ne_true) (fun h => absurd h Bool.false_ne_true)
    | (refine ⟨rfl, rfl, ?_⟩; cases p <;> cases q <;> rfl)

example : oper ideal .xor (.pyBool true) (.symBool false) = .ok (.symBool true) := by
  rw [oper_eq]; rfl

/-- The bitwise operators are not supported for floats, as in Python. -/
theorem float_bitwise (E : Env) {op : Op} (hop : op ∈ [Op.and, .or, .xor, .lshift, .rshift]) (q : ℚ)
    {b : Val} (hb : IsInt b ∨ (∃ f, b = .pyFloat f) ∨ ∃ r, b = .realF r) :
    oper E op (.realF q) b = .error .notImplemented ∧
    oper E op b (.realF q) = .error .notImplemented := by
  rw [oper_eq]
  simp only [List.mem_cons, List.not_mem_nil, or_false] at hop
  rcases hop with rfl | rfl | rfl | rfl | rfl <;>
    rcases hb with (⟨b, rfl⟩ | ⟨n, rfl⟩ | ⟨b, rfl⟩ | ⟨n, rfl⟩) | ⟨f, rfl⟩ | ⟨r, rfl⟩ <;>
    exact ⟨rfl, rfl⟩

example : oper ideal .and (.realF 1) (.pyInt 1) = .error .notImplemented := by
  rw [oper_eq]; rfl

/-! ### Rounding -/

/-- `floor`, `ceil` and `int`/`trunc` of a real-based float. -/
theorem rounding (q : ℚ) :
    ((floor q : ℚ) ≤ q ∧ q < floor q + 1) ∧
    (q ≤ ceil q ∧ (ceil q : ℚ) < q + 1) ∧
    (|(trunc q : ℚ)| ≤ |q| ∧ |q - trunc q| < 1 ∧ (0 ≤ q → 0 ≤ trunc q) ∧ (q ≤ 0 → trunc q ≤ 0)) := by
  have h1 := Int.floor_le q
  have h2 := Int.lt_floor_add_one q
  refine ⟨⟨h1, h2⟩, ?_, ?_⟩
  · unfold ceil
    split
    · rename_i h; exact ⟨h.le, by linarith⟩
    · rename_i h
      push_cast
      exact ⟨h2.le, by have := lt_of_le_of_ne h1 (Ne.symm h); linarith⟩
  · unfold trunc
    split
    · rename_i h
      have h0 : (0 : Int) ≤ ⌊q⌋ := Int.floor_nonneg.2 h
      have h0' : (0 : ℚ) ≤ (⌊q⌋ : ℚ) := by exact_mod_cast h0
      refine ⟨?_, ?_, fun _ => h0, fun h' => ?_⟩
      · rw [abs_of_nonneg h0', abs_of_nonneg h]; exact h1
      · rw [abs_of_nonneg (by linarith)]; linarith
      · have : q = 0 := le_antisymm h' h
        subst this
        simp
    · rename_i h
      have h' : q < 0 := not_le.1 h
      have g1 := Int.floor_le (-q)
      have g2 := Int.lt_floor_add_one (-q)
      have h0 : (0 : Int) ≤ ⌊-q⌋ := Int.floor_nonneg.2 (by linarith)
      have h0' : (0 : ℚ) ≤ (⌊-q⌋ : ℚ) := by exact_mod_cast h0
      push_cast
      refine ⟨?_, ?_, fun h'' => absurd h'' h, fun _ => by omega⟩
      · rw [abs_neg, abs_of_nonneg h0', abs_of_neg h']; exact g1
      · rw [abs_lt]; constructor <;> linarith

example : floor (-7 / 2) = -4 ∧ ceil (-7 / 2) = -3 ∧ trunc (-7 / 2) = -3 := by
  refine ⟨?_, ?_, ?_⟩ <;> decide +kernel

/-- `round` of a real-based float: a nearest integer, and the even one in case of a tie. -/
theorem round_half_even (q : ℚ) :
    |q - round q| ≤ 1 / 2 ∧ (|q - round q| = 1 / 2 → round q % 2 = 0) := by
  have h1 := Int.floor_le q
  have h2 := Int.lt_floor_add_one q
  unfold round
  split
  · rename_i h
    have g1 := Int.floor_le (q + 1 / 2)
    have g2 := Int.lt_floor_add_one (q + 1 / 2)
    refine ⟨by rw [abs_le]; constructor <;> linarith, fun e => ?_⟩
    exfalso
    apply h
    rcases abs_cases (q - (⌊q + 1 / 2⌋ : ℚ)) with ⟨e', -⟩ | ⟨e', -⟩
    · rw [e'] at e
      linarith
    · rw [e'] at e
      have hq : q = ⌊q + 1 / 2⌋ - 1 / 2 := by linarith
      have hf : ⌊q⌋ = ⌊q + 1 / 2⌋ - 1 := by
        rw [Int.floor_eq_iff]
        push_cast
        constructor <;> linarith
      rw [hf]
      push_cast
      linarith
  · rename_i h
    have h : q = ⌊q⌋ + 1 / 2 := not_not.1 h
    split
    · rename_i he
      refine ⟨by rw [abs_le]; constructor <;> linarith, fun _ => he⟩
    · rename_i he
      refine ⟨by push_cast; rw [abs_le]; constructor <;> linarith, fun _ => by omega⟩

example : round (5 / 2) = 2 ∧ round (7 / 2) = 4 ∧ round (-8 / 3) = -3 := by
  refine ⟨?_, ?_, ?_⟩ <;> decide +kernel

/-- `round(x, d)` for up to fifteen digits: the multiple of `10 ** -d` that rounding the scaled
number gives. -/
theorem round_digits {E : Env} (ok : E.Ok) (hE : E.real = true) (q : ℚ) {d : Nat} (hd : d ≤ 15) :
    ∃ r : ℚ, (roundDigits E q d).map (num E) = .ok (.flt (.fin r)) ∧
      |q - r| ≤ 1 / (2 * 10 ^ d) ∧ ∃ n : Int, r * 10 ^ d = n ∧
        (|q - r| = 1 / (2 * 10 ^ d) → n % 2 = 0) := by
  have hp : (10 : Nat) ^ d ≤ 10 ^ 15 := Nat.pow_le_pow_right (by omega) hd
  have hsm : Small (.pyInt (10 ^ d)) := by
    intro n e
    cases e
    have : ((10 : Int) ^ d).natAbs = 10 ^ d := by rw [Int.natAbs_pow]; rfl
    rw [this]
    omega
  have hlit : E.lit ((10 ^ d : Int) : ℚ) = 10 ^ d := by
    rw [ok.int _ (hsm _ rfl)]; push_cast; rfl
  have hpos : (0 : ℚ) < 10 ^ d := by positivity
  have e1 := real_mul hE q hsm
  rw [hlit] at e1
  have e2 := fun m => int_div hE m hsm (by rw [hlit]; exact hpos.ne')
  rw [hlit] at e2
  refine ⟨round (q * 10 ^ d) / 10 ^ d, ?_, ?_, round (q * 10 ^ d), ?_, ?_⟩
  · simp only [roundDigits, e1, bind, Except.bind, e2]
    rfl
  · have h := (round_half_even (q * 10 ^ d)).1
    have : q - round (q * 10 ^ d) / 10 ^ d = (q * 10 ^ d - round (q * 10 ^ d)) / 10 ^ d := by
      field_simp
    rw [this, abs_div, abs_of_pos hpos, div_le_iff₀ hpos]
    have e : (1 : ℚ) / (2 * 10 ^ d) * 10 ^ d = 1 / 2 := by field_simp
    rw [e]
    exact h
  · field_simp
  · intro h
    apply (round_half_even (q * 10 ^ d)).2
    have : q - round (q * 10 ^ d) / 10 ^ d = (q * 10 ^ d - round (q * 10 ^ d)) / 10 ^ d := by
      field_simp
    rw [this, abs_div, abs_of_pos hpos, div_eq_iff hpos.ne'] at h
    rw [h]
    field_simp

example : ∃ r : ℚ, (roundDigits ideal (22 / 7) 2).map (num ideal) = .ok (.flt (.fin r)) ∧
    |22 / 7 - r| ≤ 1 / (2 * 10 ^ 2) ∧ ∃ n : Int, r * 10 ^ 2 = n ∧
      (|22 / 7 - r| = 1 / (2 * 10 ^ 2) → n % 2 = 0) :=
  round_digits ideal_ok rfl _ (by decide)

/-- `is_integer`, unary minus and `abs`. -/
theorem unary (q : ℚ) :
    (isInteger q = true ↔ ∃ n : Int, q = n) ∧ neg q = 0 - q ∧ abs q = |q| := by
  refine ⟨?_, by simp [neg], ?_⟩
  · unfold isInteger
    rw [decide_eq_true_iff]
    constructor
    · intro h; exact ⟨q.num, (Rat.coe_int_num_of_den_eq_one h).symm⟩
    · rintro ⟨n, rfl⟩; simp
  · unfold abs
    split
    · rename_i h; rw [abs_of_neg h]
    · rename_i h; rw [abs_of_nonneg (not_lt.1 h)]

example : isInteger (3 / 2) = false ∧ isInteger (6 / 2) = true := by constructor <;> decide +kernel

/-! ### IEEE floats -/

/-- `+ - * /` on a path with IEEE floats: Python's result with Python's rounding. -/
theorem ieee_arithmetic {E : Env} (hE : E.real = false) {op : Op}
    (hop : op ∈ [Op.add, .sub, .mul, .truediv]) {a b : Val} {f g : Fl}
    (ha : a = .precise f ∨ a = .pyFloat f) (hb : b = .precise g ∨ b = .pyFloat g)
    (hs : IsSymbolic a ∨ IsSymbolic b) :
    (oper E op a b).map (num E) = Py.arith E.rnd op (.flt f) (.flt g) := by
  have ha : flVal a = some f := by rcases ha with rfl | rfl <;> rfl
  have hb : flVal b = some g := by rcases hb with rfl | rfl <;> rfl
  rw [precise_arith hE (by simpa using hop) ha hb (symbolic_or hs)]
  show _ = (Py.farith E.rnd op f g).map Num.flt
  cases Py.farith E.rnd op f g <;> rfl

example : (oper ieee .truediv (.pyFloat (.fin 1)) (.precise (.inf true))).map (num ieee) =
    Py.arith .fin .truediv (.flt (.fin 1)) (.flt (.inf true)) :=
  ieee_arithmetic rfl (by simp) (.inr rfl) (.inl rfl) (.inr (.inr (.inr (.inr ⟨_, rfl⟩))))

/-- Comparisons on a path with IEEE floats. -/
theorem ieee_comparisons {E : Env} (hE : E.real = false) {op : Op}
    (hop : op ∈ [Op.eq, .ne, .lt, .le, .gt, .ge]) {a b : Val} {f g : Fl}
    (ha : a = .precise f ∨ a = .pyFloat f) (hb : b = .precise g ∨ b = .pyFloat g)
    (hs : IsSymbolic a ∨ IsSymbolic b) :
    (oper E op a b).map truth = .ok (some (Py.compare op (.flt f) (.flt g))) := by
  have hc : op.isCmp := by
    simp only [List.mem_cons, List.not_mem_nil, or_false] at hop
    rcases hop with rfl | rfl | rfl | rfl | rfl | rfl <;> rfl
  have ha : flVal a = some f := by rcases ha with rfl | rfl <;> rfl
  have hb : flVal b = some g := by rcases hb with rfl | rfl <;> rfl
  rw [precise_cmp hE hc ha hb (symbolic_or hs)]
  rfl

example : (oper ieee .ge (.pyFloat .nan) (.precise .nan)).map truth = .ok (some false) :=
  ieee_comparisons rfl (by simp) (.inr rfl) (.inl rfl) (.inr (.inr (.inr (.inr ⟨_, rfl⟩))))

/-- `//` of finite IEEE floats is Python's, if the quotient is not rounded. -/
theorem ieee_floordiv_partial {E : Env} (hE : E.real = false) {a b : Val} {x y : ℚ}
    (ha : a = .precise (.fin x) ∨ a = .pyFloat (.fin x))
    (hb : b = .precise (.fin y) ∨ b = .pyFloat (.fin y)) (hs : IsSymbolic a ∨ IsSymbolic b)
    (hr : E.rnd (x / y) = .fin (x / y)) :
    (oper E .floordiv a b).map (num E) = Py.arith E.rnd .floordiv (.flt (.fin x)) (.flt (.fin y)) := by
  have ha : flVal a = some (.fin x) := by rcases ha with rfl | rfl <;> rfl
  have hb : flVal b = some (.fin y) := by rcases hb with rfl | rfl <;> rfl
  rw [precise_floordiv hE ha hb (symbolic_or hs)]
  simp only [Py.arith, Py.farith, Py.fdiv, Py.fdivmod, Py.toFl, Fl.fin.injEq]
  by_cases h : y = 0
  · simp [h, Except.bind, Except.map]
  · simp [h, Except.bind, Except.map, hr, preciseFloor, num]

example : (oper ieee .floordiv (.precise (.fin (-7))) (.pyFloat (.fin 2))).map (num ieee) =
    Py.arith .fin .floordiv (.flt (.fin (-7))) (.flt (.fin 2)) :=
  ieee_floordiv_partial rfl (.inl rfl) (.inr rfl) (.inl (.inr (.inr (.inr ⟨_, rfl⟩)))) rfl

/-- Disagreement: `//` of IEEE floats is the floor of the quotient.  `inf // 2.0` is infinity
instead of NaN, and `-5.0 // inf` is 0.0 instead of -1.0. -/
theorem ieee_floordiv_infinite :
    oper ieee .floordiv (.precise (.inf false)) (.pyFloat (.fin 2)) = .ok (.precise (.inf false)) ∧
    Py.arith .fin .floordiv (.flt (.inf false)) (.flt (.fin 2)) = .ok (.flt .nan) ∧
    oper ieee .floordiv (.precise (.fin (-5))) (.pyFloat (.inf false)) = .ok (.precise (.fin 0)) ∧
    Py.arith .fin .floordiv (.flt (.fin (-5))) (.flt (.inf false)) = .ok (.flt (.fin (-1))) := by
  refine ⟨?_, ?_, ?_, ?_⟩
  · rw [precise_floordiv rfl rfl rfl (.inl rfl)]
    simp [Py.fdiv, Except.bind, preciseFloor]
  · simp [Py.arith, Py.farith, Py.fdivmod, Py.toFl, Except.map]
  · rw [precise_floordiv rfl rfl rfl (.inl rfl)]
    simp [Py.fdiv, Except.bind, preciseFloor, ieee]
  · simp [Py.arith, Py.farith, Py.fdivmod, Py.toFl, Except.map]

/-- `%` of finite IEEE floats with a positive divisor is Python's, if the fraction of the quotient
is less than one half. -/
theorem ieee_mod_partial {E : Env} (hE : E.real = false) {a b : Val} {x y : ℚ}
    (ha : a = .precise (.fin x) ∨ a = .pyFloat (.fin x))
    (hb : b = .precise (.fin y) ∨ b = .pyFloat (.fin y)) (hs : IsSymbolic a ∨ IsSymbolic b)
    (hy : 0 < y) (hq : x / y - ⌊x / y⌋ < 1 / 2) :
    (oper E .mod a b).map (num E) = Py.arith E.rnd .mod (.flt (.fin x)) (.flt (.fin y)) := by
  have ha : flVal a = some (.fin x) := by rcases ha with rfl | rfl <;> rfl
  have hb : flVal b = some (.fin y) := by rcases hb with rfl | rfl <;> rfl
  rw [precise_mod hE ha hb (symbolic_or hs)]
  have hn : nearest (x / y) = ⌊x / y⌋ := by
    unfold nearest
    simp only
    rw [if_pos hq]
  simp only [smtFp, Py.arith, Py.farith, Py.fdivmod, Py.toFl, Fl.fin.injEq, if_neg hy.ne']
  have hg : Py.fcmp .ge (.fin y) (.fin 0) = true := by simp [Py.fcmp, Py.flt, hy]
  rw [if_pos (.inl hg)]
  simp [fpRem, hy.ne', hn, Except.map, num]

example : (oper ieee .mod (.precise (.fin 7)) (.pyFloat (.fin 3))).map (num ieee) =
    Py.arith .fin .mod (.flt (.fin 7)) (.flt (.fin 3)) :=
  ieee_mod_partial rfl (.inl rfl) (.inr rfl) (.inl (.inr (.inr (.inr ⟨_, rfl⟩)))) (by norm_num)
    (by decide +kernel)

/-- Disagreement: `%` of IEEE floats is the solver's remainder, which belongs to the nearest
quotient.  `5.0 % 3.0` is -1.0 instead of 2.0, and `5.0 % -3.0` is -4.0 instead of -1.0. -/
theorem ieee_mod_nearest :
    oper ieee .mod (.precise (.fin 5)) (.pyFloat (.fin 3)) = .ok (.precise (.fin (-1))) ∧
    Py.arith .fin .mod (.flt (.fin 5)) (.flt (.fin 3)) = .ok (.flt (.fin 2)) ∧
    oper ieee .mod (.precise (.fin 5)) (.pyFloat (.fin (-3))) = .ok (.precise (.fin (-4))) ∧
    Py.arith .fin .mod (.flt (.fin 5)) (.flt (.fin (-3))) = .ok (.flt (.fin (-1))) := by
  have n1 : nearest (5 / 3) = 2 := by decide +kernel
  have n2 : nearest (5 / -3) = -2 := by decide +kernel
  have f1 : ⌊(5 / 3 : ℚ)⌋ = 1 := by decide +kernel
  have f2 : ⌊(5 / -3 : ℚ)⌋ = -2 := by decide +kernel
  refine ⟨?_, ?_, ?_, ?_⟩
  · rw [precise_mod rfl rfl rfl (.inl rfl)]
    simp only [smtFp, fpRem, n1, ieee, Py.fcmp, Py.flt, Py.feq]
    norm_num [Except.map]
  · simp only [Py.arith, Py.farith, Py.fdivmod, Py.toFl, f1, Fl.fin.injEq]
    norm_num [Except.map]
  · rw [precise_mod rfl rfl rfl (.inl rfl)]
    simp only [smtFp, fpRem, n2, ieee, Py.fcmp, Py.flt, Py.feq, Py.fadd, Fl.fin.injEq]
    norm_num [Except.map]
  · simp only [Py.arith, Py.farith, Py.fdivmod, Py.toFl, f2, Fl.fin.injEq]
    norm_num [Except.map]

/-! ### The sign and class of a number -/

/-- `math.isfinite`, `math.isnan` and `math.isinf` are Python's. -/
theorem classification (E : Env) {v : Val} (hv : IsOperand v ∨ ∃ f, v = .precise f) :
    (isfinite v = true ↔ ∃ q, Py.toFl (num E v) = .fin q) ∧
    (isnan v = true ↔ Py.toFl (num E v) = .nan) ∧
    (isinf v = true ↔ ∃ s, Py.toFl (num E v) = .inf s) := by
  rcases hv with (⟨b, rfl⟩ | ⟨n, rfl⟩ | ⟨q, rfl⟩ | ⟨b, rfl⟩ | ⟨n, rfl⟩ | ⟨f, rfl⟩) | ⟨f, rfl⟩
  · simp [isfinite, isnan, isinf, num, Py.toFl]
  · simp [isfinite, isnan, isinf, num, Py.toFl]
  · simp [isfinite, isnan, isinf, num, Py.toFl]
  · simp [isfinite, isnan, isinf, num, Py.toFl]
  · simp [isfinite, isnan, isinf, num, Py.toFl]
  · cases f <;> simp [isfinite, isnan, isinf, num, Py.toFl]
  · cases f <;> simp [isfinite, isnan, isinf, num, Py.toFl]

example : isinf (.precise (.inf true)) = true ∧ isnan (.pyFloat .nan) = true ∧
    isfinite (.realF 3) = true := ⟨rfl, rfl, rfl⟩

/-- `math.copysign(x, y)` has the magnitude of `x` and the sign of `y`, unless `x` is an integer
(see `copysign_kind`). -/
theorem copysign_partial {E : Env} (ok : E.Ok) {x y : Val} {f : Fl} (hx : num E x = .flt f)
    (ox : IsOperand x ∨ ∃ f, x = .precise f) (oy : IsOperand y ∨ ∃ f, y = .precise f) :
    num E (copysign x y) =
      .flt (withSign (negative (Py.toFl (num E y))) (magnitude f)) := by
  have pos : ∀ v, (IsOperand v ∨ ∃ f, v = .precise f) →
      isPositive v = !negative (Py.toFl (num E v)) := by
    intro v hv
    rcases hv with (⟨b, rfl⟩ | ⟨n, rfl⟩ | ⟨q, rfl⟩ | ⟨b, rfl⟩ | ⟨n, rfl⟩ | ⟨f, rfl⟩) | ⟨f, rfl⟩
    · cases b <;> simp [isPositive, num, Py.toFl, negative, b2i]
    · by_cases h : n < 0
      · simp [isPositive, num, Py.toFl, negative, h]
      · simp [isPositive, num, Py.toFl, negative, not_lt.1 h]
    · simp [isPositive, num, Py.toFl, negative, ← not_lt]
    · cases b <;> simp [isPositive, num, Py.toFl, negative]
    · by_cases h : n < 0
      · simp [isPositive, num, Py.toFl, negative, h]
      · simp [isPositive, num, Py.toFl, negative, not_lt.1 h]
    · cases f with
      | fin q =>
          by_cases h : E.real
          · have := ok.neg q
            simp only [isPositive, num, Py.toFl, negative, h, if_true]
            by_cases hq : q < 0
            · simp [hq, this.2 hq]
            · have h2 : ¬ E.lit q < 0 := fun h => hq (this.1 h)
              simp [not_lt.1 hq, not_lt.1 h2]
          · simp [isPositive, num, Py.toFl, negative, h, ← not_lt]
      | inf s => simp [isPositive, num, Py.toFl, negative]
      | nan => simp [isPositive, num, Py.toFl, negative]
    · cases f with
      | fin q => simp [isPositive, num, Py.toFl, negative]
      | inf s => cases s <;> simp [isPositive, num, Py.toFl, negative]
      | nan => simp [isPositive, num, Py.toFl, negative]
  have neg : num E (negate x) = .flt (Py.fneg f) := by
    rcases ox with (⟨b, rfl⟩ | ⟨n, rfl⟩ | ⟨q, rfl⟩ | ⟨b, rfl⟩ | ⟨n, rfl⟩ | ⟨g, rfl⟩) | ⟨g, rfl⟩
    · cases hx
    · cases hx
    · cases hx; rfl
    · cases hx
    · cases hx
    · cases g with
      | fin q =>
          cases hx
          by_cases h : E.real
          · simp [negate, num, Py.fneg, h, ok.odd]
          · simp [negate, num, Py.fneg, h]
      | inf s => cases hx; rfl
      | nan => cases hx; rfl
    · cases hx; rfl
  unfold copysign
  rw [pos x ox, pos y oy, hx]
  generalize negative (Py.toFl (num E y)) = s
  show num E (if xor (!negative f) (!s) then negate x else x) = _
  have key : ∀ f : Fl, ∀ s : Bool, (if xor (!negative f) (!s) then Py.fneg f else f) =
      withSign s (magnitude f) := by
    intro f s
    cases f with
    | fin q =>
        by_cases h : q < 0
        · cases s <;> simp [negative, h, withSign, magnitude, Py.fneg, abs_of_neg h]
        · cases s <;> simp [negative, h, withSign, magnitude, Py.fneg, abs_of_nonneg (not_lt.1 h)]
    | inf t => cases s <;> cases t <;> rfl
    | nan => cases s <;> rfl
  rw [← key f]
  split
  · exact neg
  · exact hx

example : num ideal (copysign (.realF 3) (.pyFloat (.inf true))) = .flt (.fin (-3)) := rfl

/-- Disagreement: `math.copysign` of a symbolic integer is an integer; in Python the result is
always a float. -/
theorem copysign_kind (n m : Int) : ∃ k, copysign (.symInt n) (.symInt m) = .symInt k := by
  unfold copysign
  split
  · exact ⟨-n, rfl⟩
  · exact ⟨n, rfl⟩

example : copysign (.symInt 3) (.symInt (-1)) = .symInt (-3) := rfl

/-- The representations of an argument of type `float` cover every float, and each stands for a
float. -/
theorem makeFloat_complete (E : Env) :
    (∀ f : Fl, ∃ i n m q g, num E (makeFloat E i n m q g) = .flt f) ∧
    ∀ i n m q g, ∃ f, num E (makeFloat E i n m q g) = .flt f := by
  unfold makeFloat
  constructor
  · intro f
    by_cases h : E.real
    · simp only [h, if_true]
      cases f with
      | fin q => exact ⟨true, true, true, q, .nan, rfl⟩
      | inf s => exact ⟨false, false, s, 0, .nan, by cases s <;> rfl⟩
      | nan => exact ⟨false, true, true, 0, .nan, rfl⟩
    · simp only [h]
      exact ⟨true, true, true, 0, f, rfl⟩
  · intro i n m q g
    by_cases h : E.real
    · simp only [h, if_true]
      cases i <;> cases n <;> cases m <;> exact ⟨_, rfl⟩
    · simp only [h]
      exact ⟨g, rfl⟩

example : num ideal (makeFloat ideal false false true 0 .nan) = .flt (.inf true) := rfl

end Verif.Numeric
