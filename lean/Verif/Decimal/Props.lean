/- Theorems about decimal arithmetic. -/
import Verif.Decimal.Nearest
import Verif.Decimal.Division
import Mathlib.Data.Rat.Floor
import Mathlib.Algebra.Order.Field.Rat
import Mathlib.Tactic.NormNum

namespace Verif.Decimal

/-- A context for the examples: three digits, half to even. -/
def small : Ctx := ⟨3, .halfEven, -5, 5, false⟩

theorem small_ok : small.Ok := ⟨by decide, by decide, by decide⟩

/-! ### Comparisons -/

theorem cmp_spec {a b : Dec} (ha : a.Ok) (hb : b.Ok) (na : ¬ IsNaN a) (nb : ¬ IsNaN b) :
    (Less ℚ a b → cmp a b = -1) ∧ (Same ℚ a b → cmp a b = 0) ∧ (Less ℚ b a → cmp a b = 1) ∧ (Less ℚ a b ∨ Same ℚ a b ∨ Less ℚ b a) := by
  rcases a with ⟨s1, i1, e1⟩ | s1 | ⟨s1, p1, g1⟩
  · rcases b with ⟨s2, i2, e2⟩ | s2 | ⟨s2, p2, g2⟩
    · have h := cmpFin_spec (K := ℚ) ha hb s1 s2 e1 e2
      exact ⟨h.1, h.2.1, h.2.2, lt_trichotomy _ _⟩
    · cases s2 <;> simp [Less, Same, cmp, infinity, minusOne]
    · exact absurd ⟨_, _, _, rfl⟩ nb
  · rcases b with ⟨s2, i2, e2⟩ | s2 | ⟨s2, p2, g2⟩
    · cases s1 <;> simp [Less, Same, cmp, infinity, minusOne]
    · cases s1 <;> cases s2 <;> simp [Less, Same, cmp, infinity, minusOne]
    · exact absurd ⟨_, _, _, rfl⟩ nb
  · exact absurd ⟨_, _, _, rfl⟩ na

/-- Numbers and infinities compare by their values, whatever their exponents and trailing zeros, and no signal is raised. -/
theorem comparisons (c : Ctx) {a b : Dec} (ha : a.Ok) (hb : b.Ok) (na : ¬ IsNaN a) (nb : ¬ IsNaN b) :
    (lt a b).1 = [] ∧ (le a b).1 = [] ∧ (gt a b).1 = [] ∧ (ge a b).1 = [] ∧ (eq c a b).1 = [] ∧
    ((lt a b).2 = true ↔ Less ℚ a b) ∧ ((le a b).2 = true ↔ Less ℚ a b ∨ Same ℚ a b) ∧
    ((gt a b).2 = true ↔ Less ℚ b a) ∧ ((ge a b).2 = true ↔ Less ℚ b a ∨ Same ℚ a b) ∧ ((eq c a b).2 = true ↔ Same ℚ a b) := by
  have hn : compareCheckNans a b = false := by
    rcases a with ⟨s1, i1, e1⟩ | s1 | ⟨s1, p1, g1⟩
    · rcases b with ⟨s2, i2, e2⟩ | s2 | ⟨s2, p2, g2⟩
      · rfl
      · rfl
      · exact absurd ⟨_, _, _, rfl⟩ nb
    · rcases b with ⟨s2, i2, e2⟩ | s2 | ⟨s2, p2, g2⟩
      · rfl
      · rfl
      · exact absurd ⟨_, _, _, rfl⟩ nb
    · exact absurd ⟨_, _, _, rfl⟩ na
  obtain ⟨h1, h2, h3, h4⟩ := cmp_spec ha hb na nb
  unfold lt le gt ge eq
  rw [hn, checkNans_none c na nb]
  simp only [Bool.false_eq_true, if_false, decide_eq_true_eq, true_and, beq_iff_eq]
  have l1 : cmp a b < 0 ↔ Less ℚ a b := by
    refine ⟨fun h => ?_, fun h => by rw [h1 h]; decide⟩
    rcases h4 with h5 | h5 | h5
    · exact h5
    · rw [h2 h5] at h; exact absurd h (by decide)
    · rw [h3 h5] at h; exact absurd h (by decide)
  have l2 : cmp a b > 0 ↔ Less ℚ b a := by
    refine ⟨fun h => ?_, fun h => by rw [h3 h]; decide⟩
    rcases h4 with h5 | h5 | h5
    · rw [h1 h5] at h; exact absurd h (by decide)
    · rw [h2 h5] at h; exact absurd h (by decide)
    · exact h5
  have l3 : cmp a b = 0 ↔ Same ℚ a b := by
    refine ⟨fun h => ?_, h2⟩
    rcases h4 with h5 | h5 | h5
    · rw [h1 h5] at h; exact absurd h (by decide)
    · exact h5
    · rw [h3 h5] at h; exact absurd h (by decide)
  refine ⟨l1, ?_, l2, ?_, l3⟩
  · rw [← l1, ← l3]; omega
  · rw [← l2, ← l3]; omega

example : (lt (.fin true [5] 1) (.fin false [5, 0] 0)).2 = true ∧ (eq small (.fin false [5] 1) (.fin false [5, 0] 0)).2 = true ∧
    Dec.Ok (.fin true [5] 1) ∧ ¬ IsNaN (.fin true [5] 1) :=
  ⟨by decide +kernel, by decide +kernel, .inr ⟨5, [], rfl, by decide, by decide⟩, by rintro ⟨_, _, _, h⟩; cases h⟩

/-- With a NaN, order comparisons signal an invalid operation; equality is false, and signals only for signaling NaNs. -/
theorem comparisons_with_nans (c : Ctx) {a b : Dec} (h : IsNaN a ∨ IsNaN b) :
    lt a b = ([.invalidOperation], false) ∧ le a b = ([.invalidOperation], false) ∧ gt a b = ([.invalidOperation], false) ∧
    ge a b = ([.invalidOperation], false) ∧ (eq c a b).2 = false ∧
    ((∃ s p, a = .nan s p true) ∨ (∃ s p, b = .nan s p true) → (eq c a b).1 = [.invalidOperation]) ∧
    (¬ ((∃ s p, a = .nan s p true) ∨ (∃ s p, b = .nan s p true)) → (eq c a b).1 = []) := by
  rcases a with ⟨s1, i1, e1⟩ | s1 | ⟨s1, p1, _ | _⟩ <;> rcases b with ⟨s2, i2, e2⟩ | s2 | ⟨s2, p2, _ | _⟩ <;>
    simp [IsNaN, lt, le, gt, ge, eq, compareCheckNans, checkNans] at h ⊢

example : IsNaN (.nan false [1] true) ∧ eq small (.nan false [1] true) (.inf true) = ([.invalidOperation], false) := ⟨⟨_, _, _, rfl⟩, by decide⟩

/-! ### Signs and rounding to the context -/

/-- `+d` is `d` rounded to the context; a zero becomes positive unless one rounds towards minus infinity. -/
theorem unary_plus {c : Ctx} (hc : c.Ok) (s : Bool) {i : Digits} (h : IsCoeff i) (e : ℤ) :
    IsResult c (finValue s i e : ℚ) (s && decide (c.rounding = .floor)) e (pos c (.fin s i e)) := by
  show IsResult _ _ _ _ (if (i == [0] && c.rounding ≠ .floor) = true then fixFin c false i e else fixFin c s i e)
  by_cases hz : i = [0] ∧ c.rounding ≠ .floor
  · rw [if_pos (by simpa using hz)]
    obtain ⟨rfl, hf⟩ := hz
    rw [finValue_zero, ← finValue_zero (K := ℚ) false e]
    exact (fix_result hc false h e).sign fun _ => by simp [hf]
  · rw [if_neg (by simpa using hz)]
    refine (fix_result hc s h e).sign fun h1 => ?_
    have h2 := (finValue_eq_zero h s e).1 h1
    have h3 : c.rounding = .floor := by by_contra h4; exact hz ⟨h2, h4⟩
    simp [h3]

/-- `-d` is the negative of `d`, rounded; a zero becomes positive, but if one rounds towards minus infinity its sign changes. -/
theorem unary_minus {c : Ctx} (hc : c.Ok) (s : Bool) {i : Digits} (h : IsCoeff i) (e : ℤ) :
    IsResult c (-finValue s i e : ℚ) (!s && decide (c.rounding = .floor)) e (neg c (.fin s i e)) := by
  have hv : (-finValue s i e : ℚ) = finValue (!s) i e := by cases s <;> simp [finValue]
  rw [hv]
  show IsResult _ _ _ _ (if (i == [0] && c.rounding ≠ .floor) = true then fixFin c false i e else fixFin c (!s) i e)
  by_cases hz : i = [0] ∧ c.rounding ≠ .floor
  · rw [if_pos (by simpa using hz)]
    obtain ⟨rfl, hf⟩ := hz
    rw [finValue_zero, ← finValue_zero (K := ℚ) false e]
    exact (fix_result hc false h e).sign fun _ => by simp [hf]
  · rw [if_neg (by simpa using hz)]
    refine (fix_result hc (!s) h e).sign fun h1 => ?_
    have h2 := (finValue_eq_zero h (!s) e).1 h1
    have h3 : c.rounding = .floor := by by_contra h4; exact hz ⟨h2, h4⟩
    simp [h3]

/-- `abs(d)` is the absolute value, rounded; a zero becomes positive. -/
theorem absolute_value {c : Ctx} (hc : c.Ok) (s : Bool) {i : Digits} (h : IsCoeff i) (e : ℤ) :
    IsResult c (|finValue s i e| : ℚ) false e (abs c (.fin s i e)) := by
  have hM : (0 : ℚ) ≤ number i * 10 ^ e := mul_nonneg (by exact_mod_cast Nat.zero_le _) (ten_pos e).le
  cases s
  · have := unary_plus hc false h e
    rw [finValue_false] at *
    rw [abs_of_nonneg hM]
    exact this.sign fun _ => by simp
  · have := unary_minus hc true h e
    rw [finValue_true] at *
    rw [abs_neg, abs_of_nonneg hM]
    rw [neg_neg] at this
    exact this.sign fun _ => by simp

example : neg small (.fin false [1, 2, 3, 5] 0) = ([.inexact, .rounded], .fin true [1, 2, 4] 1) ∧
    pos small (.fin true [0] 0) = ([], .fin false [0] 0) ∧ IsCoeff [1, 2, 3, 5] :=
  ⟨by decide +kernel, by decide +kernel, .inr ⟨1, [2, 3, 5], rfl, by decide, by decide⟩⟩

/-! ### Addition and multiplication -/

/-- The sum of two numbers is their exact sum, rounded once, however far apart their exponents are. -/
theorem addition {c : Ctx} (hc : c.Ok) {s1 s2 : Bool} {i1 i2 : Digits} (h1 : IsCoeff i1) (h2 : IsCoeff i2) (e1 e2 : ℤ) :
    IsResult c (finValue s1 i1 e1 + finValue s2 i2 e2 : ℚ) (sumZero c s1 s2) (min e1 e2) (add c (.fin s1 i1 e1) (.fin s2 i2 e2)) :=
  addFin_spec hc h1 h2 e1 e2

example : add small (.fin false [1] 0) (.fin true [1] (-9)) = ([.inexact, .rounded], .fin false [1, 0, 0] (-2)) := by decide +kernel

/-- The difference of two numbers is their exact difference, rounded once. -/
theorem subtraction {c : Ctx} (hc : c.Ok) {s1 s2 : Bool} {i1 i2 : Digits} (h1 : IsCoeff i1) (h2 : IsCoeff i2) (e1 e2 : ℤ) :
    IsResult c (finValue s1 i1 e1 - finValue s2 i2 e2 : ℚ) (sumZero c s1 (!s2)) (min e1 e2) (sub c (.fin s1 i1 e1) (.fin s2 i2 e2)) := by
  have hv : (-finValue s2 i2 e2 : ℚ) = finValue (!s2) i2 e2 := by cases s2 <;> simp [finValue]
  rw [sub_eq_add_neg, hv]
  exact addFin_spec hc h1 h2 e1 e2

example : sub small (.fin false [5] 0) (.fin false [5, 0] (-1)) = ([], .fin false [0] (-1)) := by decide +kernel

/-- The product of two numbers is their exact product, rounded once. -/
theorem multiplication {c : Ctx} (hc : c.Ok) {s1 s2 : Bool} {i1 i2 : Digits} (h1 : IsCoeff i1) (h2 : IsCoeff i2) (e1 e2 : ℤ) :
    IsResult c (finValue s1 i1 e1 * finValue s2 i2 e2 : ℚ) (s1 ^^ s2) (e1 + e2) (mul c (.fin s1 i1 e1) (.fin s2 i2 e2)) :=
  mulFin_spec hc h1 h2 e1 e2

example : mul small (.fin false [9, 9, 9] 0) (.fin true [9, 9, 9] 0) = ([.inexact, .rounded], .fin true [9, 9, 8] 3) := by decide +kernel

/-- `fma(a, b, c)` is the exact value of `a * b + c`, rounded once. -/
theorem fused_multiply_add {c : Ctx} (hc : c.Ok) {s1 s2 s3 : Bool} {i1 i2 i3 : Digits} (h1 : IsCoeff i1) (h2 : IsCoeff i2) (h3 : IsCoeff i3)
    (e1 e2 e3 : ℤ) :
    IsResult c (finValue s1 i1 e1 * finValue s2 i2 e2 + finValue s3 i3 e3 : ℚ) (sumZero c (s1 ^^ s2) s3) (min (e1 + e2) e3)
      (fma c (.fin s1 i1 e1) (.fin s2 i2 e2) (.fin s3 i3 e3)) := by
  have hv : (finValue s1 i1 e1 * finValue s2 i2 e2 : ℚ) = finValue (s1 ^^ s2) (str (toInt i1 * toInt i2)) (e1 + e2) := by
    rw [finValue_mul, finValue, number_str, toInt_eq, toInt_eq]
  rw [hv]
  have h1' := h1
  have h2' := h2
  exact addFin_spec hc (isCoeff_str _) h3 (e1 + e2) e3

example : fma small (.fin false [9, 9, 9] 0) (.fin false [9, 9, 9] 0) (.fin true [9, 9, 8] 3) = ([], .fin false [1] 0) := by decide +kernel

theorem decisive_comm {a b : Dec} (na : ¬ IsNaN a) : ¬ IsNaN b → decisive [a, b] = none := by
  intro nb
  rcases a with ⟨s1, i1, e1⟩ | s1 | ⟨s1, p1, g1⟩
  · rcases b with ⟨s2, i2, e2⟩ | s2 | ⟨s2, p2, g2⟩
    · rfl
    · rfl
    · exact absurd ⟨_, _, _, rfl⟩ nb
  · rcases b with ⟨s2, i2, e2⟩ | s2 | ⟨s2, p2, g2⟩
    · rfl
    · rfl
    · exact absurd ⟨_, _, _, rfl⟩ nb
  · exact absurd ⟨_, _, _, rfl⟩ na

/-- Addition and multiplication are commutative, with all signals, except for which of two NaNs is kept. -/
theorem commutative {c : Ctx} (hc : c.Ok) {a b : Dec} (ha : a.Ok) (hb : b.Ok) (h : ¬ IsNaN a ∨ ¬ IsNaN b) :
    add c a b = add c b a ∧ mul c a b = mul c b a := by
  rcases a with ⟨s1, i1, e1⟩ | s1 | ⟨s1, p1, g1⟩
  · rcases b with ⟨s2, i2, e2⟩ | s2 | ⟨s2, p2, g2⟩
    · refine ⟨IsResult.unique (addition hc ha hb e1 e2) ?_, IsResult.unique (multiplication hc ha hb e1 e2) ?_⟩
      · have := addition hc hb ha e2 e1 (s1 := s2) (s2 := s1)
        rw [_root_.add_comm, min_comm] at this
        have hs : sumZero c s2 s1 = sumZero c s1 s2 := by cases s1 <;> cases s2 <;> rfl
        rwa [hs] at this
      · have := multiplication hc hb ha e2 e1 (s1 := s2) (s2 := s1)
        rwa [_root_.mul_comm, _root_.add_comm, Bool.xor_comm] at this
    · exact ⟨rfl, by simp [mul, checkNans, isInf, signOf, Bool.xor_comm]⟩
    · cases g2 <;> exact ⟨rfl, rfl⟩
  · rcases b with ⟨s2, i2, e2⟩ | s2 | ⟨s2, p2, g2⟩
    · exact ⟨rfl, by simp [mul, checkNans, isInf, signOf, Bool.xor_comm]⟩
    · cases s1 <;> cases s2 <;> exact ⟨rfl, rfl⟩
    · cases g2 <;> exact ⟨rfl, rfl⟩
  · rcases b with ⟨s2, i2, e2⟩ | s2 | ⟨s2, p2, g2⟩
    · cases g1 <;> exact ⟨rfl, rfl⟩
    · cases g1 <;> exact ⟨rfl, rfl⟩
    · exact absurd ⟨_, _, _, rfl⟩ (h.elim (fun h => absurd ⟨_, _, _, rfl⟩ h) id)

example : ¬ IsNaN (.fin false [7] 0) ∧ add small (.fin false [7] 0) (.nan true [1] false) = ([], .nan true [1] false) :=
  ⟨(by rintro ⟨_, _, _, h⟩; cases h), by decide⟩

/-! ### Division -/

/-- The quotient of two numbers is their exact quotient, rounded once. The ideal exponent is the difference of the exponents if the
quotient can be written with it, and otherwise the largest one with which the quotient can be written, if there is such an exponent. -/
theorem division {c : Ctx} (hc : c.Ok) {s1 s2 : Bool} {i1 i2 : Digits} (h1 : IsCoeff i1) (h2 : IsCoeff i2) (z2 : i2 ≠ [0]) (e1 e2 : ℤ) :
    ∃ e, e ≤ e1 - e2 ∧ (e < e1 - e2 → ¬ ∃ k : ℤ, |(finValue s1 i1 e1 / finValue s2 i2 e2 : ℚ)| = k * 10 ^ (e + 1)) ∧
      IsResult c (finValue s1 i1 e1 / finValue s2 i2 e2 : ℚ) (s1 ^^ s2) e (truediv c (.fin s1 i1 e1) (.fin s2 i2 e2)) := by
  show ∃ e, _ ∧ _ ∧ IsResult _ _ _ e (if (i2 == [0]) = true then _ else if (i1 == [0]) = true then _ else _)
  rw [if_neg (show ¬ (i2 == [0]) = true by simpa using z2)]
  by_cases z1 : i1 = [0]
  · subst z1
    rw [if_pos (show (([0] : Digits) == [0]) = true from rfl)]
    refine ⟨e1 - e2, le_refl _, fun h => absurd h (lt_irrefl _), ?_⟩
    have := fix_result (K := ℚ) hc (s1 ^^ s2) h1 (e1 - e2)
    rw [finValue_zero] at *
    rwa [zero_div]
  · rw [if_neg (show ¬ (i1 == [0]) = true by simpa using z1)]
    exact divFin_spec hc h1 h2 z1 z2 e1 e2 _

example : truediv small (.fin false [1] 0) (.fin false [8] 0) = ([], .fin false [1, 2, 5] (-3)) ∧
    truediv small (.fin false [2] 0) (.fin true [3] 0) = ([.inexact, .rounded], .fin true [6, 6, 7] (-3)) ∧
    truediv small (.fin false [2, 4, 0, 0] 0) (.fin false [2] 0) = ([.rounded], .fin false [1, 2, 0] 1) := by decide +kernel

/-- Dividing by zero: an infinity and a signal, except for zero by zero, which is an invalid operation. -/
theorem division_by_zero (c : Ctx) (s1 s2 : Bool) {i1 : Digits} (e1 e2 : ℤ) :
    (i1 ≠ [0] → truediv c (.fin s1 i1 e1) (.fin s2 [0] e2) = ([.divisionByZero], .inf (s1 ^^ s2)) ∧
      floordiv c (.fin s1 i1 e1) (.fin s2 [0] e2) = ([.divisionByZero], .inf (s1 ^^ s2))) ∧
    (i1 = [0] → truediv c (.fin s1 i1 e1) (.fin s2 [0] e2) = ([.invalidOperation], .NaN) ∧
      floordiv c (.fin s1 i1 e1) (.fin s2 [0] e2) = ([.invalidOperation], .NaN)) ∧
    mod c (.fin s1 i1 e1) (.fin s2 [0] e2) = ([.invalidOperation], .NaN) := by
  refine ⟨fun h => ?_, fun h => ?_, rfl⟩
  · have h' : ¬ (i1 == [0]) = true := by simpa using h
    constructor
    · simp only [truediv, checkNans]
      rw [if_pos (show (([0] : Digits) == [0]) = true from rfl), if_neg h']
    · simp only [floordiv, checkNans]
      rw [if_pos (show (([0] : Digits) == [0]) = true from rfl), if_neg h']
  · subst h; exact ⟨rfl, rfl⟩

example : ([7] : Digits) ≠ [0] ∧ truediv small (.fin true [7] 0) (.fin false [0] 3) = ([.divisionByZero], .inf true) := by decide

theorem quotient_abs (s1 s2 : Bool) (i1 i2 : Digits) (e1 e2 : ℤ) : (finValue s1 i1 e1 / finValue s2 i2 e2 : ℚ) =
    (if (s1 ^^ s2) then -1 else 1) * ((number i1 * 10 ^ e1) / (number i2 * 10 ^ e2)) := finValue_div s1 s2 i1 i2 e1 e2

theorem mag_nonneg (i : Digits) (e : ℤ) : (0 : ℚ) ≤ number i * 10 ^ e := mul_nonneg (by exact_mod_cast Nat.zero_le _) (ten_pos e).le

theorem remainder_eq (s1 s2 : Bool) (M1 M2 : ℚ) (q : ℤ) : (if s1 then -1 else 1) * (M1 - q * M2) =
    (if s1 then -1 else 1) * M1 - (minusOne (s1 ^^ s2) * q : ℤ) * ((if s2 then -1 else 1) * M2) := by
  cases s1 <;> cases s2 <;> simp [minusOne] <;> ring

/-- `//`, `%` and `divmod`: the quotient is truncated towards zero, exactly, and the remainder is what is left, rounded; it has the sign of
the dividend. If the quotient has more digits than the precision, the operation is invalid. -/
theorem integer_division {c : Ctx} (hc : c.Ok) {s1 s2 : Bool} {i1 i2 : Digits} (h1 : IsCoeff i1) (h2 : IsCoeff i2) (z2 : i2 ≠ [0]) (e1 e2 : ℤ)
    {q : ℤ} (hq : q = truncate (finValue s1 i1 e1 / finValue s2 i2 e2 : ℚ)) :
    (|q| < 10 ^ c.prec →
      (∃ i, floordiv c (.fin s1 i1 e1) (.fin s2 i2 e2) = ([], .fin (s1 ^^ s2) i 0) ∧ IsCoeff i ∧ (number i : ℤ) = |q|) ∧
      IsResult c (finValue s1 i1 e1 - q * finValue s2 i2 e2 : ℚ) s1 (min e1 e2) (mod c (.fin s1 i1 e1) (.fin s2 i2 e2)) ∧
      divmod c (.fin s1 i1 e1) (.fin s2 i2 e2) = ((mod c (.fin s1 i1 e1) (.fin s2 i2 e2)).1,
        (floordiv c (.fin s1 i1 e1) (.fin s2 i2 e2)).2, (mod c (.fin s1 i1 e1) (.fin s2 i2 e2)).2)) ∧
    (10 ^ c.prec ≤ |q| →
      floordiv c (.fin s1 i1 e1) (.fin s2 i2 e2) = ([.invalidOperation], .NaN) ∧
      mod c (.fin s1 i1 e1) (.fin s2 i2 e2) = ([.invalidOperation], .NaN) ∧
      divmod c (.fin s1 i1 e1) (.fin s2 i2 e2) = ([.invalidOperation], .NaN, .NaN)) := by
  have hM : (0 : ℚ) ≤ (number i1 * 10 ^ e1) / (number i2 * 10 ^ e2) := div_nonneg (mag_nonneg _ _) (mag_nonneg _ _)
  rw [quotient_abs, truncate_sg _ hM] at hq
  obtain ⟨n, hn⟩ : ∃ n, n = ⌊((number i1 : ℚ) * 10 ^ e1) / (number i2 * 10 ^ e2)⌋ := ⟨_, rfl⟩
  have hn0 : 0 ≤ n := by rw [hn]; exact Int.floor_nonneg.2 hM
  rw [← hn] at hq
  have habs : |q| = n := by
    rw [hq]
    cases (s1 ^^ s2)
    · simp [minusOne, abs_of_nonneg hn0]
    · simp [minusOne, abs_of_nonneg hn0]
  rw [habs]
  obtain ⟨d1, d2⟩ := divide_spec (K := ℚ) (c := c) (s1 := s1) (s2 := s2) h1 h2 z2 e1 e2 hn
  have z2' : ¬ (i2 == [0]) = true := by simpa using z2
  have f1 : floordiv c (.fin s1 i1 e1) (.fin s2 i2 e2) = ((divide c s1 i1 e1 s2 i2 e2).1, (divide c s1 i1 e1 s2 i2 e2).2.1) := by
    simp only [floordiv, checkNans]
    rw [if_neg z2']
  have f2 : mod c (.fin s1 i1 e1) (.fin s2 i2 e2) = ((divide c s1 i1 e1 s2 i2 e2).1 ++ (fix c (divide c s1 i1 e1 s2 i2 e2).2.2).1,
      (fix c (divide c s1 i1 e1 s2 i2 e2).2.2).2) := by
    simp only [mod, checkNans]
    rw [if_neg z2']
  have f3 : divmod c (.fin s1 i1 e1) (.fin s2 i2 e2) = ((divide c s1 i1 e1 s2 i2 e2).1 ++ (fix c (divide c s1 i1 e1 s2 i2 e2).2.2).1,
      (divide c s1 i1 e1 s2 i2 e2).2.1, (fix c (divide c s1 i1 e1 s2 i2 e2).2.2).2) := by
    simp only [divmod, checkNans]
    rw [if_neg z2']
  rw [f1, f2, f3]
  constructor
  · intro h
    obtain ⟨i, g1, g2, g3, g4⟩ := d1 h
    rw [g1]
    refine ⟨⟨_, rfl, isCoeff_str _, by rw [number_str]; omega⟩, ?_, rfl⟩
    have hv : (finValue s1 i1 e1 - q * finValue s2 i2 e2 : ℚ) = finValue s1 i (min e1 e2) := by
      rw [finValue, finValue, finValue, g4, hq, remainder_eq s1 s2]
    rw [hv]
    exact fix_result hc s1 g3 (min e1 e2)
  · intro h
    rw [d2 h]
    have hNaN : fix c .NaN = ([], .NaN) := by simp [fix, Dec.NaN, fixNan]
    simp [hNaN]

example : divmod small (.fin true [1, 7] 0) (.fin false [5] 0) = ([], .fin true [3] 0, .fin true [2] 0) ∧
    floordiv small (.fin false [1] 3) (.fin false [1] 0) = ([.invalidOperation], .NaN) ∧ ([5] : Digits) ≠ [0] := by decide +kernel

/-- `remainder_near`: the quotient is rounded to the nearest integer, ties to even. -/
theorem remainder_nearest {c : Ctx} (hc : c.Ok) {s1 s2 : Bool} {i1 i2 : Digits} (h1 : IsCoeff i1) (h2 : IsCoeff i2) (z2 : i2 ≠ [0]) (e1 e2 : ℤ)
    {q : ℤ} (hq : IsNearestEven (finValue s1 i1 e1 / finValue s2 i2 e2 : ℚ) q) :
    (|q| < 10 ^ c.prec → IsResult c (finValue s1 i1 e1 - q * finValue s2 i2 e2 : ℚ) s1 (min e1 e2) (remainderNear c s1 i1 e1 s2 i2 e2)) ∧
    (10 ^ c.prec ≤ |q| → remainderNear c s1 i1 e1 s2 i2 e2 = ([.invalidOperation], .NaN)) := by
  have hM : (0 : ℚ) ≤ (number i1 * 10 ^ e1) / (number i2 * 10 ^ e2) := div_nonneg (mag_nonneg _ _) (mag_nonneg _ _)
  rw [quotient_abs] at hq
  have hr := roundAbs_nearest (nearest_sg _ hq)
  have hn0 := roundAbs_nonneg (K := ℚ) .halfEven false hM
  obtain ⟨n, hn⟩ : ∃ n, n = roundAbs .halfEven false (((number i1 : ℚ) * 10 ^ e1) / (number i2 * 10 ^ e2)) := ⟨_, rfl⟩
  rw [← hn] at hr hn0
  have hqn : q = minusOne (s1 ^^ s2) * n := by
    rw [hr]
    cases (s1 ^^ s2) <;> simp [minusOne]
  have habs : |q| = n := by
    rw [hqn]
    cases (s1 ^^ s2)
    · simp [minusOne, abs_of_nonneg hn0]
    · simp [minusOne, abs_of_nonneg hn0]
  rw [habs]
  obtain ⟨d1, d2⟩ := remainderNear_spec (K := ℚ) (c := c) (s1 := s1) (s2 := s2) hc h1 h2 z2 e1 e2 hn
  refine ⟨fun h => ?_, d2⟩
  have := d1 h
  rwa [remainder_eq s1 s2, ← hqn] at this

example : remainderNear small false [1, 0] 0 false [4] 0 = ([], .fin false [2] 0) ∧
    remainderNear small false [1, 1] 0 false [4] 0 = ([], .fin true [1] 0) ∧ ([4] : Digits) ≠ [0] := by decide +kernel

/-! ### Integers and quantizing -/

/-- `int(d)`, `math.floor(d)`, `math.ceil(d)` and `round(d)`. -/
theorem to_integers (s : Bool) {i : Digits} (h : IsCoeff i) (e : ℤ) :
    intOf (.fin s i e) = some (truncate (finValue s i e : ℚ)) ∧
    roundTo .floor (.fin s i e) = some ⌊(finValue s i e : ℚ)⌋ ∧
    roundTo .ceiling (.fin s i e) = some ⌈(finValue s i e : ℚ)⌉ ∧
    ∀ n, IsNearestEven (finValue s i e : ℚ) n → roundTo .halfEven (.fin s i e) = some n := by
  refine ⟨?_, ?_, ?_, fun n hn => ?_⟩
  · rw [intOf, toInteger_spec (K := ℚ) s h e, finValue, truncate_sg s (mag_nonneg i e)]
  · rw [roundTo_spec (K := ℚ) _ s h e]
    cases s
    · simp [roundAbs, minusOne, finValue]
    · simp [roundAbs, minusOne, finValue, Int.floor_neg]
  · rw [roundTo_spec (K := ℚ) _ s h e]
    cases s
    · simp [roundAbs, minusOne, finValue]
    · simp [roundAbs, minusOne, finValue, Int.ceil_neg]
  · have h1 := roundAbs_nearest (nearest_sg s hn)
    have h2 : roundAbs .halfEven s ((number i : ℚ) * 10 ^ e) = roundAbs .halfEven false ((number i : ℚ) * 10 ^ e) := rfl
    rw [roundTo_spec (K := ℚ) _ s h e, h2, h1]
    cases s <;> simp [minusOne]

example : intOf (.fin true [2, 5] (-1)) = some (-2) ∧ roundTo .floor (.fin true [2, 5] (-1)) = some (-3) ∧
    roundTo .halfEven (.fin true [2, 5] (-1)) = some (-2) := by decide +kernel

/-- `to_integral_value`: the number rounded to an integer in the mode asked for; the sign stays, also of zero. -/
theorem to_integral (m : Mode) (s : Bool) {i : Digits} (h : IsCoeff i) (e : ℤ) :
    ∃ i', toIntegral m s i e = .fin s i' (max e 0) ∧ IsCoeff i' ∧ (number i' : ℚ) * 10 ^ (max e 0) = roundAbs m s (number i * 10 ^ e : ℚ) := by
  unfold toIntegral
  by_cases he : e ≥ 0
  · rw [if_pos he, max_eq_left he]
    refine ⟨i, rfl, h, ?_⟩
    have hi : (number i * 10 ^ e : ℚ) = ((number i * 10 ^ e.toNat : ℤ) : ℚ) := by
      rw [ten_toNat he]; push_cast; rfl
    rw [hi, roundAbs_int]
  · rw [if_neg he, max_eq_right (by omega)]
    obtain ⟨i', r1, r2, r3⟩ := rescale_spec (K := ℚ) m s h e 0
    refine ⟨i', r1, r2, ?_⟩
    rw [zpow_zero, div_one] at r3
    rw [← r3, zpow_zero, mul_one]; push_cast; rfl

example : toIntegral .up true [2, 1] (-1) = .fin true [3] 0 := by decide +kernel

/-- `quantize`: the number is rounded, in the mode asked for, to a multiple of ten to the exponent of the second operand. If that exponent is
out of range, or the coefficient does not fit the precision, or the number is too large for the context, the operation is invalid. -/
theorem quantizing {c : Ctx} (hc : c.Ok) (m : Mode) (s s' : Bool) {i : Digits} (i' : Digits) (h : IsCoeff i) (e x : ℤ) {n : ℤ}
    (hn : n = roundAbs m s ((number i : ℚ) * 10 ^ e / 10 ^ x)) :
    (¬ (c.emin - c.prec + 1 ≤ x ∧ x ≤ c.emax ∧ n < 10 ^ c.prec ∧ (n : ℚ) * 10 ^ x < 10 ^ (c.emax + 1)) →
      quantize c m (.fin s i e) (.fin s' i' x) = ([.invalidOperation], .NaN)) ∧
    (c.emin - c.prec + 1 ≤ x ∧ x ≤ c.emax ∧ n < 10 ^ c.prec ∧ (n : ℚ) * 10 ^ x < 10 ^ (c.emax + 1) →
      ∃ j y, (quantize c m (.fin s i e) (.fin s' i' x)).2 = .fin s j y ∧ Fits c j y ∧ (number j : ℚ) * 10 ^ y = n * 10 ^ x ∧
        y = (if c.clamp then min x (c.emax - c.prec + 1) else x) ∧
        ∀ g, g ∈ (quantize c m (.fin s i e) (.fin s' i' x)).1 ↔ match g with
          | .inexact => (n : ℚ) * 10 ^ x ≠ number i * 10 ^ e
          | .rounded => i ≠ [0] ∧ e < x
          | .subnormal => 0 < n ∧ (n : ℚ) * 10 ^ x < 10 ^ c.emin
          | .clamped => c.clamp = true ∧ c.emax - c.prec + 1 < x
          | _ => False) :=
  quantizeFin_spec hc m s h e x hn

example : quantize small .halfEven (.fin false [1, 2, 5] (-2)) (.fin false [1] (-1)) = ([.inexact, .rounded], .fin false [1, 2] (-1)) ∧
    quantize small .halfEven (.fin false [1, 2, 5] 0) (.fin false [1] (-1)) = ([.invalidOperation], .NaN) := by decide +kernel

/-! ### NaNs and infinities -/

/-- NaNs spread: the first signaling NaN, or else the first NaN, is the result, made quiet, with its sign and as much of its payload as there is
room for. Only signaling NaNs signal. -/
theorem nan_operands (c : Ctx) {a b : Dec} {s : Bool} {p : Digits} {g : Bool} (h : decisive [a, b] = some (.nan s p g)) (hp : ∀ x ∈ p, x < 10) :
    ∃ r, IsQuieted c s p r ∧
      (∀ op ∈ [add c, sub c, mul c, truediv c, mod c, floordiv c, quantize c c.rounding], op a b = (if g then [.invalidOperation] else [], r)) ∧
      divmod c a b = (if g then [.invalidOperation] else [], r, r) := by
  obtain ⟨r, h1, h2⟩ := checkNans_spec c h hp
  refine ⟨r, h2, ?_, by simp only [divmod, h1]⟩
  intro op hop
  simp only [List.mem_cons, List.not_mem_nil, or_false] at hop
  rcases hop with rfl | rfl | rfl | rfl | rfl | rfl | rfl
  · simp only [add, h1]
  · simp only [sub, h1]
  · simp only [mul, h1]
  · simp only [truediv, h1]
  · simp only [mod, h1]
  · simp only [floordiv, h1]
  · simp only [quantize, h1]

example : decisive [.nan true [1, 2] false, .nan false [1, 2, 3, 4, 0, 5] true] = some (.nan false [1, 2, 3, 4, 0, 5] true) ∧
    add small (.nan true [1, 2] false) (.nan false [1, 2, 3, 4, 0, 5] true) = ([.invalidOperation], .nan false [4, 0, 5] false) := by decide

/-- The same for one operand. -/
theorem nan_operand (c : Ctx) (s : Bool) {p : Digits} (g : Bool) (hp : ∀ x ∈ p, x < 10) :
    ∃ r, IsQuieted c s p r ∧ ∀ op ∈ [neg c, pos c, abs c], op (.nan s p g) = (if g then [.invalidOperation] else [], r) := by
  obtain ⟨r, h1, h2⟩ := checkNans_spec c (a := .nan s p g) (b := .inf false) (s := s) (p := p) (g := g) (by cases g <;> rfl) hp
  refine ⟨r, h2, ?_⟩
  have h1' : checkNan c (.nan s p g) = _ := h1
  intro op hop
  simp only [List.mem_cons, List.not_mem_nil, or_false] at hop
  rcases hop with rfl | rfl | rfl
  · simp only [neg, h1']
  · simp only [pos, h1']
  · simp only [abs, h1']

example : abs small (.nan true [7] true) = ([.invalidOperation], .nan true [7] false) := by decide

/-- Sums and differences with infinities. -/
theorem infinite_sums (c : Ctx) (s1 s2 : Bool) (i : Digits) (e : ℤ) :
    add c (.inf s1) (.fin s2 i e) = ([], .inf s1) ∧ add c (.fin s2 i e) (.inf s1) = ([], .inf s1) ∧ add c (.inf s1) (.inf s1) = ([], .inf s1) ∧
    add c (.inf s1) (.inf (!s1)) = ([.invalidOperation], .NaN) ∧
    sub c (.inf s1) (.fin s2 i e) = ([], .inf s1) ∧ sub c (.fin s2 i e) (.inf s1) = ([], .inf (!s1)) ∧
    sub c (.inf s1) (.inf (!s1)) = ([], .inf s1) ∧ sub c (.inf s1) (.inf s1) = ([.invalidOperation], .NaN) := by
  cases s1 <;> exact ⟨rfl, rfl, rfl, rfl, rfl, rfl, rfl, rfl⟩

/-- Products and quotients with infinities. -/
theorem infinite_products (c : Ctx) (s1 s2 : Bool) {i : Digits} (e : ℤ) :
    (i ≠ [0] → mul c (.inf s1) (.fin s2 i e) = ([], .inf (s1 ^^ s2))) ∧
    (i = [0] → mul c (.inf s1) (.fin s2 i e) = ([.invalidOperation], .NaN)) ∧
    mul c (.inf s1) (.inf s2) = ([], .inf (s1 ^^ s2)) ∧
    truediv c (.inf s1) (.fin s2 i e) = ([], .inf (s1 ^^ s2)) ∧ floordiv c (.inf s1) (.fin s2 i e) = ([], .inf (s1 ^^ s2)) ∧
    truediv c (.inf s1) (.inf s2) = ([.invalidOperation], .NaN) ∧ floordiv c (.inf s1) (.inf s2) = ([.invalidOperation], .NaN) ∧
    mod c (.inf s1) (.fin s2 i e) = ([.invalidOperation], .NaN) ∧ mod c (.inf s1) (.inf s2) = ([.invalidOperation], .NaN) ∧
    truediv c (.fin s1 i e) (.inf s2) = ([.clamped], .fin (s1 ^^ s2) [0] (c.emin - c.prec + 1)) ∧
    floordiv c (.fin s1 i e) (.inf s2) = ([], .fin (s1 ^^ s2) [0] 0) := by
  refine ⟨fun h => ?_, fun h => ?_, rfl, rfl, rfl, rfl, rfl, rfl, rfl, rfl, rfl⟩
  · have : (i == [0]) = false := by simpa using h
    simp [mul, checkNans, isInf, isZero, signOf, this]
  · subst h; rfl

/-- `d % Infinity` is `d`, rounded. -/
theorem infinite_modulus {c : Ctx} (hc : c.Ok) (s1 s2 : Bool) {i : Digits} (h : IsCoeff i) (e : ℤ) :
    IsResult c (finValue s1 i e : ℚ) s1 e (mod c (.fin s1 i e) (.inf s2)) := by
  obtain ⟨i', r1, r2, r3, _⟩ := rescale_pad (K := ℚ) c.rounding s1 h (e := e) (x := e) (le_refl _)
  show IsResult _ _ _ _ ([] ++ (fix c (rescale c.rounding s1 i e e)).1, (fix c (rescale c.rounding s1 i e e)).2)
  rw [r1]
  have := fix_result (K := ℚ) hc s1 r2 e
  rw [finValue, r3] at this
  exact this

example : mod small (.fin true [1, 2, 3, 4] 0) (.inf false) = ([.inexact, .rounded], .fin true [1, 2, 3] 1) := by decide +kernel

/-! ### Traps -/

/-- With traps, the first of the signals that is trapped is raised; without any, the result is returned. -/
theorem trapped (traps : Sig → Bool) {α : Type} (sigs : List Sig) (r : α) :
    ((∀ g ∈ sigs, traps g = false) → outcome traps (sigs, r) = .ok r) ∧
    (∀ l g l', sigs = l ++ g :: l' → (∀ x ∈ l, traps x = false) → traps g = true → outcome traps (sigs, r) = .error g) := by
  constructor
  · intro h
    have : sigs.find? traps = none := by rw [List.find?_eq_none]; intro x hx; simp [h x hx]
    simp only [outcome, this]
  · rintro l g l' rfl h1 h2
    have : (l ++ g :: l').find? traps = some g := by
      rw [List.find?_append, List.find?_eq_none.2 (by intro x hx; simp [h1 x hx])]
      simp [h2]
    simp only [outcome, this]

example : outcome (fun g => g == .rounded) (add small (.fin false [1] 0) (.fin true [1] (-9))) = .error .rounded := by
  have : add small (.fin false [1] 0) (.fin true [1] (-9)) = ([.inexact, .rounded], .fin false [1, 0, 0] (-2)) := by decide +kernel
  rw [this]; rfl

end Verif.Decimal
