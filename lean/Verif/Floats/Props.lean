import Verif.Floats.Text
import Verif.Numeric.Big
import Mathlib.RingTheory.Coprime.Lemmas
/-
Properties of conversions and rounding of symbolic floats.
-/
namespace Verif.Floats

open Verif.Numeric (Fl Num Err nearest floatOfInt floatOfInt_huge)

/-! ### Floats based on real numbers -/

/-- C232: the integer part, the integers below and above, and the nearest integer of a symbolic float that is a real number are
Python's, and so is the question whether it is an integer. -/
theorem real_exact (x : ℚ) : Truncated x (realTrunc x) ∧ Below x (realFloor x) ∧ Above x (realCeil x) ∧ NearestEven x (realRound x) ∧
    (realIsInteger x = true ↔ ∃ n : Int, x = n) := by
  have h1 := Int.floor_le x
  have h2 := Int.lt_floor_add_one x
  refine ⟨⟨fun h => ?_, fun h => ?_⟩, ⟨h1, fun k hk => Int.le_floor.2 hk⟩, ?_, ?_, ?_⟩
  · rw [realTrunc, if_pos h]
    exact ⟨h1, h2⟩
  · have h3 := Int.floor_le (-x)
    have h4 := Int.lt_floor_add_one (-x)
    rw [realTrunc, if_neg (not_le.2 h)]
    push_cast
    exact ⟨by linarith, by linarith⟩
  · unfold realCeil
    split
    · rename_i h
      refine ⟨h.le, fun k hk => ?_⟩
      rw [h] at hk
      exact_mod_cast hk
    · rename_i h
      refine ⟨by push_cast; exact h2.le, fun k hk => ?_⟩
      have h5 : (⌊x⌋ : ℚ) < k := lt_of_lt_of_le (lt_of_le_of_ne h1 (Ne.symm h)) hk
      have h6 : ⌊x⌋ < k := by exact_mod_cast h5
      omega
  · unfold realRound
    simp only
    split
    · rename_i h
      have h3 := Int.floor_le (x + 1 / 2)
      have h4 := Int.lt_floor_add_one (x + 1 / 2)
      refine nearestEven_of x _ (abs_le.2 ⟨by linarith, by linarith⟩) fun e => ?_
      exfalso
      rcases abs_cases (x - ⌊x + 1 / 2⌋) with ⟨h5, _⟩ | ⟨h5, _⟩
      · rw [h5] at e
        linarith
      · rw [h5] at e
        have h6 : x = ((⌊x + 1 / 2⌋ - 1 : Int) : ℚ) + 1 / 2 := by push_cast; linarith
        have h7 : ⌊x⌋ = ⌊x + 1 / 2⌋ - 1 := by
          rw [Int.floor_eq_iff]
          exact ⟨by linarith, by linarith⟩
        exact h (by rw [h7]; exact h6)
    · rename_i h
      have hx : x = ⌊x⌋ + 1 / 2 := not_not.1 h
      split
      · rename_i he
        refine nearestEven_of x _ (abs_le.2 ⟨by linarith, by linarith⟩) fun _ => he
      · rename_i he
        refine nearestEven_of x _ (abs_le.2 ⟨by push_cast; linarith, by push_cast; linarith⟩) fun _ => by omega
  · rw [realIsInteger, decide_eq_true_iff]
    constructor
    · exact fun h => ⟨_, h⟩
    · rintro ⟨n, rfl⟩
      rw [Int.floor_intCast]

example : realTrunc (-7 / 2) = -3 ∧ realFloor (-7 / 2) = -4 ∧ realCeil (-7 / 2) = -3 ∧ realRound (-7 / 2) = -4 ∧ realRound (5 / 2) = 2 := by
  decide +kernel

/-- The solver reads the native `10 ** n` as the number it is meant to be. -/
def Reads (E : Env) (n : Int) : Prop := tenReal E n = .ok ((10 : ℚ) ^ n)

/-- C232: rounded to digits, it is the nearest multiple; of two, the even one. Partial: if `10 ** n` is read exactly by the solver, and
the number of digits is an integer (see `many_digits`, `few_digits` and `float_digits`). -/
theorem real_round_digits_partial (E : Env) (x : ℚ) (n : Int) (h : Reads E n) :
    ∃ k : Int, NearestEven (x * 10 ^ n) k ∧ realRoundArg E x (.int n) = .ok (.flt (.fin (k / 10 ^ n))) := by
  have hne : ((10 : ℚ) ^ n) ≠ 0 := zpow_ne_zero _ (by norm_num)
  refine ⟨realRound (x * 10 ^ n), (real_exact _).2.2.2.1, ?_⟩
  unfold Reads at h
  simp only [realRoundArg, h, if_neg hne]

example : Reads ⟨id, fun k => 1 / 10 ^ k⟩ 2 ∧ Reads ⟨id, fun k => 1 / 10 ^ k⟩ (-1) ∧
    realRoundArg ⟨id, fun k => 1 / 10 ^ k⟩ (1 / 200) (.int 2) = .ok (.flt (.fin 0)) := by
  refine ⟨?_, ?_, ?_⟩
  · unfold Reads; decide +kernel
  · unfold Reads; decide +kernel
  · decide +kernel

/-- Disagreement: rounding to very many digits raises an error, though nothing has to be done. -/
theorem many_digits (E : Env) (x : ℚ) : realRoundArg E x (.int 400) = .error .overflow := by
  have : tenReal E 400 = .error .overflow := by
    rw [tenReal, if_pos (by norm_num), show (400 : Int).toNat = 400 from rfl, floatOfInt_huge]
    rfl
  simp only [realRoundArg, this]

/-- Disagreement: and so does rounding to a multiple of a huge number, as `10 ** -400` is 0; the result should be 0. -/
theorem few_digits (E : Env) (x : ℚ) (h : E.lit (E.tenth 400) = 0) : realRoundArg E x (.int (-400)) = .error .zeroDivision := by
  have : tenReal E (-400) = .ok 0 := by
    rw [tenReal, if_neg (by norm_num), show (-(-400) : Int).toNat = 400 from rfl, h]
  simp only [realRoundArg, this, if_true]

example : (⟨id, fun k => if k ≤ 323 then 1 / 10 ^ k else 0⟩ : Env).lit ((⟨id, fun k => if k ≤ 323 then 1 / 10 ^ k else 0⟩ : Env).tenth 400) = 0 := rfl

/-- Disagreement: the number of digits may be a float; this should be a `TypeError`. -/
theorem float_digits (E : Env) (x q power : ℚ) (h : E.lit power ≠ 0) : ∃ v, realRoundArg E x (.flt q power) = .ok v := by
  simp only [realRoundArg, if_neg h]
  exact ⟨_, rfl⟩

example : realRoundArg ⟨id, fun _ => 0⟩ (7 / 3) (.flt (3 / 2) (31622 / 1000)) = .ok (.flt (.fin (37000 / 15811))) := by decide +kernel

/-- C232: the integers that `as_integer_ratio` returns are those of the fraction in lowest terms, once its check has succeeded; before,
they are some multiple of these. -/
theorem ratio_exact (x : ℚ) (n d : Int) (h : ratioOk x n d) :
    (∃ k : Int, 0 < k ∧ n = k * x.num ∧ d = k * x.den) ∧ ∀ r : ℚ, ratioCheck r n d = true → r = x ∧ n = x.num ∧ d = x.den := by
  obtain ⟨hd, hn⟩ := h
  have hden : (0 : ℚ) < x.den := by exact_mod_cast x.den_pos
  have hx : x * x.den = x.num := Rat.mul_den_eq_num x
  have hcross : n * x.den = d * x.num := by
    have : (n : ℚ) * x.den = d * x.num := by rw [hn, mul_assoc, hx]
    exact_mod_cast this
  refine ⟨?_, fun r hr => ?_⟩
  · have hco : IsCoprime (x.den : Int) x.num := by
      rw [Int.isCoprime_iff_gcd_eq_one]
      have := x.reduced
      rw [Nat.coprime_comm] at this
      simpa [Int.gcd] using this
    have hdvd : (x.den : Int) ∣ d := hco.dvd_of_dvd_mul_right ⟨n, by linarith⟩
    obtain ⟨k, hk⟩ := hdvd
    have hdp : (0 : Int) < x.den := by exact_mod_cast x.den_pos
    refine ⟨k, ?_, ?_, by rw [hk]; ring⟩
    · by_contra hc
      have : (x.den : Int) * k ≤ 0 := mul_nonpos_of_nonneg_of_nonpos hdp.le (by omega)
      omega
    · have : n * x.den = k * x.num * x.den := by rw [hcross, hk]; ring
      exact mul_right_cancel₀ (ne_of_gt hdp) this
  · simp only [ratioCheck, Bool.and_eq_true, beq_iff_eq] at hr
    obtain ⟨h1, h2⟩ := hr
    have hrx : r = x := by
      have h3 : r * r.den = r.num := Rat.mul_den_eq_num r
      have hdq : (d : ℚ) = r.den := by rw [h2]; norm_cast
      have hnq : (n : ℚ) = r.num := by rw [h1]
      have hne : (r.den : ℚ) ≠ 0 := by exact_mod_cast r.den_nz
      apply mul_right_cancel₀ hne
      rw [h3, ← hnq, hn, hdq]
      ring
    exact ⟨hrx, by rw [h1, hrx], by rw [h2, hrx]⟩

example : ratioOk (3 / 4) 6 8 ∧ ratioCheck (3 / 4) 6 8 = false ∧ ratioCheck (3 / 4) 3 4 = true := by
  refine ⟨⟨by norm_num, by norm_num⟩, by decide +kernel, by decide +kernel⟩

/-! ### IEEE floats -/

/-- C233: the float that an integer becomes on a path with IEEE floats is the one it rounds to. Partial: an integer that is too large
becomes infinity (see `huge_integer`). -/
theorem int_float_partial (n : Int) : RoundsTo n (intToDouble n) := toDouble_rounds n

example : intToDouble (2 ^ 53 + 1) = .fin (2 ^ 53) ∧ intToDouble (2 ^ 53 + 3) = .fin (2 ^ 53 + 4) := by decide +kernel

/-- Disagreement: a huge symbolic integer becomes infinity, where Python raises an `OverflowError`. -/
theorem huge_integer : intToDouble (10 ^ 400) = .inf false ∧ floatOfInt (10 ^ 400) = .error .overflow := ⟨by decide +kernel, floatOfInt_huge⟩

/-- C233: `int` and `round` (without digits, or with 0 digits) of IEEE floats are Python's, also for infinity and NaN. -/
theorem ieee_exact (E : Env) (q : ℚ) :
    (∃ n, ieeeInt (.fin q) = .ok n ∧ Truncated q n) ∧
    (∃ n, ieeeRound E (.fin q) .none = .ok (.int n) ∧ NearestEven q n) ∧
    (∃ n : Int, ieeeRound E (.fin q) (.int 0) = .ok (.flt (.fin n)) ∧ NearestEven q n) ∧
    (∀ s, ieeeInt (.inf s) = .error .overflow ∧ ieeeRound E (.inf s) .none = .error .overflow ∧
      ieeeRound E (.inf s) (.int 0) = .ok (.flt (.inf s))) ∧
    ieeeInt .nan = .error .valueError ∧ ieeeRound E .nan .none = .error .valueError ∧ ieeeRound E .nan (.int 0) = .ok (.flt .nan) :=
  ⟨⟨_, rfl, (real_exact q).1⟩, ⟨_, rfl, nearest_nearestEven q⟩, ⟨_, rfl, nearest_nearestEven q⟩, fun _ => ⟨rfl, rfl, rfl⟩, rfl, rfl, rfl⟩

/-- C233: whether an IEEE float is an integer. Partial: for finite floats. -/
theorem ieee_is_integer_partial (q : ℚ) : ∃ b, ieeeIsInteger (.fin q) = .ok b ∧ (b = true ↔ ∃ n : Int, q = n) := by
  refine ⟨_, rfl, ?_⟩
  rw [beq_iff_eq, Fl.fin.injEq]
  constructor
  · exact fun h => ⟨_, h⟩
  · rintro ⟨n, rfl⟩
    rw [realTrunc]
    split
    · rw [Int.floor_intCast]
    · rw [show -(n : ℚ) = ((-n : Int) : ℚ) by push_cast; rfl, Int.floor_intCast, neg_neg]

/-- Disagreement: asked whether infinity or NaN is an integer, the float raises an error, where Python answers no. -/
theorem is_integer_infinite : (∀ s, ieeeIsInteger (.inf s) = .error .overflow) ∧ ieeeIsInteger .nan = .error .valueError := ⟨fun _ => rfl, rfl⟩

/-- Disagreement: the methods for the integer below, the integer above and the integer part give floats. -/
theorem floor_is_float (q : ℚ) : (∃ f, ieeeFloor (.fin q) = .ok (.flt f)) ∧ (∃ f, ieeeCeil (.fin q) = .ok (.flt f)) ∧
    ∃ f, ieeeTrunc (.fin q) = .ok (.flt f) := ⟨⟨_, rfl⟩, ⟨_, rfl⟩, ⟨_, rfl⟩⟩

/-- Disagreement: rounding a large float to digits gives infinity; it should stay as it is. -/
theorem round_large (E : Env) : IsDouble (2 ^ 1023) ∧ ieeeRound E (.fin (2 ^ 1023)) (.int 2) = .ok (.flt (.inf false)) := by
  refine ⟨⟨2 ^ 52, 971, ?_, by norm_num, by norm_num, by norm_num⟩, ?_⟩
  · rw [show (2 : ℚ) ^ (971 : Int) = 2 ^ 971 from zpow_natCast 2 971]
    rw [show (1023 : Nat) = 52 + 971 from rfl, pow_add]
    push_cast
    rfl
  · have h : tenFloat E 2 = .ok 100 := by
      rw [tenFloat, if_pos (by norm_num)]
      decide +kernel
    have h2 : toDouble (2 ^ 1023 * 100) = .inf false := by decide +kernel
    simp only [ieeeRound, h, Numeric.Py.fmul, h2, ieeeRound0, Numeric.Py.fdiv]
    decide +kernel

/-- Disagreement: the float 0.005 is slightly more than 1/200, but rounded to two digits it becomes 0.0 instead of 0.01, since the
product with 100 is rounded, too. -/
theorem round_twice (E : Env) : ∃ x : ℚ, RoundsTo (1 / 200) (.fin x) ∧ NearestEven (x * 100) 1 ∧
    ieeeRound E (.fin x) (.int 2) = .ok (.flt (.fin 0)) := by
  refine ⟨5764607523034235 / 1152921504606846976, ?_, ?_, ?_⟩
  · have h : toDouble (1 / 200) = .fin (5764607523034235 / 1152921504606846976) := by decide +kernel
    rw [← h]
    exact toDouble_rounds _
  · refine nearestEven_of _ _ ?_ fun h => ?_
    · rw [abs_le]; norm_num
    · rw [abs_of_nonpos (by norm_num)] at h
      norm_num at h
  · have h : tenFloat E 2 = .ok 100 := by
      rw [tenFloat, if_pos (by norm_num)]
      decide +kernel
    have h2 : toDouble (5764607523034235 / 1152921504606846976 * 100) = .fin (1 / 2) := by decide +kernel
    simp only [ieeeRound, h, Numeric.Py.fmul, h2, ieeeRound0]
    decide +kernel

/-! ### Texts -/

/-- C234: on a path with real numbers, the float of a text is the number that the text denotes, for all texts without exponents, spaces,
underscores and names; all other texts are left to Python. Partial: if the solver reads the powers of ten exactly, which fails for more
than 308 digits (see `long_fraction`). -/
theorem real_text_partial (E : Env) (s : List Char) (hE : ∀ k : Nat, k ≤ s.length → Reads E k) :
    (∀ q, realFloat E s = some (.ok q) ↔ Literal s q) ∧ (realFloat E s = none ↔ ¬∃ q, Literal s q) := by
  have key : ∀ p, floatMatch s = some p → realFloat E s = some (.ok (value p)) := by
    rintro ⟨sign, i, f⟩ hp
    have hlen : ∀ fs, f = some fs → fs.length ≤ s.length := by
      rintro fs rfl
      unfold floatMatch at hp
      obtain ⟨⟨i', f'⟩, h1, h2⟩ := Option.map_eq_some_iff.1 hp
      cases h2
      obtain ⟨_, _, ⟨h, _⟩ | ⟨fs', h, _, h3⟩⟩ := (splitPoint_iff _ _ _).1 h1
      · cases h
      · cases h
        have h4 : (splitSign s).2.length ≤ s.length := by
          unfold splitSign
          split <;> simp
        have h5 := congrArg List.length h3
        simp only [List.length_append, List.length_cons] at h5
        omega
    unfold realFloat
    rw [hp]
    simp only [Option.map_some, Option.some.injEq]
    rcases f with _ | _ | ⟨c, fs⟩
    · simp [value, Except.map]
    · simp [value, Except.map, digits]
    · have := hE (c :: fs).length (hlen _ rfl)
      unfold Reads at this
      simp only [this, Except.map, value]
      congr 1
  refine ⟨fun q => ?_, ?_⟩
  · rw [literal_iff]
    constructor
    · intro h
      cases hp : floatMatch s with
      | none => rw [realFloat, hp] at h; cases h
      | some p =>
        rw [key p hp] at h
        exact ⟨p, rfl, by cases h; rfl⟩
    · rintro ⟨p, hp, rfl⟩
      exact key p hp
  · constructor
    · rintro h ⟨q, hq⟩
      obtain ⟨p, hp, _⟩ := (literal_iff s q).1 hq
      rw [key p hp] at h
      cases h
    · intro h
      cases hp : floatMatch s with
      | none => rw [realFloat, hp]; rfl
      | some p => exact absurd ⟨value p, (literal_iff s _).2 ⟨p, hp, rfl⟩⟩ h

theorem reads_id (k : Nat) (h : k ≤ 22) : Reads ⟨id, fun _ => 0⟩ k := by
  unfold Reads
  interval_cases k <;> decide +kernel

example : realFloat ⟨id, fun _ => 0⟩ ['-', '1', '.', '1', '4'] = some (.ok (-57 / 50)) ∧ Literal ['-', '1', '.', '1', '4'] (-57 / 50) := by
  have h : realFloat ⟨id, fun _ => 0⟩ ['-', '1', '.', '1', '4'] = some (.ok (-57 / 50)) := by decide +kernel
  exact ⟨h, ((real_text_partial _ _ fun k hk => reads_id k (by simp at hk; omega)).1 _).1 h⟩
example : realFloat ⟨id, fun _ => 0⟩ ['1', 'e', '5'] = none := by decide +kernel

/-- C234: on a path with IEEE floats, the float of a text is the one that the number rounds to. Partial: for texts without digits after
the point, and for texts that begin with 0 and have at most 15 digits after the point (see `text_rounded_twice`). -/
theorem ieee_text_partial (E : Env) (i fs : List Char) (hi : i ≠ []) (hd : i.all isDigit = true) (hf : fs.all isDigit = true) :
    (∃ f, ieeeFloat E i = some (.ok f) ∧ RoundsTo (digits i) f) ∧
    (fs.length ≤ 15 → digits i = 0 → ∃ f, ieeeFloat E (i ++ '.' :: fs) = some (.ok f) ∧ RoundsTo (digits fs / 10 ^ fs.length) f) := by
  have hm : ∀ t f, splitPoint (i ++ t) = some (i, f) → floatMatch (i ++ t) = some (none, i, f) := by
    intro t f h
    rw [floatMatch, splitSign_unsigned _ (digits_unsigned i t hi hd)]
    simp only [h, Option.map_some]
  constructor
  · have h1 : floatMatch i = some (none, i, none) := by
      have := hm [] none ((splitPoint_iff _ _ _).2 ⟨hi, hd, .inl ⟨rfl, by rw [List.append_nil]⟩⟩)
      rwa [List.append_nil] at this
    refine ⟨intToDouble (digits i), ?_, ?_⟩
    · simp [ieeeFloat, h1, Except.map]
    · exact toDouble_rounds ((digits i : Int) : ℚ)
  · intro hlen h0
    have h1 := hm ('.' :: fs) (some fs) ((splitPoint_iff _ _ _).2 ⟨hi, hd, .inr ⟨fs, rfl, hf, rfl⟩⟩)
    have hzero : intToDouble 0 = .fin 0 := by decide +kernel
    cases fs with
    | nil =>
      refine ⟨.fin 0, ?_, ?_⟩
      · simp [ieeeFloat, h1, Except.map, h0, hzero]
      · have := toDouble_rounds 0
        have e : toDouble 0 = .fin 0 := rfl
        rw [e] at this
        simpa [digits] using this
    | cons c cs =>
      obtain ⟨k, hk⟩ : ∃ k, k = (c :: cs).length := ⟨_, rfl⟩
      obtain ⟨v, hv⟩ : ∃ v, v = digits (c :: cs) := ⟨_, rfl⟩
      rw [← hk] at hlen
      have hvlt : v < 10 ^ k := by
        rw [hv, hk]
        clear h1 hk hv hlen
        have main : ∀ l : List Char, l.all isDigit = true → digits l < 10 ^ l.length := by
          intro l
          induction l using List.reverseRecOn with
          | nil => intro _; exact Nat.one_pos
          | append_singleton l a ih =>
            intro h
            rw [List.all_append, Bool.and_eq_true] at h
            have h2 := ih h.1
            have h3 : a.toNat - 48 ≤ 9 := by
              have : '0' ≤ a ∧ a ≤ '9' := by simpa [isDigit] using h.2
              have h4 : a.toNat ≤ 57 := this.2
              omega
            rw [digits_snoc, List.length_append, List.length_singleton, pow_succ]
            omega
        exact main _ hf
      have hten : tenFloat E (k : Int) = .ok (10 ^ k) := by
        rw [tenFloat, if_pos (by omega), Int.toNat_natCast, floatOfInt_ten k (by omega)]
      have hvd : intToDouble (v : Int) = .fin v := by
        have h15 : v < 2 ^ 53 := by
          have : (10 : Nat) ^ k ≤ 10 ^ 15 := Nat.pow_le_pow_right (by norm_num) hlen
          have : (10 : Nat) ^ 15 < 2 ^ 53 := by norm_num
          omega
        have := toDouble_double ((v : Int) : ℚ) ⟨v, 0, by simp, by rw [abs_of_nonneg (by omega)]; exact_mod_cast h15, by norm_num, by norm_num⟩
        rw [intToDouble, this, Int.cast_natCast]
      have hne : ((10 : ℚ) ^ k) ≠ 0 := by positivity
      have hdiv : Numeric.Py.fdiv toDouble (.fin v) (.fin (10 ^ k)) = .ok (toDouble (v / 10 ^ k)) := by
        unfold Numeric.Py.fdiv
        rw [if_neg (by simpa using hne)]
      have hr := toDouble_rounds ((v : ℚ) / 10 ^ k)
      have hsum : Numeric.Py.fadd toDouble (.fin 0) (toDouble ((v : ℚ) / 10 ^ k)) = toDouble ((v : ℚ) / 10 ^ k) := by
        generalize toDouble ((v : ℚ) / 10 ^ k) = f at hr
        cases f with
        | nan => rfl
        | inf s => rfl
        | fin d =>
          simp only [Numeric.Py.fadd, zero_add]
          exact toDouble_double d hr.2.1
      refine ⟨toDouble (v / 10 ^ k), ?_, by rw [← hk, ← hv]; exact hr⟩
      have hten' : tenFloat E (((c :: cs).length : Nat) : Int) = .ok (10 ^ k) := by rw [← hk]; exact hten
      unfold ieeeFloat
      rw [h1]
      simp only [Option.map_some, hten', ← hv, hvd, hdiv, Except.map, h0]
      rw [show intToDouble ((0 : Nat) : Int) = .fin 0 from hzero, hsum]
      rfl

example : ieeeFloat ⟨id, fun _ => 0⟩ ['0', '.', '1'] = some (.ok (.fin (3602879701896397 / 36028797018963968))) := by decide +kernel

/-- Disagreement: the text `1.14` becomes the float after the nearest one, as the fraction and the sum are both rounded. -/
theorem text_rounded_twice : ∃ d : ℚ, ieeeFloat ⟨id, fun _ => 0⟩ ['1', '.', '1', '4'] = some (.ok (.fin d)) ∧ Literal ['1', '.', '1', '4'] (57 / 50) ∧
    ¬RoundsTo (57 / 50) (.fin d) := by
  refine ⟨2567051787601183 / 2251799813685248, by decide +kernel, ?_, ?_⟩
  · have h : realFloat ⟨id, fun _ => 0⟩ ['1', '.', '1', '4'] = some (.ok (57 / 50)) := by decide +kernel
    exact ((real_text_partial _ _ fun k hk => reads_id k (by simp at hk; omega)).1 _).1 h
  · intro h
    have hd : IsDouble (5134103575202365 / 4503599627370496) := ⟨5134103575202365, -52, by norm_num, by norm_num, by norm_num, by norm_num⟩
    have := h.2.2.1 _ hd
    rw [abs_of_nonpos (by norm_num), abs_of_nonneg (by norm_num)] at this
    norm_num at this

/-- Disagreement: a text with 400 digits after the point raises an `OverflowError`. -/
theorem long_fraction (E : Env) : realFloat E (['0', '.'] ++ List.replicate 400 '1') = some (.error .overflow) ∧
    ieeeFloat E (['0', '.'] ++ List.replicate 400 '1') = some (.error .overflow) := by
  have hm : floatMatch (['0', '.'] ++ List.replicate 400 '1') = some (none, ['0'], some (List.replicate 400 '1')) := by decide +kernel
  have h1 : tenReal E 400 = .error .overflow := by
    rw [tenReal, if_pos (by norm_num), show (400 : Int).toNat = 400 from rfl, floatOfInt_huge]
    rfl
  have h2 : tenFloat E 400 = .error .overflow := by
    rw [tenFloat, if_pos (by norm_num), show (400 : Int).toNat = 400 from rfl, floatOfInt_huge]
  have hr : List.replicate 400 '1' = '1' :: List.replicate 399 '1' := rfl
  have hl : ((('1' :: List.replicate 399 '1').length : Nat) : Int) = 400 := by rw [List.length_cons, List.length_replicate]; rfl
  rw [hr] at hm
  unfold realFloat ieeeFloat
  rw [hr, hm]
  simp only [Option.map_some, hl, h1, h2, Except.map, and_self]

end Verif.Floats
