/- Theorems about the exponential and the logarithms of decimals. -/
import Verif.DecimalFunctions.Exp
import Verif.DecimalFunctions.Ends

namespace Verif.DecimalFunctions
open Verif.Decimal

/-! ### Integers -/

/-- Division of integers, and shifting to the right, give the nearest integer, the even one of two. -/
theorem nearest_quotient (a : ℤ) {b : ℤ} (hb : 0 < b) (s : ℕ) :
    IsNearestEven ((a : ℚ) / b) (divNearest a b) ∧ IsNearestEven ((a : ℚ) / 2 ^ s) (rshiftNearest a s) :=
  ⟨divNearest_spec a hb, rshiftNearest_spec a s⟩

example : divNearest (-5) 2 = -2 ∧ divNearest 7 2 = 4 ∧ rshiftNearest 10 2 = 2 ∧ rshiftNearest (-11) 2 = -3 := by decide

/-- The nearest integer to a square root is found from any positive first guess. -/
theorem nearest_root {n a : ℤ} (hn : 0 < n) (ha : 0 < a) : ∃ r, sqrtNearest n a = some r ∧ 0 < r ∧ |(r : ℝ) - Real.sqrt n| < 1 / 2 := by
  obtain ⟨r, h1, h2⟩ := sqrtNearest_spec hn ha
  exact ⟨r, h1, by have := h2.1; omega, h2.err⟩

example : sqrtNearest 7 1 = some 3 ∧ sqrtNearest 6 100 = some 2 ∧ sqrtNearest 0 1 = none := by decide

/-- An integer is shifted by powers of ten only if nothing is lost. -/
theorem shift_exactly (n e : ℤ) :
    (∀ m, lshiftExact n e = some m → (m : ℚ) = n * 10 ^ e) ∧ (lshiftExact n e = none → ¬ ∃ m : ℤ, (m : ℚ) = n * 10 ^ e) := lshiftExact_spec n e

example : lshiftExact 1200 (-2) = some 12 ∧ lshiftExact 1200 (-3) = none ∧ lshiftExact (-7) 2 = some (-700) := by decide

/-! ### Digits of the logarithm of ten -/

/-- The digits that can be stored after any calls. -/
inductive Stored : Digits → Prop
  | first : Stored firstDigits
  | call {ds ds' : Digits} {fuel p r : ℕ} : Stored ds → getDigits fuel ds p = some (ds', r) → Stored ds'

/-- Whatever was asked before, the first digits of the logarithm of ten are found, and they are right: cut off, not rounded. -/
theorem log_ten_digits {ds : Digits} (h : Stored ds) (p : ℕ) :
    ∃ ds' r fuel, (∀ fuel' ≥ fuel, getDigits fuel' ds p = some (ds', r)) ∧ (r : ℤ) = ⌊(10 : ℝ) ^ p * Real.log 10⌋ := by
  have key : IsTenDigits ds := by
    induction h with
    | first => exact firstDigits_spec
    | call _ hg ih => exact (getDigits_spec ih hg).1
  obtain ⟨s, r, fuel, hf⟩ := getDigits_ends ds p
  exact ⟨s, r, fuel, hf, (getDigits_spec key (hf fuel (le_refl _))).2⟩

example : Stored firstDigits ∧ (getDigits 5 firstDigits 4).map Prod.snd = some 23025 ∧ (getDigits 1 firstDigits 50).map Prod.snd = some 230258509299404568401799145468436420760110148862877 :=
  ⟨.first, by decide +kernel, by decide +kernel⟩

/-! ### Approximations in integers -/

/-- The logarithms, the natural and the decimal one, of a positive number `c * 10 ^ e`, in units of `10 ^ -p`: the error is below one. -/
theorem logarithm_approximations {ten : ℕ → ℤ} (ht : IsLogTen ten) {c : ℤ} (hc : 0 < c) (e p : ℤ) :
    (∃ r, dlog ten c e p = some r ∧ |(r : ℝ) - 10 ^ p * Real.log (c * 10 ^ e)| < 1) ∧
    (∃ r, dlog10 ten c e p = some r ∧ |(r : ℝ) - 10 ^ p * (Real.log (c * 10 ^ e) / Real.log 10)| < 1) :=
  ⟨dlog_spec ht hc e p, dlog10_spec ht hc e p⟩

/-- The digits of the logarithm of ten, in general. -/
noncomputable def trueTen (p : ℕ) : ℤ := ⌊(10 : ℝ) ^ p * Real.log 10⌋

theorem trueTen_ok : IsLogTen trueTen := fun _ => rfl

example : dlog (fun p => (getDigits 5 firstDigits p).elim 0 (·.2)) 2 0 6 = some 693147 ∧ dlog10 (fun p => (getDigits 5 firstDigits p).elim 0 (·.2)) 2 0 6 = some 301030 :=
  ⟨by decide +kernel, by decide +kernel⟩

/-- The exponential of `c * 10 ^ e` to `p` digits: the error is below two thirds of the last one. -/
theorem exponential_approximation {ten : ℕ → ℤ} (ht : IsLogTen ten) (c e p : ℤ) (hp : 3 ≤ p) {d f : ℤ} (h : dexp ten c e p = (d, f)) :
    |(d : ℝ) - Real.exp (c * 10 ^ e) / 10 ^ f| < 1 ∧ (10 : ℝ) ^ (p - 1) ≤ d :=
  let ⟨h1, h2, _⟩ := dexp_spec ht c e p hp h
  ⟨by linarith, h2⟩

example : dexp (fun p => (getDigits 5 firstDigits p).elim 0 (·.2)) 1 0 6 = (271828, -5) ∧ dexp (fun p => (getDigits 5 firstDigits p).elim 0 (·.2)) (-15) (-1) 4 = (2231, -4) :=
  ⟨by decide +kernel, by decide +kernel⟩

/-! ### The functions -/

/-- The exponential of every number but zero is the true one, rounded once half to even, with its signals; the search for enough digits ends. -/
theorem exponential {ten : ℕ → ℤ} (ht : IsLogTen ten) {c : Ctx} (hc : c.Ok) (s : Bool) {i : Digits} (hi : IsCoeff i) (h0 : i ≠ [0]) (e : ℤ) :
    ∃ o, IsRounded c (Real.exp (finValue s i e)) o ∧ ∃ fuel, ∀ fuel' ≥ fuel, exp ten fuel' c (.fin s i e) = some o := by
  obtain ⟨o, h1, fuel, h2⟩ := expFin_spec ht hc s hi h0 e
  refine ⟨o, h1, fuel, fun f hf => ?_⟩
  rw [← h2 f hf]
  show (if (i == [0]) = true then _ else _) = _
  rw [if_neg (by simpa using h0)]

example : IsCoeff [1, 5] ∧ exp (fun p => (getDigits 5 firstDigits p).elim 0 (·.2)) 5 small (.fin true [1, 5] (-1)) = some ([.inexact, .rounded], .fin false [2, 2, 3] (-3)) ∧
    exp (fun p => (getDigits 5 firstDigits p).elim 0 (·.2)) 5 small (.fin false [1, 5] (-9)) = some ([.inexact, .rounded], .fin false [1, 0, 0] (-2)) ∧
    exp (fun p => (getDigits 5 firstDigits p).elim 0 (·.2)) 5 small (.fin false [1, 5] 3) = some ([.overflow, .inexact, .rounded], .inf false) :=
  ⟨.inr ⟨1, [5], rfl, by simp⟩, by decide +kernel, by decide +kernel, by decide +kernel⟩

/-- The other exponentials. -/
theorem exponential_special (ten : ℕ → ℤ) (fuel : ℕ) (c : Ctx) (s : Bool) (e : ℤ) :
    exp ten fuel c (.fin s [0] e) = some ([], .fin false [1] 0) ∧ exp ten fuel c (.inf true) = some ([], .fin false [0] 0) ∧
    exp ten fuel c (.inf false) = some ([], .inf false) := ⟨rfl, rfl, rfl⟩

example : exp (fun _ => 0) 0 small (.fin true [0] 3) = some ([], .fin false [1] 0) := by decide

theorem is_one (c : Ctx) (s : Bool) {i : Digits} (hi : IsCoeff i) (e : ℤ) :
    (eq c (.fin s i e) (.fin false [1] 0)).2 = true ↔ (finValue s i e : ℚ) = 1 := by
  have h := (comparisons c (a := .fin s i e) (b := .fin false [1] 0) hi (.inr ⟨1, [], rfl, by simp⟩) (fun ⟨_, _, _, h⟩ => by cases h)
    (fun ⟨_, _, _, h⟩ => by cases h)).2.2.2.2.2.2.2.2.2
  rw [h]
  show (finValue s i e : ℚ) = finValue false [1] 0 ↔ _
  have : (finValue false [1] 0 : ℚ) = 1 := by simp [finValue, number]
  rw [this]

theorem value_cast (s : Bool) (i : Digits) (e : ℤ) : (((finValue s i e : ℚ)) : ℝ) = finValue s i e := by
  unfold finValue
  cases s <;> push_cast <;> simp

theorem value_positive {i : Digits} (hi : IsCoeff i) (h0 : i ≠ [0]) (e : ℤ) : 0 < number i ∧ (finValue false i e : ℝ) = ((toInt i : ℕ) : ℤ) * 10 ^ e := by
  refine ⟨?_, by simp [finValue, toInt_eq]⟩
  have := hi.ge h0
  have h1 : 0 < 10 ^ (i.length - 1) := Nat.pow_pos (by omega)
  omega

/-- The natural logarithm of every positive number but one is the true one, rounded once half to even; the search for enough digits ends. -/
theorem natural_logarithm {ten : ℕ → ℤ} (ht : IsLogTen ten) {c : Ctx} (hc : c.Ok) {i : Digits} (hi : IsCoeff i) (h0 : i ≠ [0]) (e : ℤ)
    (h1 : (finValue false i e : ℝ) ≠ 1) :
    ∃ o, IsRounded c (Real.log (finValue false i e)) o ∧ ∃ fuel, ∀ fuel' ≥ fuel, ln ten fuel' c (.fin false i e) = some o := by
  obtain ⟨hn, hv⟩ := value_positive hi h0 e
  have hv' : (finValue false i e : ℝ) = number i * 10 ^ e := by simp [finValue]
  have hirr : Irrational (Real.log (finValue false i e)) := by
    rw [← value_cast]
    refine log_irrational ?_ ?_
    · simp only [finValue, Bool.false_eq_true, if_false, one_mul]
      have : (0 : ℚ) < number i := by exact_mod_cast hn
      have := ten_pos (K := ℚ) e
      positivity
    · intro h
      exact h1 (by rw [← value_cast, h]; norm_num)
  have happ : ∀ q : ℤ, ∃ r, dlog ten (toInt i) e q = some r ∧ |(r : ℝ) - 10 ^ q * Real.log (finValue false i e)| < 1 := by
    intro q
    rw [hv]
    exact dlog_spec ht (by rw [toInt_eq]; exact_mod_cast hn) e q
  obtain ⟨fuel, r, hr⟩ := logLoop_ends hirr happ c.prec (c.prec - lnBound i e + 2)
  refine ⟨logResult c r, ?_, fuel, fun f hf => ?_⟩
  · obtain ⟨g1, g2, g3⟩ := logLoop_spec hr
    obtain ⟨r', k1, k2⟩ := happ r.2
    rw [g1] at k1
    obtain rfl := Option.some.inj k1
    refine rounded_of_clear hc k2 ?_ g2
    have hb := lnBound_spec hi h0 e (by rw [← hv']; exact h1)
    rw [hv']
    calc (10 : ℝ) ^ (c.prec : ℤ) ≤ 10 ^ (lnBound i e + r.2) := ten_le.2 (by omega)
      _ = 10 ^ lnBound i e * 10 ^ r.2 := ten_add _ _
      _ ≤ _ := mul_le_mul_of_nonneg_right hb (ten_pos _).le
  · have e1 : ¬ (eq c (.fin false i e) (.fin false [1] 0)).2 = true := by
      rw [is_one c false hi e]
      intro h
      exact h1 (by rw [← value_cast, h]; norm_num)
    show (if (i == [0]) = true then _ else _) = _
    rw [if_neg (by simpa using h0), if_neg e1]
    simp only [Bool.false_eq_true, if_false]
    rw [logLoop_mono hr hf]; rfl

example : IsCoeff [2] ∧ ln (fun p => (getDigits 5 firstDigits p).elim 0 (·.2)) 5 small (.fin false [2] 0) = some ([.inexact, .rounded], .fin false [6, 9, 3] (-3)) ∧
    ln (fun p => (getDigits 5 firstDigits p).elim 0 (·.2)) 5 small (.fin false [9, 9, 9] (-3)) = some ([.inexact, .rounded], .fin true [1, 0, 0] (-5)) :=
  ⟨.inr ⟨2, [], rfl, by simp⟩, by decide +kernel, by decide +kernel⟩

/-- The natural logarithm of one, however it is written, is zero; of zero, minus infinity; and negative numbers have none. -/
theorem natural_logarithm_special (ten : ℕ → ℤ) (fuel : ℕ) (c : Ctx) (s : Bool) {i : Digits} (hi : IsCoeff i) (h0 : i ≠ [0]) (e : ℤ) :
    ln ten fuel c (.fin s [0] e) = some ([], .inf true) ∧ ((finValue s i e : ℝ) = 1 → ln ten fuel c (.fin s i e) = some ([], .fin false [0] 0)) ∧
    ln ten fuel c (.fin true i e) = some ([.invalidOperation], .NaN) ∧ ln ten fuel c (.inf false) = some ([], .inf false) ∧
    ln ten fuel c (.inf true) = some ([.invalidOperation], .NaN) := by
  refine ⟨rfl, fun h1 => ?_, ?_, rfl, rfl⟩
  · show (if (i == [0]) = true then _ else _) = _
    rw [if_neg (by simpa using h0), if_pos]
    rw [is_one c s hi e]
    rw [← value_cast] at h1
    exact_mod_cast h1
  · show (if (i == [0]) = true then _ else _) = _
    rw [if_neg (by simpa using h0), if_neg]
    · rfl
    · rw [is_one c true hi e]
      intro h
      simp only [finValue, if_true] at h
      have : (0 : ℚ) ≤ number i * 10 ^ e := mul_nonneg (by positivity) (ten_pos e).le
      linarith

example : ln (fun _ => 0) 0 small (.fin false [1, 0, 0] (-2)) = some ([], .fin false [0] 0) ∧ ln (fun _ => 0) 0 small (.fin true [1] 0) = some ([.invalidOperation], .NaN) := by
  decide +kernel

/-- A coefficient is a power of ten exactly if its digits are a one and zeros. -/
theorem power_of_ten {i : Digits} (hi : IsCoeff i) (h0 : i ≠ [0]) :
    (i.take 1 == [1] && i.drop 1 == List.replicate (i.length - 1) 0) = true ↔ ∃ k, number i = 10 ^ k := by
  have hb1 := hi.ge h0
  have hb2 := hi.lt
  have hl := hi.length_pos
  rw [Bool.and_eq_true, beq_iff_eq, beq_iff_eq]
  have hone : number ([1] ++ List.replicate (i.length - 1) 0) = 10 ^ (i.length - 1) := by
    rw [number_append, number_zeros, List.length_replicate]; simp [number]
  constructor
  · rintro ⟨h1, h2⟩
    refine ⟨i.length - 1, ?_⟩
    have : i = [1] ++ List.replicate (i.length - 1) 0 := by
      conv_lhs => rw [← List.take_append_drop 1 i, h1, h2]
    rw [this, hone]
    simp
  · rintro ⟨k, hk⟩
    have hk2 : k = i.length - 1 := by
      rw [hk] at hb1 hb2
      have a1 := (Nat.pow_le_pow_iff_right (by omega : 1 < 10)).1 hb1
      have a2 := (Nat.pow_lt_pow_iff_right (by omega : 1 < 10)).1 hb2
      omega
    have : i = [1] ++ List.replicate (i.length - 1) 0 := by
      apply number_inj
      · simp; omega
      · rcases hi with rfl | ⟨d, rest, rfl, -, h⟩
        · simp
        · exact h
      · intro x hx
        simp only [List.mem_append, List.mem_singleton, List.mem_replicate] at hx
        omega
      · rw [hone, hk, hk2]
    constructor
    · rw [this]; rfl
    · conv_lhs => rw [this]
      simp

/-- The decimal logarithm of every positive number that is not a power of ten is the true one, rounded once half to even; the search for
enough digits ends. -/
theorem decimal_logarithm {ten : ℕ → ℤ} (ht : IsLogTen ten) {c : Ctx} (hc : c.Ok) {i : Digits} (hi : IsCoeff i) (h0 : i ≠ [0]) (e : ℤ)
    (h1 : ∀ n : ℤ, (finValue false i e : ℝ) ≠ 10 ^ n) :
    ∃ o, IsRounded c (Real.logb 10 (finValue false i e)) o ∧ ∃ fuel, ∀ fuel' ≥ fuel, log10 ten fuel' c (.fin false i e) = some o := by
  obtain ⟨hn, hv⟩ := value_positive hi h0 e
  have hv' : (finValue false i e : ℝ) = number i * 10 ^ e := by simp [finValue]
  have hnp : ∀ k, number i ≠ 10 ^ k := by
    intro k hk
    refine h1 (k + e) ?_
    rw [hv', hk, ten_add, zpow_natCast]; push_cast; rfl
  have hirr : Irrational (Real.logb 10 (finValue false i e)) := by
    rw [hv']; exact log10_irrational (by omega) e hnp
  have happ : ∀ q : ℤ, ∃ r, dlog10 ten (toInt i) e q = some r ∧ |(r : ℝ) - 10 ^ q * Real.logb 10 (finValue false i e)| < 1 := by
    intro q
    rw [hv]
    exact dlog10_spec ht (by rw [toInt_eq]; exact_mod_cast hn) e q
  obtain ⟨fuel, r, hr⟩ := logLoop_ends hirr happ c.prec (c.prec - log10Bound i e + 2)
  refine ⟨logResult c r, ?_, fuel, fun f hf => ?_⟩
  · obtain ⟨g1, g2, g3⟩ := logLoop_spec hr
    obtain ⟨r', k1, k2⟩ := happ r.2
    rw [g1] at k1
    obtain rfl := Option.some.inj k1
    refine rounded_of_clear hc k2 ?_ g2
    have hb := log10Bound_spec hi h0 e (by rw [← hv']; simpa using h1 0)
    rw [hv']
    calc (10 : ℝ) ^ (c.prec : ℤ) ≤ 10 ^ (log10Bound i e + r.2) := ten_le.2 (by omega)
      _ = 10 ^ log10Bound i e * 10 ^ r.2 := ten_add _ _
      _ ≤ _ := mul_le_mul_of_nonneg_right hb (ten_pos _).le
  · show (if (i == [0]) = true then _ else _) = _
    rw [if_neg (by simpa using h0)]
    simp only [Bool.false_eq_true, if_false]
    rw [if_neg (by rw [power_of_ten hi h0]; rintro ⟨k, hk⟩; exact hnp k hk), logLoop_mono hr hf]; rfl

example : IsCoeff [2] ∧ log10 (fun p => (getDigits 5 firstDigits p).elim 0 (·.2)) 5 small (.fin false [2] 0) = some ([.inexact, .rounded], .fin false [3, 0, 1] (-3)) ∧
    log10 (fun p => (getDigits 5 firstDigits p).elim 0 (·.2)) 5 small (.fin false [5] 7) = some ([.inexact, .rounded], .fin false [7, 7, 0] (-2)) :=
  ⟨.inr ⟨2, [], rfl, by simp⟩, by decide +kernel, by decide +kernel⟩

/-- The decimal logarithm of a power of ten is an integer, rounded only if it has too many digits. -/
theorem decimal_logarithm_power (ten : ℕ → ℤ) (fuel : ℕ) {c : Ctx} (hc : c.Ok) {i : Digits} (hi : IsCoeff i) (h0 : i ≠ [0]) (e n : ℤ)
    (h1 : (finValue false i e : ℝ) = 10 ^ n) :
    ∃ o, log10 ten fuel c (.fin false i e) = some o ∧ IsResult { c with rounding := .halfEven } (n : ℝ) false 0 o := by
  have hb1 := hi.ge h0
  have hb2 := hi.lt
  have hl := hi.length_pos
  have hv' : (finValue false i e : ℝ) = number i * 10 ^ e := by simp [finValue]
  rw [hv'] at h1
  obtain ⟨a1, a2⟩ := hi.adj (K := ℝ) h0 e
  rw [h1] at a1 a2
  have hn : n = e + i.length - 1 := by
    have b1 := ten_le.1 a1
    have b2 := ten_lt.1 a2
    omega
  have hpow : ∃ k, number i = 10 ^ k := by
    refine ⟨i.length - 1, ?_⟩
    have h2 : (number i : ℝ) = 10 ^ (i.length - 1) := by
      have h3 : (number i : ℝ) = 10 ^ n / 10 ^ e := by rw [← h1]; field_simp
      rw [h3, ← ten_sub, ← zpow_natCast]
      congr 1; omega
    exact_mod_cast h2
  have hres : log10 ten fuel c (.fin false i e) = some (finish c (decide (n < 0)) (str n.natAbs) 0) := by
    show (if (i == [0]) = true then _ else _) = _
    rw [if_neg (by simpa using h0)]
    simp only [Bool.false_eq_true, if_false]
    rw [if_pos ((power_of_ten hi h0).2 hpow), hn]
  refine ⟨_, hres, ?_⟩
  have hr := fix_result (K := ℝ) (c := { c with rounding := .halfEven }) ⟨hc.prec, hc.emin, hc.emax⟩ (decide (n < 0)) (isCoeff_str n.natAbs) 0
  have hval : (finValue (decide (n < 0)) (str n.natAbs) 0 : ℝ) = n := by
    unfold finValue
    rw [number_str, zpow_zero, mul_one]
    have e5 : ((n.natAbs : ℕ) : ℝ) = |(n : ℝ)| := by
      rw [← Int.cast_natCast, Int.natCast_natAbs]; push_cast; rfl
    rw [e5]
    by_cases h : n < 0
    · have : (n : ℝ) < 0 := by exact_mod_cast h
      simp [h, abs_of_neg this]
    · have : (0 : ℝ) ≤ n := by exact_mod_cast not_lt.1 h
      simp [h, abs_of_nonneg this]
  rw [hval] at hr
  refine hr.sign fun h => ?_
  have : n = 0 := by exact_mod_cast h
  simp [this]

example : IsCoeff [1, 0] ∧ log10 (fun _ => 0) 0 small (.fin false [1, 0] (-4)) = some ([], .fin true [3] 0) :=
  ⟨.inr ⟨1, [0], rfl, by simp⟩, by decide +kernel⟩

/-- The decimal logarithm of zero is minus infinity, and negative numbers have none. -/
theorem decimal_logarithm_special (ten : ℕ → ℤ) (fuel : ℕ) (c : Ctx) (s : Bool) {i : Digits} (h0 : i ≠ [0]) (e : ℤ) :
    log10 ten fuel c (.fin s [0] e) = some ([], .inf true) ∧ log10 ten fuel c (.fin true i e) = some ([.invalidOperation], .NaN) ∧
    log10 ten fuel c (.inf false) = some ([], .inf false) ∧ log10 ten fuel c (.inf true) = some ([.invalidOperation], .NaN) := by
  refine ⟨rfl, ?_, rfl, rfl⟩
  show (if (i == [0]) = true then _ else _) = _
  rw [if_neg (by simpa using h0)]; rfl

example : log10 (fun _ => 0) 0 small (.fin true [5] 0) = some ([.invalidOperation], .NaN) := by decide

/-- NaNs are passed on, quieted and cut to what there is room for; signaling ones are invalid. -/
theorem function_nan (ten : ℕ → ℤ) (fuel : ℕ) (c : Ctx) (s : Bool) {p : Digits} (g : Bool) (hp : ∀ x ∈ p, x < 10) :
    ∃ r, IsQuieted c s p r ∧ ∀ op ∈ [exp ten fuel c, ln ten fuel c, log10 ten fuel c], op (.nan s p g) = some (if g then [.invalidOperation] else [], r) := by
  obtain ⟨r, h1, h2⟩ := checkNans_spec c (a := .nan s p g) (b := .inf false) (s := s) (p := p) (g := g) (by cases g <;> rfl) hp
  refine ⟨r, h2, ?_⟩
  have h1' : checkNan c (.nan s p g) = _ := h1
  intro op hop
  simp only [List.mem_cons, List.not_mem_nil, or_false] at hop
  rcases hop with rfl | rfl | rfl
  · simp only [exp, h1']
  · simp only [ln, h1']
  · simp only [log10, h1']

example : exp (fun _ => 0) 0 small (.nan true [7] true) = some ([.invalidOperation], .nan true [7] false) := by decide

end Verif.DecimalFunctions
