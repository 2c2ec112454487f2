/- Theorems about the ways to make decimals. -/
import Verif.DecimalMake.Spec
import Verif.DecimalDigits.Props2
import Verif.Decimal.Props

namespace Verif.DecimalMake
open Verif.Decimal Verif.DecimalMore Verif.DecimalDigits

/-! ### Triples -/

theorem readDigits_append (acc ds : Digits) (h : ∀ x ∈ ds, x < 10) (ha : acc ≠ []) :
    readDigits acc (ds.map fun (d : Nat) => .int d) = some (acc ++ ds) := by
  induction ds generalizing acc with
  | nil => simp [readDigits]
  | cons d ds ih =>
    have hd : d < 10 := h d (by simp)
    rw [List.map_cons, readDigits, if_pos (by omega), if_pos (.inl ha), ih _ (fun x hx => h x (by simp [hx])) (by simp)]
    simp

theorem readDigits_head {d : Nat} {ds : Digits} (h : ∀ x ∈ d :: ds, x < 10) (hd : d ≠ 0) :
    readDigits [] ((d :: ds).map fun (d : Nat) => .int d) = some (d :: ds) := by
  have h1 : d < 10 := h d (by simp)
  rw [List.map_cons, readDigits, if_pos (by omega), if_pos (.inr (by omega)), readDigits_append _ _ (fun x hx => h x (by simp [hx])) (by simp)]
  simp

theorem readDigits_payload {p : Digits} (h : IsPayload p) : readDigits [] (p.map fun (d : Nat) => .int d) = some p := by
  cases p with
  | nil => rfl
  | cons d ds => exact readDigits_head h.2 (by simpa [IsPayload] using h.1)

theorem readSign_item (s : Bool) : readSign (signItem s) = some s := by cases s <;> rfl

/-- `Decimal(d.as_tuple())` is `d`, for numbers, infinities and NaNs. -/
theorem triple_round_trip {d : Dec} (h : Proper d) : fromTriple (asTuple d).1 (asTuple d).2.1 (asTuple d).2.2 = some d := by
  rcases d with ⟨s, i, e⟩ | s | ⟨s, p, g⟩
  · simp only [asTuple, fromTriple, readSign_item]
    rcases h with rfl | ⟨d, rest, rfl, hd, h⟩
    · simp [readDigits]
    · rw [readDigits_head h hd]; simp
  · simp [asTuple, fromTriple, readSign_item]
  · simp only [asTuple, fromTriple, readSign_item, readDigits_payload h]
    cases g <;> simp

example : asTuple (.fin true [1, 0, 5] (-2)) = (.int 1, [.int 1, .int 0, .int 5], .int (-2)) ∧ Proper (.fin true [1, 0, 5] (-2)) ∧
    fromTriple (.int 1) [.int 1, .int 0, .int 5] (.int (-2)) = some (.fin true [1, 0, 5] (-2)) :=
  ⟨rfl, .inr ⟨1, [0, 5], rfl, by decide, by decide⟩, by decide⟩

theorem readDigits_some {acc : Digits} {ds : List Item} {r : Digits} (h : readDigits acc ds = some r) : ∀ x ∈ ds, IsDigit x := by
  induction ds generalizing acc with
  | nil => simp
  | cons x ds ih =>
    rcases x with n | t | _
    · rw [readDigits] at h
      by_cases hn : 0 ≤ n ∧ n ≤ 9
      · rw [if_pos hn] at h
        have h1 : ∀ x ∈ ds, IsDigit x := by
          by_cases h2 : acc ≠ [] ∨ n ≠ 0
          · rw [if_pos h2] at h; exact ih h
          · rw [if_neg h2] at h; exact ih h
        intro x hx
        rcases List.mem_cons.1 hx with rfl | hx
        · exact ⟨n.toNat, by omega, by congr 1; omega⟩
        · exact h1 x hx
      · rw [if_neg hn] at h; cases h
    · cases h
    · cases h

theorem readDigits_zeros {ds : Digits} (h : ∀ x ∈ ds, x < 10) :
    ∃ r, readDigits [] (ds.map fun (d : Nat) => .int d) = some r ∧ IsPayload r ∧ number r = number ds := by
  induction ds with
  | nil => exact ⟨[], rfl, ⟨by simp, by simp⟩, rfl⟩
  | cons d ds ih =>
    by_cases hd : d = 0
    · subst hd
      obtain ⟨r, h1, h2, h3⟩ := ih fun x hx => h x (by simp [hx])
      exact ⟨r, by rw [List.map_cons, readDigits]; simpa using h1, h2, by rw [h3, number]; simp⟩
    · exact ⟨d :: ds, readDigits_head h hd, ⟨by simpa using hd, h⟩, rfl⟩

theorem coeff_of_payload {r : Digits} (h : IsPayload r) :
    IsCoeff (if r = [] then [0] else r) ∧ number (if r = [] then [0] else r) = number r := by
  cases r with
  | nil => exact ⟨.inl rfl, rfl⟩
  | cons d ds => rw [if_neg (by simp)]; exact ⟨.inr ⟨d, ds, rfl, by simpa [IsPayload] using h.1, h.2⟩, rfl⟩

/-- With a sign, digits (zeros in front do not matter) and an exponent, the decimal has exactly the value that is written. -/
theorem triple_value (s : Bool) {ds : Digits} (h : ∀ x ∈ ds, x < 10) (e : ℤ) :
    ∃ i, fromTriple (.int (if s then 1 else 0)) (ds.map fun (d : Nat) => .int d) (.int e) = some (.fin s i e) ∧ IsCoeff i ∧
      number i = number ds := by
  obtain ⟨r, h1, h2, h3⟩ := readDigits_zeros h
  obtain ⟨h4, h5⟩ := coeff_of_payload h2
  refine ⟨_, ?_, h4, by rw [h5, h3]⟩
  have := readSign_item s
  unfold signItem at this
  simp only [fromTriple, this, h1]
  simp

example : fromTriple (.int 0) [.int 0, .int 0, .int 7] (.int 3) = some (.fin false [7] 3) ∧ fromTriple (.int 1) [] (.int 3) = some (.fin true [0] 3) :=
  ⟨by decide, by decide⟩

/-- Which triples are refused, and that what is made is well-formed. -/
theorem triple_accepted (sign : Item) (digits : List Item) (exp : Item) :
    ((fromTriple sign digits exp).isSome = true ↔
      (sign = .int 0 ∨ sign = .int 1) ∧ (exp = .text "F" ∨ ((∀ x ∈ digits, IsDigit x) ∧ (exp = .text "n" ∨ exp = .text "N" ∨ ∃ e, exp = .int e)))) ∧
    ∀ d, fromTriple sign digits exp = some d → Proper d := by
  have hs : ∀ s, readSign sign = some s → sign = .int (if s then 1 else 0) := by
    intro s h
    rcases sign with n | t | _
    · simp only [readSign] at h
      split at h
      · cases h; simp_all
      · split at h
        · cases h; simp_all
        · cases h
    · cases h
    · cases h
  cases h : readSign sign with
  | none =>
    simp only [fromTriple, h, Option.isSome_none, Bool.false_eq_true, false_iff]
    refine ⟨?_, by simp⟩
    rintro ⟨rfl | rfl, _⟩ <;> cases h
  | some s =>
    have hs' : sign = .int 0 ∨ sign = .int 1 := by rw [hs s h]; cases s <;> simp
    simp only [fromTriple, h]
    by_cases hF : exp = .text "F"
    · rw [if_pos hF]
      simp only [Option.isSome_some, true_iff]
      exact ⟨⟨hs', .inl hF⟩, fun d hd => by cases hd; trivial⟩
    · rw [if_neg hF]
      cases hd : readDigits [] digits with
      | none =>
        simp only [Option.isSome_none, Bool.false_eq_true, false_iff]
        refine ⟨?_, by simp⟩
        rintro ⟨_, h1 | ⟨h1, _⟩⟩
        · exact hF h1
        · have : ∃ ds : Digits, (∀ x ∈ ds, x < 10) ∧ digits = ds.map fun (d : Nat) => .int d := by
            clear hd
            induction digits with
            | nil => exact ⟨[], by simp, rfl⟩
            | cons x xs ih =>
              obtain ⟨n, hn, rfl⟩ := h1 x (by simp)
              obtain ⟨ds, h2, rfl⟩ := ih fun y hy => h1 y (by simp [hy])
              exact ⟨n :: ds, by simpa using ⟨hn, h2⟩, rfl⟩
          obtain ⟨ds, h2, rfl⟩ := this
          obtain ⟨r, h3, _⟩ := readDigits_zeros h2
          rw [h3] at hd; cases hd
      | some r =>
        have hall := readDigits_some hd
        have hp : IsPayload r := by
          have : ∃ ds : Digits, (∀ x ∈ ds, x < 10) ∧ digits = ds.map fun (d : Nat) => .int d := by
            clear hd
            induction digits with
            | nil => exact ⟨[], by simp, rfl⟩
            | cons x xs ih =>
              obtain ⟨n, hn, rfl⟩ := hall x (by simp)
              obtain ⟨ds, h2, rfl⟩ := ih fun y hy => hall y (by simp [hy])
              exact ⟨n :: ds, by simpa using ⟨hn, h2⟩, rfl⟩
          obtain ⟨ds, h2, rfl⟩ := this
          obtain ⟨r', h3, h4, _⟩ := readDigits_zeros h2
          rw [h3] at hd; cases hd; exact h4
        have hc := (coeff_of_payload hp).1
        rcases exp with e | t | _
        · simp only [reduceCtorEq, if_false, Option.isSome_some, true_iff]
          refine ⟨⟨hs', .inr ⟨hall, .inr (.inr ⟨e, rfl⟩)⟩⟩, fun d hd => ?_⟩
          cases hd; exact hc
        · by_cases hn : t = "n"
          · subst hn
            simp only
            rw [if_pos trivial]
            exact ⟨⟨fun _ => ⟨hs', .inr ⟨hall, .inl trivial⟩⟩, fun _ => rfl⟩, fun d hd => by cases hd; exact hp⟩
          · by_cases hN : t = "N"
            · subst hN
              simp only
              rw [if_neg (show ¬ Item.text "N" = Item.text "n" by decide), if_pos trivial]
              exact ⟨⟨fun _ => ⟨hs', .inr ⟨hall, .inr (.inl trivial)⟩⟩, fun _ => rfl⟩, fun d hd => by cases hd; exact hp⟩
            · simp only [Item.text.injEq, hn, hN, if_false, Option.isSome_none, Bool.false_eq_true, false_iff]
              refine ⟨?_, by simp⟩
              rintro ⟨_, h1 | ⟨_, h1 | h1 | ⟨e, h1⟩⟩⟩
              · exact hF (by rw [h1])
              · exact h1
              · exact h1
              · cases h1
        · simp only [reduceCtorEq, if_false, Option.isSome_none, Bool.false_eq_true, false_iff]
          refine ⟨?_, by simp⟩
          rintro ⟨_, h1 | ⟨_, h1 | h1 | ⟨e, h1⟩⟩⟩
          · exact h1
          · exact h1
          · exact h1
          · exact h1

example : fromTriple (.int 2) [.int 1] (.int 0) = none ∧ fromTriple (.int 0) [.int 10] (.int 0) = none ∧
    fromTriple (.int 0) [.other] (.text "F") = some (.inf false) ∧ fromTriple (.int 0) [.int 1] (.text "x") = none :=
  ⟨by decide, by decide, by decide, by decide⟩

/-! ### Integers and floats -/

/-- Integers become decimals exactly. -/
theorem from_int (n : ℤ) : ∃ s i, ofInt n = .fin s i 0 ∧ IsCoeff i ∧ value s i 0 = n := by
  refine ⟨_, _, rfl, isCoeff_str _, ?_⟩
  unfold value finValue
  rw [number_str, zpow_zero, mul_one, Nat.cast_natAbs, Int.cast_abs]
  by_cases h : n < 0
  · have : (n : ℚ) < 0 := by exact_mod_cast h
    simp [h, abs_of_neg this]
  · have : (0 : ℚ) ≤ n := by exact_mod_cast not_lt.1 h
    simp [h, abs_of_nonneg this]

theorem bitLength_pow (j : ℕ) : bitLength (2 ^ j) - 1 = j := by
  unfold bitLength
  rw [if_neg (by positivity), Nat.log2_two_pow, Nat.add_sub_cancel]

/-- Floats become decimals exactly, with their sign, also that of zero; infinities and NaNs are kept. -/
theorem from_float {f : PyFloat} (h : f.Ok) :
    match f with
    | .fin s n d => ∃ i e, fromFloat f = some (.fin s i e) ∧ IsCoeff i ∧ value s i e = ratio s n d
    | .inf s => fromFloat f = some (.inf s)
    | .nan => fromFloat f = some (.nan false [] false) := by
  rcases f with ⟨s, n, d⟩ | s | _
  · obtain ⟨j, rfl⟩ := h
    refine ⟨_, _, rfl, isCoeff_str _, ?_⟩
    unfold value finValue ratio
    rw [number_str, bitLength_pow]
    congr 1
    push_cast
    rw [zpow_neg, zpow_natCast, show (10 : ℚ) = 5 * 2 by norm_num, mul_pow]
    field_simp
  · cases s <;> rfl
  · rfl

example : fromFloat (.fin true 3 8) = some (.fin true [3, 7, 5] (-3)) ∧ PyFloat.Ok (.fin true 3 8) :=
  ⟨by decide +kernel, 3, rfl⟩

/-! ### Comparisons with other numbers -/

theorem answers (c : Ctx) {s o : Dec} (hs : s.Ok) (ho : o.Ok) (ns : ¬ IsNaN s) (no : ¬ IsNaN o) : Answers c s o (Less ℚ s o) (Same ℚ s o) (Less ℚ o s) := by
  obtain ⟨h1, h2, h3, h4, h5, h6, h7, h8, h9, h10⟩ := comparisons c hs ho ns no
  exact ⟨⟨h1, h2, h3, h4, h5⟩, h6, h7, h8, h9, h10⟩

theorem not_nan_fin (s : Bool) (i : Digits) (e : ℤ) : ¬ IsNaN (.fin s i e) := by rintro ⟨_, _, _, h⟩; cases h
theorem not_nan_inf (s : Bool) : ¬ IsNaN (.inf s) := by rintro ⟨_, _, _, h⟩; cases h

/-- Comparisons with rational numbers and with integers are exact, with infinities too, and nothing is rounded or signaled; for equality and
for the order alike. -/
theorem compare_rational (c : Ctx) {a : Dec} (ha : a.Ok) (na : ¬ IsNaN a) (equality : Bool) (n : ℤ) {d : ℕ} (hd : 0 < d) :
    ∃ s o, forComparison a equality (.rational n d) = some (false, s, o) ∧
      Answers c s o (Below a ((n : ℚ) / d)) (Equals a ((n : ℚ) / d)) (Above a ((n : ℚ) / d)) := by
  obtain ⟨so, io, ho, hc, hv⟩ := from_int n
  have hd' : (0 : ℚ) < d := by exact_mod_cast hd
  rcases a with ⟨s, i, e⟩ | s | ⟨s, p, g⟩
  · refine ⟨_, _, rfl, ?_⟩
    rw [ho]
    have h := answers c (s := .fin s (str (toInt i * d)) e) (o := .fin so io 0) (isCoeff_str _) hc (not_nan_fin _ _ _) (not_nan_fin _ _ _)
    have hval : (finValue s (str (toInt i * d)) e : ℚ) = value s i e * d := by
      unfold value finValue
      rw [number_str, toInt_eq]; push_cast; ring
    have hv' : (finValue so io 0 : ℚ) = n := hv
    simp only [Less, Same, hval, hv'] at h
    simp only [Below, Equals, Above, lt_div_iff₀ hd', div_lt_iff₀ hd', eq_div_iff hd'.ne']
    exact h
  · refine ⟨_, _, rfl, ?_⟩
    rw [ho]
    have h := answers c (s := .inf s) (o := .fin so io 0) trivial hc (not_nan_inf _) (not_nan_fin _ _ _)
    simpa only [Less, Same, Below, Equals, Above] using h
  · exact absurd ⟨_, _, _, rfl⟩ na

example : forComparison (.fin false [3, 3] (-2)) false (.rational 1 3) = some (false, .fin false [9, 9] (-2), .fin false [1] 0) ∧
    (lt (.fin false [9, 9] (-2)) (.fin false [1] 0)).2 = true := ⟨by decide +kernel, by decide +kernel⟩

/-- Comparisons with floats are exact too; the mixture is signaled. For equality, the same holds of complex numbers without an imaginary
part. -/
theorem compare_float (c : Ctx) {a : Dec} (ha : a.Ok) (na : ¬ IsNaN a) (equality : Bool) (neg : Bool) (n j : ℕ) {o : Other}
    (ho : o = .float (.fin neg n (2 ^ j)) ∨ (equality = true ∧ ∃ z m, o = .complex (.fin neg n (2 ^ j)) (.fin z 0 m))) :
    ∃ s o', forComparison a equality o = some (true, s, o') ∧
      Answers c s o' (Below a (ratio neg n (2 ^ j))) (Equals a (ratio neg n (2 ^ j))) (Above a (ratio neg n (2 ^ j))) := by
  obtain ⟨i', e', h1, h2, h3⟩ := from_float (f := .fin neg n (2 ^ j)) ⟨j, rfl⟩
  have hf : forComparison a equality o = some (true, a, .fin neg i' e') := by
    rcases ho with rfl | ⟨rfl, z, m, rfl⟩
    · simp only [forComparison, withFloat, h1, Option.map_some]
    · simp only [forComparison, withFloat, h1, Option.map_some, PyFloat.isZero, beq_self_eq_true, Bool.and_self, if_true]
  refine ⟨_, _, hf, ?_⟩
  have h := answers c ha (show Dec.Ok (.fin neg i' e') from h2) na (not_nan_fin _ _ _)
  have h3' : (finValue neg i' e' : ℚ) = ratio neg n (2 ^ j) := h3
  rcases a with ⟨s, i, e⟩ | s | ⟨s, p, g⟩
  · simp only [Less, Same, h3'] at h
    exact h
  · simpa only [Less, Same, Below, Equals, Above] using h
  · exact absurd ⟨_, _, _, rfl⟩ na

example : ((forComparison (.fin false [1] (-1)) true (.float (.fin false 1 8))).map fun x => (eq small x.2.1 x.2.2).2) = some false ∧
    ((forComparison (.fin false [1, 2, 5] (-3)) true (.complex (.fin false 1 8) (.fin true 0 1))).map fun x => (eq small x.2.1 x.2.2).2) = some true :=
  ⟨by decide +kernel, by decide +kernel⟩

/-- With infinite floats, the infinities are compared; NaNs, of either operand, stay NaNs; other objects are not compared. -/
theorem compare_special (a : Dec) (equality : Bool) :
    (∀ neg, forComparison a equality (.float (.inf neg)) = some (true, a, .inf neg)) ∧
    forComparison a equality (.float .nan) = some (true, a, .nan false [] false) ∧
    (∀ n d, IsNaN a → ∃ o, forComparison a equality (.rational n d) = some (false, a, o)) ∧
    forComparison a equality .object = none ∧
    (∀ re im, (equality = false ∨ im.isZero = false) → forComparison a equality (.complex re im) = none) := by
  refine ⟨fun neg => ?_, ?_, ?_, rfl, ?_⟩
  · have := from_float (f := .inf neg) trivial
    simp only at this
    simp only [forComparison, withFloat, this, Option.map_some]
  · have := from_float (f := .nan) trivial
    simp only at this
    simp only [forComparison, withFloat, this, Option.map_some]
  · rintro n d ⟨s, p, g, rfl⟩
    exact ⟨_, rfl⟩
  · rintro re im (rfl | h)
    · rfl
    · simp [forComparison, h]

example : forComparison (.inf true) false (.float (.inf false)) = some (true, .inf true, .inf false) := by decide

/-! ### Powers modulo an integer -/

theorem value_mag {s : Bool} {i : Digits} {e : ℤ} {n : ℤ} (h : value s i e = n) : (number i : ℚ) * 10 ^ e = (n.natAbs : ℕ) := by
  have h1 : |value s i e| = number i * 10 ^ e := value_abs s i e
  rw [← h1, h, Nat.cast_natAbs, Int.cast_abs]

theorem toInteger_int {s : Bool} {i : Digits} (hi : IsCoeff i) {e : ℤ} {n : ℤ} (h : value s i e = n) : (toInteger s i e).natAbs = n.natAbs := by
  rw [toInteger_spec (K := ℚ) s hi e, value_mag h, Int.floor_natCast]
  cases s
  · show (1 * (n.natAbs : ℤ)).natAbs = _
    omega
  · show (-1 * (n.natAbs : ℤ)).natAbs = _
    omega

theorem toIntegral_int (m : Mode) {s : Bool} {i : Digits} (hi : IsCoeff i) {e : ℤ} {n : ℤ} (h : value s i e = n) :
    ∃ i' e', toIntegral m s i e = .fin s i' e' ∧ 0 ≤ e' ∧ number i' * 10 ^ e'.toNat = n.natAbs := by
  have hm := value_mag h
  unfold toIntegral
  by_cases he : e ≥ 0
  · rw [if_pos he]
    refine ⟨i, e, rfl, he, ?_⟩
    rw [ten_toNat he] at hm
    exact_mod_cast hm
  · rw [if_neg he]
    obtain ⟨i', h1, h2, h3⟩ := rescale_spec (K := ℚ) m s hi e 0
    refine ⟨i', 0, h1, le_refl _, ?_⟩
    rw [hm, zpow_zero, div_one] at h3
    have := roundAbs_int (K := ℚ) m s (n.natAbs : ℤ)
    rw [Int.cast_natCast] at this
    rw [this] at h3
    simp only [Int.toNat_zero, pow_zero, mul_one]
    exact_mod_cast h3

theorem repeat_pow (m k x : ℕ) : Nat.repeat (fun x => x ^ 10 % m) k x % m = x ^ 10 ^ k % m := by
  induction k with
  | zero => simp [Nat.repeat]
  | succ k ih =>
    rw [Nat.repeat, Nat.mod_mod, Nat.pow_mod, ih, ← Nat.pow_mod, ← pow_mul, pow_succ]

/-- The restrictions on the operands of `pow(a, b, m)`, for integers. -/
def Allowed (c : Ctx) (A B M : ℤ) : Prop := 0 ≤ B ∧ M ≠ 0 ∧ M.natAbs < 10 ^ c.prec ∧ ¬ (A = 0 ∧ B = 0)

theorem isZero_int {s : Bool} {i : Digits} (hi : IsCoeff i) {e : ℤ} {n : ℤ} (h : value s i e = n) : isZero (.fin s i e) = true ↔ n = 0 := by
  have hm := value_mag h
  have ht := ten_pos (K := ℚ) e
  rw [isZero, beq_iff_eq, ← hi.eq_zero, ← Int.natAbs_eq_zero]
  constructor
  · intro h0; rw [h0] at hm; simp at hm; simpa using hm.symm
  · intro h0
    rw [h0] at hm
    rcases mul_eq_zero.1 (hm.trans (by simp)) with h1 | h1
    · exact_mod_cast h1
    · exact absurd h1 ht.ne'

theorem adjusted_int {s : Bool} {i : Digits} (hi : IsCoeff i) {e : ℤ} {n : ℤ} (h : value s i e = n) (h0 : n ≠ 0) (k : ℕ) :
    adjusted (.fin s i e) ≥ k ↔ ¬ n.natAbs < 10 ^ k := by
  have hm := value_mag h
  have hz : i ≠ [0] := fun hz => h0 ((isZero_int hi h).1 (by simp [isZero, hz]))
  obtain ⟨a1, a2⟩ := hi.adj (K := ℚ) hz e
  rw [hm] at a1 a2
  rw [adjusted]
  rw [not_lt]
  constructor
  · intro hk
    have : (10 : ℚ) ^ (k : ℤ) ≤ (n.natAbs : ℕ) := le_trans (ten_le.2 hk) a1
    rw [ten_nat] at this
    exact_mod_cast this
  · intro hk
    by_contra hlt
    have h1 : ((n.natAbs : ℕ) : ℚ) < 10 ^ (k : ℤ) := lt_of_lt_of_le a2 (ten_le.2 (by omega))
    rw [ten_nat] at h1
    have : n.natAbs < 10 ^ k := by exact_mod_cast h1
    omega

theorem powerInt_spec (round : Mode) {s1 s2 s3 : Bool} {i1 i2 i3 : Digits} {e1 e2 e3 : ℤ} (h1 : IsCoeff i1) (h2 : IsCoeff i2) (h3 : IsCoeff i3)
    {A B M : ℤ} (hA : value s1 i1 e1 = A) (hB : value s2 i2 e2 = B) (hM : value s3 i3 e3 = M) :
    powerInt round (.fin s1 i1 e1) (.fin s2 i2 e2) (.fin s3 i3 e3) =
      .fin (s1 && decide (B % 2 ≠ 0)) (str (A.natAbs ^ B.natAbs % M.natAbs)) 0 := by
  obtain ⟨bi, be, t1, t2, t3⟩ := toIntegral_int round h1 hA
  obtain ⟨xi, xe, u1, u2, u3⟩ := toIntegral_int round h2 hB
  have hev := even_integers s2 h2 e2 hB
  simp only [powerInt, t1, u1, toInteger_int h3 hM, toInt_eq]
  have hpow : (Nat.repeat (fun x => x ^ 10 % M.natAbs) xe.toNat (number bi % M.natAbs * (10 ^ be.toNat % M.natAbs) % M.natAbs)) ^ number xi % M.natAbs
      = A.natAbs ^ B.natAbs % M.natAbs := by
    rw [Nat.pow_mod, repeat_pow, ← Nat.mul_mod, ← Nat.pow_mod, ← pow_mul, t3, ← u3, Nat.pow_mod, Nat.mod_mod, ← Nat.pow_mod,
      Nat.mul_comm (number xi)]
  rw [hpow]
  congr 1
  by_cases hb : B % 2 = 0
  · rw [if_pos (hev.2 hb)]; simp [hb]
  · rw [if_neg (fun h => hb (hev.1 h))]; simp [hb]

theorem value_negative {s : Bool} {i : Digits} {e : ℤ} {n : ℤ} (h : value s i e = n) : (s = true → n ≤ 0) ∧ (s = false → 0 ≤ n) := by
  have hm : (0 : ℚ) ≤ number i * 10 ^ e := mul_nonneg (by positivity) (ten_pos e).le
  unfold value finValue at h
  constructor
  · rintro rfl
    have : (n : ℚ) ≤ 0 := by rw [← h]; simp only [if_true]; linarith
    exact_mod_cast this
  · rintro rfl
    have : (0 : ℚ) ≤ n := by rw [← h]; simpa using hm
    exact_mod_cast this

/-- `pow(a, b, m)` of integers is the remainder, with the sign of the dividend, of the exact power; there is no rounding and no signal. -/
theorem power_modulo (c : Ctx) (round : Mode) {a b m : Dec} (ha : a.Ok) (hb : b.Ok) (hm : m.Ok) {A B M : ℤ} (iA : IsInt a A) (iB : IsInt b B)
    (iM : IsInt m M) (h : Allowed c A B M) :
    ∃ s i, powerModulo c round a b m = ([], .fin s i 0) ∧ IsCoeff i ∧ value s i 0 = ((A ^ B.toNat).tmod M : ℤ) ∧
      (s = true ↔ signOf a = true ∧ B % 2 ≠ 0) := by
  obtain ⟨s1, i1, e1, rfl, hA⟩ := iA
  obtain ⟨s2, i2, e2, rfl, hB⟩ := iB
  obtain ⟨s3, i3, e3, rfl, hM⟩ := iM
  obtain ⟨q1, q2, q3, q4⟩ := h
  have n1 := (integers s1 ha e1).2 ⟨A, hA⟩
  have n2 := (integers s2 hb e2).2 ⟨B, hB⟩
  have n3 := (integers s3 hm e3).2 ⟨M, hM⟩
  obtain ⟨s0, i0, z1, z2, z3⟩ := from_int 0
  have hlt : (lt (.fin s2 i2 e2) (ofInt 0)).2 = false := by
    rw [z1, Bool.eq_false_iff]
    intro h
    have h' := (answers c (s := .fin s2 i2 e2) (o := .fin s0 i0 0) hb z2 (not_nan_fin _ _ _) (not_nan_fin _ _ _)).lt.1 h
    have h'' : value s2 i2 e2 < value s0 i0 0 := h'
    rw [hB, z3] at h''
    have : B < 0 := by exact_mod_cast h''
    omega
  have hz : isZero (.fin s3 i3 e3) = false := Bool.eq_false_iff.2 fun h => q2 ((isZero_int hm hM).1 h)
  have hadj : ¬ adjusted (.fin s3 i3 e3) ≥ c.prec := fun h => (adjusted_int hm hM q2 c.prec).1 h q3
  have hboth : (isZero (.fin s2 i2 e2) && isZero (.fin s1 i1 e1)) = false := by
    rw [Bool.eq_false_iff]
    intro h
    rw [Bool.and_eq_true] at h
    exact q4 ⟨(isZero_int ha hA).1 h.2, (isZero_int hb hB).1 h.1⟩
  refine ⟨s1 && decide (B % 2 ≠ 0), str (A.natAbs ^ B.natAbs % M.natAbs), ?_, isCoeff_str _, ?_, by simp [signOf]⟩
  · rw [powerModulo]
    simp only [nansOfThree, List.find?, isSignaling, isNan, n1, n2, n3, Bool.and_self, Bool.not_true, Bool.false_eq_true, if_false, hlt, hz, hadj,
      hboth, powerInt_spec round ha hb hm hA hB hM]
  · have hBn : B.natAbs = B.toNat := by omega
    unfold value finValue
    rw [number_str, zpow_zero, mul_one, hBn]
    have hneg := value_negative hA
    have key : (A ^ B.toNat).tmod M = (if (s1 && decide (B % 2 ≠ 0)) = true then -1 else 1) * ((A.natAbs ^ B.toNat % M.natAbs : ℕ) : ℤ) := by
      have hodd : B % 2 ≠ 0 ↔ Odd B.toNat := by rw [Nat.odd_iff]; omega
      have hmod : ∀ x : ℕ, ((x : ℤ)).tmod M = ((x % M.natAbs : ℕ) : ℤ) := by
        intro x
        rcases Int.natAbs_eq M with hM | hM
        · conv_lhs => rw [hM]
          exact (Int.ofNat_tmod x M.natAbs).symm
        · conv_lhs => rw [hM]
          rw [Int.tmod_neg]
          exact (Int.ofNat_tmod x M.natAbs).symm
      cases s1
      · have h0 := hneg.2 rfl
        have : A = (A.natAbs : ℤ) := by omega
        simp only [Bool.false_and, Bool.false_eq_true, if_false, one_mul]
        conv_lhs => rw [this]
        rw [← Nat.cast_pow, hmod]
      · have h0 := hneg.1 rfl
        have : A = -(A.natAbs : ℤ) := by omega
        by_cases ho : B % 2 ≠ 0
        · rw [if_pos (by simp [ho])]
          conv_lhs => rw [this]
          rw [(hodd.1 ho).neg_pow, Int.neg_tmod, ← Nat.cast_pow, hmod]; ring
        · have he : Even B.toNat := Nat.not_odd_iff_even.1 (mt hodd.2 ho)
          rw [if_neg (by simpa using ho), one_mul]
          conv_lhs => rw [this]
          rw [he.neg_pow, ← Nat.cast_pow, hmod]
    rw [key, Int.cast_mul, Int.cast_natCast]
    congr 1
    split <;> simp

example : powerModulo small .halfEven (.fin true [3] 0) (.fin false [3] 0) (.fin true [5] 0) = ([], .fin true [2] 0) ∧
    Allowed small (-3) 3 (-5) ∧ IsInt (.fin true [3] 0) (-3) ∧ ((-3 : ℤ) ^ 3).tmod (-5) = -2 :=
  ⟨by decide +kernel, ⟨by decide, by decide, by decide, by decide⟩, ⟨_, _, _, rfl, by norm_num [value, finValue, number]⟩, by decide⟩

/-- Otherwise the operation is invalid: some operand is not an integer, the exponent is negative, the modulus is zero or has more digits than
the precision, or both of the first operands are zero. -/
theorem power_modulo_invalid (c : Ctx) (round : Mode) {a b m : Dec} (ha : a.Ok) (hb : b.Ok) (hm : m.Ok) (na : ¬ IsNaN a) (nb : ¬ IsNaN b)
    (nm : ¬ IsNaN m) (h : ¬ ∃ A B M, IsInt a A ∧ IsInt b B ∧ IsInt m M ∧ Allowed c A B M) :
    powerModulo c round a b m = ([.invalidOperation], .NaN) := by
  have hnan : nansOfThree c a b m = none := by
    rcases a with _ | _ | ⟨s, p, g⟩
    case nan => exact absurd ⟨_, _, _, rfl⟩ na
    all_goals
      rcases b with _ | _ | ⟨s, p, g⟩
      case nan => exact absurd ⟨_, _, _, rfl⟩ nb
      all_goals
        rcases m with _ | _ | ⟨s, p, g⟩
        case nan => exact absurd ⟨_, _, _, rfl⟩ nm
        all_goals rfl
  have hint : ∀ {d : Dec}, d.Ok → isInteger d = true → ∃ n, IsInt d n := by
    intro d hd hi
    rcases d with ⟨s, i, e⟩ | s | ⟨s, p, g⟩
    · obtain ⟨n, hn⟩ := (integers s hd e).1 hi
      exact ⟨n, _, _, _, rfl, hn⟩
    · cases hi
    · cases hi
  rw [powerModulo, hnan]
  simp only
  by_cases hI : (isInteger a && isInteger b && isInteger m) = true
  · rw [if_neg (by simp [hI])]
    rw [Bool.and_eq_true, Bool.and_eq_true] at hI
    obtain ⟨A, iA⟩ := hint ha hI.1.1
    obtain ⟨B, iB⟩ := hint hb hI.1.2
    obtain ⟨M, iM⟩ := hint hm hI.2
    have hno : ¬ Allowed c A B M := fun hh => h ⟨A, B, M, iA, iB, iM, hh⟩
    obtain ⟨s1, i1, e1, rfl, hA⟩ := iA
    obtain ⟨s2, i2, e2, rfl, hB⟩ := iB
    obtain ⟨s3, i3, e3, rfl, hM⟩ := iM
    obtain ⟨s0, i0, z1, z2, z3⟩ := from_int 0
    by_cases h1 : (lt (.fin s2 i2 e2) (ofInt 0)).2 = true
    · rw [if_pos h1]
    rw [if_neg h1]
    by_cases h2 : isZero (.fin s3 i3 e3) = true
    · rw [if_pos h2]
    rw [if_neg h2]
    by_cases h3 : adjusted (.fin s3 i3 e3) ≥ c.prec
    · rw [if_pos h3]
    rw [if_neg h3]
    by_cases h4 : (isZero (.fin s2 i2 e2) && isZero (.fin s1 i1 e1)) = true
    · rw [if_pos h4]
    refine absurd ⟨?_, ?_, ?_, ?_⟩ hno
    · by_contra hneg
      refine h1 ?_
      rw [z1]
      refine (answers c (s := .fin s2 i2 e2) (o := .fin s0 i0 0) hb z2 (not_nan_fin _ _ _) (not_nan_fin _ _ _)).lt.2 ?_
      show value s2 i2 e2 < value s0 i0 0
      rw [hB, z3]
      exact_mod_cast not_le.1 hneg
    · exact fun h0 => h2 ((isZero_int hm hM).2 h0)
    · have hM0 : M ≠ 0 := fun h0 => h2 ((isZero_int hm hM).2 h0)
      by_contra hlt
      exact h3 ((adjusted_int hm hM hM0 c.prec).2 hlt)
    · rintro ⟨h5, h6⟩
      exact h4 (by rw [(isZero_int hb hB).2 h6, (isZero_int ha hA).2 h5]; rfl)
  · rw [if_pos (by rw [Bool.not_eq_true'] ; exact Bool.eq_false_iff.2 hI)]

example : powerModulo small .halfEven (.fin false [0] 0) (.fin false [0] 0) (.fin false [5] 0) = ([.invalidOperation], .NaN) ∧
    powerModulo small .halfEven (.fin false [2] 0) (.fin false [1] 0) (.fin false [1] 3) = ([.invalidOperation], .NaN) ∧
    powerModulo small .halfEven (.fin false [2] 0) (.fin false [1] 0) (.fin false [9, 9, 9] 0) = ([], .fin false [2] 0) :=
  ⟨by decide +kernel, by decide +kernel, by decide +kernel⟩

/-! ### Texts in a context -/

theorem digitChar_ne {d : ℕ} (h : d < 10) : Nat.digitChar d ≠ '_' := by
  have : ∀ d < 10, Nat.digitChar d ≠ '_' := by decide
  exact this d h

theorem written_no_underscore {capitals s : Bool} {before after : Digits} (h1 : ∀ d ∈ before, d < 10) (h2 : ∀ d ∈ after, d < 10) {x : ℤ}
    {cs : List Char} (h : Written capitals s before after x cs) : '_' ∉ cs := by
  obtain ⟨ds, hd, _, rfl⟩ := h
  have hm : ∀ l : Digits, (∀ d ∈ l, d < 10) → '_' ∉ l.map Nat.digitChar := by
    intro l hl hmem
    obtain ⟨d, hd, he⟩ := List.mem_map.1 hmem
    exact digitChar_ne (hl d hd) he
  have m1 := hm _ h1
  have m2 := hm _ h2
  have m3 := hm _ hd.digits
  have e1 : '_' ∉ (if s then ['-'] else [] : List Char) := by cases s <;> decide
  have e2 : '_' ∉ (if after = [] then [] else '.' :: after.map Nat.digitChar) := by
    split
    · simp
    · simp only [List.mem_cons, not_or]; exact ⟨by decide, m2⟩
  have e3 : '_' ∉ (if x = 0 then [] else (if capitals then 'E' else 'e') :: (if x < 0 then '-' else '+') :: ds.map Nat.digitChar) := by
    split
    · simp
    · simp only [List.mem_cons, not_or]
      exact ⟨by cases capitals <;> decide, by split <;> decide, m3⟩
  simp only [List.mem_append, not_or]
  exact ⟨⟨⟨e1, m1⟩, e2⟩, e3⟩

/-- A number that is written in the usual way is read and rounded once: `create_decimal` gives the correctly rounded result of the exact value
that is written. -/
theorem create_number {c : Ctx} (hc : c.Ok) (space : Char → Bool) (capitals s : Bool) {before after : Digits} (h1 : ∀ d ∈ before, d < 10)
    (h2 : ∀ d ∈ after, d < 10) (h0 : before ≠ []) {x : ℤ} {cs : List Char} (h : Written capitals s before after x cs)
    (hs : ∀ ch ∈ cs, space ch = false) :
    IsResult c ((if s then -1 else 1) * ((number (before ++ after) : ℚ) * 10 ^ (x - after.length))) s (x - after.length)
      (createDecimal space c cs) := by
  obtain ⟨j, hj, hn, hp⟩ := parse_form capitals s h1 h2 h0 h
  have hbad : badText space cs = false := by
    have hu : cs.contains '_' = false := by
      rw [Bool.eq_false_iff]; simpa using written_no_underscore h1 h2 h
    have ha : cs.head?.any space = false := by
      cases cs with
      | nil => rfl
      | cons ch cs => exact hs ch (by simp)
    have hb : cs.getLast?.any space = false := by
      cases hl : cs.getLast? with
      | none => rfl
      | some ch => exact hs ch (List.mem_of_getLast? hl)
    rw [badText, hu, ha, hb]; rfl
  rw [createDecimal, hbad]
  simp only [Bool.false_eq_true, if_false, hp]
  rw [← hn]
  exact fix_result hc s hj _

/-- Texts with spaces around them, with underscores, or that are not numbers are invalid; so are NaNs with a payload longer than the context
allows. -/
theorem create_invalid (space : Char → Bool) (c : Ctx) (cs : List Char)
    (h : (∃ ch rest, cs = ch :: rest ∧ space ch = true) ∨ (∃ ch rest, cs = rest ++ [ch] ∧ space ch = true) ∨ '_' ∈ cs ∨ parse cs = none ∨
      ∃ s p g, parse cs = some (.nan s p g) ∧ c.prec - (if c.clamp then 1 else 0) < p.length) :
    createDecimal space c cs = ([.invalidOperation], .NaN) := by
  rw [createDecimal]
  by_cases hb : badText space cs = true
  · rw [if_pos hb]
  · rw [if_neg hb]
    rw [badText, Bool.or_eq_true, Bool.or_eq_true, not_or, not_or] at hb
    rcases h with ⟨ch, rest, rfl, h⟩ | ⟨ch, rest, rfl, h⟩ | h | h | ⟨s, p, g, h, hl⟩
    · exact absurd h hb.1.1
    · exact absurd (by simpa using h) hb.1.2
    · exact absurd (by simpa using h) hb.2
    · rw [h]
    · rw [h]; exact if_pos hl

example : createDecimal (· == ' ') small ['1', '2', '3', '.', '4', '6', 'e', '1'] = ([.inexact, .rounded], .fin false [1, 2, 3] 1) ∧
    createDecimal (· == ' ') small [' ', '1'] = ([.invalidOperation], .NaN) ∧
    createDecimal (· == ' ') small ['N', 'a', 'N', '1', '2', '3'] = ([], .nan false [1, 2, 3] false) ∧
    createDecimal (· == ' ') small ['N', 'a', 'N', '1', '2', '3', '4'] = ([.invalidOperation], .NaN) :=
  ⟨by decide +kernel, by decide +kernel, by decide +kernel, by decide +kernel⟩

end Verif.DecimalMake
