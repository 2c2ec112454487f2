/- Properties of the formatting of decimals. -/
import Verif.DecimalFormat.Numbers
import Mathlib.Data.Rat.Floor
import Batteries.Lean.Except

namespace Verif.DecimalFormat
open Verif.Decimal Verif.DecimalMore

/-! ### Specifiers -/

/-- A text is read as a format specifier exactly if it is written by the rules `[[fill]align][sign][z][#][0][minimumwidth][,][.precision][type]`
and its parts do not exclude each other; it then means what its parts say. -/
theorem specifier_read (loc : Locale) (cs : List Char) (f : FSpec) :
    parseSpec loc cs = .ok f ↔ ∃ w : Written, w.text = cs ∧ w.Consistent ∧ w.meaning loc = f := by
  constructor
  · intro h
    obtain ⟨w, rfl⟩ := parseSpec_written h
    rw [parseSpec_text] at h
    split at h
    · rename_i hc; cases h; exact ⟨w, rfl, hc, rfl⟩
    · cases h
  · rintro ⟨w, rfl, hc, rfl⟩
    rw [parseSpec_text]
    exact if_pos hc

/-- Any other text is a `ValueError`. -/
theorem specifier_rejected (loc : Locale) (cs : List Char) (h : ¬ ∃ w : Written, w.text = cs ∧ w.Consistent) :
    parseSpec loc cs = .error .valueError := by
  cases hp : parseSpec loc cs with
  | ok f =>
    obtain ⟨w, h1, h2, _⟩ := (specifier_read loc cs f).1 hp
    exact absurd ⟨w, h1, h2⟩ h
  | error e =>
    revert hp
    unfold parseSpec addSeparators
    dsimp only
    repeat' split
    all_goals intro hp
    all_goals cases hp
    all_goals rfl

/-- The same text is not read in two ways. -/
theorem specifier_unambiguous (loc : Locale) (v w : Written) (hv : v.Consistent) (hw : w.Consistent) (h : v.text = w.text) :
    v.meaning loc = w.meaning loc := by
  have h1 := (specifier_read loc v.text _).2 ⟨v, rfl, hv, rfl⟩
  have h2 := (specifier_read loc v.text _).2 ⟨w, h.symm, hw, rfl⟩
  rw [h1] at h2
  exact Except.ok.inj h2

/-- A locale with groups of two after the first, as in India. -/
def lakh : Locale := ⟨[','], [3, 2, 0], ['.']⟩

/-- `*^+z#12,.3f` -/
def sample : Written := ⟨some (some '*', .center), some .plus, true, true, false, 12, true, some 3, some .f⟩

example : sample.Consistent ∧ sample.text = ['*', '^', '+', 'z', '#', '1', '2', ',', '.', '3', 'f'] := by
  exact ⟨⟨by decide, by decide⟩, by decide +kernel⟩
example : parseSpec lakh sample.text = .ok (sample.meaning lakh) := (specifier_read ..).2 ⟨sample, rfl, ⟨by decide, by decide⟩, rfl⟩
example : parseSpec lakh ['<', '0', '8'] = .error .valueError := by decide +kernel
example : parseSpec lakh ['.', '0', '5', 'f'] = .error .valueError := by decide +kernel

/-! ### Separators -/

/-- Separators are put into a text of digits: the groups have the lengths of the grouping, and zeros are added in front for a width, as few as
possible, and such that there is no separator in front. -/
theorem digits_separated (f : FSpec) (sizes : Nat → Option Nat) (h : Sizes f.grouping sizes) (digits : List Char) (width : Int) :
    ∃ t, insertSep digits f width = .ok t ∧ Separated sizes f.sep digits width t := insertSep_separated h digits width

/-- There is only one way to separate a text of digits. -/
theorem grouping_deterministic {sizes : Nat → Option Nat} {sep : List Char} {i : Nat} {full a b : List Char}
    (ha : Grouped sizes sep i full a) (hb : Grouped sizes sep i full b) : a = b := by
  induction ha generalizing b with
  | one h1 h2 =>
    rename_i i full
    generalize hf : full = full' at hb
    cases hb with
    | one _ _ => rfl
    | @more _ g full'' text tail h3 h4 h5 =>
      have := h2 g h3
      have hn := List.length_pos_of_ne_nil (grouped_ne_nil h5)
      rw [hf, List.length_append] at this
      omega
  | @more i g full text tail h1 h2 h3 ih =>
    generalize hf : full ++ tail = full' at hb
    cases hb with
    | one _ h5 =>
      have := h5 g h1
      have hn := List.length_pos_of_ne_nil (grouped_ne_nil h3)
      rw [← hf, List.length_append] at this
      omega
    | @more _ g' full'' text' tail' h3 h4 h5 =>
      rw [h1] at h3
      cases h3
      obtain ⟨q1, q2⟩ := List.append_inj' hf (by omega)
      subst q1 q2
      rw [ih h5]

/-- `,` with a width of 8 and padding with zeros. -/
def commas : FSpec := { fill := ' ', align := .right, sign := .minus, noNegZero := false, alt := false, zeropad := true, width := 8, sep := [','],
                        grouping := [3, 0], point := ['.'], precision := none, kind := none }

/-- Groups of three. -/
theorem threes : Sizes [3, 0] fun i => some (([] ++ [3] : List Nat).getD i 3) := .again [] 3 (by simp)

example : insertSep ['1', '2', '3', '4', '5', '6'] commas 8 = .ok ['0', ',', '1', '2', '3', ',', '4', '5', '6'] := by decide +kernel
example : insertSep ['1', '2', '3', '4', '5', '6', '7', '8'] { commas with grouping := [3, 2, 0] } 0 =
    .ok ['1', ',', '2', '3', ',', '4', '5', ',', '6', '7', '8'] := by decide +kernel

/-! ### Numbers -/

/-- The type in use: `g` or `G` by the context if none is given. -/
def Written.type (w : Written) (capitals : Bool) : Kind :=
  match w.kind with
  | none => if capitals then .G else .g
  | some .n => .g
  | some k => k

/-- Formatting a finite number: the text is the sign, the whole part with separators (and zeros for the width, if asked for), the point, the
digits after it and the exponent, padded to the width; and the number written by these digits is the number itself (hundredfold, for percentages),
rounded to the precision by the mode of the context. -/
theorem number_shown (loc : Locale) (m : Mode) (capitals : Bool) (w : Written) (hw : w.Consistent) (sizes : Nat → Option Nat)
    (hs : Sizes (w.meaning loc).grouping sizes) (s : Bool) (i : Digits) (h : IsCoeff i) (e : Int) :
    let f := w.meaning loc
    let k := w.type capitals
    let M : ℚ := number i * 10 ^ e * (if k = .percent then 100 else 1)
    ∃ (whole frac : Digits) (x : Int) (grouped out : List Char),
      Layout k f.precision whole frac x ∧
      Shown m s k f.precision M i.length ((number (whole ++ frac) : ℚ) * 10 ^ (x - frac.length)) ∧
      let sign := signFor f.sign (s && !(w.noNegZero && number (whole ++ frac) == 0))
      Separated sizes f.sep (digitsText whole)
        (if f.zeropad then (f.width : ℤ) - (tailText f k frac x).length - sign.length else 0) grouped ∧
      format loc m capitals w.text (.fin s i e) = .ok out ∧
      Padded f.fill f.align f.width sign (grouped ++ tailText f k frac x) out := by
  intro f k M
  have hparse : parseSpec loc w.text = .ok f := (specifier_read ..).2 ⟨w, rfl, hw, rfl⟩
  have hk : f.kind.getD (if capitals then .G else .g) = k := by
    show (w.meaning loc).kind.getD _ = w.type capitals
    unfold Written.meaning Written.type
    dsimp only
    rcases w.kind with _ | k
    · rfl
    · cases k <;> rfl
  have hkn : k ≠ .n := by
    show w.type capitals ≠ .n
    unfold Written.type
    rcases w.kind with _ | k
    · cases capitals <;> simp
    · cases k <;> simp
  have hp : f.precision = some 0 → k.fixed = true ∨ k.scientific = true := by
    show (w.meaning loc).precision = some 0 → (w.type capitals).fixed = true ∨ (w.type capitals).scientific = true
    unfold Written.meaning Written.type
    dsimp only
    rcases w.kind with _ | k
    · intro h; split at h
      · cases h
      · simp_all
    · cases k <;> intro h <;> first | exact .inl rfl | exact .inr rfl | skip
      all_goals
        split at h
        · cases h
        · simp_all
  obtain ⟨i1, e1, i2, e2, r1, r2, r3⟩ := roundFor_spec (K := ℚ) m hkn hp s h (if k = .percent then e + 2 else e)
  have hM : (number i : ℚ) * 10 ^ (if k = .percent then e + 2 else e) = M := by
    show _ = (number i : ℚ) * 10 ^ e * (if k = .percent then 100 else 1)
    split
    · rw [ten_add, mul_assoc]; norm_num
    · rw [mul_one]
  rw [hM] at r3
  obtain ⟨l1, l2, l3⟩ := layout_spec r3
  generalize hdp : pointPlace k f.precision i2 e2 = dp at l1 l2 l3
  generalize hsp : splitAt i2 dp = sp at l1 l2 l3
  obtain ⟨whole, frac⟩ := sp
  dsimp only at l1 l2 l3
  have hneg : (if i2 = [0] ∧ f.noNegZero = true ∧ s = true then false else s) = (s && !(w.noNegZero && number (whole ++ frac) == 0)) := by
    have : f.noNegZero = w.noNegZero := rfl
    rw [this]
    by_cases h0 : i2 = [0]
    · rw [l3.2 h0]; cases s <;> cases w.noNegZero <;> simp [h0]
    · have := mt l3.1 h0
      rw [if_neg (by tauto)]
      simp [this]
  obtain ⟨t, out, f1, f2, f3⟩ := formatNumber_spec (f := f) hs (s && !(w.noNegZero && number (whole ++ frac) == 0)) (whole := whole) (frac := frac)
    (x := e2 + i2.length - dp) (k := k) l1.noZeros.digits l1.areDigits hkn (fun hf => (l1.fixed ((fixed_iff k).1 hf)).1)
  refine ⟨whole, frac, e2 + i2.length - dp, t, out, l1, by rw [l2]; exact r3.shown, f1, ?_, f3⟩
  simp only [format, hparse, bind, Except.bind, formatWith, formatFin, hk, r1, r2, hdp, hsp, hneg]
  exact f2

/-- Infinities and NaNs are written as by `str`, with the sign that is asked for, and padded, but never with zeros inside. -/
theorem special_shown (loc : Locale) (m : Mode) (capitals : Bool) (w : Written) (hw : w.Consistent) (d : Dec) (hd : ∀ s i e, d ≠ .fin s i e) :
    ∃ out, format loc m capitals w.text d = .ok out ∧
      Padded (w.meaning loc).fill (w.meaning loc).align w.width (signFor (w.meaning loc).sign (signOf d))
        ((match d with
          | .inf _ => ['I', 'n', 'f', 'i', 'n', 'i', 't', 'y']
          | .nan _ p g => (if g then ['s'] else []) ++ ['N', 'a', 'N'] ++ p.map digitChar
          | .fin .. => []) ++ (if w.kind = some .percent then ['%'] else [])) out := by
  have hparse : parseSpec loc w.text = .ok (w.meaning loc) := (specifier_read ..).2 ⟨w, rfl, hw, rfl⟩
  have e0 : ∀ n, formatSign n (w.meaning loc) = signFor (w.meaning loc).sign n := by
    intro n
    rw [formatSign]
    cases n <;> cases (w.meaning loc).sign <;> rfl
  have e1 : ((w.meaning loc).kind = some .percent) = (w.kind = some .percent) := by
    unfold Written.meaning
    dsimp only
    rcases w.kind with _ | k
    · rfl
    · cases k <;> simp
  cases d with
  | fin s i e => exact absurd rfl (hd s i e)
  | inf s =>
    refine ⟨_, by simp only [format, hparse, bind, Except.bind, formatWith]; rfl, ?_⟩
    rw [e0]
    have := formatAlign_padded (signFor (w.meaning loc).sign s) (text capitals false (.inf false) ++ (if w.kind = some .percent then ['%'] else []))
      (w.meaning loc)
    simp only [e1]
    exact this
  | nan s p g =>
    refine ⟨_, by simp only [format, hparse, bind, Except.bind, formatWith]; rfl, ?_⟩
    rw [e0]
    have := formatAlign_padded (signFor (w.meaning loc).sign s) (text capitals false (.nan false p g) ++ (if w.kind = some .percent then ['%'] else []))
      (w.meaning loc)
    simp only [e1]
    cases g <;> exact this

/-- What the empty specifier means. -/
def plainSpec : FSpec := ⟨' ', .right, .minus, false, false, false, 0, [], [3, 0], ['.'], none, none⟩

theorem parse_empty (loc : Locale) : parseSpec loc [] = .ok plainSpec := rfl

theorem split_text (capitals : Bool) (i : Digits) (left dp : ℤ) (hi : 0 < i.length) :
    digitText (splitAt i dp).1 ++ ((if (splitAt i dp).2 ≠ [] then '.' :: digitText (splitAt i dp).2 else []) ++
      (if left - dp ≠ 0 then (if capitals then 'E' else 'e') :: signedText (left - dp) else [])) = finText capitals i left dp := by
  have hx : (if left - dp ≠ 0 then (if capitals then 'E' else 'e') :: signedText (left - dp) else []) =
      (if left = dp then [] else (if capitals then 'E' else 'e') :: signedText (left - dp)) := by
    by_cases h : left = dp
    · rw [if_pos h, if_neg (by omega)]
    · rw [if_neg h, if_pos (by omega)]
  have hi' : i ≠ [] := by rintro rfl; simp at hi
  rw [hx, finText, splitAt]
  rw [← List.append_assoc]
  congr 1
  have z : digitText [0] = ['0'] := rfl
  by_cases h1 : dp < 0
  · have h2 : dp ≤ 0 := by omega
    simp only [if_pos h1, if_pos h2, z]
    rw [if_pos (by simp [hi'])]
  · simp only [if_neg h1]
    by_cases h2 : dp > i.length
    · have h3 : ¬ dp ≤ 0 := by omega
      have h4 : dp ≥ i.length := by omega
      simp only [if_pos h2, if_neg h3, if_pos h4, ne_eq, not_true, if_false]
    · simp only [if_neg h2]
      obtain ⟨n, rfl⟩ : ∃ n : ℕ, dp = n := ⟨dp.toNat, by omega⟩
      rw [Int.toNat_natCast]
      rcases Nat.eq_zero_or_pos n with rfl | hn
      · simp [hi', z]
      · have h3 : ¬ (n : ℤ) ≤ 0 := by omega
        have ht : i.take n ≠ [] := by
          intro h
          have := congrArg List.length h
          rw [List.length_take, List.length_nil] at this
          omega
        simp only [if_neg h3, if_neg ht]
        by_cases h5 : n = i.length
        · subst h5
          simp [pad]
        · have h6 : ¬ (n : ℤ) ≥ i.length := by omega
          simp only [if_neg h6]
          rw [if_pos (by simp; omega)]

/-- Formatting with the empty specifier gives the same as `str`. -/
theorem format_plain (loc : Locale) (m : Mode) (capitals : Bool) (d : Dec) (h : d.Ok) :
    format loc m capitals [] d = .ok (text capitals false d) := by
  simp only [format, parse_empty, bind, Except.bind]
  cases d with
  | inf s => cases s <;> rfl
  | nan s p g =>
    cases s <;> cases g <;> simp [formatWith, copyAbs, signOf, formatSign, formatAlign, text, plainSpec]
  | fin s i e =>
    have hc : IsCoeff i := h
    obtain ⟨k, hk⟩ : ∃ k : Kind, k = if capitals then .G else .g := ⟨_, rfl⟩
    have hk1 : k.fixed = false := by rw [hk]; cases capitals <;> rfl
    have hk2 : k.scientific = false := by rw [hk]; cases capitals <;> rfl
    have hk3 : k ≠ .percent ∧ k ≠ .e ∧ k ≠ .E := by rw [hk]; cases capitals <;> simp
    have hdot : pointPlace k none i e = dotPlace false i e := by
      unfold pointPlace dotPlace
      dsimp only
      rw [if_neg (by simp [hk2]), if_neg (by simp [hk1])]
      by_cases h1 : e ≤ 0 ∧ e + (i.length : ℤ) > -6
      · rw [if_pos h1, if_pos (by simpa using h1)]
      · rw [if_neg h1, if_neg (by simpa using h1)]
        rfl
    have hz : zeroFor m k s i e = .fin s i e := by rw [zeroFor_eq, if_neg (by simp [hk1])]
    have hz1 : i = [0] → dotPlace false i e ≤ 1 := by
      intro h0
      subst h0
      unfold dotPlace
      dsimp only
      split
      · rename_i h1; simp at h1 ⊢; omega
      · simp
    obtain ⟨p1, p2, -⟩ := split_spec (K := ℚ) hc hz1
    generalize hsp : splitAt i (dotPlace false i e) = sp at p1 p2
    obtain ⟨whole, frac⟩ := sp
    dsimp only at p1 p2
    have hwne : digitText whole ≠ [] := by
      have := p1.length_pos
      intro h
      have := congrArg List.length h
      simp [digitText] at this
      simp_all
    obtain ⟨t, t1, t2⟩ := insertSep_separated (f := plainSpec) threes (digitText whole) 0
    have t3 : t = digitText whole := grouped_nil (separated_narrow (groupLengths_sizes threes).2 hwne (le_refl _) t2)
    subst t3
    have hx : exponentPart (e + i.length - dotPlace false i e) k = .ok (if e + (i.length : ℤ) - dotPlace false i e ≠ 0 then
        (if capitals then 'E' else 'e') :: signedText (e + i.length - dotPlace false i e) else []) := by
      rw [exponentPart]
      by_cases h1 : e + (i.length : ℤ) - dotPlace false i e ≠ 0
      · rw [if_pos (.inl h1), if_pos h1, hk]
        cases capitals <;> rfl
      · rw [if_neg (by tauto), if_neg h1]
    have key := split_text capitals i (e + i.length) (dotPlace false i e) hc.length_pos
    rw [hsp] at key
    dsimp only at key
    rw [formatWith, formatFin]
    have hkind : plainSpec.kind.getD (if capitals then .G else .g) = k := hk.symm
    simp only [hkind, hk3.1, if_false, bind, Except.bind, roundFor, hz, show plainSpec.precision = none from rfl, show plainSpec.noNegZero = false from rfl,
      Bool.false_eq_true, false_and, and_false, hdot, hsp, formatNumber, hx, show plainSpec.zeropad = false from rfl, t1]
    rw [text, ← key]
    simp only [formatAlign, show plainSpec.align = .right from rfl, show plainSpec.width = 0 from rfl, show plainSpec.alt = false from rfl, show plainSpec.point = ['.'] from rfl,
      formatSign, show plainSpec.sign = .minus from rfl]
    cases s <;> simp

/-! ### Examples -/

/-- `,.2f` -/
def money : Written := ⟨none, none, false, false, false, 0, true, some 2, some .f⟩
/-- `.1%` -/
def percentage : Written := ⟨none, none, false, false, false, 0, false, some 1, some .percent⟩
/-- `z.1f` -/
def noMinusZero : Written := ⟨none, none, true, false, false, 0, false, some 1, some .f⟩
/-- `.3e` -/
def threePlaces : Written := ⟨none, none, false, false, false, 0, false, some 3, some .e⟩

example : money.Consistent ∧ Sizes (money.meaning lakh).grouping (fun i => some (([] ++ [3] : List Nat).getD i 3)) ∧ IsCoeff [1, 2, 3, 4, 5, 6, 7] :=
  ⟨⟨by decide, by decide⟩, threes, .inr ⟨1, [2, 3, 4, 5, 6, 7], rfl, by decide, by decide⟩⟩
example : format lakh .halfEven true money.text (.fin true [1, 2, 3, 4, 5, 6, 7, 5] (-3)) = .ok ['-', '1', '2', ',', '3', '4', '5', '.', '6', '8'] := by
  decide +kernel
example : format lakh .halfEven true percentage.text (.fin false [1, 2, 3, 4, 5] (-5)) = .ok ['1', '2', '.', '3', '%'] := by decide +kernel
example : format lakh .halfEven true noMinusZero.text (.fin true [4] (-2)) = .ok ['0', '.', '0'] := by decide +kernel
example : format lakh .halfEven true threePlaces.text (.fin false [9, 9, 9, 9, 7] 0) = .ok ['1', '.', '0', '0', '0', 'e', '+', '5'] := by decide +kernel
example : format lakh .halfEven true threePlaces.text (.fin false [0] 0) = .ok ['0', '.', '0', '0', '0', 'e', '+', '3'] := by decide +kernel
example : format lakh .halfEven true sample.text (.inf true) = .ok ['*', '-', 'I', 'n', 'f', 'i', 'n', 'i', 't', 'y', '*', '*'] := by decide +kernel
example : format lakh .halfEven true [] (.fin true [1, 2, 3] (-10)) = .ok ['-', '1', '.', '2', '3', 'E', '-', '8'] := by decide +kernel

end Verif.DecimalFormat
