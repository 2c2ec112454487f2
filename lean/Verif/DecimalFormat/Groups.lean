/- Lemmas about separators, padding and numerals. -/
import Verif.DecimalFormat.Spec
import Verif.DecimalMore.Text
import Mathlib.Tactic.Linarith

namespace Verif.DecimalFormat
open Verif.Decimal Verif.DecimalMore

/-! ### Separators -/

theorem joinReversed_one (sep g : List Char) : joinReversed sep [g] = g := by simp [joinReversed]

theorem intersperse_snoc (sep x : List Char) (l : List (List Char)) (h : l ≠ []) :
    (l ++ [x]).intersperse sep = l.intersperse sep ++ [sep, x] := by
  induction l with
  | nil => exact absurd rfl h
  | cons a l ih =>
    cases l with
    | nil => simp [List.intersperse]
    | cons b l =>
      have := ih (by simp)
      simp only [List.cons_append, List.intersperse_cons_cons] at this ⊢
      rw [this]

theorem joinReversed_cons (sep g : List Char) (l : List (List Char)) (h : l ≠ []) :
    joinReversed sep (g :: l) = joinReversed sep l ++ sep ++ g := by
  rw [joinReversed, List.reverse_cons, intersperse_snoc _ _ _ (by simpa using h)]
  simp [joinReversed]

theorem groupsFrom_ne_nil {sizes sepLen fuel i digits mw l} (h : groupsFrom sizes sepLen (fuel + 1) i digits mw = .ok l) : l ≠ [] := by
  rw [groupsFrom] at h
  cases hs : sizes i with
  | none => rw [hs] at h; cases h; simp
  | some g =>
    rw [hs] at h
    dsimp only at h
    split at h
    · cases h
    · split at h
      · cases h; simp
      · simp only [bind, Except.bind] at h
        split at h
        · cases h
        · cases h; simp

theorem grouped_ne_nil {sizes sep i full text} (h : Grouped sizes sep i full text) : full ≠ [] := by
  induction h with
  | one h _ => exact h
  | more _ _ _ ih => simp [ih]

/-- What the loop is to give, from a position on. -/
def Good (sizes : Nat → Option Nat) (sep : List Char) (i : Nat) (digits : List Char) (mw : Int) (text : List Char) : Prop :=
  ∃ zeros, Grouped sizes sep i (List.replicate zeros '0' ++ digits) text ∧ mw ≤ text.length ∧
    ∀ fewer < zeros, ∀ other, Grouped sizes sep i (List.replicate fewer '0' ++ digits) other → (other.length : Int) < mw

theorem groupsFrom_good {sizes : Nat → Option Nat} {sep : List Char} (hpos : ∀ i g, sizes i = some g → 0 < g) :
    ∀ (fuel i : Nat) (digits : List Char) (mw : Int), digits.length + mw.toNat < fuel →
      ∃ l, groupsFrom sizes sep.length fuel i digits mw = .ok l ∧ Good sizes sep i digits mw (joinReversed sep l) := by
  intro fuel
  induction fuel with
  | zero => intro i digits mw h; omega
  | succ fuel ih =>
    intro i digits mw hf
    rw [groupsFrom]
    cases hs : sizes i with
    | none =>
      refine ⟨_, rfl, ?_⟩
      rw [joinReversed_one]
      have e1 : padGroup (max (max (digits.length : Int) mw) 1).toNat digits =
          List.replicate ((max (max (digits.length : Int) mw) 1).toNat - digits.length) '0' ++ digits := by
        rw [padGroup, lastN]
        congr 1
        rw [show digits.length - (max (max (digits.length : Int) mw) 1).toNat = 0 by omega, List.drop_zero]
      refine ⟨(max (max (digits.length : Int) mw) 1).toNat - digits.length, ?_, ?_, ?_⟩
      · rw [e1]
        refine .one ?_ fun g hg => by rw [hs] at hg; cases hg
        intro h
        have := congrArg List.length h
        simp only [List.length_append, List.length_replicate, List.length_nil] at this
        omega
      · rw [e1]; simp only [List.length_append, List.length_replicate]; omega
      · intro fewer hfew other ho
        have : other = List.replicate fewer '0' ++ digits ∧ List.replicate fewer '0' ++ digits ≠ [] := by
          generalize hfull : List.replicate fewer '0' ++ digits = full at ho
          cases ho with
          | one h1 _ => exact ⟨rfl, h1⟩
          | more h1 _ _ => rw [hs] at h1; cases h1
        have hl := List.length_pos_of_ne_nil this.2
        rw [this.1]
        simp only [List.length_append, List.length_replicate] at hl ⊢
        omega
    | some g =>
      have hg := hpos i g hs
      dsimp only
      rw [if_neg (by omega)]
      generalize hgl : min (max (max (digits.length : Int) mw) 1) (g : Int) = gl
      have hgl1 : 1 ≤ gl := by omega
      obtain ⟨n, rfl⟩ : ∃ n : Nat, gl = n := ⟨gl.toNat, by omega⟩
      rw [Int.toNat_natCast]
      by_cases hlen : g ≤ digits.length
      · -- a full group of digits
        have hn : n = g := by omega
        subst hn
        have e1 : padGroup n digits = lastN n digits := by rw [padGroup, show n - digits.length = 0 by omega]; rfl
        have e2 : butLastN n digits ++ lastN n digits = digits := by rw [butLastN, lastN, List.take_append_drop]
        have e3 : (lastN n digits).length = n := by rw [lastN, List.length_drop]; omega
        have e4 : (butLastN n digits).length = digits.length - n := by rw [butLastN, List.length_take]; omega
        rw [e1]
        by_cases hstop : butLastN n digits = [] ∧ mw - n ≤ 0
        · rw [if_pos hstop]
          refine ⟨_, rfl, ?_⟩
          rw [joinReversed_one]
          rw [hstop.1, List.nil_append] at e2
          rw [e2] at e3 ⊢
          refine ⟨0, ?_, by omega, fun f h => by omega⟩
          rw [List.replicate_zero, List.nil_append]
          refine .one (fun h => by rw [h] at e3; simp at e3; omega) fun g' h' => ?_
          rw [hs] at h'; cases h'; omega
        · rw [if_neg hstop]
          have hfuel : (butLastN n digits).length + (mw - n - sep.length).toNat < fuel := by omega
          obtain ⟨l, h1, zeros, h2, h3, h4⟩ := ih (i + 1) (butLastN n digits) (mw - n - sep.length) hfuel
          simp only [h1, bind, Except.bind]
          refine ⟨_, rfl, ?_⟩
          have hne : l ≠ [] := by
            cases fuel with
            | zero => omega
            | succ _ => exact groupsFrom_ne_nil h1
          rw [joinReversed_cons _ _ _ hne]
          refine ⟨zeros, ?_, ?_, ?_⟩
          · have := Grouped.more (sep := sep) hs e3 h2
            rwa [List.append_assoc, e2] at this
          · simp only [List.length_append, e3]; omega
          · intro fewer hfew other ho
            generalize hfull : List.replicate fewer '0' ++ digits = full at ho
            cases ho with
            | one h5 h6 =>
              have := h6 n hs
              rw [← hfull] at this ⊢
              simp only [List.length_append, List.length_replicate] at this ⊢
              have hd : butLastN n digits = [] := List.eq_nil_of_length_eq_zero (by omega)
              have : ¬ mw - n ≤ 0 := fun h => hstop ⟨hd, h⟩
              omega
            | @more _ g' full' text' tail' h5 h6 h7 =>
              rw [hs] at h5; cases h5
              rw [← e2, ← List.append_assoc] at hfull
              obtain ⟨q1, q2⟩ := List.append_inj' hfull (by omega)
              rw [← q1] at h7
              have := h4 fewer hfew _ h7
              simp only [List.length_append, h6]
              omega
      · -- the digits are used up
        have e1 : padGroup n digits = List.replicate (n - digits.length) '0' ++ digits := by
          rw [padGroup, lastN, show digits.length - n = 0 by omega, List.drop_zero]
        have e2 : butLastN n digits = [] := by rw [butLastN, show digits.length - n = 0 by omega, List.take_zero]
        have e3 : (padGroup n digits).length = n := by rw [e1]; simp; omega
        have small : ∀ fewer other, Grouped sizes sep i (List.replicate fewer '0' ++ digits) other → fewer + digits.length < g →
            other = List.replicate fewer '0' ++ digits ∧ 0 < fewer + digits.length := by
          intro fewer other ho hlt
          generalize hfull : List.replicate fewer '0' ++ digits = full at ho
          have hl := congrArg List.length hfull
          simp only [List.length_append, List.length_replicate] at hl
          cases ho with
          | one h5 h6 => exact ⟨rfl, by have := List.length_pos_of_ne_nil h5; omega⟩
          | @more _ g' full' text' tail' h5 h6 h7 =>
            rw [hs] at h5; cases h5
            simp only [List.length_append] at hl
            omega
        rw [e2]
        by_cases hstop : mw - n ≤ 0
        · rw [if_pos ⟨rfl, hstop⟩]
          refine ⟨_, rfl, ?_⟩
          rw [joinReversed_one]
          refine ⟨n - digits.length, ?_, by omega, ?_⟩
          · rw [← e1]
            refine .one (fun h => by rw [h] at e3; simp at e3; omega) fun g' h' => ?_
            rw [hs] at h'; cases h'; omega
          · intro fewer hfew other ho
            obtain ⟨q1, q2⟩ := small fewer other ho (by omega)
            rw [q1]
            simp only [List.length_append, List.length_replicate]
            omega
        · rw [if_neg (by tauto)]
          have hn : n = g := by omega
          subst hn
          obtain ⟨l, h1, zeros, h2, h3, h4⟩ := ih (i + 1) [] (mw - n - sep.length) (by simp; omega)
          simp only [h1, bind, Except.bind]
          refine ⟨_, rfl, ?_⟩
          have hne : l ≠ [] := by
            cases fuel with
            | zero => omega
            | succ _ => exact groupsFrom_ne_nil h1
          rw [joinReversed_cons _ _ _ hne]
          have e4 : ∀ z, List.replicate (z + (n - digits.length)) '0' ++ digits = (List.replicate z '0' ++ []) ++ padGroup n digits := by
            intro z
            rw [e1, List.append_nil, ← List.append_assoc, List.replicate_append_replicate]
          refine ⟨zeros + (n - digits.length), ?_, ?_, ?_⟩
          · rw [e4]
            exact .more hs e3 h2
          · simp only [List.length_append, e3]; omega
          · intro fewer hfew other ho
            by_cases hlt : fewer + digits.length < n
            · obtain ⟨q1, q2⟩ := small fewer other ho hlt
              rw [q1]
              simp only [List.length_append, List.length_replicate]
              omega
            · obtain ⟨z, rfl⟩ : ∃ z, fewer = z + (n - digits.length) := ⟨fewer - (n - digits.length), by omega⟩
              rw [e4] at ho
              generalize hfull : (List.replicate z '0' ++ []) ++ padGroup n digits = full at ho
              cases ho with
              | one h5 h6 =>
                have := h6 n hs
                rw [← hfull] at this ⊢
                simp only [List.length_append, List.length_replicate, e3] at this ⊢
                simp only [List.length_nil]
                omega
              | @more _ g' full' text' tail' h5 h6 h7 =>
                rw [hs] at h5; cases h5
                obtain ⟨q1, q2⟩ := List.append_inj' hfull (by omega)
                rw [← q1] at h7
                have := h4 z (by omega) _ h7
                simp only [List.length_append, h6]
                omega

theorem groupLengths_sizes {grouping : List Nat} {sizes : Nat → Option Nat} (h : Sizes grouping sizes) :
    groupLengths grouping = .ok sizes ∧ ∀ i g, sizes i = some g → 0 < g := by
  cases h with
  | none => exact ⟨rfl, fun _ _ h => by cases h⟩
  | again gs g hp =>
    refine ⟨?_, ?_⟩
    · rw [groupLengths, if_neg (by simp), if_pos (by simp)]
      congr 1
      funext i
      simp only [List.length_append, List.length_cons, List.length_nil]
      split
      · rename_i hi
        rw [show gs ++ [g, 0] = (gs ++ [g]) ++ [0] by simp, List.getElem?_append_left (by simp; omega), List.getD_eq_getElem?_getD,
          List.getElem?_eq_getElem (by simp; omega)]
        rfl
      · rename_i hi
        rw [show gs.length + (0 + 1 + 1) - 2 = gs.length by omega, List.getElem?_append_right (by omega), Nat.sub_self,
          List.getD_eq_getElem?_getD, List.getElem?_eq_none (l := gs ++ [g]) (i := i) (by simp; omega)]
        rfl
    · intro i x hx
      cases hx
      rw [List.getD_eq_getElem?_getD]
      cases hi : (gs ++ [g])[i]? with
      | none => exact hp g (by simp)
      | some y => exact hp y (List.mem_of_getElem? hi)
  | noMore gs hp =>
    refine ⟨?_, fun i g hg => hp g (List.mem_of_getElem? hg)⟩
    rw [groupLengths, if_neg (by simp), if_neg (by simp), if_pos (by simp)]
    simp

theorem insertSep_separated {f : FSpec} {sizes : Nat → Option Nat} (h : Sizes f.grouping sizes) (digits : List Char) (mw : Int) :
    ∃ t, insertSep digits f mw = .ok t ∧ Separated sizes f.sep digits mw t := by
  obtain ⟨h1, h2⟩ := groupLengths_sizes h
  obtain ⟨l, h3, h4⟩ := groupsFrom_good (sep := f.sep) h2 (digits.length + mw.toNat + 1) 0 digits mw (by omega)
  refine ⟨joinReversed f.sep l, ?_, h4⟩
  simp only [insertSep, h1, h3, bind, Except.bind]

/-! ### Padding -/

theorem formatAlign_padded (sign body : List Char) (f : FSpec) : Padded f.fill f.align f.width sign body (formatAlign sign body f) := by
  have hl : (List.replicate (f.width - sign.length - body.length) f.fill).length = f.width - sign.length - body.length := by simp
  rw [formatAlign]
  cases f.align with
  | left => exact ⟨0, 0, f.width - sign.length - body.length, by simp, by simp; omega, rfl, rfl⟩
  | right => exact ⟨f.width - sign.length - body.length, 0, 0, by simp, by simp; omega, rfl, rfl⟩
  | inner => exact ⟨0, f.width - sign.length - body.length, 0, by simp, by simp; omega, rfl, rfl⟩
  | center =>
    dsimp only
    rw [hl, List.take_replicate, List.drop_replicate]
    generalize hn : f.width - sign.length - body.length = n
    refine ⟨min (n / 2) n, 0, n - n / 2, by simp, by simp; omega, rfl, by omega, by omega⟩

/-! ### Numerals -/

theorem strAux_eq (fuel n : Nat) (h : n ≤ fuel) : (strAux fuel n).map Nat.digitChar = Nat.toDigits 10 n := by
  induction fuel generalizing n with
  | zero => obtain rfl : n = 0 := by omega
            rfl
  | succ fuel ih =>
    rw [strAux]
    by_cases hn : n < 10
    · rw [if_pos hn, Nat.toDigits_of_lt_base hn]; rfl
    · rw [if_neg hn, Nat.toDigits_of_base_le (by omega) (by omega), List.map_append, ih _ (by omega)]; rfl

theorem numeral_eq (n : Nat) : numeral n = digitText (str n) := by
  rw [numeral, digitText_eq (isCoeff_str n).digits, str, strAux_eq n n (Nat.le_refl n)]

end Verif.DecimalFormat
