/- Lemmas about reading format specifiers. -/
import Verif.DecimalFormat.Groups
import Mathlib.Tactic.Tauto

namespace Verif.DecimalFormat
open Verif.Decimal Verif.DecimalMore

/-! ### Digits -/

theorem digitChar_value {c : Char} (h : isDigit c = true) : digitChar (digitValue c) = c ∧ digitValue c < 10 := by
  simp only [isDigit, Bool.and_eq_true, decide_eq_true_eq] at h
  refine ⟨?_, by rw [digitValue]; omega⟩
  rw [digitChar, digitValue, show 48 + (c.toNat - 48) = c.toNat by omega, Char.ofNat_toNat]

theorem digitRun_eq {cs : List Char} {ds : Digits} {rest : List Char} (h : digitRun cs = (ds, rest)) :
    cs = digitText ds ++ rest ∧ ∀ x ∈ ds, x < 10 := by
  induction cs generalizing ds with
  | nil => cases h; exact ⟨rfl, by simp⟩
  | cons c cs ih =>
    rw [digitRun] at h
    split at h
    · rename_i hc
      obtain ⟨h1, h2⟩ := digitChar_value hc
      cases h
      obtain ⟨h3, h4⟩ := ih (ds := (digitRun cs).1) rfl
      refine ⟨?_, ?_⟩
      · rw [digitText, List.map_cons, h1, List.cons_append]
        exact congrArg _ h3
      · intro x hx
        rcases List.mem_cons.1 hx with rfl | hx
        · exact h2
        · exact h4 x hx
    · cases h; exact ⟨rfl, by simp⟩

theorem coeff_of_head {d : Nat} {ds : Digits} (hd : d ≠ 0) (h : ∀ x ∈ d :: ds, x < 10) : IsCoeff (d :: ds) := .inr ⟨d, ds, rfl, hd, h⟩

theorem numeral_number {ds : Digits} (h : IsCoeff ds) : numeral (number ds) = digitText ds := by rw [numeral_eq, str_number h]

/-! ### The order of the parts -/

/-- The rank of the part that begins with a character. -/
def rank (c : Char) : Nat :=
  if (alignOf c).isSome then 0
  else if c = '-' ∨ c = '+' ∨ c = ' ' then 1
  else if c = 'z' then 2
  else if c = '#' then 3
  else if c = '0' then 4
  else if isDigit c then 5
  else if c = ',' then 6
  else if c = '.' then 7
  else 8

/-- The text begins with a part of some rank or a later one. -/
def From (k : Nat) (cs : List Char) : Prop := ∀ c ∈ cs.head?, k ≤ rank c

theorem From.nil (k : Nat) : From k [] := by simp [From]
theorem From.cons {k : Nat} {c : Char} (h : k ≤ rank c) (cs : List Char) : From k (c :: cs) := by simpa [From] using h
theorem From.mono {j k : Nat} {cs : List Char} (h : From k cs) (hj : j ≤ k) : From j cs := fun c hc => Nat.le_trans hj (h c hc)
theorem From.opt {k : Nat} {c : Char} {cs : List Char} (h : From k cs) (hc : k ≤ rank c) (b : Bool) : From k ((if b then [c] else []) ++ cs) := by
  cases b
  · simpa using h
  · simpa using From.cons hc cs

theorem rank_digit {d : Nat} (h : d < 10) : rank (digitChar d) = if d = 0 then 4 else 5 := by revert d; decide

theorem not_digit {cs : List Char} (h : From 6 cs) : digitRun cs = ([], cs) := by
  cases cs with
  | nil => rfl
  | cons c cs =>
    refine digitRun_other ?_ cs
    have := h c (by simp)
    by_contra hd
    rw [Bool.not_eq_false] at hd
    obtain ⟨h1, h2⟩ := digitChar_value hd
    rw [← h1, rank_digit h2] at this
    split at this <;> omega

/-! ### Each part -/

theorem takeSign_text (s : Option SignOpt) {r : List Char} (h : From 2 r) : takeSign ((s.map SignOpt.char).toList ++ r) = (s, r) := by
  cases s with
  | none =>
    simp only [Option.map_none, Option.toList_none, List.nil_append]
    unfold takeSign
    split
    · exact absurd (h '-' (by simp)) (by decide)
    · exact absurd (h '+' (by simp)) (by decide)
    · exact absurd (h ' ' (by simp)) (by decide)
    · rfl
  | some s => cases s <;> rfl

theorem takeSign_eq {cs : List Char} {s : Option SignOpt} {r : List Char} (h : takeSign cs = (s, r)) :
    cs = (s.map SignOpt.char).toList ++ r := by
  unfold takeSign at h
  split at h <;> cases h <;> rfl

theorem takeChar_text {c : Char} {k : Nat} (hc : rank c < k) (b : Bool) {r : List Char} (h : From k r) :
    takeChar c ((if b then [c] else []) ++ r) = (b, r) := by
  cases b with
  | true => simp [takeChar]
  | false =>
    cases r with
    | nil => rfl
    | cons d r =>
      have hd := h d (by simp)
      have : d ≠ c := by rintro rfl; omega
      simp [takeChar, this]

theorem takeChar_eq {c : Char} {cs : List Char} {b : Bool} {r : List Char} (h : takeChar c cs = (b, r)) :
    cs = (if b then [c] else []) ++ r := by
  cases cs with
  | nil => cases h; rfl
  | cons d cs =>
    rw [takeChar] at h
    split at h
    · rename_i hd; cases h; subst hd; rfl
    · cases h; rfl

theorem str_head {n : Nat} (h : n ≠ 0) : ∃ d ds, str n = d :: ds ∧ d ≠ 0 ∧ ∀ x ∈ d :: ds, x < 10 := by
  rcases isCoeff_str n with h1 | ⟨d, ds, h1, h2, h3⟩
  · exact absurd h1 (str_ne_zero h)
  · exact ⟨d, ds, h1, h2, h3⟩

theorem takeWidth_text (n : Nat) {r : List Char} (h : From 6 r) : takeWidth ((if n = 0 then [] else numeral n) ++ r) = (n, r) := by
  by_cases hn : n = 0
  · subst hn
    rw [if_pos rfl, List.nil_append, takeWidth, not_digit h]
    rfl
  · rw [if_neg hn, numeral_eq, takeWidth, digitRun_text (isCoeff_str n).digits (not_digit h)]
    obtain ⟨d, ds, h1, h2, h3⟩ := str_head hn
    have h4 : toInt (str n) = n := by rw [toInt_eq, number_str]
    rw [h1] at h4 ⊢
    cases d with
    | zero => exact absurd rfl h2
    | succ d => exact congrArg (fun n => (n, r)) h4

theorem takeWidth_eq {cs : List Char} {n : Nat} {r : List Char} (h : takeWidth cs = (n, r)) : cs = (if n = 0 then [] else numeral n) ++ r := by
  rw [takeWidth] at h
  cases hd : digitRun cs with
  | mk ds rest =>
    rw [hd] at h
    obtain ⟨h1, h2⟩ := digitRun_eq hd
    cases ds with
    | nil =>
      cases h
      rw [if_pos (by rfl)]
      exact h1
    | cons d ds =>
      cases d with
      | zero => cases h; simp
      | succ d =>
        cases h
        have hc := coeff_of_head (Nat.succ_ne_zero d) h2
        have h0 : ((d + 1) :: ds : Digits) ≠ [0] := by intro h; cases h
        rw [toInt_eq, if_neg (hc.pos h0).ne', numeral_number hc]
        exact h1

/-- How the part for the precision is written. -/
def precText (p : Option Nat) : List Char := match p with | none => [] | some p => '.' :: numeral p

theorem takePrecision_text (p : Option Nat) {r : List Char} (h : From 8 r) :
    takePrecision (precText p ++ r) = (p, r) := by
  cases p with
  | none =>
    rw [precText, List.nil_append]
    unfold takePrecision
    split
    · exact absurd (h '.' (by simp)) (by decide)
    · rfl
  | some p =>
    rw [precText, List.cons_append, numeral_eq, takePrecision, digitRun_text (isCoeff_str p).digits (not_digit (h.mono (by omega)))]
    by_cases hp : p = 0
    · subst hp; rfl
    · obtain ⟨d, ds, h1, h2, h3⟩ := str_head hp
      have h4 : toInt (str p) = p := by rw [toInt_eq, number_str]
      rw [h1] at h4 ⊢
      cases d with
      | zero => exact absurd rfl h2
      | succ d => exact congrArg (fun n => (some n, r)) h4

theorem takePrecision_eq {cs : List Char} {p : Option Nat} {r : List Char} (h : takePrecision cs = (p, r)) :
    cs = precText p ++ r := by
  unfold takePrecision at h
  split at h
  · rename_i rest
    cases hd : digitRun rest with
    | mk ds rest' =>
      rw [hd] at h
      obtain ⟨h1, h2⟩ := digitRun_eq hd
      cases ds with
      | nil => cases h; rfl
      | cons d ds =>
        cases d with
        | zero =>
          cases h
          rw [h1]
          rfl
        | succ d =>
          cases h
          have hc := coeff_of_head (Nat.succ_ne_zero d) h2
          rw [toInt_eq, precText, numeral_number hc, List.cons_append]
          exact congrArg _ h1
  · cases h; rfl

theorem kindOf_iff (c : Char) (k : Kind) : kindOf c = some k ↔ c = k.char := by
  constructor
  · intro h
    unfold kindOf at h
    split at h <;> cases h <;> rfl
  · rintro rfl; cases k <;> rfl

theorem takeKind_text (k : Option Kind) : takeKind (k.map Kind.char).toList = some k := by
  cases k with
  | none => rfl
  | some k => cases k <;> rfl

theorem takeKind_eq {cs : List Char} {k : Option Kind} (h : takeKind cs = some k) : cs = (k.map Kind.char).toList := by
  unfold takeKind at h
  split at h
  · cases h; rfl
  · rename_i c
    cases hk : kindOf c with
    | none => rw [hk] at h; cases h
    | some k' =>
      rw [hk] at h
      cases h
      rw [(kindOf_iff c k').1 hk]
      rfl
  · cases h

theorem alignOf_char (a : Align) : alignOf a.char = some a := by cases a <;> rfl

theorem alignOf_eq {c : Char} {a : Align} (h : alignOf c = some a) : c = a.char := by
  unfold alignOf at h
  split at h <;> cases h <;> rfl

/-- How the part for the alignment is written. -/
def alignText (o : Option (Option Char × Align)) : List Char :=
  match o with | none => [] | some (c, a) => c.toList ++ [a.char]

/-- No character of the text is an alignment. -/
def NoAlign (cs : List Char) : Prop := ∀ c ∈ cs, alignOf c = none

theorem takeAlign_text (o : Option (Option Char × Align)) {r : List Char} (h : NoAlign r) :
    takeAlign (alignText o ++ r) = ((o.bind Prod.fst, o.map Prod.snd), r) := by
  cases o with
  | none =>
    rw [alignText, List.nil_append]
    match r, h with
    | [], _ => rfl
    | [c], h => rw [takeAlign, h c (by simp)]; rfl
    | c :: d :: r, h => rw [takeAlign, h d (by simp), h c (by simp)]; rfl
  | some q =>
    obtain ⟨c, a⟩ := q
    cases c with
    | none =>
      cases r with
      | nil => simp [alignText, takeAlign, alignOf_char]
      | cons d r => simp [alignText, takeAlign, alignOf_char, h d (by simp)]
    | some c => simp [alignText, takeAlign, alignOf_char]

theorem takeAlign_eq {cs : List Char} {fill : Option Char} {align : Option Align} {r : List Char} (h : takeAlign cs = ((fill, align), r)) :
    ∃ o, cs = alignText o ++ r ∧ fill = o.bind Prod.fst ∧ align = o.map Prod.snd := by
  match cs, h with
  | [], h => cases h; exact ⟨none, rfl, rfl, rfl⟩
  | [c], h =>
    rw [takeAlign] at h
    cases hc : alignOf c with
    | none => rw [hc] at h; cases h; exact ⟨none, rfl, rfl, rfl⟩
    | some a => rw [hc] at h; cases h; exact ⟨some (none, a), by rw [alignOf_eq hc]; rfl, rfl, rfl⟩
  | c :: d :: cs, h =>
    rw [takeAlign] at h
    cases hd : alignOf d with
    | some a => rw [hd] at h; cases h; exact ⟨some (some c, a), by rw [alignOf_eq hd]; rfl, rfl, rfl⟩
    | none =>
      rw [hd] at h
      cases hc : alignOf c with
      | none => rw [hc] at h; cases h; exact ⟨none, rfl, rfl, rfl⟩
      | some a => rw [hc] at h; cases h; exact ⟨some (none, a), by rw [alignOf_eq hc]; rfl, rfl, rfl⟩

/-! ### All parts -/

section
variable (w : Written)

/-- The text from a part on. -/
def Written.t8 : List Char := (w.kind.map Kind.char).toList
/-- The text from a part on. -/
def Written.t7 : List Char := precText w.precision ++ w.t8
/-- The text from a part on. -/
def Written.t6 : List Char := (if w.comma then [','] else []) ++ w.t7
/-- The text from a part on. -/
def Written.t5 : List Char := (if w.width = 0 then [] else numeral w.width) ++ w.t6
/-- The text from a part on. -/
def Written.t4 : List Char := (if w.zeropad then ['0'] else []) ++ w.t5
/-- The text from a part on. -/
def Written.t3 : List Char := (if w.alt then ['#'] else []) ++ w.t4
/-- The text from a part on. -/
def Written.t2 : List Char := (if w.noNegZero then ['z'] else []) ++ w.t3
/-- The text from a part on. -/
def Written.t1 : List Char := (w.sign.map SignOpt.char).toList ++ w.t2

theorem Written.text_eq : w.text = alignText w.align ++ w.t1 := by
  simp only [Written.text, Written.t1, Written.t2, Written.t3, Written.t4, Written.t5, Written.t6, Written.t7, Written.t8, alignText, precText,
    List.append_assoc]
  rfl

theorem Written.from8 : From 8 w.t8 := by
  rw [Written.t8]
  cases w.kind with
  | none => exact From.nil 8
  | some k => cases k <;> exact From.cons (by decide) _

theorem Written.from7 : From 7 w.t7 := by
  rw [Written.t7]
  cases w.precision with
  | none => exact (w.from8).mono (by omega)
  | some p => exact From.cons (by decide) _

theorem Written.from6 : From 6 w.t6 := ((w.from7).mono (by omega)).opt (by decide) _

theorem Written.from5 : From 5 w.t5 := by
  rw [Written.t5]
  split
  · exact (w.from6).mono (by omega)
  · rename_i h
    obtain ⟨d, ds, h1, h2, h3⟩ := str_head h
    rw [numeral_eq, h1]
    exact From.cons (by rw [rank_digit (h3 d (by simp)), if_neg h2]) _

theorem Written.from4 : From 4 w.t4 := ((w.from5).mono (by omega)).opt (by decide) _
theorem Written.from3 : From 3 w.t3 := ((w.from4).mono (by omega)).opt (by decide) _
theorem Written.from2 : From 2 w.t2 := ((w.from3).mono (by omega)).opt (by decide) _

theorem noAlign_append {a b : List Char} (ha : NoAlign a) (hb : NoAlign b) : NoAlign (a ++ b) := fun c hc =>
  (List.mem_append.1 hc).elim (ha c) (hb c)

theorem noAlign_opt {c : Char} (h : alignOf c = none) (b : Bool) : NoAlign (if b then [c] else []) := by
  cases b <;> simp [NoAlign, h]

theorem noAlign_numeral (n : Nat) : NoAlign (numeral n) := by
  rw [numeral_eq]
  intro c hc
  obtain ⟨d, hd, rfl⟩ := List.mem_map.1 hc
  have := (isCoeff_str n).digits d hd
  clear hd hc
  revert d
  decide

theorem Written.noAlign : NoAlign w.t1 := by
  refine noAlign_append ?_ (noAlign_append (noAlign_opt rfl _) (noAlign_append (noAlign_opt rfl _) (noAlign_append (noAlign_opt rfl _)
    (noAlign_append ?_ (noAlign_append (noAlign_opt rfl _) (noAlign_append ?_ ?_))))))
  · cases w.sign with
    | none => simp [NoAlign]
    | some s => cases s <;> simp [NoAlign, SignOpt.char] <;> rfl
  · split
    · simp [NoAlign]
    · exact noAlign_numeral _
  · cases w.precision with
    | none => simp [NoAlign, precText]
    | some p => exact noAlign_append (a := ['.']) (by simp [NoAlign]; rfl) (noAlign_numeral p)
  · rw [Written.t8]
    cases w.kind with
    | none => simp [NoAlign]
    | some k => cases k <;> simp [NoAlign, Kind.char] <;> rfl

end

theorem fixPrecision_eq (p : Option Nat) (k : Option Kind) : fixPrecision p k =
    if p = some 0 ∧ (k = none ∨ k = some .g ∨ k = some .G ∨ k = some .n) then some 1 else p := by
  by_cases hp : p = some 0
  · subst hp
    unfold fixPrecision
    cases k with
    | none => simp
    | some k => cases k <;> simp
  · unfold fixPrecision
    rw [if_neg hp, if_neg (by tauto)]

/-- What is read from the text of a specifier, consistent or not. -/
theorem parseSpec_text (loc : Locale) (w : Written) : parseSpec loc w.text =
    if (w.zeropad = true → w.align = none) ∧ (w.comma = true → w.kind ≠ some .n) then .ok (w.meaning loc) else .error .valueError := by
  rw [Written.text_eq, parseSpec, takeAlign_text w.align w.noAlign]
  dsimp only
  rw [Written.t1, takeSign_text w.sign w.from2]
  dsimp only
  rw [Written.t2, takeChar_text (c := 'z') (k := 3) (by decide) _ w.from3]
  dsimp only
  rw [Written.t3, takeChar_text (c := '#') (k := 4) (by decide) _ w.from4]
  dsimp only
  rw [Written.t4, takeChar_text (c := '0') (k := 5) (by decide) _ w.from5]
  dsimp only
  rw [Written.t5, takeWidth_text w.width w.from6]
  dsimp only
  rw [Written.t6, takeChar_text (c := ',') (k := 7) (by decide) _ w.from7]
  dsimp only
  rw [Written.t7, takePrecision_text w.precision w.from8]
  dsimp only
  rw [Written.t8, takeKind_text]
  dsimp only
  rw [fixPrecision_eq]
  obtain ⟨align, sign, z, alt, zp, width, comma, prec, kind⟩ := w
  dsimp only [Written.meaning, addSeparators]
  cases zp with
  | false =>
    by_cases hk : kind = some .n
    · subst hk
      cases comma <;> rcases align with _ | ⟨_ | c, a⟩ <;> simp
    · rcases align with _ | ⟨_ | c, a⟩ <;> simp [hk]
  | true =>
    rcases align with _ | ⟨_ | c, a⟩
    · by_cases hk : kind = some .n
      · subst hk
        cases comma <;> simp
      · simp [hk]
    · simp
    · simp

theorem parseSpec_written {loc : Locale} {cs : List Char} {f : FSpec} (h : parseSpec loc cs = .ok f) : ∃ w : Written, w.text = cs := by
  rw [parseSpec] at h
  rcases h1 : takeAlign cs with ⟨⟨fill, align⟩, r1⟩
  rw [h1] at h
  dsimp only at h
  rcases h2 : takeSign r1 with ⟨sign, r2⟩
  rw [h2] at h
  dsimp only at h
  rcases h3 : takeChar 'z' r2 with ⟨z, r3⟩
  rw [h3] at h
  dsimp only at h
  rcases h4 : takeChar '#' r3 with ⟨alt, r4⟩
  rw [h4] at h
  dsimp only at h
  rcases h5 : takeChar '0' r4 with ⟨zp, r5⟩
  rw [h5] at h
  dsimp only at h
  rcases h6 : takeWidth r5 with ⟨width, r6⟩
  rw [h6] at h
  dsimp only at h
  rcases h7 : takeChar ',' r6 with ⟨comma, r7⟩
  rw [h7] at h
  dsimp only at h
  rcases h8 : takePrecision r7 with ⟨prec, r8⟩
  rw [h8] at h
  dsimp only at h
  cases h9 : takeKind r8 with
  | none => rw [h9] at h; cases h
  | some kind =>
    obtain ⟨o, e1, -, -⟩ := takeAlign_eq h1
    refine ⟨⟨o, sign, z, alt, zp, width, comma, prec, kind⟩, ?_⟩
    rw [Written.text_eq, e1, takeSign_eq h2, takeChar_eq h3, takeChar_eq h4, takeChar_eq h5, takeWidth_eq h6, takeChar_eq h7,
      takePrecision_eq h8, takeKind_eq h9]
    rfl

end Verif.DecimalFormat
