/- Text and back. -/
import Verif.DecimalMore.Total

namespace Verif.DecimalMore
open Verif.Decimal

theorem digitChar_spec {d : ℕ} (h : d < 10) : isDigit (digitChar d) = true ∧ digitValue (digitChar d) = d := by
  revert d; decide

theorem digitRun_text {ds : Digits} (h : ∀ x ∈ ds, x < 10) {rest : List Char} (hr : digitRun rest = ([], rest)) :
    digitRun (digitText ds ++ rest) = (ds, rest) := by
  induction ds with
  | nil => exact hr
  | cons d ds ih =>
    have hd := digitChar_spec (h d (List.mem_cons_self ..))
    have := ih fun x hx => h x (List.mem_cons_of_mem _ hx)
    rw [digitText, List.map_cons, List.cons_append, digitRun, if_pos hd.1, hd.2]
    rw [digitText] at this
    rw [this]

theorem digitRun_other {ch : Char} (h : isDigit ch = false) (rest : List Char) : digitRun (ch :: rest) = ([], ch :: rest) := by
  rw [digitRun, if_neg (by simp [h])]

theorem parseSign_other {ch : Char} (h1 : ch ≠ '-') (h2 : ch ≠ '+') (rest : List Char) : parseSign (ch :: rest) = (false, ch :: rest) := by
  unfold parseSign
  split
  · rename_i h; injection h with h _; exact absurd h h1
  · rename_i h; injection h with h _; exact absurd h h2
  · rfl

theorem digit_not_sign {ch : Char} (h : isDigit ch = true) : ch ≠ '-' ∧ ch ≠ '+' ∧ ch ≠ '.' := by
  refine ⟨?_, ?_, ?_⟩ <;> rintro rfl <;> exact absurd h (by decide)

theorem coeff_cons {i : Digits} (h : IsCoeff i) : ∃ d rest, i = d :: rest ∧ d < 10 := by
  have hl := h.length_pos
  cases i with
  | nil => simp at hl
  | cons d rest => exact ⟨d, rest, rfl, h.digits d (List.mem_cons_self ..)⟩

/-- The text of an exponent. -/
def expText (capitals : Bool) (x : ℤ) : List Char := if x = 0 then [] else (if capitals then 'E' else 'e') :: signedText x

theorem parseExp_text (capitals : Bool) (x : ℤ) : parseExp (expText capitals x) = some x := by
  unfold expText
  by_cases hx : x = 0
  · rw [if_pos hx, hx]; rfl
  · rw [if_neg hx]
    have hl : lower (if capitals then 'E' else 'e') = 'e' := by cases capitals <;> decide
    rw [parseExp]
    simp only [hl, if_true]
    have hrun : digitRun (digitText (str x.natAbs)) = (str x.natAbs, []) := by
      have := digitRun_text (rest := []) (isCoeff_str x.natAbs).digits rfl
      rwa [List.append_nil] at this
    obtain ⟨d, rest, hs, _⟩ := coeff_cons (isCoeff_str x.natAbs)
    have hn : (toInt (str x.natAbs) : ℤ) = x.natAbs := by rw [toInt_eq, number_str]
    rw [hs] at hn hrun
    by_cases h : x < 0
    · have : parseSign (signedText x) = (true, digitText (str x.natAbs)) := by rw [signedText, if_pos h]; rfl
      rw [this]
      simp only [hs, hrun, if_true, hn]
      congr 1; omega
    · have : parseSign (signedText x) = (false, digitText (str x.natAbs)) := by rw [signedText, if_neg h]; rfl
      rw [this]
      simp only [hrun, hs, Bool.false_eq_true, if_false, hn]
      congr 1; omega

theorem expText_run (capitals : Bool) (x : ℤ) : digitRun (expText capitals x) = ([], expText capitals x) := by
  unfold expText
  by_cases hx : x = 0
  · rw [if_pos hx]; rfl
  · rw [if_neg hx]; exact digitRun_other (by cases capitals <;> decide) _

theorem expText_dot (capitals : Bool) (x : ℤ) (l : List Char) : expText capitals x ≠ '.' :: l := by
  unfold expText
  by_cases hx : x = 0
  · rw [if_pos hx]; simp
  · rw [if_neg hx]
    intro h
    injection h with h _
    cases capitals <;> exact absurd h (by decide)

/-- A number with digits before the point, and perhaps digits after it. -/
theorem parseNumber_text (s capitals : Bool) {I F : Digits} (hI : ∀ x ∈ I, x < 10) (hI0 : I ≠ []) (hF : ∀ x ∈ F, x < 10) (x : ℤ) {point : Bool}
    (hp : point = false → F = []) :
    parseNumber s (digitText I ++ (if point then '.' :: digitText F else []) ++ expText capitals x) =
      some (.fin s (str (number (I ++ F))) (x - F.length)) := by
  have he : I.isEmpty = false := by cases I <;> simp_all
  unfold parseNumber
  cases point
  · have hF0 := hp rfl
    subst hF0
    simp only [Bool.false_eq_true, if_false, List.append_nil]
    rw [digitRun_text hI (expText_run capitals x)]
    dsimp only
    have hm : parseFrac (expText capitals x) = ([], expText capitals x) := by
      unfold parseFrac
      split
      · rename_i h; exact absurd h (expText_dot capitals x _)
      · rfl
    rw [hm]
    dsimp only
    rw [he, Bool.false_and, if_neg (by decide), parseExp_text, toInt_eq]
    simp
  · simp only [if_true]
    rw [List.append_assoc, digitRun_text hI (by rw [List.cons_append]; exact digitRun_other (by decide) _)]
    simp only [List.cons_append, parseFrac]
    rw [digitRun_text hF (expText_run capitals x)]
    dsimp only
    rw [he, Bool.false_and, if_neg (by decide), parseExp_text, toInt_eq]
    rfl

theorem number_zeros_append (k : ℕ) (i : Digits) : number (List.replicate k 0 ++ i) = number i := by
  rw [number_append, number_zeros]; simp

theorem mem_zeros {k : ℕ} {i : Digits} (h : IsCoeff i) : ∀ x ∈ List.replicate k 0 ++ i, x < 10 := by
  intro x hx
  rcases List.mem_append.1 hx with h1 | h1
  · rw [List.eq_of_mem_replicate h1]; omega
  · exact h.digits x h1

theorem mem_pad {k : ℤ} {i : Digits} (h : IsCoeff i) : ∀ x ∈ pad i k, x < 10 := by
  intro x hx
  rcases List.mem_append.1 hx with h1 | h1
  · exact h.digits x h1
  · rw [List.eq_of_mem_replicate h1]; omega

/-- The text of a number, wherever the point is. -/
theorem finText_parse (s capitals : Bool) {i : Digits} (h : IsCoeff i) (e dp : ℤ) :
    parseNumber s (finText capitals i (e + i.length) dp) =
      some (if dp > i.length then .fin s (str (number i * 10 ^ (dp - i.length).toNat)) (e + i.length - dp) else .fin s i e) ∧
    ∃ ch rest, finText capitals i (e + i.length) dp = ch :: rest ∧ isDigit ch = true := by
  have hl := h.length_pos
  have hexp : (if e + (i.length : ℤ) = dp then [] else (if capitals then 'E' else 'e') :: signedText (e + i.length - dp)) = expText capitals (e + i.length - dp) := by
    unfold expText
    by_cases h1 : e + (i.length : ℤ) = dp
    · rw [if_pos h1, if_pos (show e + (i.length : ℤ) - dp = 0 by omega)]
    · rw [if_neg h1, if_neg (show ¬ e + (i.length : ℤ) - dp = 0 by omega)]
  have headText : ∀ {I : Digits} (_ : ∀ x ∈ I, x < 10) (_ : I ≠ []) (l : List Char), ∃ ch rest, digitText I ++ l = ch :: rest ∧ isDigit ch = true := by
    intro I hI hI0 l
    cases I with
    | nil => exact absurd rfl hI0
    | cons d I => exact ⟨_, _, rfl, (digitChar_spec (hI d (List.mem_cons_self ..))).1⟩
  unfold finText
  dsimp only
  rw [hexp]
  by_cases h1 : dp ≤ 0
  · rw [if_pos h1, if_pos h1, if_neg (show ¬ dp > i.length by omega)]
    have hz : ∀ x ∈ ([0] : Digits), x < 10 := by simp
    have key := parseNumber_text s capitals (I := [0]) (F := List.replicate (-dp).toNat 0 ++ i) hz (by simp) (mem_zeros h) (e + i.length - dp) (point := true)
      (by simp)
    refine ⟨?_, ?_⟩
    · refine Eq.trans key ?_
      rw [show ([0] : Digits) ++ (List.replicate (-dp).toNat 0 ++ i) = List.replicate ((-dp).toNat + 1) 0 ++ i by
        rw [List.replicate_succ]; rfl, number_zeros_append, str_number h]
      congr 2
      rw [List.length_append, List.length_replicate]; omega
    · rw [List.append_assoc]; exact ⟨'0', _, rfl, by decide⟩
  · rw [if_neg h1, if_neg h1]
    by_cases h2 : dp ≥ i.length
    · rw [if_pos h2, if_pos h2]
      have hne : pad i (dp - i.length) ≠ [] := by
        intro h3
        have := congrArg List.length h3
        rw [length_pad, List.length_nil] at this; omega
      have key := parseNumber_text s capitals (I := pad i (dp - i.length)) (F := []) (mem_pad h) hne (by simp) (e + i.length - dp) (point := false)
        (by simp)
      refine ⟨?_, ?_⟩
      · refine Eq.trans key ?_
        rw [List.append_nil, number_pad]
        by_cases h3 : dp > i.length
        · rw [if_pos h3]; simp
        · rw [if_neg h3, show (dp - (i.length : ℤ)).toNat = 0 by omega]
          have : e + (i.length : ℤ) - dp = e := by omega
          simp [str_number h, this]
      · rw [List.append_assoc]; exact headText (mem_pad h) hne _
    · rw [if_neg h2, if_neg h2, if_neg (show ¬ dp > i.length by omega)]
      have ht : ∀ x ∈ i.take dp.toNat, x < 10 := fun x hx => h.digits x (List.mem_of_mem_take hx)
      have hd : ∀ x ∈ i.drop dp.toNat, x < 10 := fun x hx => h.digits x (List.mem_of_mem_drop hx)
      have hne : i.take dp.toNat ≠ [] := by
        intro h3
        have := congrArg List.length h3
        rw [List.length_take, List.length_nil] at this; omega
      have key := parseNumber_text s capitals ht hne hd (e + i.length - dp) (point := true) (by simp)
      refine ⟨?_, ?_⟩
      · refine Eq.trans key ?_
        rw [List.take_append_drop, str_number h]
        congr 2
        rw [List.length_drop]; omega
      · rw [List.append_assoc]; exact headText ht hne _

theorem parse_signed {s : Bool} {cs : List Char} {ch : Char} {rest : List Char} (hcs : cs = ch :: rest) (h1 : ch ≠ '-') (h2 : ch ≠ '+') :
    parseSign ((if s then ['-'] else []) ++ cs) = (s, cs) := by
  cases s
  · rw [hcs]; exact parseSign_other h1 h2 rest
  · rfl

theorem parse_fin {s : Bool} {cs : List Char} {ch : Char} {rest : List Char} (hcs : cs = ch :: rest) (hd : isDigit ch = true) {d : Dec}
    (h : parseNumber s cs = some d) : parse ((if s then ['-'] else []) ++ cs) = some d := by
  have h1 := digit_not_sign hd
  unfold parse
  rw [parse_signed hcs h1.1 h1.2.1]
  simp only [h]

theorem parseNumber_none (s : Bool) {ch : Char} (h1 : isDigit ch = false) (h2 : ch ≠ '.') (rest : List Char) : parseNumber s (ch :: rest) = none := by
  unfold parseNumber
  rw [digitRun_other h1]
  dsimp only
  have hm : parseFrac (ch :: rest) = ([], ch :: rest) := by
    unfold parseFrac
    split
    · rename_i h; injection h with h _; exact absurd h h2
    · rfl
  rw [hm]
  rfl

theorem lstrip_payload {p : Digits} (h : IsPayload p) : lstrip (str (number p)) = p := by
  by_cases h0 : p = []
  · subst h0; rfl
  · obtain ⟨h1, h2⟩ := h.coeff h0
    rw [str_number h1]
    cases p with
    | nil => rfl
    | cons x p =>
      have hx : x ≠ 0 := by have := h.1; simpa using this
      cases x with
      | zero => exact absurd rfl hx
      | succ x => rfl

theorem parsePayload_text (s g : Bool) {p : Digits} (h : IsPayload p) : parsePayload s g (digitText p) = some (.nan s p g) := by
  have := digitRun_text (rest := []) h.2 rfl
  rw [List.append_nil] at this
  simp only [parsePayload, this, toInt_eq, lstrip_payload h]

theorem parse_special (s capitals eng : Bool) : parse (text capitals eng (.inf s)) = some (.inf s) := by
  cases s <;> rfl

theorem parse_nan (s g capitals eng : Bool) {p : Digits} (h : IsPayload p) : parse (text capitals eng (.nan s p g)) = some (.nan s p g) := by
  cases g
  · have ht : text capitals eng (.nan s p false) = (if s then ['-'] else []) ++ ('N' :: 'a' :: 'N' :: digitText p) := by
      simp [text]
    rw [ht]
    unfold parse
    rw [parse_signed rfl (by decide) (by decide)]
    simp only [parseNumber_none s (show isDigit 'N' = false by decide) (by decide)]
    rw [if_neg (by simp [show lower 'N' ≠ 'i' by decide]), if_pos (by rfl)]
    exact parsePayload_text s false h
  · have ht : text capitals eng (.nan s p true) = (if s then ['-'] else []) ++ ('s' :: 'N' :: 'a' :: 'N' :: digitText p) := by
      simp [text]
    rw [ht]
    unfold parse
    rw [parse_signed rfl (by decide) (by decide)]
    simp only [parseNumber_none s (show isDigit 's' = false by decide) (by decide)]
    rw [if_neg (by simp [show lower 's' ≠ 'i' by decide]), if_neg (by simp [show lower 's' ≠ 'n' by decide]), if_pos (by rfl)]
    exact parsePayload_text s true h

theorem parse_number (s capitals eng : Bool) {i : Digits} (h : IsCoeff i) (e : ℤ) :
    parse (text capitals eng (.fin s i e)) = some (if dotPlace eng i e > i.length
      then .fin s (str (number i * 10 ^ (dotPlace eng i e - i.length).toNat)) (e + i.length - dotPlace eng i e) else .fin s i e) := by
  obtain ⟨h1, ch, rest, h2, h3⟩ := finText_parse s capitals h e (dotPlace eng i e)
  exact parse_fin h2 h3 h1

theorem dotPlace_le {i : Digits} (h : IsCoeff i) (e : ℤ) (eng : Bool) (hn : eng = false ∨ i = [0]) : dotPlace eng i e ≤ i.length := by
  have hl := h.length_pos
  unfold dotPlace
  dsimp only
  split
  · rename_i h1; simp only [Bool.and_eq_true, decide_eq_true_eq] at h1; omega
  · rcases hn with rfl | rfl
    · rw [if_pos (show (!false) = true from rfl)]; omega
    · cases eng
      · rw [if_pos (show (!false) = true from rfl)]; simp
      · rw [if_neg (by decide), if_pos (by decide)]; simp only [List.length_cons, List.length_nil]; omega

theorem digitText_eq {ds : Digits} (h : ∀ x ∈ ds, x < 10) : digitText ds = ds.map Nat.digitChar := by
  apply List.map_congr_left
  intro d hd
  have := h d hd
  revert this
  clear hd
  revert d
  decide

theorem written_iff (capitals s : Bool) {I F : Digits} (hI : ∀ x ∈ I, x < 10) (hF : ∀ x ∈ F, x < 10) (x : ℤ) (cs : List Char) :
    Written capitals s I F x cs ↔
      cs = (if s then ['-'] else []) ++ (digitText I ++ (if (decide (F ≠ [])) = true then '.' :: digitText F else []) ++ expText capitals x) := by
  rw [digitText_eq hI, digitText_eq hF, expText, signedText, digitText_eq (isCoeff_str x.natAbs).digits]
  constructor
  · rintro ⟨ds, h1, h2, rfl⟩
    rw [← h2, str_number h1]
    by_cases hF0 : F = [] <;> simp [hF0]
  · rintro rfl
    refine ⟨str x.natAbs, isCoeff_str _, number_str _, ?_⟩
    by_cases hF0 : F = [] <;> simp [hF0]

theorem parse_written (capitals s : Bool) {I F : Digits} (hI : ∀ x ∈ I, x < 10) (hI0 : I ≠ []) (hF : ∀ x ∈ F, x < 10) {x : ℤ} {cs : List Char}
    (h : Written capitals s I F x cs) : parse cs = some (.fin s (str (number (I ++ F))) (x - F.length)) := by
  rw [written_iff capitals s hI hF] at h
  rw [h]
  have key := parseNumber_text s capitals hI hI0 hF x (point := decide (F ≠ [])) (by simp)
  cases I with
  | nil => exact absurd rfl hI0
  | cons d I => exact parse_fin (ch := digitChar d) rfl (digitChar_spec (hI d (List.mem_cons_self ..))).1 key

/-- The form of the text, wherever the point is. -/
theorem finText_written (s capitals : Bool) {i : Digits} (h : IsCoeff i) (e dp : ℤ) :
    ∃ I F, (∀ x ∈ I, x < 10) ∧ (∀ x ∈ F, x < 10) ∧ (I.length : ℤ) = max dp 1 ∧
      Written capitals s I F (e + i.length - dp) ((if s then ['-'] else []) ++ finText capitals i (e + i.length) dp) := by
  have hl := h.length_pos
  have hexp : (if e + (i.length : ℤ) = dp then [] else (if capitals then 'E' else 'e') :: signedText (e + i.length - dp)) = expText capitals (e + i.length - dp) := by
    unfold expText
    by_cases h1 : e + (i.length : ℤ) = dp
    · rw [if_pos h1, if_pos (show e + (i.length : ℤ) - dp = 0 by omega)]
    · rw [if_neg h1, if_neg (show ¬ e + (i.length : ℤ) - dp = 0 by omega)]
  unfold finText
  dsimp only
  rw [hexp]
  by_cases h1 : dp ≤ 0
  · rw [if_pos h1, if_pos h1]
    refine ⟨[0], List.replicate (-dp).toNat 0 ++ i, by simp, mem_zeros h, by simp; omega, ?_⟩
    rw [written_iff _ _ (by simp) (mem_zeros h), if_pos (show decide (List.replicate (-dp).toNat 0 ++ i ≠ []) = true by
      rw [decide_eq_true_eq]; intro h3; have := congrArg List.length h3; rw [List.length_append, List.length_nil] at this; omega)]
    rfl
  · rw [if_neg h1, if_neg h1]
    by_cases h2 : dp ≥ i.length
    · rw [if_pos h2, if_pos h2]
      refine ⟨pad i (dp - i.length), [], mem_pad h, by simp, by rw [length_pad]; omega, ?_⟩
      rw [written_iff _ _ (mem_pad h) (by simp), if_neg (show ¬ decide (([] : Digits) ≠ []) = true by simp)]
    · rw [if_neg h2, if_neg h2]
      have ht : ∀ x ∈ i.take dp.toNat, x < 10 := fun x hx => h.digits x (List.mem_of_mem_take hx)
      have hd : ∀ x ∈ i.drop dp.toNat, x < 10 := fun x hx => h.digits x (List.mem_of_mem_drop hx)
      refine ⟨i.take dp.toNat, i.drop dp.toNat, ht, hd, by rw [List.length_take]; omega, ?_⟩
      rw [written_iff _ _ ht hd, if_pos (show decide (i.drop dp.toNat ≠ []) = true by
        rw [decide_eq_true_eq]; intro h3; have := congrArg List.length h3; rw [List.length_drop, List.length_nil] at this; omega)]

end Verif.DecimalMore
