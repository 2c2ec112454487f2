import Verif.Values.Model
import Mathlib.Data.List.TakeWhile
import Mathlib.Tactic.Ring
import Mathlib.Tactic.NormNum
import Mathlib.Tactic.Push
import Mathlib.Tactic.Positivity
/-
Reading digits and fields of floats.
-/
namespace Verif.Values

theorem readDigits_append (b n : Nat) (xs ys : List Char) :
    readDigits b n (xs ++ ys) = (readDigits b n xs).bind fun m => readDigits b m ys := by
  induction xs generalizing n with
  | nil => rfl
  | cons c xs ih =>
    simp only [List.cons_append, readDigits]
    cases digitValue c with
    | none => rfl
    | some d =>
      by_cases h : d < b
      · simp only [if_pos h, ih]
      · simp only [if_neg h]; rfl

theorem binary_read (cs : List Char) (n : Nat) (h : Binary cs n) :
    readDigits 2 0 cs = .ok n ∧ n < 2 ^ cs.length ∧ cs.all isDigit = true := by
  induction h with
  | nil => exact ⟨rfl, by norm_num, rfl⟩
  | zero cs n _ ih =>
    obtain ⟨h1, h2, h3⟩ := ih
    refine ⟨by rw [readDigits_append, h1]; rfl, ?_, ?_⟩
    · rw [List.length_append, List.length_singleton, pow_succ]; omega
    · rw [List.all_append, h3]; rfl
  | one cs n _ ih =>
    obtain ⟨h1, h2, h3⟩ := ih
    refine ⟨by rw [readDigits_append, h1]; rfl, ?_, ?_⟩
    · rw [List.length_append, List.length_singleton, pow_succ]; omega
    · rw [List.all_append, h3]; rfl

theorem hexDigit_value (c : Char) (d : Nat) (h : HexDigit c d) : digitValue c = some d ∧ d < 16 ∧ c ≠ '\n' := by
  cases h with
  | digit h =>
    refine ⟨if_pos h, ?_, ?_⟩
    · have : c.toNat ≤ 57 := h.2
      omega
    · rintro rfl; exact absurd h.1 (by decide)
  | letter h =>
    have h1 : 97 ≤ c.toNat := h.1
    have h2 : c.toNat ≤ 102 := h.2
    refine ⟨?_, by omega, ?_⟩
    · unfold digitValue
      rw [if_neg, if_pos h]
      rintro ⟨_, h3⟩
      have : c.toNat ≤ 57 := h3
      omega
    · rintro rfl; exact absurd h.1 (by decide)

theorem hex_read (cs : List Char) (n : Nat) (h : Hexadecimal cs n) :
    readDigits 16 0 cs = .ok n ∧ n < 16 ^ cs.length ∧ '\n' ∉ cs := by
  induction h with
  | nil => exact ⟨rfl, by norm_num, by simp⟩
  | snoc cs n c d _ hc ih =>
    obtain ⟨h1, h2, h3⟩ := ih
    obtain ⟨h4, h5, h6⟩ := hexDigit_value c d hc
    refine ⟨?_, ?_, ?_⟩
    · rw [readDigits_append, h1]
      simp only [Except.bind, readDigits, h4, if_pos h5]
    · rw [List.length_append, List.length_singleton, pow_succ]; omega
    · simp [h3, Ne.symm h6]

theorem strip_self (p s : List Char) : strip p (p ++ s) = some s := by
  induction p with
  | nil => rfl
  | cons c p ih => rw [List.cons_append, strip, if_pos rfl, ih]

theorem someDigits_run (ds s : List Char) (hd : ds.all isDigit = true) (hne : ds ≠ []) :
    someDigits (ds ++ ' ' :: s) = some (ds, ' ' :: s) := by
  have hs : ∀ c ∈ ds, isDigit c = true := by simpa using hd
  have h1 : (ds ++ ' ' :: s).takeWhile isDigit = ds := by
    rw [List.takeWhile_append_of_pos hs]
    rw [List.takeWhile_cons_of_neg (by decide)]; simp
  have h2 : (ds ++ ' ' :: s).dropWhile isDigit = ' ' :: s := by
    rw [List.dropWhile_append_of_pos hs]
    rw [List.dropWhile_cons_of_neg (by decide)]
  unfold someDigits
  rw [h1, h2, if_neg hne]

theorem fpMatch_printed (a es fs : List Char) (ha : a.all isDigit = true) (ha' : a ≠ []) (he : es.all isDigit = true) (he' : es ≠ [])
    (hf : '\n' ∉ fs) (hf' : fs ≠ []) :
    fpMatch ("(fp #b".toList ++ a ++ " #b".toList ++ es ++ " #x".toList ++ fs ++ [')']) = some (a, es, fs) := by
  have e1 : "(fp #b".toList ++ a ++ " #b".toList ++ es ++ " #x".toList ++ fs ++ [')'] =
      "(fp #b".toList ++ (a ++ ' ' :: ('#' :: 'b' :: (es ++ ' ' :: ('#' :: 'x' :: (fs ++ [')']))))) := by
    simp
  have e2 : ∀ t, strip " #b".toList (' ' :: '#' :: 'b' :: t) = some t := fun t => rfl
  have e3 : ∀ t, strip " #x".toList (' ' :: '#' :: 'x' :: t) = some t := fun t => rfl
  have e4 : upToParen (fs ++ [')']) = some fs := by
    unfold upToParen
    rw [List.getLast?_append, List.dropLast_concat, if_pos ⟨rfl, hf', hf⟩]
  rw [e1]
  unfold fpMatch
  simp only [strip_self, bind, Option.bind, someDigits_run _ _ ha ha', e2, someDigits_run _ _ he he', e3, e4, pure]

theorem lookup_fp (t : List Char) : literalConsts.lookup ('(' :: 'f' :: t) = none := rfl

/-- The fields of a word. -/
theorem fields (s e f : Nat) (he : e < 2 ^ 11) (hf : f < 2 ^ 52) :
    s <<< 63 ||| e <<< 52 ||| f = s * 2 ^ 63 + e * 2 ^ 52 + f := by
  have h1 : e <<< 52 < 2 ^ 63 := by rw [Nat.shiftLeft_eq]; omega
  have h2 : s <<< 63 ||| e <<< 52 = (s * 2 ^ 11 + e) <<< 52 := by
    rw [← Nat.shiftLeft_add_eq_or_of_lt h1]
    simp only [Nat.shiftLeft_eq]; omega
  rw [h2, ← Nat.shiftLeft_add_eq_or_of_lt hf, Nat.shiftLeft_eq]; omega

theorem unpack_fields (s e f : Nat) (hs : s < 2) (he : e < 2047) (hf : f < 2 ^ 52) (h0 : e ≠ 0 ∨ f ≠ 0) :
    unpack (s * 2 ^ 63 + e * 2 ^ 52 + f) = .ok (.fin (decide (s = 1)) (magnitude e f)) := by
  have w1 : (s * 2 ^ 63 + e * 2 ^ 52 + f) / 2 ^ 63 = s := by omega
  have w2 : (s * 2 ^ 63 + e * 2 ^ 52 + f) / 2 ^ 52 % 2 ^ 11 = e := by omega
  have w3 : (s * 2 ^ 63 + e * 2 ^ 52 + f) % 2 ^ 52 = f := by omega
  unfold unpack magnitude
  rw [if_neg (by omega)]
  simp only [w1, w2, w3]
  rw [if_neg (by omega)]
  by_cases h : e = 0
  · rw [if_pos h, if_pos h, if_neg (by tauto)]
  · rw [if_neg h, if_neg h]

theorem parse_printed (neg : Bool) (es fs : List Char) (e f : Nat) (he : Binary es e) (hel : es.length = 11) (h1 : e ≠ 2047)
    (hf : Hexadecimal fs f) (hfl : fs.length = 13) (h0 : e ≠ 0 ∨ f ≠ 0) :
    parseLiteral ("(fp #b".toList ++ [if neg then '1' else '0'] ++ " #b".toList ++ es ++ " #x".toList ++ fs ++ [')']) =
      .ok (some (.fin neg (magnitude e f))) := by
  obtain ⟨b1, b2, b3⟩ := binary_read es e he
  obtain ⟨f1, f2, f3⟩ := hex_read fs f hf
  rw [hel] at b2
  rw [hfl] at f2
  have hes : es ≠ [] := by rintro rfl; simp at hel
  have hfs : fs ≠ [] := by rintro rfl; simp at hfl
  unfold parseLiteral
  rw [fpMatch_printed _ es fs (by cases neg <;> rfl) (by simp) b3 hes f3 hfs]
  have hl : literalConsts.lookup ("(fp #b".toList ++ [if neg then '1' else '0'] ++ " #b".toList ++ es ++ " #x".toList ++ fs ++ [')']) = none := by
    have : "(fp #b".toList ++ [if neg then '1' else '0'] ++ " #b".toList ++ es ++ " #x".toList ++ fs ++ [')'] =
      '(' :: 'f' :: ("p #b".toList ++ [if neg then '1' else '0'] ++ " #b".toList ++ es ++ " #x".toList ++ fs ++ [')']) := by simp
    rw [this]; exact lookup_fp _
  have r1 : readInt 2 [if neg then '1' else '0'] = .ok (if neg then 1 else 0) := by cases neg <;> rfl
  have r2 : readInt 2 es = .ok e := by unfold readInt; rw [if_neg hes, b1]
  have r3 : readInt 16 fs = .ok f := by unfold readInt; rw [if_neg hfs, f1]
  simp only [hl, r1, r2, r3, bind, Except.bind, pure, Except.pure]
  have b2' : e < 2 ^ 11 := b2
  have f2' : f < 2 ^ 52 := by
    have : (16 : Nat) ^ 13 = 2 ^ 52 := by norm_num
    omega
  rw [fields _ e f b2' f2', unpack_fields _ e f (by cases neg <;> decide) (by omega) f2' h0]
  cases neg <;> rfl

/-! ### Texts for all floats -/

theorem binary_exists (k n : Nat) (h : n < 2 ^ k) : ∃ cs, Binary cs n ∧ cs.length = k := by
  induction k generalizing n with
  | zero => exact ⟨[], by rw [show n = 0 by simpa using h]; exact .nil, rfl⟩
  | succ k ih =>
    obtain ⟨cs, h1, h2⟩ := ih (n / 2) (by rw [pow_succ] at h; omega)
    rcases Nat.mod_two_eq_zero_or_one n with h3 | h3
    · exact ⟨cs ++ ['0'], by rw [show n = 2 * (n / 2) by omega]; exact .zero cs _ h1, by simp [h2]⟩
    · exact ⟨cs ++ ['1'], by rw [show n = 2 * (n / 2) + 1 by omega]; exact .one cs _ h1, by simp [h2]⟩

theorem hexDigit_exists (d : Nat) (h : d < 16) : ∃ c, HexDigit c d := by
  by_cases hd : d < 10
  · have : ∀ i : Fin 10, ('0' ≤ Char.ofNat (48 + i.val) ∧ Char.ofNat (48 + i.val) ≤ '9') ∧ (Char.ofNat (48 + i.val)).toNat - 48 = i.val := by decide
    have h1 := HexDigit.digit _ (this ⟨d, hd⟩).1
    rw [(this ⟨d, hd⟩).2] at h1
    exact ⟨_, h1⟩
  · have : ∀ i : Fin 6, ('a' ≤ Char.ofNat (97 + i.val) ∧ Char.ofNat (97 + i.val) ≤ 'f') ∧ (Char.ofNat (97 + i.val)).toNat - 87 = 10 + i.val := by decide
    have h1 := HexDigit.letter _ (this ⟨d - 10, by omega⟩).1
    rw [(this ⟨d - 10, by omega⟩).2, show 10 + (d - 10) = d by omega] at h1
    exact ⟨_, h1⟩

theorem hex_exists (k n : Nat) (h : n < 16 ^ k) : ∃ cs, Hexadecimal cs n ∧ cs.length = k := by
  induction k generalizing n with
  | zero => exact ⟨[], by rw [show n = 0 by simpa using h]; exact .nil, rfl⟩
  | succ k ih =>
    obtain ⟨cs, h1, h2⟩ := ih (n / 16) (by rw [pow_succ] at h; omega)
    obtain ⟨c, hc⟩ := hexDigit_exists (n % 16) (Nat.mod_lt _ (by norm_num))
    exact ⟨cs ++ [c], by rw [show n = 16 * (n / 16) + n % 16 by omega]; exact .snoc cs _ c _ h1 hc, by simp [h2]⟩

theorem cast_fraction (m : Nat) (h : 2 ^ 52 ≤ m) : (2 : ℚ) ^ 52 + ((m - 2 ^ 52 : Nat) : ℚ) = m := by
  rw [Nat.cast_sub h]
  norm_num

/-- The fields of a positive float. -/
theorem fields_exist (k m : Nat) (h0 : 0 < m) (h1 : m < 2 ^ 53) (hk : k ≤ 2045) :
    ∃ e f : Nat, e < 2047 ∧ f < 2 ^ 52 ∧ (e ≠ 0 ∨ f ≠ 0) ∧ magnitude e f = m * (2 : ℚ) ^ ((k : Int) - 1074) := by
  induction k generalizing m with
  | zero =>
    by_cases h : 2 ^ 52 ≤ m
    · refine ⟨1, m - 2 ^ 52, by norm_num, by omega, Or.inl (by norm_num), ?_⟩
      unfold magnitude
      rw [if_neg (by norm_num), cast_fraction m h]
      rfl
    · refine ⟨0, m, by norm_num, by omega, Or.inr (by omega), ?_⟩
      unfold magnitude
      rw [if_pos rfl]
      rfl
  | succ k ih =>
    by_cases h : 2 ^ 52 ≤ m
    · refine ⟨k + 2, m - 2 ^ 52, by omega, by omega, Or.inl (by omega), ?_⟩
      unfold magnitude
      rw [if_neg (by omega), cast_fraction m h, show ((k + 2 : Nat) : Int) - 1075 = ((k + 1 : Nat) : Int) - 1074 by push_cast; ring]
    · obtain ⟨e, f, he, hf, h3, h4⟩ := ih (2 * m) (by omega) (by omega) (by omega)
      refine ⟨e, f, he, hf, h3, ?_⟩
      rw [h4]
      push_cast
      rw [show (k : Int) + 1 - 1074 = (k - 1074) + 1 by ring, zpow_add_one₀ (by norm_num)]
      ring

theorem magnitude_double (e f : Nat) (he : e < 2047) (hf : f < 2 ^ 52) : Floats.IsDouble (magnitude e f) := by
  unfold magnitude
  by_cases h : e = 0
  · rw [if_pos h]
    refine ⟨f, -1074, by rw [Int.cast_natCast], ?_, le_refl _, by norm_num⟩
    rw [abs_of_nonneg (by positivity)]; omega
  · rw [if_neg h]
    refine ⟨2 ^ 52 + f, (e : Int) - 1075, by push_cast; rfl, ?_, by omega, by omega⟩
    rw [abs_of_nonneg (by positivity)]; omega

end Verif.Values
