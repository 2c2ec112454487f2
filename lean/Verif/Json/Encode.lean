import Verif.Json.Decode

/-! The encoder writes texts of the language. -/
namespace Verif.Json

/-! ## Strings -/

theorem hexValue_digit {k : Nat} (h : k < 16) : hexValue (hexDigit k) = some k := by
  unfold hexDigit hexValue
  split
  · rw [if_pos (by omega)]; congr 1; omega
  · rw [if_neg (by omega), if_pos (by omega)]; congr 1; omega

theorem hex4_digits {n : Nat} (h : n < 0x10000) :
    hex4 [hexDigit (n / 4096 % 16), hexDigit (n / 256 % 16), hexDigit (n / 16 % 16), hexDigit (n % 16)] = some (n : Int) := by
  simp only [hex4, hexTable_eq, hexValue_digit (Nat.mod_lt _ (by decide : 16 > 0))]
  congr 1
  omega

theorem high_eq {m : Nat} (h : m < 0x100000) : 0xD800 ||| (m >>> 10 &&& 0x3FF) = 0xD800 + m / 1024 := by
  have e1 : m >>> 10 &&& 0x3FF = m / 1024 := by
    rw [show (0x3FF : Nat) = 2 ^ 10 - 1 from rfl, Nat.and_two_pow_sub_one_eq_mod, Nat.shiftRight_eq_div_pow]
    omega
  rw [e1, show (0xD800 : Nat) = 2 ^ 10 * 54 from rfl, ← Nat.two_pow_add_eq_or_of_lt (by omega)]

theorem low_eq (m : Nat) : 0xDC00 ||| (m &&& 0x3FF) = 0xDC00 + m % 1024 := by
  have e1 : m &&& 0x3FF = m % 1024 := by
    rw [show (0x3FF : Nat) = 2 ^ 10 - 1 from rfl, Nat.and_two_pow_sub_one_eq_mod]
  rw [e1, show (0xDC00 : Nat) = 2 ^ 10 * 55 from rfl, ← Nat.two_pow_add_eq_or_of_lt (by omega)]

/-- What becomes of one character. -/
inductive CharText (c : Nat) : Str → Prop
  | plain : 32 ≤ c → c ≠ 34 → c ≠ 92 → CharText c [c]
  | short {e} : (e, c) ∈ shortEscapes → CharText c [92, e]
  | unicode : c < 0x10000 → CharText c (uText c)
  | pair : 0x10000 ≤ c → c ≤ 0x10FFFF → CharText c (uText (0xD800 + (c - 0x10000) / 1024) ++ uText (0xDC00 + (c - 0x10000) % 1024))

theorem escapeDct_text {c : Nat} {e : Str} (h : escapeDct c = some e) : CharText c e ∧ (c < 32 ∨ c = 92 ∨ c = 34) := by
  unfold escapeDct at h
  split at h
  · rename_i hc; cases h; subst hc; exact ⟨.short (by decide), by decide⟩
  split at h
  · rename_i hc; cases h; subst hc; exact ⟨.short (by decide), by decide⟩
  split at h
  · rename_i hc; cases h; subst hc; exact ⟨.short (by decide), by decide⟩
  split at h
  · rename_i hc; cases h; subst hc; exact ⟨.short (by decide), by decide⟩
  split at h
  · rename_i hc; cases h; subst hc; exact ⟨.short (by decide), by decide⟩
  split at h
  · rename_i hc; cases h; subst hc; exact ⟨.short (by decide), by decide⟩
  split at h
  · rename_i hc; cases h; subst hc; exact ⟨.short (by decide), by decide⟩
  split at h
  · cases h; exact ⟨.unicode (by omega), .inl (by omega)⟩
  · cases h

theorem escapeDct_isSome {c : Nat} (h : c < 32 ∨ c = 92 ∨ c = 34) : ∃ e, escapeDct c = some e := by
  unfold escapeDct
  repeat' split
  all_goals first | exact ⟨_, rfl⟩ | omega

theorem encCharAscii_text {c : Nat} (h : c ≤ 0x10FFFF) : CharText c (encCharAscii c) := by
  unfold encCharAscii
  split
  · split
    · rename_i he; exact (escapeDct_text he).1
    · split
      · rename_i h2; exact .unicode h2
      · rename_i h2
        rw [high_eq (by omega), low_eq]
        exact .pair (by omega) h
  · exact .plain (by omega) (by omega) (by omega)

/-- Without `ensure_ascii`, only control characters become `\u` escape sequences. -/
theorem encChar_text (c : Nat) : CharText c (encChar c) ∧ (0xD800 ≤ c → encChar c = [c]) := by
  unfold encChar
  split
  · rename_i h
    obtain ⟨e, he⟩ := escapeDct_isSome h
    rw [he]
    exact ⟨(escapeDct_text he).1, fun h' => by omega⟩
  · exact ⟨.plain (by omega) (by omega) (by omega), fun _ => rfl⟩

theorem uText_eq (n : Nat) (s : Str) : uText n ++ s = 92 :: 117 :: hexDigit (n / 4096 % 16) :: hexDigit (n / 256 % 16) :: hexDigit (n / 16 % 16) :: hexDigit (n % 16) :: s := rfl

theorem body_char {strict : Bool} {c : Nat} {e s t : Str} (he : CharText c e) (h : Body hex4 strict s t)
    (hp : 0xD800 ≤ c → c ≤ 0xDBFF → e = uText c → ∀ a b x d s' u, s = 92 :: 117 :: a :: b :: x :: d :: s' → hex4 [a, b, x, d] = some u → ¬isLow u) :
    Body hex4 strict (e ++ s) (c :: t) := by
  cases he with
  | plain h1 h2 h3 => exact .plain h2 h3 (fun _ => h1) h
  | short h1 => exact .short h1 h
  | unicode h1 =>
    rw [uText_eq]
    have := Body.unicode (strict := strict) (hex4_digits h1) (by omega) (by omega) (fun hh a b x d s' u => by
      unfold isHigh at hh
      exact hp (by omega) (by omega) rfl a b x d s' u) h
    rwa [Int.toNat_natCast] at this
  | pair h1 h2 =>
    rw [List.append_assoc, uText_eq, uText_eq]
    have hm : c - 0x10000 < 0x100000 := by omega
    have := Body.pair (strict := strict) (hex4_digits (n := 0xD800 + (c - 0x10000) / 1024) (by omega)) (by unfold isHigh; omega)
      (hex4_digits (n := 0xDC00 + (c - 0x10000) % 1024) (by omega)) (by unfold isLow; omega) h
    have e : (0x10000 + (((0xD800 + (c - 0x10000) / 1024 : Nat) : Int) - 0xD800) * 0x400 +
        (((0xDC00 + (c - 0x10000) % 1024 : Nat) : Int) - 0xDC00)).toNat = c := by omega
    have e' : (0x10000 + ((((0xD800 + (c - 0x10000) / 1024 : Nat) : Int) - 0xD800) * 0x400 +
        (((0xDC00 + (c - 0x10000) % 1024 : Nat) : Int) - 0xDC00))).toNat = c := by omega
    rw [e'] at this
    exact this

theorem body_ascii {strict : Bool} : ∀ {s : Str}, (∀ c ∈ s, c ≤ 0x10FFFF) → NoPairs s → Body hex4 strict (s.flatMap encCharAscii) s := by
  intro s
  induction s with
  | nil => intro _ _; exact .nil
  | cons c s ih =>
    intro h hp
    rw [List.flatMap_cons]
    refine body_char (encCharAscii_text (h c (by simp))) (ih (fun x hx => h x (by simp [hx])) hp.2) ?_
    intro h1 h2 _ a b x d s' u hs hu hlow
    cases s with
    | nil => simp at hs
    | cons y s =>
      rw [List.flatMap_cons] at hs
      have hy := encCharAscii_text (h y (by simp))
      generalize encCharAscii y = e at hs hy
      unfold isLow at hlow
      cases hy with
      | plain h1 h2 h3 => simp at hs; exact h3 hs.1
      | short h1 =>
        simp at hs
        obtain ⟨rfl, _⟩ := hs
        simp [shortEscapes] at h1
      | unicode hlt =>
        rw [uText_eq] at hs
        simp only [List.cons.injEq, true_and] at hs
        obtain ⟨rfl, rfl, rfl, rfl, _⟩ := hs
        rw [hex4_digits hlt] at hu
        cases hu
        exact hp.1 ⟨h1, h2⟩ y (by simp) (by omega)
      | pair h1 h2 =>
        rw [List.append_assoc, uText_eq] at hs
        simp only [List.cons.injEq, true_and] at hs
        obtain ⟨rfl, rfl, rfl, rfl, _⟩ := hs
        rw [hex4_digits (by omega)] at hu
        cases hu
        omega

theorem body_plain {strict : Bool} : ∀ (s : Str), Body hex4 strict (s.flatMap encChar) s := by
  intro s
  induction s with
  | nil => exact .nil
  | cons c s ih =>
    rw [List.flatMap_cons]
    refine body_char (encChar_text c).1 ih ?_
    intro h1 h2 he
    rw [(encChar_text c).2 h1] at he
    simp [uText] at he

/-! ## Numbers -/

theorem natRepr_digits (fuel : Nat) : ∀ n, n < fuel → 
    ∃ c s, natRepr fuel n = c :: s ∧ Digits (c :: s) ∧ natParse (c :: s) = n ∧ (c = 48 → n = 0 ∧ s = []) := by
  induction fuel with
  | zero => intro n h; omega
  | succ fuel ih =>
    intro n h
    rw [natRepr]
    split
    · rename_i hn
      refine ⟨48 + n, [], rfl, ?_, ?_, ?_⟩
      · intro c hc; simp at hc; omega
      · simp [natParse]
      · intro hc; exact ⟨by omega, rfl⟩
    · rename_i hn
      obtain ⟨c, s, h1, h2, h3, h4⟩ := ih (n / 10) (by omega)
      rw [h1]
      refine ⟨c, s ++ [48 + n % 10], rfl, ?_, ?_, ?_⟩
      · intro d hd
        rw [← List.cons_append, List.mem_append] at hd
        rcases hd with hd | hd
        · exact h2 d hd
        · simp at hd; omega
      · have : natParse (c :: (s ++ [48 + n % 10])) = natParse (c :: s) * 10 + (48 + n % 10 - 48) := by
          rw [← List.cons_append, natParse, List.foldl_append]; rfl
        rw [this, h3]; omega
      · intro hc; have := h4 hc; omega

theorem natRepr_text (n : Nat) : Decimal (natRepr (n + 1) n) n := by
  obtain ⟨c, s, h1, h2, h3, h4⟩ := natRepr_digits (n + 1) n (by omega)
  rw [h1]
  by_cases hc : c = 48
  · obtain ⟨h5, rfl⟩ := h4 hc
    subst h5 hc
    exact .zero
  · have hcd := h2 c (by simp)
    have := Decimal.digits (c := c) (s := s) (by omega) hcd.2 (fun x hx => h2 x (by simp [hx]))
    rw [h3] at this
    exact this

theorem intRepr_text (i : Int) : IntText (intRepr i) i := by
  unfold intRepr
  split
  · have := IntText.neg (natRepr_text i.natAbs)
    have e : (-(i.natAbs : Int)) = i := by omega
    rwa [e] at this
  · have := IntText.pos (natRepr_text i.natAbs)
    have e : ((i.natAbs : Int)) = i := by omega
    rwa [e] at this

end Verif.Json
