import Verif.Hex.Model
import Mathlib.Tactic.IntervalCases
import Mathlib.Tactic.Linarith
/-
The properties proved about hexadecimal conversion.
-/
namespace Verif.Hex

/-! ### Helper lemmas -/

theorem makeHexDigit_eq (v : Nat) : makeHexDigit v = lowerDigits.getD (v % 16) 0 := by
  unfold makeHexDigit
  have h : v % 16 < 16 := Nat.mod_lt _ (by decide)
  simp only
  interval_cases hh : v % 16 <;> decide

theorem parse_iff (c v : Nat) : parseHexDigit c = some v ↔ IsDigit c v := by
  have tab : ∀ v : Fin 16, ∀ c, lowerDigits[v.val]? = some c → parseHexDigit c = some v.val := by
    have : ∀ v : Fin 16, parseHexDigit (lowerDigits.getD v.val 0) = some v.val := by decide +kernel
    intro v c hc
    have h := this v
    rw [List.getD_eq_getElem?_getD, hc] at h
    exact h
  have tab2 : ∀ v : Fin 16, ∀ c, upperDigits[v.val]? = some c → parseHexDigit c = some v.val := by
    have : ∀ v : Fin 16, parseHexDigit (upperDigits.getD v.val 0) = some v.val := by decide +kernel
    intro v c hc
    have h := this v
    rw [List.getD_eq_getElem?_getD, hc] at h
    exact h
  constructor
  · intro h
    have hc : c < 103 := by
      unfold parseHexDigit at h
      split at h
      · omega
      · split at h
        · omega
        · split at h
          · omega
          · simp at h
    have tab3 : ∀ c : Fin 103, ∀ v, parseHexDigit c.val = some v →
        lowerDigits[v]? = some c.val ∨ upperDigits[v]? = some c.val := by
      have : ∀ c : Fin 103, (parseHexDigit c.val).all (fun v =>
          decide (lowerDigits[v]? = some c.val) || decide (upperDigits[v]? = some c.val)) = true := by decide +kernel
      intro c v hv
      have h := this c
      rw [hv, Option.all_some, Bool.or_eq_true, decide_eq_true_iff, decide_eq_true_iff] at h
      exact h
    exact tab3 ⟨c, hc⟩ v h
  · rintro (h | h)
    · have hv : v < 16 := by
        have := (List.getElem?_eq_some_iff.mp h).1
        exact this
      exact tab ⟨v, hv⟩ c h
    · have hv : v < 16 := by
        have := (List.getElem?_eq_some_iff.mp h).1
        exact this
      exact tab2 ⟨v, hv⟩ c h

theorem space_iff (c : Nat) : isAsciiSpaceOrd c = true ↔ IsSpace c := by
  unfold isAsciiSpaceOrd IsSpace
  simp only [Bool.or_eq_true, Bool.and_eq_true, decide_eq_true_iff, List.mem_cons, List.not_mem_nil, or_false]
  omega

theorem digit_ascii {c v : Nat} (h : parseHexDigit c = some v) : c < 128 ∧ isAsciiSpaceOrd c = false := by
  unfold parseHexDigit at h
  unfold isAsciiSpaceOrd
  split at h
  · simp; omega
  · split at h
    · simp; omega
    · split at h
      · simp; omega
      · simp at h

theorem fromhex_loop_iff (s : List Nat) :
    (∀ b, fromhexLoop none s = some b ↔ HexText s b) ∧
    (∀ h b, fromhexLoop (some h) s = some b ↔
      ∃ c rest v b', s = c :: rest ∧ IsDigit c v ∧ HexText rest b' ∧ b = (h + v) :: b') := by
  induction s with
  | nil =>
    refine ⟨fun b => ?_, fun h b => ?_⟩
    · simp only [fromhexLoop, if_true, Option.some.injEq]
      constructor
      · rintro rfl; exact .nil
      · intro h; cases h; rfl
    · simp [fromhexLoop]
  | cons c s ih =>
    obtain ⟨ih1, ih2⟩ := ih
    refine ⟨fun b => ?_, fun h b => ?_⟩
    · unfold fromhexLoop
      constructor
      · intro hh
        split at hh
        · simp at hh
        · split at hh
          · rename_i hs
            exact .space ((space_iff c).mp hs.2) ((ih1 b).mp hh)
          · split at hh
            · simp at hh
            · rename_i d hd
              obtain ⟨c', rest, v, b', rfl, h2, h3, rfl⟩ := (ih2 _ b).mp hh
              rw [Nat.mul_comm]
              exact .byte ((parse_iff c d).mp hd) h2 h3
      · intro hh
        cases hh with
        | space hs ht =>
          have hs' := (space_iff c).mpr hs
          rw [if_neg, if_pos ⟨rfl, hs'⟩]
          · exact (ih1 b).mpr ht
          · unfold isAsciiSpaceOrd at hs'
            simp at hs'
            omega
        | byte h1 h2 h3 =>
          have p1 := (parse_iff _ _).mpr h1
          obtain ⟨a1, a2⟩ := digit_ascii p1
          rw [if_neg (by omega), if_neg (by rw [a2]; simp), p1]
          simp only
          rw [ih2]
          exact ⟨_, _, _, _, rfl, h2, h3, by rw [Nat.mul_comm]⟩
    · unfold fromhexLoop
      simp only [reduceCtorEq, false_and, if_false, List.cons.injEq]
      constructor
      · intro hh
        split at hh
        · simp at hh
        · split at hh
          · simp at hh
          · rename_i d hd
            rw [Option.map_eq_some_iff] at hh
            obtain ⟨b', hb, rfl⟩ := hh
            exact ⟨c, s, d, b', ⟨rfl, rfl⟩, (parse_iff _ _).mp hd, (ih1 _).mp hb, rfl⟩
      · rintro ⟨c', rest, v, b', ⟨rfl, rfl⟩, h2, h3, rfl⟩
        have p1 := (parse_iff _ _).mpr h2
        obtain ⟨a1, a2⟩ := digit_ascii p1
        rw [if_neg (by omega), p1]
        simp only
        rw [(ih1 _).mpr h3]
        rfl

theorem byteText_eq {b : Nat} (h : b < 256) : [makeHexDigit (b / 16), makeHexDigit b] = byteText b := by
  unfold byteText
  rw [makeHexDigit_eq, makeHexDigit_eq, Nat.mod_eq_of_lt (by omega : b / 16 < 16)]

theorem digit_getD {v : Nat} (h : v < 16) : IsDigit (lowerDigits.getD v 0) v := by
  left
  have hl : v < lowerDigits.length := h
  rw [List.getD_eq_getElem?_getD, List.getElem?_eq_getElem hl]
  rfl

theorem hexText_byte {b : Nat} (h : b < 256) {s l : List Nat} (ht : HexText s l) : HexText (byteText b ++ s) (b :: l) := by
  have := HexText.byte (digit_getD (by omega : b / 16 < 16)) (digit_getD (Nat.mod_lt b (by decide : 0 < 16))) ht
  rw [Nat.div_add_mod] at this
  exact this

/-! ### Properties -/

/-- **C30.** `hex` writes each byte as its two lower case digits. -/
theorem hex_correct {bytes : List Nat} (h : ∀ b ∈ bytes, b < 256) : hex bytes = bytes.flatMap byteText := by
  unfold hex
  induction bytes with
  | nil => rfl
  | cons b l ih =>
    rw [List.flatMap_cons, List.flatMap_cons, ih (fun x hx => h x (List.mem_cons_of_mem _ hx)),
      ← byteText_eq (h b (List.mem_cons_self ..))]
    rfl

/-- **C30.** `fromhex` accepts exactly hexadecimal text, two digits of either case per byte with whitespace between
bytes, and returns the bytes it denotes. -/
theorem fromhex_correct (s b : List Nat) : fromhex s = some b ↔ HexText s b := (fromhex_loop_iff s).1 b

/-- **C30.** `bytes.fromhex(b.hex()) == b`. -/
theorem hex_roundtrip {bytes : List Nat} (h : ∀ b ∈ bytes, b < 256) : fromhex (hex bytes) = some bytes := by
  rw [fromhex_correct, hex_correct h]
  induction bytes with
  | nil => exact .nil
  | cons b l ih =>
    rw [List.flatMap_cons]
    exact hexText_byte (h b (List.mem_cons_self ..)) (ih (fun x hx => h x (List.mem_cons_of_mem _ hx)))

/-- **C30.** The round trip also holds through `hex(sep, n)` for every whitespace separator and every `n`. -/
theorem hexSep_roundtrip {bytes : List Nat} (h : ∀ b ∈ bytes, b < 256) {sep : Nat} (hs : IsSpace sep) (n : Int) :
    fromhex (hexSep bytes sep n) = some bytes := by
  rw [fromhex_correct]
  have key : ∀ (sp : List Nat) (m start idx : Nat), (∀ c ∈ sp, IsSpace c) → HexText (hexLoop sp m start idx bytes) bytes := by
    intro sp m start idx hsp
    clear hs
    induction bytes generalizing idx with
    | nil => exact .nil
    | cons b l ih =>
      have hrest := hexText_byte (h b (List.mem_cons_self ..)) (ih (fun x hx => h x (List.mem_cons_of_mem _ hx)) (idx + 1))
      rw [← byteText_eq (h b (List.mem_cons_self ..))] at hrest
      unfold hexLoop
      split
      · clear ih
        have : ∀ (q : List Nat) (t : List Nat), (∀ c ∈ q, IsSpace c) → HexText t (b :: l) → HexText (q ++ t) (b :: l) := by
          intro q
          induction q with
          | nil => intro t _ ht; exact ht
          | cons c q ih => intro t hq ht; exact .space (hq c (by simp)) (ih t (fun x hx => hq x (by simp [hx])) ht)
        rw [List.append_assoc]
        exact this _ _ hsp hrest
      · rw [List.nil_append]
        exact hrest
  unfold hexSep
  split
  · split
    · exact key _ _ _ _ (by simp)
    · exact key _ _ _ _ (by simpa using hs)
  · exact key _ _ _ _ (by simpa using hs)

example : hex [222, 173, 190, 239] = "deadbeef".toList.map Char.toNat ∧
    fromhex ("DE ad\tbe ef ".toList.map Char.toNat) = some [222, 173, 190, 239] ∧
    fromhex ("d ead".toList.map Char.toNat) = none ∧ fromhex ("dea".toList.map Char.toNat) = none := by decide +kernel

theorem piecesLeft_nil (n : Nat) : piecesLeft n [] = [] := by
  rw [piecesLeft]; simp

theorem piecesLeft_step {n : Nat} {l : List Nat} (hn : n ≠ 0) (hl : l ≠ []) :
    piecesLeft n l = l.take n :: piecesLeft n (l.drop n) := by
  rw [piecesLeft, dif_neg (by simp [hn, hl])]

/-- Within a piece there is no separator. -/
theorem hexLoop_piece {sep : List Nat} {n start : Nat} (hn : 0 < n) (idx : Nat) (l rest : List Nat)
    (hb : ∀ b ∈ l, b < 256) (hidx : (idx + l.length) ≤ (idx / n + 1) * n)
    (h0 : idx = start ∨ idx % n ≠ 0) :
    hexLoop sep n start idx (l ++ rest) = l.flatMap byteText ++ hexLoop sep n start (idx + l.length) rest := by
  induction l generalizing idx with
  | nil => rfl
  | cons b l ih =>
    rw [List.cons_append]
    conv_lhs => unfold hexLoop
    rw [if_neg (by rcases h0 with h | h <;> simp [h]), List.nil_append, byteText_eq (hb b (List.mem_cons_self ..)),
      List.flatMap_cons, List.append_assoc, List.length_cons]
    rw [List.length_cons] at hidx
    cases l with
    | nil => rfl
    | cons b' l' =>
      rw [List.length_cons] at hidx
      have hlt : idx + 1 < (idx / n + 1) * n := by omega
      have hmod : (idx + 1) % n ≠ 0 ∧ (idx + 1) / n = idx / n := by
        have e1 := Nat.div_add_mod idx n
        have e2 : (idx / n + 1) * n = n * (idx / n) + n := by rw [Nat.add_mul, Nat.one_mul, Nat.mul_comm]
        have e3 : idx % n + 1 < n := by omega
        have e4 : (idx + 1) % n = idx % n + 1 := by
          rw [Nat.add_mod, Nat.mod_eq_of_lt (by omega : 1 < n), Nat.mod_eq_of_lt e3]
        have e5 := Nat.div_add_mod (idx + 1) n
        refine ⟨by omega, ?_⟩
        rw [e4] at e5
        have e6 : n * ((idx + 1) / n) = n * (idx / n) := by omega
        exact Nat.eq_of_mul_eq_mul_left hn e6
      rw [ih (idx + 1) (fun x hx => hb x (List.mem_cons_of_mem _ hx)) (by rw [hmod.2, List.length_cons]; omega) (.inr hmod.1)]
      rw [List.length_cons, show idx + 1 + (l'.length + 1) = idx + (l'.length + 1 + 1) by omega]

/-- After the start, each further block of `n` bytes is a piece with the separator before it. -/
theorem hexLoop_blocks {sep : Nat} {n start : Nat} (hn : 0 < n) (l : List Nat) (k : Nat) (hk : start < k * n)
    (hb : ∀ b ∈ l, b < 256) :
    hexLoop [sep] n start (k * n) l = (piecesLeft n l).flatMap fun p => sep :: p.flatMap byteText := by
  induction hlen : l.length using Nat.strong_induction_on generalizing l k with
  | _ len ih =>
    cases l with
    | nil => rw [piecesLeft_nil]; rfl
    | cons b l' =>
      rw [piecesLeft_step (by omega) (by simp), List.flatMap_cons]
      have htake : (b :: l').take n = b :: l'.take (n - 1) := by
        cases n with
        | zero => omega
        | succ m => simp
      have hdrop : (b :: l').drop n = l'.drop (n - 1) := by
        cases n with
        | zero => omega
        | succ m => simp
      unfold hexLoop
      rw [if_pos ⟨by omega, by simp⟩]
      have hpiece := hexLoop_piece (sep := [sep]) (start := k * n) hn (k * n) ((b :: l').take n) ((b :: l').drop n)
        (fun x hx => hb x (List.mem_of_mem_take hx))
        (by
          rw [Nat.mul_div_cancel _ hn, List.length_take, Nat.add_mul, Nat.one_mul]
          omega) (.inl rfl)
      by_cases hfull : n ≤ (b :: l').length
      · have hl : ((b :: l').take n).length = n := by rw [List.length_take]; omega
        have step := hexLoop_piece (sep := [sep]) (start := start) hn (k * n + 1) (l'.take (n - 1)) (l'.drop (n - 1))
          (fun x hx => hb x (List.mem_cons_of_mem _ (List.mem_of_mem_take hx)))
        by_cases h1 : n = 1
        · subst h1
          simp only [Nat.sub_self, List.take_zero, List.drop_zero, Nat.mul_one] at *
          have hrec := ih l'.length (by rw [← hlen, List.length_cons]; omega) l' (k + 1)
            (by omega) (fun x hx => hb x (List.mem_cons_of_mem _ hx)) rfl
          rw [hrec, htake, hdrop]
          simp only [List.flatMap_cons, List.flatMap_nil, List.append_nil]
          rw [← byteText_eq (hb b (List.mem_cons_self ..))]
          simp
        · have hstep := step
            (by
              have e : (k * n + 1) / n = k := by
                rw [Nat.add_comm, Nat.add_mul_div_right _ _ hn, Nat.div_eq_of_lt (by omega)]
                omega
              rw [e, List.length_take, Nat.add_mul, Nat.one_mul]
              omega)
            (.inr (by rw [Nat.add_comm, Nat.add_mul_mod_self_right, Nat.mod_eq_of_lt (by omega)]; omega))
          rw [List.take_append_drop] at hstep
          rw [hstep]
          have hl2 : (l'.take (n - 1)).length = n - 1 := by
            rw [List.length_take]
            rw [List.length_cons] at hfull
            omega
          rw [hl2, show k * n + 1 + (n - 1) = (k + 1) * n by rw [Nat.add_mul, Nat.one_mul]; omega]
          have hrec := ih (l'.drop (n - 1)).length
            (by rw [← hlen, List.length_drop, List.length_cons]; omega) (l'.drop (n - 1)) (k + 1)
            (by rw [Nat.add_mul]; omega)
            (fun x hx => hb x (List.mem_cons_of_mem _ (List.mem_of_mem_drop hx))) rfl
          rw [hrec, htake, hdrop, List.flatMap_cons, ← byteText_eq (hb b (List.mem_cons_self ..))]
          simp
      · have hd : l'.drop (n - 1) = [] := by
          rw [List.drop_eq_nil_iff]
          rw [List.length_cons] at hfull
          omega
        have ht : l'.take (n - 1) = l' := by
          apply List.take_of_length_le
          rw [List.length_cons] at hfull
          omega
        have step := hexLoop_piece (sep := [sep]) (start := start) hn (k * n + 1) l' []
          (fun x hx => hb x (List.mem_cons_of_mem _ hx))
          (by
            have e : (k * n + 1) / n = k := by
              rw [Nat.add_comm, Nat.add_mul_div_right _ _ hn, Nat.div_eq_of_lt (by rw [List.length_cons] at hfull; omega)]
              omega
            rw [e, Nat.add_mul, Nat.one_mul]
            rw [List.length_cons] at hfull
            omega)
          (.inr (by rw [Nat.add_comm, Nat.add_mul_mod_self_right, Nat.mod_eq_of_lt (by rw [List.length_cons] at hfull; omega)]; omega))
        rw [List.append_nil] at step
        rw [step, htake, hdrop, ht, hd, piecesLeft_nil, List.flatMap_cons, ← byteText_eq (hb b (List.mem_cons_self ..))]
        simp [hexLoop]

theorem intercalate_cons (sep : Nat) (x : List Nat) (xs : List (List Nat)) :
    List.intercalate [sep] (x :: xs) = x ++ xs.flatMap fun y => sep :: y := by
  induction xs generalizing x with
  | nil => simp [List.intercalate]
  | cons y ys ih =>
    have : List.intercalate [sep] (x :: y :: ys) = x ++ [sep] ++ List.intercalate [sep] (y :: ys) := by
      simp [List.intercalate, List.intersperse]
    rw [this, ih y, List.flatMap_cons]
    simp

/-- **C30.** With a negative count, the separator is placed after every that many bytes, counted from the left. -/
theorem hexSep_left {bytes : List Nat} (h : ∀ b ∈ bytes, b < 256) (sep : Nat) {n : Nat} (hn : 0 < n) :
    hexSep bytes sep (-n) = piecesText sep (piecesLeft n bytes) := by
  unfold hexSep
  rw [if_neg (by omega), show (- -(n : Int)).toNat = n by omega]
  unfold piecesText
  cases bytes with
  | nil => rw [piecesLeft_nil]; rfl
  | cons b l =>
    rw [piecesLeft_step (by omega) (by simp), List.map_cons, intercalate_cons, List.flatMap_map]
    have hp := hexLoop_piece (sep := [sep]) (start := 0) hn 0 ((b :: l).take n) ((b :: l).drop n)
      (fun x hx => h x (List.mem_of_mem_take hx)) (by rw [Nat.zero_div, List.length_take]; omega) (.inl rfl)
    rw [List.take_append_drop] at hp
    rw [hp]
    congr 1
    by_cases hfull : n ≤ (b :: l).length
    · have hl : ((b :: l).take n).length = n := by rw [List.length_take]; omega
      rw [hl]
      have := hexLoop_blocks (sep := sep) (start := 0) hn ((b :: l).drop n) 1 (by omega)
        (fun x hx => h x (List.mem_of_mem_drop hx))
      rw [Nat.one_mul] at this
      rw [Nat.zero_add, this]
    · have hd : (b :: l).drop n = [] := by rw [List.drop_eq_nil_iff]; omega
      rw [hd, piecesLeft_nil]
      rfl

/-- A count of zero means no separators. -/
theorem hexSep_zero {bytes : List Nat} (h : ∀ b ∈ bytes, b < 256) (sep : Nat) : hexSep bytes sep 0 = hex bytes := by
  unfold hexSep
  rw [if_pos (by omega), if_pos rfl, hex_correct h]
  have : ∀ (l : List Nat) (idx : Nat), (∀ b ∈ l, b < 256) → hexLoop [] 1 0 idx l = l.flatMap byteText := by
    intro l
    induction l with
    | nil => intros; rfl
    | cons b l ih =>
      intro idx hb
      unfold hexLoop
      rw [ih _ (fun x hx => hb x (List.mem_cons_of_mem _ hx)), List.flatMap_cons, byteText_eq (hb b (List.mem_cons_self ..))]
      simp
  exact this bytes 0 h

/-- **C30.** With a positive count, pieces are counted from the right when the length leaves no remainder or a remainder
of half the count; in particular always for counts 1 and 2.  (Missing: other remainders; see `hexSep_misplaced`.) -/
theorem hexSep_right_partial {bytes : List Nat} (h : ∀ b ∈ bytes, b < 256) (sep : Nat) {n : Nat} (hn : 0 < n)
    (hrem : bytes.length % n = 0 ∨ 2 * (bytes.length % n) = n) :
    hexSep bytes sep n = piecesText sep (piecesRight n bytes) := by
  unfold hexSep
  rw [if_pos (by omega), if_neg (by omega), show ((n : Int)).toNat = n by omega]
  simp only
  unfold piecesRight
  rcases hrem with hr | hr
  · rw [if_pos hr, hr]
    have := hexSep_left h sep hn
    unfold hexSep at this
    rw [if_neg (by omega), show (- -(n : Int)).toNat = n by omega] at this
    exact this
  · have hr0 : bytes.length % n ≠ 0 := by omega
    rw [if_neg hr0]
    obtain ⟨r, hrr⟩ : ∃ r, r = bytes.length % n := ⟨_, rfl⟩
    rw [← hrr] at hr hr0 ⊢
    have hle : r ≤ bytes.length := by rw [hrr]; exact Nat.mod_le _ _
    unfold piecesText
    rw [List.map_cons, intercalate_cons, List.flatMap_map]
    have hp := hexLoop_piece (sep := [sep]) (start := r) hn r (bytes.take r) (bytes.drop r)
      (fun x hx => h x (List.mem_of_mem_take hx))
      (by rw [Nat.div_eq_of_lt (by omega), List.length_take]; omega) (.inl rfl)
    rw [List.take_append_drop] at hp
    rw [hp]
    congr 1
    have hl : (bytes.take r).length = r := by rw [List.length_take]; omega
    rw [hl, show r + r = 1 * n by omega]
    exact hexLoop_blocks hn _ 1 (by omega) (fun x hx => h x (List.mem_of_mem_drop hx))

example : ∀ k : Nat, k % 1 = 0 ∧ (k % 2 = 0 ∨ 2 * (k % 2) = 2) := by omega

example : hexSep [1, 2, 3] 58 2 = "01:0203".toList.map Char.toNat ∧
    hexSep [1, 2, 3] 58 (-2) = "0102:03".toList.map Char.toNat := by decide +kernel

/-- **C30, disagreement.** Five bytes in groups of three from the right should be a group of two and a group of three;
CrossHair makes groups of one, three and one. -/
theorem hexSep_misplaced :
    hexSep [1, 2, 3, 4, 5] 58 3 = "01:020304:05".toList.map Char.toNat ∧
    piecesText 58 (piecesRight 3 [1, 2, 3, 4, 5]) = "0102:030405".toList.map Char.toNat := by
  refine ⟨by decide +kernel, ?_⟩
  unfold piecesRight
  rw [if_neg (by decide)]
  rw [show ([1, 2, 3, 4, 5] : List Nat).take ([1, 2, 3, 4, 5].length % 3) = [1, 2] by decide,
    show ([1, 2, 3, 4, 5] : List Nat).drop ([1, 2, 3, 4, 5].length % 3) = [3, 4, 5] by decide,
    piecesLeft_step (by decide) (by decide),
    show ([3, 4, 5] : List Nat).take 3 = [3, 4, 5] by decide, show ([3, 4, 5] : List Nat).drop 3 = [] by decide,
    piecesLeft_nil]
  decide +kernel

end Verif.Hex
