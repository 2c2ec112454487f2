import Verif.Ints.Lemmas
/-
Property theorems about integer arithmetic: C14 (division), C15 (bits), C16 (rounding),
C17 (bytes), C18 (decimal text), C19 (bounded integers), C46 (greatest common divisor).
-/
namespace Verif.Ints

/-! ### C14 Division and remainder -/

/-- Division raises exactly for a zero divisor, and otherwise yields Python's quotient: together
with the remainder computed by `%` it satisfies Python's defining equation. -/
theorem floordiv_mod_agree (x y : Int) :
    (y = 0 → smtFloorDiv x y = .error .zeroDivision ∧ smtMod x y = .error .zeroDivision) ∧
    (y ≠ 0 → ∃ q r, smtFloorDiv x y = .ok q ∧ smtMod x y = .ok r ∧ IsDivMod x y q r) := by
  refine ⟨fun h => by simp [smtFloorDiv, smtMod, h], fun h => ?_⟩
  exact ⟨_, _, smtFloorDiv_eq_fdiv x y h, smtMod_eq_fmod x y h, fdiv_fmod_isDivMod x y h⟩

/-- Python's equation determines quotient and remainder, so the previous theorem pins down the
answers. -/
theorem divmod_determined {x y q r q' r' : Int} (h : IsDivMod x y q r) (h' : IsDivMod x y q' r') :
    q = q' ∧ r = r' := divMod_unique h h'

example : smtFloorDiv (-7) 2 = .ok (-4) ∧ smtMod (-7) 2 = .ok 1 := by decide
example : smtFloorDiv 7 (-2) = .ok (-4) ∧ smtMod 7 (-2) = .ok (-1) := by decide
example : smtFloorDiv (-7) (-2) = .ok 3 ∧ smtMod (-7) (-2) = .ok (-1) := by decide
example : IsDivMod (-7) 2 (-4) 1 := by unfold IsDivMod; decide

/-! ### C15 Bit operations -/

/-- Two integers with the same two's complement bits are equal: the theorems below determine the
results they describe. -/
theorem bits_determine {x y : Int} (h : ∀ i, bit x i = bit y i) : x = y := bit_ext h

/-- Shifting left by a negative amount raises; otherwise every bit moves up and zeros come in. -/
theorem lshift_bits (a b : Int) :
    (b < 0 → lshift a b = .error .valueError) ∧
    (0 ≤ b → ∃ r, lshift a b = .ok r ∧
      ∀ i : Nat, bit r i = (decide (b.toNat ≤ i) && bit a (i - b.toNat))) := by
  refine ⟨fun h => by simp [lshift, h], fun h => ⟨_, by simp [lshift, Int.not_lt.2 h]; rfl, ?_⟩⟩
  intro i
  generalize b.toNat = k
  rw [bit_eq_fdiv, bit_eq_fdiv]
  have hp : ∀ j : Nat, (0 : Int) ≤ 2 ^ j := fun j => by positivity
  rw [Int.fdiv_eq_ediv_of_nonneg _ (hp _), Int.fdiv_eq_ediv_of_nonneg _ (hp _)]
  by_cases hk : k ≤ i
  · obtain ⟨m, rfl⟩ : ∃ m, i = m + k := ⟨i - k, by omega⟩
    have hk' : (0 : Int) < 2 ^ k := by positivity
    rw [pow_add, Int.mul_ediv_mul_of_pos_left _ _ hk']
    simp
  · obtain ⟨m, rfl⟩ : ∃ m, k = m + 1 + i := ⟨k - i - 1, by omega⟩
    have hi : (2 : Int) ^ i ≠ 0 := by positivity
    rw [pow_add, ← mul_assoc, Int.mul_ediv_cancel _ hi, pow_succ, ← mul_assoc]
    have : a * 2 ^ m * 2 % 2 = 0 := Int.mul_emod_left _ _
    rw [this]
    simp

/-- Shifting right by a negative amount raises; otherwise every bit moves down (and the sign is
kept, bit by bit). -/
theorem rshift_bits (a b : Int) :
    (b < 0 → rshift a b = .error .valueError) ∧
    (0 ≤ b → ∃ r, rshift a b = .ok r ∧ ∀ i : Nat, bit r i = bit a (i + b.toNat)) := by
  have hne : (2 : Int) ^ b.toNat ≠ 0 := by positivity
  refine ⟨fun h => by simp [rshift, h], fun h => ⟨a.fdiv (2 ^ b.toNat), ?_, ?_⟩⟩
  · rw [rshift, if_neg (Int.not_lt.2 h), smtFloorDiv_eq_fdiv _ _ hne]
  · intro i
    rw [bit_eq_fdiv, bit_eq_fdiv]
    have hp : ∀ j : Nat, (0 : Int) ≤ 2 ^ j := fun j => by positivity
    rw [Int.fdiv_eq_ediv_of_nonneg _ (hp _), Int.fdiv_eq_ediv_of_nonneg _ (hp _),
      Int.fdiv_eq_ediv_of_nonneg _ (hp _), Int.ediv_ediv_of_nonneg (hp _), ← pow_add,
      Nat.add_comm]

/-- Inversion flips every bit. -/
theorem invert_bits (a : Int) (i : Nat) : bit (invert a) i = !bit a i := by
  unfold invert
  cases a with
  | ofNat n =>
    have : -(Int.ofNat n + 1) = Int.negSucc n := by simp [Int.negSucc_eq]
    rw [this]; rfl
  | negSucc n =>
    have : -(Int.negSucc n + 1) = Int.ofNat n := by simp [Int.negSucc_eq]
    rw [this]; simp [bit]

/-- Whenever masking is answered without realizing the number, every bit of the answer is the
conjunction of the bits of the operands. -/
theorem and_mask_bits {a b r : Int} (h : andMask a b = some r) (i : Nat) :
    bit r i = (bit a i && bit b i) := by
  unfold andMask at h
  split at h
  · rename_i h0
    have : r = 0 := by simpa using h.symm
    subst this h0
    have : bit 0 i = false := by show Nat.testBit 0 i = false; simp
    simp [this]
  · simp only at h
    split at h
    · rename_i h0 hb
      obtain ⟨hb0, hland⟩ := hb
      obtain ⟨k, hk⟩ := pow_of_land (m := (b + 1).toNat) (by omega) (by
        have : (b + 1).toNat - 1 = b.toNat := by omega
        rw [this]; exact hland)
      have hkI : b + 1 = 2 ^ k := by
        have : ((b + 1).toNat : Int) = b + 1 := by omega
        rw [← this, hk]; push_cast; rfl
      have hkN : b.toNat = 2 ^ k - 1 := by omega
      have bb : bit b i = decide (i < k) := by
        rw [bit_nonneg b (by omega), hkN, Nat.testBit_two_pow_sub_one]
      have hpk : 0 < 2 ^ k := Nat.two_pow_pos k
      split at h
      · rename_i ha
        have hr : r = a % (b + 1) := by simpa using h.symm
        have hr' : r = ((a.toNat % 2 ^ k : Nat) : Int) := by
          rw [hr, ← hk, Int.natCast_mod]
          congr 1 <;> omega
        rw [hr', bit_ofNat, Nat.testBit_mod_two_pow, bb, bit_nonneg a ha, Bool.and_comm]
      · rename_i ha
        have hr : r = b - (-a - 1) % (b + 1) := by simpa using h.symm
        have hm : (-a - 1) % (b + 1) = (((-a - 1).toNat % 2 ^ k : Nat) : Int) := by
          rw [← hk, Int.natCast_mod]
          congr 1 <;> omega
        have hlt : (-a - 1).toNat % 2 ^ k < 2 ^ k := Nat.mod_lt _ hpk
        have hr' : r = ((2 ^ k - ((-a - 1).toNat % 2 ^ k + 1) : Nat) : Int) := by
          rw [hr, hm]; omega
        rw [hr', bit_ofNat, Nat.testBit_two_pow_sub_succ hlt, bb, bit_neg a (by omega),
          Nat.testBit_mod_two_pow]
        by_cases hik : i < k <;> simp [hik]
    · cases h

/-- Masks of consecutive low bits are always answered without realization. -/
theorem and_mask_answers (a : Int) (k : Nat) : (andMask a (2 ^ k - 1)).isSome := by
  unfold andMask
  have hpk : (0 : Int) < 2 ^ k := by positivity
  split
  · rfl
  · rename_i h0
    simp only
    rw [if_pos]
    · split <;> rfl
    · refine ⟨by omega, ?_⟩
      have h1 : ((2 : Int) ^ k - 1 + 1).toNat = 2 ^ k := by
        have : ((2 : Int) ^ k) = ((2 ^ k : Nat) : Int) := by push_cast; rfl
        omega
      have h2 : ((2 : Int) ^ k - 1).toNat = 2 ^ k - 1 := by
        have : ((2 : Int) ^ k) = ((2 ^ k : Nat) : Int) := by push_cast; rfl
        omega
      rw [h1, h2, Nat.and_two_pow_sub_one_eq_mod, Nat.mod_self]

/-- `bit_length` of zero is zero; otherwise it is the number of binary digits of the absolute
value. -/
theorem bit_length_spec (x : Int) :
    (x = 0 → bitLength x = 0) ∧
    (x ≠ 0 → 0 < bitLength x ∧ 2 ^ (bitLength x - 1) ≤ x.natAbs ∧ x.natAbs < 2 ^ bitLength x) := by
  have e : (if x < 0 then (-x).toNat else x.toNat) = x.natAbs := by split <;> omega
  unfold bitLength
  rw [e]
  have := bitLengthNat_spec x.natAbs
  exact ⟨fun h => this.1 (by omega), fun h => this.2 (by omega)⟩

/-- `bit_count` is the number of ones in the absolute value. -/
theorem bit_count_spec (x : Int) : bitCount x = popcount x.natAbs := by
  have h := bitCountLoop_spec
  unfold bitCount
  split
  · rw [show (-x).toNat = x.natAbs by omega]
    exact h _ (x.natAbs + 1) 0 0 (by omega) (by simp [Nat.mod_one, popcount])
  · rw [show x.toNat = x.natAbs by omega]
    exact h _ (x.natAbs + 1) 0 0 (by omega) (by simp [Nat.mod_one, popcount])

example : lshift (-3) 4 = .ok (-48) ∧ rshift (-3) 1 = .ok (-2) ∧ invert 5 = -6 := by decide
example : andMask (-3) 7 = some 5 ∧ andMask 13 3 = some 1 ∧ andMask 13 5 = none := by decide
example : bitLength (-1000) = 10 ∧ bitCount (-1000) = 6 := by
  constructor
  · simp [bitLength, bitLengthNat]
  · rw [bit_count_spec]; simp [popcount]

/-! ### C16 Rounding to tens, hundreds, ... -/

/-- `round(x, d)` is `x` for `d` absent or non-negative; for negative `d` it is the closest
multiple of `10^(-d)`, the even multiple when two are equally close. -/
theorem round_spec (x : Int) (d : Option Int) :
    (d = none → round x d = x) ∧
    (∀ n : Int, d = some n → 0 ≤ n → round x d = x) ∧
    (∀ n : Int, d = some n → n < 0 → IsRounded x (10 ^ (-n).toNat) (round x d)) := by
  refine ⟨fun h => by subst h; rfl, fun n h hn => by subst h; simp [round, hn], fun n h hn => ?_⟩
  subst h
  simp only [round]
  rw [if_neg (by omega)]
  split
  · have := isRounded_neg (roundNonneg_spec (-x) (-n).toNat (by omega))
    rwa [Int.neg_neg] at this
  · exact roundNonneg_spec x (-n).toNat (by omega)

/-- There is only one such multiple. -/
theorem rounded_determined {x r r' : Int} {n : Nat} (h : IsRounded x (10 ^ n) r)
    (h' : IsRounded x (10 ^ n) r') : r = r' :=
  isRounded_unique (by positivity) h h'

example : round 25 (some (-1)) = 20 ∧ round 35 (some (-1)) = 40 ∧ round (-25) (some (-1)) = -20 ∧
    round (-1251) (some (-2)) = -1300 ∧ round 26 (some (-1)) = 30 := by decide

/-! ### C17 Bytes -/

/-- Encoding succeeds exactly when the number is in range (with one exception, see
`to_bytes_zero_length_signed`). -/
theorem to_bytes_overflow_iff (x : Int) (n : Nat) (order : String) (signed : Bool)
    (hn : signed = true → n ≠ 0) :
    (Fits x n signed → ∃ bs, toBytes x n order signed = .ok bs) ∧
    (¬ Fits x n signed → toBytes x n order signed = .error .overflow) := by
  unfold toBytes Fits
  cases signed with
  | false =>
    simp only [Bool.false_eq_true, if_false]
    constructor
    · intro h
      rw [if_neg (by omega)]
      exact ⟨_, rfl⟩
    · intro h
      rw [if_pos (by omega)]
  | true =>
    have hn' := hn rfl
    obtain ⟨m, rfl⟩ : ∃ m, n = m + 1 := ⟨n - 1, by omega⟩
    have hhalf : (256 : Int) ^ (m + 1) = 2 * (((256 ^ (m + 1) : Nat) >>> 1 : Nat) : Int) := by
      have h1 : (256 ^ (m + 1) : Nat) >>> 1 = 128 * 256 ^ m := by
        rw [Nat.shiftRight_eq_div_pow, pow_succ]; omega
      rw [h1]; push_cast; ring
    simp only [if_true, if_neg hn']
    rw [hhalf]
    constructor
    · intro h
      rw [if_neg (by omega)]
      exact ⟨_, rfl⟩
    · intro h
      rw [if_pos (by omega)]

/-- The bytes produced: the requested number of them, each a byte, standing for `x` or, for a
negative number, for `x + 256^n`; reversed for big-endian order. -/
theorem to_bytes_value {x : Int} {n : Nat} {order : String} {signed : Bool} {bs : List Int}
    (h : toBytes x n order signed = .ok bs) :
    bs.length = n ∧ AreBytes bs ∧
      littleValue (if order = "big" then bs.reverse else bs) = (if x < 0 then 256 ^ n + x else x) := by
  have key : ∀ v : Int, 0 ≤ v → v < 256 ^ n →
      bs = (if order = "big" then
        ((List.range n).map fun i => (v / 2 ^ (i * 8)) % 256).reverse
        else (List.range n).map fun i => (v / 2 ^ (i * 8)) % 256) →
      bs.length = n ∧ AreBytes bs ∧ littleValue (if order = "big" then bs.reverse else bs) = v := by
    intro v h0 h1 hbs
    rw [range_map_eq_leBytes] at hbs
    subst hbs
    refine ⟨?_, ?_, ?_⟩
    · split <;> simp [leBytes_length]
    · intro b hb
      split at hb
      · exact leBytes_bytes n v b (by simpa using hb)
      · exact leBytes_bytes n v b hb
    · split
      · rw [List.reverse_reverse]; exact leBytes_value n v h0 h1
      · exact leBytes_value n v h0 h1
  unfold toBytes at h
  cases signed with
  | false =>
    simp only [Bool.false_eq_true, if_false] at h
    split at h
    · cases h
    · rename_i hx
      simp only [Except.ok.injEq] at h
      have := key x (by omega) (by omega) h.symm
      rwa [if_neg (show ¬ x < 0 by omega)]
  | true =>
    simp only [if_true] at h
    split at h
    · cases h
    · rename_i hx
      simp only [Except.ok.injEq] at h
      have hle : 2 * (((256 ^ n : Nat) >>> 1 : Nat) : Int) ≤ 256 ^ n := by
        rw [Nat.shiftRight_eq_div_pow]
        have : (256 : Int) ^ n = ((256 ^ n : Nat) : Int) := by push_cast; rfl
        rw [this]
        omega
      exact key _ (by split <;> omega) (by split <;> omega) h.symm

/-- Decoding the encoding of a number gives it back, for either byte order, signed or not. -/
theorem bytes_roundtrip {x : Int} {n : Nat} {order : String} {signed : Bool} {bs : List Int}
    (ho : order = "big" ∨ order = "little") (h : toBytes x n order signed = .ok bs) :
    fromBytes bs order signed = .ok x := by
  obtain ⟨hl, hb, hv⟩ := to_bytes_value h
  have hfold : (if order = "little" then bs.reverse else bs).foldl
      (fun val byt => val * 256 + byt) 0 = (if x < 0 then 256 ^ n + x else x) := by
    rw [← hv, ← foldl_reverse_value]
    rcases ho with rfl | rfl <;> simp
  have hcond : ¬ (order ≠ "big" ∧ order ≠ "little") := by
    rcases ho with rfl | rfl <;> simp
  unfold fromBytes
  rw [if_neg hcond]
  simp only [hfold, hl]
  unfold toBytes at h
  cases signed with
  | false =>
    simp only [Bool.false_eq_true, if_false] at h
    split at h
    · cases h
    · rename_i hx
      simp
      omega
  | true =>
    simp only [if_true] at h
    split at h
    · cases h
    · rename_i hx
      have hmod : (256 : Int) ^ n = ((256 ^ n : Nat) : Int) := by push_cast; rfl
      have hsh : (256 ^ n : Nat) >>> 1 = 256 ^ n / 2 := by rw [Nat.shiftRight_eq_div_pow]
      rw [hsh] at hx
      have hn : n ≠ 0 := by
        intro h0
        subst h0
        simp at hx
        omega
      have heven : 256 ^ n % 2 = 0 := by
        obtain ⟨m, rfl⟩ : ∃ m, n = m + 1 := ⟨n - 1, by omega⟩
        rw [pow_succ]; omega
      simp only [hn, ne_eq, not_false_eq_true, and_self, if_true]
      rw [hmod]
      split <;> split <;> first | (exfalso; omega) | (congr 1; omega) | congr 1

/-- Encoding the number decoded from bytes gives the bytes back (with one exception: no bytes at
all, read as signed). -/
theorem bytes_roundtrip_back {bs : List Int} {order : String} {signed : Bool} {x : Int}
    (hb : AreBytes bs) (hn : signed = true → bs ≠ []) (h : fromBytes bs order signed = .ok x) :
    toBytes x bs.length order signed = .ok bs := by
  have ho : order = "big" ∨ order = "little" := by
    unfold fromBytes at h
    by_contra hc
    rw [if_pos (by simpa using hc)] at h
    cases h
  -- the unsigned value of the bytes
  obtain ⟨v, hv⟩ : ∃ v, v = littleValue (if order = "big" then bs.reverse else bs) := ⟨_, rfl⟩
  have hbr : AreBytes (if order = "big" then bs.reverse else bs) := by
    intro b hb'
    split at hb'
    · exact hb b (by simpa using hb')
    · exact hb b hb'
  have hlr : (if order = "big" then bs.reverse else bs).length = bs.length := by split <;> simp
  have hrange := littleValue_range _ hbr
  rw [hlr, ← hv] at hrange
  have hfold : (if order = "little" then bs.reverse else bs).foldl
      (fun val byt => val * 256 + byt) 0 = v := by
    rw [hv, ← foldl_reverse_value]
    rcases ho with rfl | rfl <;> simp
  have hx : Fits x bs.length signed ∧ (if x < 0 then 256 ^ bs.length + x else x) = v := by
    unfold fromBytes at h
    rw [if_neg (by rcases ho with rfl | rfl <;> simp)] at h
    simp only [hfold] at h
    cases signed with
    | false =>
      simp at h
      subst h
      simp only [Fits, Bool.false_eq_true, if_false]
      exact ⟨hrange, if_neg (by omega)⟩
    | true =>
      have hne : bs.length ≠ 0 := by simpa using hn rfl
      simp only [hne, ne_eq, not_false_eq_true, and_self, if_true] at h
      simp only [Fits, if_true, if_neg hne]
      have heven : (256 : Int) ^ bs.length % 2 = 0 := by
        obtain ⟨m, hm⟩ : ∃ m, bs.length = m + 1 := ⟨bs.length - 1, by omega⟩
        rw [hm, pow_succ]; omega
      split at h <;> simp only [Except.ok.injEq] at h <;> split <;> omega
  obtain ⟨cs, hcs⟩ := (to_bytes_overflow_iff x bs.length order signed
    (fun hs => by simpa using hn hs)).1 hx.1
  obtain ⟨hl, hbc, hvc⟩ := to_bytes_value hcs
  rw [hcs]
  congr 1
  rw [hx.2, hv] at hvc
  have hbc' : AreBytes (if order = "big" then cs.reverse else cs) := by
    intro b hb'
    split at hb'
    · exact hbc b (by simpa using hb')
    · exact hbc b hb'
  have := littleValue_inj _ _ hbc' hbr (by rw [hlr]; split <;> simp [hl]) hvc
  split at this
  · exact List.reverse_inj.1 this
  · exact this

example : toBytes (-2) 2 "big" true = .ok [255, 254] ∧
    toBytes 258 3 "little" false = .ok [2, 1, 0] ∧
    toBytes 128 1 "big" true = .error .overflow ∧ toBytes (-128) 1 "big" true = .ok [128] ∧
    fromBytes [255, 254] "big" true = .ok (-2) := by decide
example : Fits (-128) 1 true ∧ ¬ Fits 128 1 true ∧ AreBytes [255, 254] := by
  refine ⟨by simp [Fits], by simp [Fits], fun b hb => ?_⟩
  simp at hb; omega

/-- Disagreement: CPython accepts `(0).to_bytes(0, "big", signed=True)`, the model raises. -/
theorem to_bytes_zero_length_signed (order : String) :
    Fits 0 0 true ∧ toBytes 0 0 order true = .error .overflow := by
  exact ⟨by simp [Fits], by simp [toBytes]⟩

/-- Disagreement: an unknown byte order is accepted (CPython raises `ValueError`). -/
theorem to_bytes_unknown_order : toBytes 258 2 "middle" false = .ok [2, 1] := by decide

/-! ### C18 Decimal text -/

/-- The text of a non-negative number is its decimal numeral, that of a negative number is `-`
followed by the numeral of its absolute value. -/
theorem repr_spec (x : Int) :
    (0 ≤ x → IsNumeral (repr x) x.natAbs) ∧
    (x < 0 → ∃ s, repr x = 45 :: s ∧ IsNumeral s x.natAbs) := by
  constructor
  · intro h
    unfold repr
    rw [if_neg (by omega), reprNonneg_eq, show x.toNat = x.natAbs by omega]
    exact numeral_revDigits _
  · intro h
    unfold repr
    rw [if_pos h]
    refine ⟨_, rfl, ?_⟩
    rw [reprNonneg_eq, show (-x).toNat = x.natAbs by omega]
    exact numeral_revDigits _

/-- A number has only one decimal numeral. -/
theorem numeral_determined {s t : List Nat} {n : Nat} (hs : IsNumeral s n) (ht : IsNumeral t n) :
    s = t :=
  digitsValue_inj s t hs.2.1 ht.2.1
    (Nat.le_antisymm (numeral_length_le hs ht) (numeral_length_le ht hs))
    (by rw [hs.2.2.1, ht.2.2.1])

/-- Both ways of building the text agree. -/
theorem symbolic_repr_agrees (x : Int) : symRepr x = repr x := by
  unfold symRepr repr
  simp only
  rw [symReprLoop_eq _ _ 10 _ (by omega) (Nat.le_refl _)]
  split <;> rw [reprNonneg_eq] <;> simp

/-- Different numbers have different texts. -/
theorem repr_injective {x y : Int} (h : repr x = repr y) : x = y := by
  have nodash : ∀ {s : List Nat} {n : Nat}, IsNumeral s n → s.head? ≠ some 45 := by
    intro s n hs hh
    obtain ⟨h0, h1, _⟩ := hs
    cases s with
    | nil => exact h0 rfl
    | cons c s =>
      have := h1 c (by simp)
      simp at hh
      omega
  have hx := repr_spec x
  have hy := repr_spec y
  rcases lt_or_ge x 0 with hx0 | hx0 <;> rcases lt_or_ge y 0 with hy0 | hy0
  · obtain ⟨s, hs, hs'⟩ := hx.2 hx0
    obtain ⟨t, ht, ht'⟩ := hy.2 hy0
    rw [hs, ht] at h
    simp at h
    subst h
    have : x.natAbs = y.natAbs := by rw [← hs'.2.2.1, ← ht'.2.2.1]
    omega
  · obtain ⟨s, hs, hs'⟩ := hx.2 hx0
    exact absurd (by rw [← h, hs]; rfl) (nodash (hy.1 hy0))
  · obtain ⟨s, hs, hs'⟩ := hy.2 hy0
    exact absurd (by rw [h, hs]; rfl) (nodash (hx.1 hx0))
  · have h1 := hx.1 hx0
    have h2 := hy.1 hy0
    rw [h] at h1
    have : x.natAbs = y.natAbs := by rw [← h1.2.2.1, ← h2.2.2.1]
    omega

/-- Text consisting of digits of the base is read as the number it stands for. -/
theorem parse_digits (cpython : List Nat → Int → Except PyErr Int) (s : List Nat) (base : Nat)
    (hb : 2 ≤ base ∧ base ≤ 10) (hs : s ≠ []) (hd : AreDigits base s) :
    parseInt cpython s base = .ok (digitsValue base s : Int) := by
  unfold parseInt
  rw [if_neg (by rintro (h | h | h) <;> first | exact hs h | omega)]
  have := parseLoop_spec base s 0 hd
  rw [show ((0 : Nat) : Int) = 0 from rfl] at this
  rw [this]
  rfl

/-- Text with a character that is not a digit of the base is left to CPython, in base ten. -/
theorem parse_nondigits (cpython : List Nat → Int → Except PyErr Int) (s : List Nat) (base : Nat)
    (hb : 2 ≤ base ∧ base ≤ 10) (hd : ¬ AreDigits base s) :
    parseInt cpython s base = cpython s 10 := by
  have hs : s ≠ [] := by rintro rfl; exact hd (by intro c hc; simp at hc)
  have key : ∀ (t : List Nat) (ret : Int), ¬ AreDigits base t → parseLoop base t ret = none := by
    intro t
    induction t with
    | nil => intro ret h; exact absurd (by intro c hc; simp at hc) h
    | cons c t ih =>
      intro ret h
      simp only [parseLoop]
      split
      · rfl
      · rename_i hc
        apply ih
        intro ht
        apply h
        intro d hd
        simp only [List.mem_cons] at hd
        rcases hd with rfl | hd
        · omega
        · exact ht d hd
  unfold parseInt
  rw [if_neg (by rintro (h | h | h) <;> first | exact hs h | omega), key s 0 hd]

/-- Reading back the text of a number gives the number, provided CPython reads `-` followed by a
numeral correctly (negative texts are handed to CPython). -/
theorem parse_repr (cpython : List Nat → Int → Except PyErr Int)
    (hc : ∀ s n, IsNumeral s n → cpython (45 :: s) 10 = .ok (-(n : Int))) (x : Int) :
    parseInt cpython (repr x) 10 = .ok x := by
  have h := repr_spec x
  rcases lt_or_ge x 0 with hx | hx
  · obtain ⟨s, hs, hs'⟩ := h.2 hx
    rw [hs]
    unfold parseInt
    rw [if_neg (by simp)]
    simp only [parseLoop]
    rw [if_pos (by simp)]
    simp only [hc s _ hs']
    congr 1
    omega
  · have hn := h.1 hx
    have := parse_digits cpython (repr x) 10 (by omega) hn.1 hn.2.1
    rw [show ((10 : Nat) : Int) = 10 from rfl, hn.2.2.1] at this
    rw [this]
    congr 1
    omega

example : repr (-1203) = codes "-1203" ∧ symRepr 1203 = codes "1203" := by
  rw [symbolic_repr_agrees]
  constructor
  · simp [repr, reprNonneg_eq, codes]; simp [revDigits]
  · simp [repr, reprNonneg_eq, codes]; simp [revDigits]
example : parseInt (fun _ _ => .error .valueError) (codes "1011") 2 = .ok 11 := by decide
example : AreDigits 2 (codes "1011") := by intro c hc; simp [codes] at hc; omega

/-- Disagreement: text with a digit outside the base is read in base ten.  CPython raises
`ValueError` for `int("12", 2)`; here the answer is whatever `int("12")` gives, namely twelve. -/
theorem parse_drops_base (cpython : List Nat → Int → Except PyErr Int)
    (h10 : cpython (codes "12") 10 = .ok 12) (h2 : cpython (codes "12") 2 = .error .valueError) :
    parseInt cpython (codes "12") 2 = .ok 12 ∧
      parseInt cpython (codes "12") 2 ≠ cpython (codes "12") 2 := by
  have e : parseInt cpython (codes "12") 2 = cpython (codes "12") 10 := by
    have : codes "12" = [49, 50] := rfl
    rw [this]
    rfl
  rw [e, h10, h2]
  exact ⟨rfl, by simp⟩

/-! ### C19 Bounded integers -/

/-- In every history of comparisons and decisions, the recorded bounds keep containing the number
and every answer given from the bounds alone is the right one. -/
theorem bounded_int_sound {x : Int} (es : List Event) : ∀ {b : Bounds}, Within x b →
    Within x (trace x b es).1 ∧ ∀ a ∈ (trace x b es).2, a.1 = a.2 := by
  induction es with
  | nil => intro b h; exact ⟨h, by simp [trace]⟩
  | cons e es ih =>
    intro b h
    have h1 := step_within h e
    have h2 := ih h1.1
    simp only [trace]
    refine ⟨h2.1, fun a ha => ?_⟩
    simp only [List.mem_append, Option.mem_toList] at ha
    rcases ha with ha | ha
    · exact h1.2 a ha
    · exact h2.2 a ha

/-- A decided comparison is remembered: larger numbers are then answered from the bounds. -/
theorem decided_lt_remembered {x o : Int} {b : Bounds} (h : Within x b) (hlt : x < o) (p : Int)
    (hp : o ≤ p) : (b.decidedLt o true).lt p = some true := by
  have hmin : (b.decidedLt o true).min = b.min := by
    obtain ⟨bmin, bmax⟩ := b
    cases bmax with
    | none => rfl
    | some m => simp only [Bounds.decidedLt, Bounds.intersect, if_true]; split <;> rfl
  have hmax : ∃ m, (b.decidedLt o true).max = some m ∧ m ≤ o - 1 := by
    obtain ⟨bmin, bmax⟩ := b
    cases bmax with
    | none => exact ⟨_, rfl, Int.le_refl _⟩
    | some m =>
      simp only [Bounds.decidedLt, Bounds.intersect, if_true]
      split
      · exact ⟨_, rfl, Int.le_refl _⟩
      · exact ⟨m, rfl, by omega⟩
  obtain ⟨m, hm, hmo⟩ := hmax
  unfold Bounds.lt
  rw [hmin, hm]
  have : p > m := by omega
  cases hb : b.min with
  | none => simp [this]
  | some k =>
    have := h.1 k hb
    have hk : ¬ p < k := by omega
    simp [hk]
    omega

/-- Negating a bounded integer keeps the bounds right. -/
theorem bounded_neg {x : Int} {b : Bounds} (h : Within x b) : Within (-x) b.neg := by
  obtain ⟨bmin, bmax⟩ := b
  obtain ⟨h1, h2⟩ := h
  simp only at h1 h2
  refine ⟨fun m hm => ?_, fun m hm => ?_⟩ <;> simp [Bounds.neg] at hm <;>
    obtain ⟨k, hk, rfl⟩ := hm
  · have := h2 k hk; omega
  · have := h1 k hk; omega

example : Within 5 ⟨some 0, some 9⟩ ∧
    (trace 5 ⟨some 0, some 9⟩ [.askLt 10, .decideLt 7, .askLt 8, .askGt (-1), .askLt 4]).2 =
      [(true, true), (true, true), (true, true)] := by
  refine ⟨⟨?_, ?_⟩, by decide⟩ <;> simp

/-! ### C46 Greatest common divisor -/

/-- The loop computes the greatest common divisor, never negative, zero only for two zeros. -/
theorem gcd_spec (a b : Int) : gcd a b = (Int.gcd a b : Int) := by
  induction b using WellFounded.induction (measure Int.natAbs).wf generalizing a with
  | _ b ih =>
    rw [gcd]
    split
    · rename_i hb
      rw [ih (a.fmod b) (fmod_natAbs_lt a b hb)]
      congr 1
      rw [Int.fmod_def]
      conv => rhs; rw [Int.gcd_comm]
      rw [sub_eq_add_neg, ← mul_neg, Int.gcd_add_mul_left_right]
    · rename_i hb
      have : b = 0 := by omega
      subst this
      simp

/-- What that means, in terms of divisibility. -/
theorem gcd_greatest (a b : Int) :
    0 ≤ gcd a b ∧ gcd a b ∣ a ∧ gcd a b ∣ b ∧ ∀ d : Int, d ∣ a → d ∣ b → d ∣ gcd a b := by
  rw [gcd_spec]
  exact ⟨by omega, Int.gcd_dvd_left .., Int.gcd_dvd_right .., fun d h1 h2 => Int.dvd_coe_gcd h1 h2⟩

example : gcd (-12) 18 = 6 ∧ gcd 0 0 = 0 ∧ gcd 7 (-21) = 7 := by
  rw [gcd_spec, gcd_spec, gcd_spec]; decide

end Verif.Ints
