import Verif.Ints.Model
import Verif.Ints.Spec
import Mathlib.Tactic.Ring
import Mathlib.Tactic.Linarith
import Mathlib.Tactic.Positivity
namespace Verif.Ints

theorem divMod_unique {x y q r q' r' : Int} (h : IsDivMod x y q r) (h' : IsDivMod x y q' r') :
    q = q' ∧ r = r' := by
  obtain ⟨h1, h2⟩ := h
  obtain ⟨h1', h2'⟩ := h'
  have hy : (q - q') * y = r' - r := by linarith [sub_mul q q' y]
  have hq : q - q' = 0 := by
    by_contra hne
    rcases h2 with h2 | h2 <;> rcases h2' with h2' | h2'
    · rcases Int.lt_or_gt_of_ne hne with h3 | h3
      · have : (q - q' + 1) * y ≤ 0 := Int.mul_nonpos_of_nonpos_of_nonneg (by omega) (by omega)
        rw [add_mul] at this; omega
      · have : 0 ≤ (q - q' - 1) * y := Int.mul_nonneg (by omega) (by omega)
        rw [sub_mul] at this; omega
    · omega
    · omega
    · rcases Int.lt_or_gt_of_ne hne with h3 | h3
      · have : 0 ≤ (q - q' + 1) * y := Int.mul_nonneg_of_nonpos_of_nonpos (by omega) (by omega)
        rw [add_mul] at this; omega
      · have : (q - q' - 1) * y ≤ 0 := Int.mul_nonpos_of_nonneg_of_nonpos (by omega) (by omega)
        rw [sub_mul] at this; omega
  have : q = q' := by omega
  subst this
  simp at hy
  exact ⟨rfl, by omega⟩

theorem fdiv_fmod_isDivMod (x y : Int) (h : y ≠ 0) : IsDivMod x y (x.fdiv y) (x.fmod y) := by
  refine ⟨by have := Int.fdiv_mul_add_fmod x y; omega, ?_⟩
  rcases Int.lt_or_gt_of_ne h with hb | hb
  · have h1 := Int.fmod_nonneg_of_pos (-x) (show 0 < -y by omega)
    have h2 := Int.fmod_lt_of_pos (-x) (show 0 < -y by omega)
    rw [Int.neg_fmod_neg] at h1 h2
    omega
  · have h1 := Int.fmod_nonneg_of_pos x hb
    have h2 := Int.fmod_lt_of_pos x hb
    omega

/-- The quotient chosen by `smtFloorDiv` leaves a remainder of the right sign and size. -/
theorem smtFloorDiv_spec (x y : Int) (h : y ≠ 0) :
    ∃ q, smtFloorDiv x y = .ok q ∧ IsDivMod x y q (x - q * y) := by
  unfold smtFloorDiv IsDivMod
  rw [if_neg h]
  split
  · rename_i hy
    split
    · refine ⟨_, rfl, by omega, .inl ?_⟩
      have h1 := Int.emod_nonneg x h
      have h2 := Int.emod_lt_of_pos x (show 0 < y by omega)
      have h3 := Int.mul_ediv_add_emod x y
      have h4 := Int.mul_comm y (x / y)
      omega
    · refine ⟨_, rfl, by omega, .inl ?_⟩
      have h1 := Int.emod_nonneg (y - x - 1) h
      have h2 := Int.emod_lt_of_pos (y - x - 1) (show 0 < y by omega)
      have h3 := Int.mul_ediv_add_emod (y - x - 1) y
      have h4 := Int.mul_comm y ((y - x - 1) / y)
      rw [Int.neg_mul]
      omega
  · rename_i hy
    split
    · refine ⟨_, rfl, by omega, .inr ?_⟩
      have h1 := Int.emod_nonneg (x - y - 1) (show -y ≠ 0 by omega)
      have h2 := Int.emod_lt_of_pos (x - y - 1) (show 0 < -y by omega)
      have h3 := Int.mul_ediv_add_emod (x - y - 1) (-y)
      have h4 : -y * ((x - y - 1) / -y) = -((x - y - 1) / -y) * y := by ring
      omega
    · refine ⟨_, rfl, by omega, .inr ?_⟩
      have h1 := Int.emod_nonneg (-x) (show -y ≠ 0 by omega)
      have h2 := Int.emod_lt_of_pos (-x) (show 0 < -y by omega)
      have h3 := Int.mul_ediv_add_emod (-x) (-y)
      have h4 : -y * (-x / -y) = -((-x / -y) * y) := by ring
      omega

theorem smtFloorDiv_eq_fdiv (x y : Int) (h : y ≠ 0) : smtFloorDiv x y = .ok (x.fdiv y) := by
  obtain ⟨q, hq, hs⟩ := smtFloorDiv_spec x y h
  rw [hq, (divMod_unique hs (fdiv_fmod_isDivMod x y h)).1]

theorem smtMod_eq_fmod (x y : Int) (h : y ≠ 0) : smtMod x y = .ok (x.fmod y) := by
  unfold smtMod
  rw [if_neg h, Int.fmod_eq_emod]
  by_cases h0 : 0 ≤ y ∨ y ∣ x
  · rw [if_pos h0, if_pos]
    · simp
    · rcases h0 with h0 | h0
      · exact .inl h0
      · exact .inr (Int.emod_eq_zero_of_dvd h0)
  · rw [if_neg h0, if_neg]
    intro h1
    rcases h1 with h1 | h1
    · exact h0 (.inl h1)
    · exact h0 (.inr (Int.dvd_of_emod_eq_zero h1))

/-! Bits -/

theorem bit_ofNat (n i : Nat) : bit (n : Int) i = n.testBit i := rfl

theorem bit_negSucc (n i : Nat) : bit (Int.negSucc n) i = !n.testBit i := rfl

theorem bit_eq_fdiv (x : Int) (i : Nat) : bit x i = decide ((x.fdiv (2 ^ i)) % 2 = 1) := by
  have hp : (0 : Int) < 2 ^ i := by positivity
  have hc : ((2 ^ i : Nat) : Int) = 2 ^ i := by push_cast; rfl
  have hpn : 0 < 2 ^ i := by positivity
  cases x with
  | ofNat n =>
    show n.testBit i = _
    rw [Nat.testBit_eq_decide_div_mod_eq]
    have : Int.fdiv (Int.ofNat n) (2 ^ i) = ((n / 2 ^ i : Nat) : Int) := by
      rw [Int.fdiv_eq_ediv_of_nonneg _ (Int.le_of_lt hp), ← hc]; rfl
    rw [this]
    congr 1
    apply propext
    omega
  | negSucc n =>
    rw [bit_negSucc, Nat.testBit_eq_decide_div_mod_eq]
    have : Int.fdiv (Int.negSucc n) (2 ^ i) = -((n / 2 ^ i : Nat) : Int) - 1 := by
      rw [Int.fdiv_eq_ediv_of_nonneg _ (Int.le_of_lt hp), Int.negSucc_ediv _ hp]
      have h2 : ((n / 2 ^ i : Nat) : Int) = (n : Int).ediv (2 ^ i) := by rw [← hc]; rfl
      omega
    rw [this]
    rcases Nat.mod_two_eq_zero_or_one (n / 2 ^ i) with h | h
    · have h3 : (-((n / 2 ^ i : Nat) : Int) - 1) % 2 = 1 := by omega
      rw [h3, h]; rfl
    · have h3 : (-((n / 2 ^ i : Nat) : Int) - 1) % 2 = 0 := by omega
      rw [h3, h]; rfl

theorem bit_ext {x y : Int} (h : ∀ i, bit x i = bit y i) : x = y := by
  cases x with
  | ofNat n =>
    cases y with
    | ofNat m =>
      have : n = m := Nat.eq_of_testBit_eq h
      rw [this]
    | negSucc m =>
      exfalso
      have h1 := h (n + m)
      simp only [bit] at h1
      have a1 : n < 2 ^ (n + m) := Nat.lt_of_le_of_lt (by omega) Nat.lt_two_pow_self
      have a2 : m < 2 ^ (n + m) := Nat.lt_of_le_of_lt (by omega) Nat.lt_two_pow_self
      rw [Nat.testBit_lt_two_pow a1, Nat.testBit_lt_two_pow a2] at h1
      simp at h1
  | negSucc n =>
    cases y with
    | negSucc m =>
      have : n = m := Nat.eq_of_testBit_eq (fun i => by
        have := h i
        simp only [bit] at this
        simpa using this)
      rw [this]
    | ofNat m =>
      exfalso
      have h1 := h (n + m)
      simp only [bit] at h1
      have a1 : n < 2 ^ (n + m) := Nat.lt_of_le_of_lt (by omega) Nat.lt_two_pow_self
      have a2 : m < 2 ^ (n + m) := Nat.lt_of_le_of_lt (by omega) Nat.lt_two_pow_self
      rw [Nat.testBit_lt_two_pow a1, Nat.testBit_lt_two_pow a2] at h1
      simp at h1

theorem bit_neg (x : Int) (h : x < 0) (i : Nat) : bit x i = !((-x - 1).toNat).testBit i := by
  cases x with
  | ofNat n => exact absurd h (by simp)
  | negSucc n =>
    rw [bit_negSucc]
    congr 2
    omega

theorem bit_nonneg (x : Int) (h : 0 ≤ x) (i : Nat) : bit x i = (x.toNat).testBit i := by
  cases x with
  | ofNat n => rfl
  | negSucc n => exact absurd h (by simp)

/-- A positive number which shares no bit with its predecessor is a power of two. -/
theorem pow_of_land {m : Nat} (h0 : 0 < m) (h : m &&& (m - 1) = 0) : ∃ k, m = 2 ^ k := by
  refine ⟨m.log2, ?_⟩
  have h1 : 2 ^ m.log2 ≤ m := Nat.log2_self_le (by omega)
  have h2 : m < 2 ^ (m.log2 + 1) := Nat.lt_log2_self
  by_contra hne
  have t1 : m.testBit m.log2 = true :=
    Nat.testBit_of_two_pow_le_and_two_pow_add_one_gt h1 h2
  have t2 : (m - 1).testBit m.log2 = true :=
    Nat.testBit_of_two_pow_le_and_two_pow_add_one_gt (by omega) (by omega)
  have := congrArg (·.testBit m.log2) h
  simp [t1, t2] at this

/-! Bit length and count -/

theorem bitLengthNat_spec (v : Nat) :
    (v = 0 → bitLengthNat v = 0) ∧
    (v ≠ 0 → 0 < bitLengthNat v ∧ 2 ^ (bitLengthNat v - 1) ≤ v ∧ v < 2 ^ bitLengthNat v) := by
  induction v using Nat.strongRecOn with
  | ind v ih =>
    rw [bitLengthNat]
    split
    · rename_i h
      refine ⟨by omega, fun _ => ?_⟩
      have hd : v / 256 < v := Nat.div_lt_self (by omega) (by omega)
      have hne : v / 256 ≠ 0 := by omega
      obtain ⟨h1, h2, h3⟩ := (ih _ hd).2 hne
      generalize bitLengthNat (v / 256) = n at *
      have e : n + 8 - 1 = (n - 1) + 8 := by omega
      rw [e, Nat.pow_add, Nat.pow_add]
      refine ⟨by omega, ?_, ?_⟩ <;> omega
    · rename_i h
      refine ⟨fun h => by simp [h], fun hne => ?_⟩
      rw [if_neg hne]
      repeat' split
      all_goals simp <;> omega

theorem popcount_two_mul (n : Nat) : popcount (2 * n) = popcount n := by
  by_cases h : n = 0
  · subst h; rfl
  · rw [popcount, if_neg (by omega)]
    have h1 : 2 * n % 2 = 0 := by omega
    have h2 : 2 * n / 2 = n := by omega
    rw [h1, h2]; omega

/-- `n % 2^(k+1)` has one more bit than `n % 2^k` exactly when it reaches `2^k`. -/
theorem popcount_mod_succ (k : Nat) : ∀ n, popcount (n % 2 ^ (k + 1)) =
    popcount (n % 2 ^ k) + (if n % 2 ^ (k + 1) ≥ 2 ^ k then 1 else 0) := by
  induction k with
  | zero =>
    intro n
    have : n % 2 = 0 ∨ n % 2 = 1 := by omega
    rcases this with h | h <;> simp [h, Nat.mod_one, popcount]
  | succ k ih =>
    intro n
    have key : ∀ j, n % 2 ^ (j + 1) = 2 * ((n / 2) % 2 ^ j) + n % 2 := by
      intro j
      rw [Nat.pow_succ, Nat.mul_comm, Nat.mod_mul]
      omega
    have hp : ∀ m, popcount (2 * m + n % 2) = popcount m + n % 2 := by
      intro m
      by_cases h0 : 2 * m + n % 2 = 0
      · have : m = 0 := by omega
        subst this
        have h1 : n % 2 = 0 := by omega
        simp [h1, popcount]
      · rw [popcount, if_neg h0]
        have h1 : (2 * m + n % 2) % 2 = n % 2 := by omega
        have h2 : (2 * m + n % 2) / 2 = m := by omega
        rw [h1, h2]; omega
    rw [key (k + 1), key k, hp, hp, ih (n / 2)]
    have : (2 * ((n / 2) % 2 ^ (k + 1)) + n % 2 ≥ 2 ^ (k + 1)) ↔ ((n / 2) % 2 ^ (k + 1) ≥ 2 ^ k) := by
      have := Nat.pow_succ 2 k
      omega
    simp only [this]
    split <;> omega

theorem bitCountLoop_spec (n : Nat) (d : Nat) : ∀ k count, n + 1 - 2 ^ k ≤ d →
    count = popcount (n % 2 ^ k) → bitCountLoop n (2 ^ k) count = popcount n := by
  induction d with
  | zero =>
    intro k count hd hc
    rw [bitCountLoop, if_neg (by omega), hc, Nat.mod_eq_of_lt (by omega)]
  | succ d ih =>
    intro k count hd hc
    have hp : 0 < 2 ^ k := Nat.two_pow_pos k
    by_cases h : n ≥ 2 ^ k
    · rw [bitCountLoop, if_pos ⟨h, hp⟩, ← Nat.pow_succ]
      have h1 := Nat.pow_succ 2 k
      refine ih (k + 1) _ (by omega) ?_
      rw [popcount_mod_succ, ← hc]
      split <;> omega
    · rw [bitCountLoop, if_neg (by omega), hc, Nat.mod_eq_of_lt (by omega)]

/-! Rounding -/

theorem roundNonneg_spec (v : Int) (n : Nat) (hn : 0 < n) :
    IsRounded v (10 ^ n) (roundNonneg v n) := by
  obtain ⟨g, hg, hgp⟩ : ∃ g : Int, (10 : Int) ^ n = 2 * g ∧ 0 < g := by
    obtain ⟨m, rfl⟩ : ∃ m, n = m + 1 := ⟨n - 1, by omega⟩
    exact ⟨5 * 10 ^ m, by rw [pow_succ]; ring, by positivity⟩
  unfold roundNonneg IsRounded
  simp only [hg]
  have hh : 2 * g / 2 = g := by omega
  rw [hh]
  have e1 := Int.mul_ediv_add_emod v (2 * g)
  have e2 := Int.emod_nonneg v (show 2 * g ≠ 0 by omega)
  have e3 := Int.emod_lt_of_pos v (show 0 < 2 * g by omega)
  have f1 := Int.mul_ediv_add_emod (v + g) (2 * g)
  have f2 := Int.emod_nonneg (v + g) (show 2 * g ≠ 0 by omega)
  have f3 := Int.emod_lt_of_pos (v + g) (show 0 < 2 * g by omega)
  split
  · rename_i hb
    have hm : v % (2 * g) = g := by
      have hk : v = 2 * g * ((v + g) / (2 * g) - 1) + g := by
        rw [mul_sub]; omega
      rw [hk, Int.mul_add_emod_self_left, Int.emod_eq_of_lt (by omega) (by omega)]
    split
    · rename_i he
      refine ⟨v / (2 * g), by rw [mul_comm (v / (2 * g))]; omega, by omega, by omega, fun _ => he⟩
    · rename_i he
      refine ⟨v / (2 * g) + 1, by rw [add_mul, mul_comm (v / (2 * g))]; omega, by omega, by omega,
        fun _ => by omega⟩
  · rename_i hb
    refine ⟨(v + g) / (2 * g), by rw [mul_comm ((v + g) / (2 * g))]; omega, by omega, by omega, fun h => ?_⟩
    omega

theorem isRounded_neg {x f r : Int} (h : IsRounded x f r) : IsRounded (-x) f (-r) := by
  obtain ⟨k, h1, h2, h3, h4⟩ := h
  exact ⟨-k, by rw [h1]; ring, by omega, by omega, fun h => by have := h4 (by omega); omega⟩

theorem isRounded_unique {x f r r' : Int} (hf : 0 < f) (h : IsRounded x f r)
    (h' : IsRounded x f r') : r = r' := by
  obtain ⟨k, h1, h2, h3, h4⟩ := h
  obtain ⟨k', h1', h2', h3', h4'⟩ := h'
  have hd : (k - k') * f = r - r' := by rw [sub_mul, ← h1, ← h1']
  rcases Int.lt_trichotomy k k' with hlt | heq | hgt
  · by_cases h2k : k' = k + 1
    · subst h2k
      have : (k - (k + 1)) * f = -f := by ring
      have := h4 (by omega)
      have := h4' (by omega)
      omega
    · have : (k - k' + 2) * f ≤ 0 := Int.mul_nonpos_of_nonpos_of_nonneg (by omega) (by omega)
      rw [add_mul] at this
      omega
  · rw [h1, h1', heq]
  · by_cases h2k : k = k' + 1
    · subst h2k
      have : (k' + 1 - k') * f = f := by ring
      have := h4 (by omega)
      have := h4' (by omega)
      omega
    · have : 0 ≤ (k - k' - 2) * f := Int.mul_nonneg (by omega) (by omega)
      rw [sub_mul] at this
      omega

/-! Bytes -/

/-- The little-endian bytes of `v`. -/
def leBytes (v : Int) : Nat → List Int
  | 0 => []
  | n + 1 => v % 256 :: leBytes (v / 256) n

theorem range_map_eq_leBytes (n : Nat) : ∀ v : Int,
    ((List.range n).map fun i => (v / 2 ^ (i * 8)) % 256) = leBytes v n := by
  induction n with
  | zero => intro v; rfl
  | succ n ih =>
    intro v
    rw [List.range_succ_eq_map, List.map_cons, List.map_map, leBytes, ← ih]
    congr 1
    · simp
    · apply List.map_congr_left
      intro i _
      simp only [Function.comp]
      congr 1
      have : (2 : Int) ^ ((i + 1) * 8) = 256 * 2 ^ (i * 8) := by
        rw [add_mul, pow_add]; ring
      rw [Nat.succ_eq_add_one, this, Int.ediv_ediv_of_nonneg (by omega)]

theorem leBytes_length (n : Nat) : ∀ v, (leBytes v n).length = n := by
  induction n with
  | zero => intro v; rfl
  | succ n ih => intro v; simp [leBytes, ih]

theorem leBytes_bytes (n : Nat) : ∀ v, AreBytes (leBytes v n) := by
  induction n with
  | zero => intro v b hb; simp [leBytes] at hb
  | succ n ih =>
    intro v b hb
    simp only [leBytes, List.mem_cons] at hb
    rcases hb with rfl | hb
    · omega
    · exact ih _ b hb

theorem leBytes_value (n : Nat) : ∀ v : Int, 0 ≤ v → v < 256 ^ n → littleValue (leBytes v n) = v := by
  induction n with
  | zero => intro v h0 h1; simp at h1; simp [leBytes, littleValue]; omega
  | succ n ih =>
    intro v h0 h1
    rw [pow_succ] at h1
    rw [leBytes, littleValue, ih (v / 256) (by omega) (by omega)]
    omega

theorem foldl_reverse_value (bs : List Int) :
    bs.reverse.foldl (fun val byt => val * 256 + byt) 0 = littleValue bs := by
  rw [List.foldl_reverse]
  induction bs with
  | nil => rfl
  | cons b bs ih => simp only [List.foldr_cons, ih, littleValue]; ring

theorem littleValue_range (bs : List Int) (h : AreBytes bs) :
    0 ≤ littleValue bs ∧ littleValue bs < 256 ^ bs.length := by
  induction bs with
  | nil => simp [littleValue]
  | cons b bs ih =>
    have h1 := h b (by simp)
    have h2 := ih (fun c hc => h c (by simp [hc]))
    simp only [littleValue, List.length_cons, pow_succ]
    omega

theorem littleValue_inj (bs : List Int) : ∀ cs, AreBytes bs → AreBytes cs →
    bs.length = cs.length → littleValue bs = littleValue cs → bs = cs := by
  induction bs with
  | nil => intro cs _ _ hl _; cases cs with
    | nil => rfl
    | cons _ _ => simp at hl
  | cons b bs ih =>
    intro cs hb hc hl hv
    cases cs with
    | nil => simp at hl
    | cons c cs =>
      simp only [littleValue] at hv
      have h1 := hb b (by simp)
      have h2 := hc c (by simp)
      have := ih cs (fun x hx => hb x (by simp [hx])) (fun x hx => hc x (by simp [hx]))
        (by simpa using hl) (by omega)
      have : b = c := by omega
      simp [*]

/-! Numerals -/

theorem reprLoop_eq_symReprLoop (n : Nat) (d : Nat) : ∀ t acc, 0 < t → n + 1 - t ≤ d →
    reprLoop n t acc = symReprLoop n t acc := by
  induction d with
  | zero =>
    intro t acc ht hd
    rw [reprLoop, symReprLoop, dif_neg, if_neg (by omega)]
    intro h
    exact h.1 (Nat.div_eq_of_lt (by omega))
  | succ d ih =>
    intro t acc ht hd
    by_cases h : t ≤ n
    · have := (Nat.div_pos_iff (a := n) (b := t)).2 ⟨ht, h⟩
      rw [reprLoop, symReprLoop, dif_pos ⟨by omega, ht⟩, if_pos ⟨h, ht⟩]
      exact ih _ _ (by omega) (by omega)
    · rw [reprLoop, symReprLoop, dif_neg, if_neg (by omega)]
      intro h'
      exact h'.1 (Nat.div_eq_of_lt (by omega))

/-- Least significant digit first; `m > 0` gives at least one digit and no trailing zero. -/
def revDigits (m : Nat) : List Nat :=
  if m = 0 then [] else (48 + m % 10) :: revDigits (m / 10)

theorem symReprLoop_eq (n : Nat) (d : Nat) : ∀ t acc, 0 < t → n + 1 - t ≤ d →
    symReprLoop n t acc = acc ++ revDigits (n / t) := by
  induction d with
  | zero =>
    intro t acc ht hd
    rw [symReprLoop, if_neg (by omega), Nat.div_eq_of_lt (by omega), revDigits]; simp
  | succ d ih =>
    intro t acc ht hd
    by_cases h : t ≤ n
    · have := (Nat.div_pos_iff (a := n) (b := t)).2 ⟨ht, h⟩
      rw [symReprLoop, if_pos ⟨h, ht⟩, ih _ _ (by omega) (by omega)]
      conv => rhs; rw [revDigits, if_neg (by omega)]
      rw [Nat.div_div_eq_div_mul]
      simp
    · rw [symReprLoop, if_neg (by omega), Nat.div_eq_of_lt (by omega), revDigits]; simp

theorem digitsValue_reverse_cons (b c : Nat) (s : List Nat) :
    digitsValue b (c :: s).reverse = digitsValue b s.reverse * b + (c - 48) := by
  simp [digitsValue]

theorem revDigits_value (m : Nat) : digitsValue 10 (revDigits m).reverse = m := by
  induction m using Nat.strongRecOn with
  | ind m ih =>
    rw [revDigits]
    split
    · rename_i h; subst h; rfl
    · rw [digitsValue_reverse_cons, ih (m / 10) (by omega)]
      omega

theorem revDigits_digits (m : Nat) : AreDigits 10 (revDigits m) := by
  induction m using Nat.strongRecOn with
  | ind m ih =>
    intro c hc
    rw [revDigits] at hc
    split at hc
    · simp at hc
    · simp only [List.mem_cons] at hc
      rcases hc with rfl | hc
      · omega
      · exact ih (m / 10) (by omega) c hc

theorem revDigits_last (m : Nat) : (revDigits m).getLast? ≠ some 48 := by
  induction m using Nat.strongRecOn with
  | ind m ih =>
    rw [revDigits]
    split
    · simp
    · rename_i h
      rw [List.getLast?_cons]
      have := ih (m / 10) (by omega)
      by_cases h10 : m / 10 = 0
      · rw [h10, revDigits]
        simp
        omega
      · obtain ⟨x, hx⟩ : ∃ x, (revDigits (m / 10)).getLast? = some x := by
          rw [revDigits, if_neg h10, List.getLast?_cons]
          exact ⟨_, rfl⟩
        rw [hx] at this ⊢
        simpa using this

theorem numeral_revDigits (n : Nat) :
    IsNumeral ((48 + n % 10) :: revDigits (n / 10)).reverse n := by
  refine ⟨by simp, ?_, ?_, ?_⟩
  · intro c hc
    simp only [List.mem_reverse, List.mem_cons] at hc
    rcases hc with rfl | hc
    · omega
    · exact revDigits_digits _ c hc
  · rw [digitsValue_reverse_cons, revDigits_value]; omega
  · intro h
    rw [List.head?_reverse, List.getLast?_cons] at h
    have := revDigits_last (n / 10)
    by_cases h10 : n / 10 = 0
    · rw [h10, revDigits] at h ⊢
      simp at h ⊢
      omega
    · exfalso
      obtain ⟨x, hx⟩ : ∃ x, (revDigits (n / 10)).getLast? = some x := by
        rw [revDigits, if_neg h10, List.getLast?_cons]
        exact ⟨_, rfl⟩
      rw [hx] at this h
      simp at h this
      exact this h

theorem reprNonneg_eq (n : Nat) :
    reprNonneg n = ((48 + n % 10) :: revDigits (n / 10)).reverse := by
  unfold reprNonneg
  split
  · rename_i h
    rw [Nat.div_eq_of_lt h, Nat.mod_eq_of_lt h, revDigits]; simp
  · rw [reprLoop_eq_symReprLoop n (n + 1) 10 _ (by omega) (by omega),
      symReprLoop_eq n (n + 1) 10 _ (by omega) (by omega)]
    simp

theorem foldl_digits_acc (b : Nat) (s : List Nat) : ∀ acc,
    s.foldl (fun acc c => acc * b + (c - 48)) acc = acc * b ^ s.length + digitsValue b s := by
  induction s with
  | nil => intro acc; simp [digitsValue]
  | cons c s ih =>
    intro acc
    have e := ih (acc * b + (c - 48))
    have e' := ih (c - 48)
    simp only [digitsValue, List.foldl_cons, List.length_cons, Nat.zero_mul, Nat.zero_add] at *
    rw [e, e', pow_succ]
    ring

theorem digitsValue_cons (c : Nat) (s : List Nat) :
    digitsValue 10 (c :: s) = (c - 48) * 10 ^ s.length + digitsValue 10 s := by
  rw [digitsValue, List.foldl_cons, foldl_digits_acc]
  simp

theorem digitsValue_lt (s : List Nat) (h : AreDigits 10 s) : digitsValue 10 s < 10 ^ s.length := by
  induction s with
  | nil => simp [digitsValue]
  | cons c s ih =>
    have h1 := h c (by simp)
    have h2 := ih (fun x hx => h x (by simp [hx]))
    rw [digitsValue, List.foldl_cons, foldl_digits_acc, List.length_cons, pow_succ]
    have h3 : 0 * 10 + (c - 48) ≤ 9 := by omega
    have := Nat.mul_le_mul_right (10 ^ s.length) h3
    omega

theorem digitsValue_ge (c : Nat) (s : List Nat) :
    (c - 48) * 10 ^ s.length ≤ digitsValue 10 (c :: s) := by
  rw [digitsValue, List.foldl_cons, foldl_digits_acc]
  simp

theorem digitsValue_inj (s : List Nat) : ∀ t, AreDigits 10 s → AreDigits 10 t →
    s.length = t.length → digitsValue 10 s = digitsValue 10 t → s = t := by
  induction s with
  | nil => intro t _ _ hl _; cases t with
    | nil => rfl
    | cons _ _ => simp at hl
  | cons c s ih =>
    intro t hs ht hl hv
    cases t with
    | nil => simp at hl
    | cons d t =>
      have hl' : s.length = t.length := by simpa using hl
      have hs' : AreDigits 10 s := fun x hx => hs x (by simp [hx])
      have ht' : AreDigits 10 t := fun x hx => ht x (by simp [hx])
      have b1 := digitsValue_lt s hs'
      have b2 := digitsValue_lt t ht'
      have c1 := hs c (by simp)
      have d1 := ht d (by simp)
      rw [digitsValue_cons, digitsValue_cons, hl'] at hv
      rw [hl'] at b1
      have hcd : c - 48 = d - 48 := by
        rcases Nat.lt_trichotomy (c - 48) (d - 48) with h | h | h
        · have := Nat.mul_le_mul_right (10 ^ t.length) (show c - 48 + 1 ≤ d - 48 by omega)
          rw [Nat.add_mul] at this; omega
        · exact h
        · have := Nat.mul_le_mul_right (10 ^ t.length) (show d - 48 + 1 ≤ c - 48 by omega)
          rw [Nat.add_mul] at this; omega
      have := ih t hs' ht' hl' (by rw [hcd] at hv; omega)
      have : c = d := by omega
      simp [*]

theorem numeral_length_le {s t : List Nat} {n : Nat} (hs : IsNumeral s n) (ht : IsNumeral t n) :
    s.length ≤ t.length := by
  obtain ⟨s0, s1, s2, s3⟩ := hs
  obtain ⟨t0, t1, t2, t3⟩ := ht
  cases s with
  | nil => exact absurd rfl s0
  | cons c s =>
    have hc := s1 c (by simp)
    by_cases h48 : c = 48
    · have := s3 (by simp [h48])
      simp at this
      cases t with
      | nil => exact absurd rfl t0
      | cons d t => simp [this]
    · have h1 := digitsValue_ge c s
      have h2 := digitsValue_lt t t1
      have h3 : 10 ^ s.length ≤ (c - 48) * 10 ^ s.length :=
        Nat.le_mul_of_pos_left _ (by omega)
      have h4 : 10 ^ s.length < 10 ^ t.length := by omega
      have := (Nat.pow_lt_pow_iff_right (a := 10) (by omega)).1 h4
      simp; omega

theorem parseLoop_spec (base : Nat) (s : List Nat) : ∀ ret : Nat, AreDigits base s →
    parseLoop base s ret = some ((s.foldl (fun acc c => acc * base + (c - 48)) ret : Nat) : Int) := by
  induction s with
  | nil => intro ret _; rfl
  | cons c s ih =>
    intro ret h
    have hc := h c (by simp)
    have h1 := ih (ret * base + (c - 48)) (fun x hx => h x (by simp [hx]))
    simp only [parseLoop, List.foldl_cons]
    rw [if_neg (by omega), ← h1]
    congr 1
    push_cast
    omega

/-! Bounded integers -/

theorem within_intersect {x : Int} {b : Bounds} (h : Within x b) (lo hi : Option Int)
    (hlo : ∀ m, lo = some m → m ≤ x) (hhi : ∀ m, hi = some m → x ≤ m) :
    Within x (b.intersect lo hi) := by
  have hlow : Within x (b.intersect lo none) := by
    obtain ⟨bmin, bmax⟩ := b
    obtain ⟨h1, h2⟩ := h
    cases lo with
    | none => exact ⟨h1, h2⟩
    | some l =>
      cases bmin with
      | none => exact ⟨hlo, h2⟩
      | some m0 =>
        simp only [Bounds.intersect]
        split
        · exact ⟨hlo, h2⟩
        · exact ⟨h1, h2⟩
  have hsplit : b.intersect lo hi = (b.intersect lo none).intersect none hi := by
    cases hi <;> rfl
  rw [hsplit]
  generalize b.intersect lo none = c at hlow
  obtain ⟨bmin, bmax⟩ := c
  obtain ⟨h1, h2⟩ := hlow
  cases hi with
  | none => exact ⟨h1, h2⟩
  | some u =>
    cases bmax with
    | none => exact ⟨h1, hhi⟩
    | some m0 =>
      simp only [Bounds.intersect]
      split
      · exact ⟨h1, hhi⟩
      · exact ⟨h1, h2⟩

theorem lt_sound {x o : Int} {b : Bounds} {a : Bool} (w : Within x b) (h : b.lt o = some a) :
    a = decide (x < o) := by
  unfold Bounds.lt at h
  split at h
  · rename_i hc
    cases hm : b.min with
    | none => simp [hm] at hc
    | some m =>
      have := w.1 m hm
      simp [hm] at hc h
      rw [h]
      simp
      omega
  · split at h
    · rename_i hc
      cases hm : b.max with
      | none => simp [hm] at hc
      | some m =>
        have := w.2 m hm
        simp [hm] at hc h
        rw [h]
        simp
        omega
    · cases h

theorem gt_sound {x o : Int} {b : Bounds} {a : Bool} (w : Within x b) (h : b.gt o = some a) :
    a = decide (x > o) := by
  unfold Bounds.gt at h
  split at h
  · rename_i hc
    cases hm : b.max with
    | none => simp [hm] at hc
    | some m =>
      have := w.2 m hm
      simp [hm] at hc h
      rw [h]
      simp
      omega
  · split at h
    · rename_i hc
      cases hm : b.min with
      | none => simp [hm] at hc
      | some m =>
        have := w.1 m hm
        simp [hm] at hc h
        rw [h]
        simp
        omega
    · cases h

theorem step_within {x : Int} {b : Bounds} (h : Within x b) (e : Event) :
    Within x (step x b e).1 ∧ ∀ a, (step x b e).2 = some a → a.1 = a.2 := by
  cases e with
  | askLt o =>
    refine ⟨h, fun a ha => ?_⟩
    simp only [step, Option.map_eq_some_iff] at ha
    obtain ⟨c, hc, rfl⟩ := ha
    exact lt_sound h hc
  | askGt o =>
    refine ⟨h, fun a ha => ?_⟩
    simp only [step, Option.map_eq_some_iff] at ha
    obtain ⟨c, hc, rfl⟩ := ha
    exact gt_sound h hc
  | decideLt o =>
    refine ⟨?_, fun a ha => by simp [step] at ha⟩
    simp only [step, Bounds.decidedLt]
    split <;> rename_i hd <;> simp at hd <;> apply within_intersect h <;> intro m hm <;>
      simp at hm <;> omega
  | decideGt o =>
    refine ⟨?_, fun a ha => by simp [step] at ha⟩
    simp only [step, Bounds.decidedGt]
    split <;> rename_i hd <;> simp at hd <;> apply within_intersect h <;> intro m hm <;>
      simp at hm <;> omega

end Verif.Ints
