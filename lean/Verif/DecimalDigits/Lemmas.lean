/- Digits at places, for the operations on digits. -/
import Verif.DecimalDigits.Spec
import Verif.Decimal.Special
import Mathlib.Tactic.Ring
import Mathlib.Tactic.Linarith

namespace Verif.DecimalDigits
open Verif.Decimal Verif.DecimalMore

/-- The digit at a place of a string, counted from the last one. -/
def at' (ds : Digits) (k : ℕ) : ℕ := ds.reverse[k]?.getD 0

theorem number_concat (ds : Digits) (d : ℕ) : number (ds ++ [d]) = number ds * 10 + d := by
  rw [number_append]; simp [number]

theorem digitAt_zero (n d : ℕ) (h : d < 10) : digitAt (n * 10 + d) 0 = d := by
  unfold digitAt; rw [Nat.pow_zero, Nat.div_one]; omega

theorem digitAt_succ (n d k : ℕ) (h : d < 10) : digitAt (n * 10 + d) (k + 1) = digitAt n k := by
  unfold digitAt
  rw [Nat.pow_succ, Nat.mul_comm (10 ^ k), ← Nat.div_div_eq_div_mul, show (n * 10 + d) / 10 = n by omega]

theorem digitAt_number {ds : Digits} (h : ∀ x ∈ ds, x < 10) (k : ℕ) : digitAt (number ds) k = at' ds k := by
  obtain ⟨rs, rfl⟩ : ∃ rs : Digits, ds = rs.reverse := ⟨ds.reverse, by simp⟩
  unfold at'
  rw [List.reverse_reverse]
  replace h : ∀ x ∈ rs, x < 10 := fun x hx => h x (by simpa using hx)
  induction rs generalizing k with
  | nil => simp [number, digitAt]
  | cons d rs ih =>
    rw [List.reverse_cons, number_concat]
    have hd := h d List.mem_cons_self
    have hr : ∀ x ∈ rs, x < 10 := fun x hx => h x (List.mem_cons_of_mem _ hx)
    cases k with
    | zero => rw [digitAt_zero _ _ hd]; rfl
    | succ k => rw [digitAt_succ _ _ _ hd, ih k hr]; rfl

/-- Numbers with the same digits are equal. -/
theorem digitAt_inj {m n : ℕ} (h : ∀ k, digitAt m k = digitAt n k) : m = n := by
  induction m using Nat.strongRecOn generalizing n with
  | _ m ih =>
    have h0 := h 0
    unfold digitAt at h0
    simp only [Nat.pow_zero, Nat.div_one] at h0
    have hs : ∀ k, digitAt (m / 10) k = digitAt (n / 10) k := fun k => by
      have := h (k + 1)
      unfold digitAt at this ⊢
      rw [Nat.pow_succ, Nat.mul_comm (10 ^ k), ← Nat.div_div_eq_div_mul, ← Nat.div_div_eq_div_mul] at this
      exact this
    rcases Nat.eq_zero_or_pos m with hm | hm
    · subst hm
      by_contra hn
      have hz : ∀ k, digitAt n k = 0 := fun k => by rw [← h k]; simp [digitAt]
      -- some digit of a positive number is not zero
      have : ∀ n : ℕ, (∀ k, digitAt n k = 0) → n = 0 := by
        intro n
        induction n using Nat.strongRecOn with
        | _ n ihn =>
          intro hz
          rcases Nat.eq_zero_or_pos n with h1 | h1
          · exact h1
          · have h2 := hz 0
            unfold digitAt at h2
            simp only [Nat.pow_zero, Nat.div_one] at h2
            have h3 := ihn (n / 10) (by omega) fun k => by
              have := hz (k + 1)
              unfold digitAt at this ⊢
              rw [Nat.pow_succ, Nat.mul_comm (10 ^ k), ← Nat.div_div_eq_div_mul] at this
              exact this
            omega
      exact hn (this n hz).symm
    · have := ih (m / 10) (by omega) hs
      omega

theorem lstrip_mem {ds : Digits} {x : ℕ} (h : x ∈ lstrip ds) : x ∈ ds := by
  induction ds with
  | nil => exact h
  | cons y ds ih =>
    rcases Nat.eq_zero_or_pos y with rfl | hy
    · exact List.mem_cons_of_mem _ (ih h)
    · have : lstrip (y :: ds) = y :: ds := by
        obtain ⟨z, rfl⟩ : ∃ z, y = z + 1 := ⟨y - 1, by omega⟩
        rfl
      rwa [this] at h

/-- `.lstrip("0") or "0"` makes a coefficient with the same digits. -/
theorem clean {ds : Digits} (h : ∀ x ∈ ds, x < 10) :
    IsCoeff (orZero (lstrip ds)) ∧ number (orZero (lstrip ds)) = number ds := by
  obtain ⟨_, h2, h3⟩ := lstrip_spec ds h
  have hm : ∀ x ∈ lstrip ds, x < 10 := fun x hx => h x (lstrip_mem hx)
  revert h2 h3 hm
  generalize lstrip ds = l
  intro h2 h3 hm
  cases l with
  | nil => exact ⟨.inl rfl, by rw [← h2]; rfl⟩
  | cons d l =>
    refine ⟨.inr ⟨d, l, rfl, ?_, hm⟩, h2⟩
    rintro rfl
    exact h3 rfl

/-! ### Logical operations -/

theorem fill_length (c : Ctx) (op : Digits) : (fill c op).length = c.prec := by
  unfold fill
  split
  · simp; omega
  · split
    · simp; omega
    · omega

theorem fill_at (c : Ctx) (op : Digits) (k : ℕ) : at' (fill c op) k = if k < c.prec then at' op k else 0 := by
  unfold at' fill
  split
  · rename_i h
    rw [List.reverse_append, List.reverse_replicate, List.getElem?_append]
    by_cases hk : k < op.reverse.length
    · rw [if_pos hk, if_pos (by rw [List.length_reverse] at hk; omega)]
    · rw [if_neg hk, List.getElem?_eq_none (by omega : op.reverse.length ≤ k), List.getElem?_replicate]
      split <;> split <;> simp_all
  · split
    · rename_i h1 h2
      rw [List.reverse_drop, List.getElem?_take]
      have : op.length - (op.length - c.prec) = c.prec := by omega
      rw [this]
      split <;> rfl
    · rename_i h1 h2
      split
      · rfl
      · rw [List.getElem?_eq_none (by rw [List.length_reverse]; omega)]; rfl

theorem fill_digits (c : Ctx) {op : Digits} {b : ℕ} (hb : 0 < b) (h : ∀ x ∈ op, x < b) : ∀ x ∈ fill c op, x < b := by
  intro x hx
  unfold fill at hx
  split at hx
  · rcases List.mem_append.1 hx with hx | hx
    · rw [List.eq_of_mem_replicate hx]; exact hb
    · exact h x hx
  · split at hx
    · exact h x (List.mem_of_mem_drop hx)
    · exact h x hx

theorem zip_at (f : ℕ → ℕ → ℕ) (h0 : f 0 0 = 0) {x y : Digits} (h : x.length = y.length) (k : ℕ) :
    at' ((List.zip x y).map fun p => f p.1 p.2) k = f (at' x k) (at' y k) := by
  unfold at'
  rw [← List.map_reverse, List.getElem?_map]
  have hz : (List.zip x y).reverse = List.zip x.reverse y.reverse := by
    rw [List.zip_eq_zipWith, List.zip_eq_zipWith, List.reverse_zipWith h]
  rw [hz]
  by_cases hk : k < x.length
  · have hx : k < x.reverse.length := by simpa using hk
    have hy : k < y.reverse.length := by rw [List.length_reverse, ← h]; exact hk
    rw [List.getElem?_eq_getElem (by rw [List.length_zip]; exact lt_min hx hy), List.getElem?_eq_getElem hx, List.getElem?_eq_getElem hy]
    simp
  · rw [List.getElem?_eq_none (by rw [List.length_zip, List.length_reverse]; omega),
      List.getElem?_eq_none (by rw [List.length_reverse]; omega), List.getElem?_eq_none (by rw [List.length_reverse]; omega)]
    exact h0.symm

/-- Digits of logical operands. -/
theorem logicalDigits_of {a : Dec} {n : ℕ} (h : IsLogical a n) :
    ∃ i, logicalDigits a = some i ∧ (∀ x ∈ i, x < 2) ∧ ∀ k, digitAt n k = at' i k := by
  obtain ⟨i, rfl, hi, rfl, hd⟩ := h
  have hk : ∀ k, digitAt (number i) k = at' i k := digitAt_number hi.digits
  have hx : ∀ x ∈ i, x < 2 := by
    intro x hx
    obtain ⟨k, hk1, hk2⟩ := List.mem_iff_getElem.1 (List.mem_reverse.2 hx)
    have := hd k
    rw [hk k, at', List.getElem?_eq_getElem hk1, hk2] at this
    exact Nat.lt_succ_of_le this
  refine ⟨i, ?_, hx, hk⟩
  have : i.all (fun d => d == 0 || d == 1) = true := by
    rw [List.all_eq_true]
    intro x hx'
    have := hx x hx'
    have h01 : x = 0 ∨ x = 1 := by omega
    rcases h01 with rfl | rfl <;> rfl
  simp [logicalDigits, this]

theorem isLogical_of {a : Dec} (ha : a.Ok) {i : Digits} (h : logicalDigits a = some i) : ∃ n, IsLogical a n := by
  rcases a with ⟨s, j, e⟩ | s | ⟨s, p, g⟩
  · simp only [logicalDigits] at h
    split at h
    · simp at h
    · rename_i h1
      split at h
      · rename_i h2
        simp only [Bool.or_eq_true, decide_eq_true_eq, not_or, Bool.not_eq_true, not_not] at h1
        obtain ⟨rfl, rfl⟩ := h1
        have hj : IsCoeff j := ha
        refine ⟨number j, j, rfl, hj, rfl, fun k => ?_⟩
        rw [digitAt_number hj.digits, at']
        rw [List.all_eq_true] at h2
        by_cases hk : k < j.reverse.length
        · rw [List.getElem?_eq_getElem hk]
          have := h2 _ (List.mem_reverse.1 (List.getElem_mem hk))
          simp only [Bool.or_eq_true, beq_iff_eq] at this
          simp only [Option.getD_some]
          omega
        · rw [List.getElem?_eq_none (by omega)]; simp
      · simp at h
  · simp [logicalDigits] at h
  · simp [logicalDigits] at h

/-! ### Shifts -/

theorem toRotate_eq (c : Ctx) (i : Digits) : toRotate c i = fill c i := by
  unfold toRotate fill
  dsimp only
  by_cases h1 : c.prec > i.length
  · rw [if_pos (by omega), if_pos h1, show ((c.prec : ℤ) - i.length).toNat = c.prec - i.length by omega]
  · rw [if_neg (by omega), if_neg h1]
    by_cases h2 : c.prec < i.length
    · rw [if_pos (by omega), if_pos h2, show (-((c.prec : ℤ) - i.length)).toNat = i.length - c.prec by omega]
    · rw [if_neg (by omega), if_neg h2]

theorem rotate_at {ds : Digits} {p m : ℕ} (hl : ds.length = p) (hm : m ≤ p) (k : ℕ) :
    at' (ds.drop m ++ ds.take m) k = if k < m then at' ds (k + p - m) else if k < p then at' ds (k - m) else 0 := by
  unfold at'
  rw [List.reverse_append, List.reverse_take, List.reverse_drop, hl, List.getElem?_append, List.length_drop, List.length_reverse, hl]
  by_cases hk : k < m
  · rw [if_pos (by omega), if_pos hk, List.getElem?_drop, show p - m + k = k + p - m by omega]
  · rw [if_neg (by omega), if_neg hk, List.getElem?_take, show k - (p - (p - m)) = k - m by omega]
    by_cases h2 : k < p
    · rw [if_pos (by omega), if_pos h2]
    · rw [if_neg (by omega), if_neg h2]; rfl

theorem pad_at (ds : Digits) (n k : ℕ) : at' (ds ++ List.replicate n 0) k = if k < n then 0 else at' ds (k - n) := by
  unfold at'
  rw [List.reverse_append, List.reverse_replicate, List.getElem?_append, List.length_replicate]
  by_cases h : k < n
  · rw [if_pos h, if_pos h, List.getElem?_replicate, if_pos h]; rfl
  · rw [if_neg h, if_neg h]

theorem drop_at (ds : Digits) (n k : ℕ) : at' (ds.drop n) k = if k < ds.length - n then at' ds k else 0 := by
  unfold at'
  rw [List.reverse_drop, List.getElem?_take]
  split <;> rfl

theorem take_at {ds : Digits} {n : ℕ} (k : ℕ) : at' (ds.take n) k = at' ds (k + (ds.length - n)) := by
  unfold at'
  rw [List.reverse_take, List.getElem?_drop, Nat.add_comm]

theorem at_ge {ds : Digits} {k : ℕ} (h : ds.length ≤ k) : at' ds k = 0 := by
  unfold at'
  rw [List.getElem?_eq_none (by rw [List.length_reverse]; exact h)]; rfl

/-- The second operand. -/
theorem count_of {b : Dec} {n limit : ℤ} (h : IsCount b n) : count limit b = if -limit ≤ n ∧ n ≤ limit then some n else none := by
  obtain ⟨s, i, rfl, hi, hv⟩ := h
  have hn : toInteger s i 0 = n := by
    have : (toInteger s i 0 : ℚ) = n := by
      rw [← hv]
      unfold toInteger value finValue
      rw [if_pos (le_refl _), toInt_eq]
      cases s <;> simp [minusOne]
    exact_mod_cast this
  simp only [count, ne_eq, not_true_eq_false, if_false, hn]

theorem isCount_of {b : Dec} (hb : b.Ok) {n limit : ℤ} (h : count limit b = some n) : IsCount b n ∧ -limit ≤ n ∧ n ≤ limit := by
  rcases b with ⟨s, i, e⟩ | s | ⟨s, p, g⟩
  · simp only [count] at h
    split at h
    · simp at h
    · rename_i he
      simp only [ne_eq, not_not] at he
      subst he
      split at h
      · rename_i h1
        simp only [Option.some.injEq] at h
        subst h
        refine ⟨⟨s, i, rfl, hb, ?_⟩, h1⟩
        unfold toInteger value finValue
        rw [if_pos (le_refl _), toInt_eq]
        cases s <;> simp [minusOne]
      · simp at h
  · simp [count] at h
  · simp [count] at h

end Verif.DecimalDigits
