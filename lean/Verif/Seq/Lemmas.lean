import Verif.Seq.Model
import Verif.Range.Props
namespace Verif.Seq
open Range

variable {α : Type}

/-! ### Positions -/

theorem iterUp_shift (b c d : Int) (a : Int) :
    iterUp (a + d) (b + d) c = (iterUp a b c).map (· + d) := by
  induction a using iterUp.induct (stop := b) (step := c) with
  | case1 a h ih =>
    rw [iterUp, if_pos (by omega)]
    conv => rhs; rw [iterUp, if_pos h]
    rw [List.map_cons, ← ih]
    congr 2
    omega
  | case2 a h =>
    rw [iterUp, if_neg (by omega)]
    conv => rhs; rw [iterUp, if_neg h]
    rfl

theorem iterDown_shift (a b c d : Int) :
    iterDown (a + d) (b + d) c = (iterDown a b c).map (· + d) := by
  rw [iterDown_eq_neg, iterDown_eq_neg]
  have := iterUp_shift (-b) (-c) (-d) (-a)
  rw [show -(a + d) = -a + -d by omega, show -(b + d) = -b + -d by omega, this, List.map_map,
    List.map_map]
  congr 1
  funext x
  simp only [Function.comp]
  omega

theorem mem_iterUp_lt {a b c x : Int} (h : x ∈ iterUp a b c) : a ≤ x ∧ x < b := by
  induction a using iterUp.induct (stop := b) (step := c) with
  | case1 a hc ih =>
    rw [iterUp, if_pos hc, List.mem_cons] at h
    rcases h with rfl | h
    · omega
    · have := ih h; omega
  | case2 a hc => rw [iterUp, if_neg hc] at h; cases h

theorem mem_iterDown_lt {a b c x : Int} (h : x ∈ iterDown a b c) : b < x ∧ x ≤ a := by
  rw [iterDown_eq_neg, List.mem_map] at h
  obtain ⟨y, hy, rfl⟩ := h
  have := mem_iterUp_lt hy
  omega

/-- Splitting the positions at `m`: `m'` is the first position not below `m`. -/
theorem iterUp_split (b c m m' : Int) (hc : 0 < c) (h1 : m ≤ m') (h2 : m' < m + c) (a : Int) :
    a ≤ m' → (m' - a) % c = 0 → iterUp a b c = iterUp a (min m b) c ++ iterUp m' b c := by
  induction a using iterUp.induct (stop := b) (step := c) with
  | case1 a h ih =>
    intro ha hd
    by_cases ham : a < m
    · rw [iterUp, if_pos h]
      conv => rhs; rw [iterUp, if_pos (by omega)]
      have hge : a + c ≤ m' := by
        by_contra hlt
        have : (m' - a) % c = m' - a := Int.emod_eq_of_lt (by omega) (by omega)
        omega
      rw [ih hge (by rw [show m' - (a + c) = m' - a - c by omega, Int.sub_emod_right]; exact hd)]
      rfl
    · have : (m' - a) % c = m' - a := Int.emod_eq_of_lt (by omega) (by omega)
      have hm : m' = a := by omega
      subst hm
      have : iterUp m' (min m b) c = [] := by rw [iterUp, if_neg (by omega)]
      rw [this]; rfl
  | case2 a h =>
    intro ha hd
    have e1 : iterUp a b c = [] := by rw [iterUp, if_neg h]
    have e2 : iterUp a (min m b) c = [] := by rw [iterUp, if_neg (by omega)]
    have e3 : iterUp m' b c = [] := by rw [iterUp, if_neg (by omega)]
    rw [e1, e2, e3]; rfl

theorem iterUp_nil {a b c : Int} (h : b ≤ a) : iterUp a b c = [] := by
  rw [iterUp, if_neg (by omega)]

theorem iterDown_nil {a b c : Int} (h : a ≤ b) : iterDown a b c = [] := by
  rw [iterDown, if_neg (by omega)]

/-- What `cut_slice` is for. -/
theorem cutUp_spec (a b c cut : Int) (hc : 0 < c) :
    let p := cutUp a b c cut
    iterUp a b c = iterUp p.1.1 p.1.2 c ++ iterUp p.2.1 p.2.2 c ∧
      (p.1.1 = a ∨ p.1.1 = cut) ∧ p.1.2 ≤ cut ∧ cut ≤ p.2.1 := by
  simp only [cutUp]
  by_cases h1 : cut < a
  · rw [if_pos (by omega)]
    simp only
    have e1 : ∀ d : Int, cut + d - d = cut := fun d => by omega
    have e2 : ∀ d : Int, a + d - d = a := fun d => by omega
    have e3 : ∀ d : Int, b + d - d = b := fun d => by omega
    rw [e1, e2, e3, iterUp_nil (Int.le_refl cut)]
    refine ⟨rfl, .inr rfl, Int.le_refl _, by omega⟩
  · rw [if_neg (by omega)]
    by_cases h2 : cut > b
    · rw [if_pos (by omega)]
      simp only
      have e1 : ∀ d : Int, cut + d - d = cut := fun d => by omega
      have e2 : ∀ d : Int, a + d - d = a := fun d => by omega
      have e3 : ∀ d : Int, b + d - d = b := fun d => by omega
      rw [e1, e2, e3, iterUp_nil (Int.le_refl cut)]
      refine ⟨by simp, .inl rfl, by omega, Int.le_refl _⟩
    · rw [if_neg (by omega)]
      simp only
      have hd : -(min (min a b) cut) = -a := by omega
      rw [hd]
      have hm : min (cut + -a) (b + -a) = cut - a := by omega
      rw [hm, show a + -a - -a = a by omega, show cut - a - -a = cut by omega,
        show b + -a - -a = b by omega]
      have f0 := Int.fmod_nonneg_of_pos (cut - a) hc
      have f1 := Int.fmod_lt_of_pos (cut - a) hc
      have f2 := Int.fdiv_mul_add_fmod (cut - a) c
      refine ⟨?_, .inl rfl, Int.le_refl _, by split <;> omega⟩
      have := iterUp_split b c cut ((if (cut - a).fmod c > 0 then cut - a + (c - (cut - a).fmod c)
        else cut - a) - -a) hc (by split <;> omega) (by split <;> omega) a (by split <;> omega) (by
          split
          · have : cut - a + (c - (cut - a).fmod c) - -a - a = c * ((cut - a).fdiv c + 1) := by
              rw [mul_add, mul_comm c]; omega
            rw [this]; simp
          · have : cut - a - -a - a = c * ((cut - a).fdiv c) := by rw [mul_comm c]; omega
            rw [this]; simp)
      rw [show min cut b = cut by omega] at this
      exact this

/-! ### Elements -/

theorem lookup_none_neg (xs : List α) {i : Int} (h : i < 0) : lookup xs i = none := by
  unfold lookup; rw [if_neg (by omega)]

theorem lookup_none_ge (xs : List α) {i : Int} (h : (xs.length : Int) ≤ i) : lookup xs i = none := by
  unfold lookup
  split
  · rw [List.getElem?_eq_none_iff]; omega
  · rfl

theorem lookup_append_left (xs ys : List α) {i : Int} (h : i < xs.length) :
    lookup (xs ++ ys) i = lookup xs i := by
  unfold lookup
  split
  · rw [List.getElem?_append_left (by omega)]
  · rfl

theorem lookup_append_right (xs ys : List α) {i : Int} (h : (xs.length : Int) ≤ i) :
    lookup (xs ++ ys) i = lookup ys (i - xs.length) := by
  unfold lookup
  rw [if_pos (by omega), if_pos (by omega), List.getElem?_append_right (by omega)]
  congr 1
  omega

theorem filterMap_congr' {β : Type} {f g : Int → Option β} : ∀ {l : List Int},
    (∀ x ∈ l, f x = g x) → l.filterMap f = l.filterMap g := by
  intro l h
  induction l with
  | nil => rfl
  | cons x l ih =>
    rw [List.filterMap_cons, List.filterMap_cons, h x (by simp), ih (fun y hy => h y (by simp [hy]))]

theorem filterMap_none {β : Type} {f : Int → Option β} : ∀ {l : List Int},
    (∀ x ∈ l, f x = none) → l.filterMap f = [] := by
  intro l h
  induction l with
  | nil => rfl
  | cons x l ih => rw [List.filterMap_cons, h x (by simp)]; exact ih (fun y hy => h y (by simp [hy]))

theorem elems_up (xs : List α) {a b c : Int} (hc : 0 < c) :
    elems xs a b c = (iterUp a b c).filterMap (lookup xs) := by
  unfold elems Rng.iter; rw [if_neg (by simp; omega)]

theorem elems_down (xs : List α) {a b c : Int} (hc : c < 0) :
    elems xs a b c = (iterDown a b c).filterMap (lookup xs) := by
  unfold elems Rng.iter; rw [if_pos (by simpa using hc)]

theorem elems_empty_up (xs : List α) {a b c : Int} (hc : 0 < c) (h : b ≤ a) : elems xs a b c = [] := by
  rw [elems_up xs hc, iterUp_nil h]; rfl

theorem elems_past_up (xs : List α) {a b c : Int} (hc : 0 < c) (h : (xs.length : Int) ≤ a) :
    elems xs a b c = [] := by
  rw [elems_up xs hc]
  apply filterMap_none
  intro x hx
  exact lookup_none_ge xs (by have := mem_iterUp_lt hx; omega)

/-- Going beyond the end changes nothing. -/
theorem elems_stop_up (xs : List α) {b c : Int} (hc : 0 < c) (hb : (xs.length : Int) ≤ b) (a : Int) :
    elems xs a b c = elems xs a xs.length c := by
  rw [elems_up xs hc, elems_up xs hc]
  induction a using iterUp.induct (stop := b) (step := c) with
  | case1 a h ih =>
    by_cases ha : a < xs.length
    · rw [iterUp, if_pos h]
      conv => rhs; rw [iterUp, if_pos (by omega)]
      rw [List.filterMap_cons, List.filterMap_cons, ih]
    · rw [iterUp_nil (b := (xs.length : Int)) (by omega)]
      apply filterMap_none
      intro x hx
      exact lookup_none_ge xs (by have := mem_iterUp_lt hx; omega)
  | case2 a h => rw [iterUp_nil (by omega), iterUp_nil (by omega)]

/-- A slice of a concatenation, going up. -/
theorem elems_append_up (xs ys : List α) {a b c : Int} (hc : 0 < c) :
    let p := cutUp a b c xs.length
    elems (xs ++ ys) a b c =
      elems xs p.1.1 p.1.2 c ++ elems ys (p.2.1 - xs.length) (p.2.2 - xs.length) c := by
  intro p
  obtain ⟨h1, _, h3, h4⟩ := cutUp_spec a b c xs.length hc
  change (xs.length : Int) ≤ p.2.1 at h4
  rw [elems_up _ hc, elems_up _ hc, elems_up _ hc, h1, List.filterMap_append]
  congr 1
  · apply filterMap_congr'
    intro x hx
    exact lookup_append_left xs ys (by have := mem_iterUp_lt hx; omega)
  · have := iterUp_shift (p.2.2 - xs.length) c xs.length (p.2.1 - xs.length)
    rw [show p.2.1 - (xs.length : Int) + xs.length = p.2.1 by omega,
      show p.2.2 - (xs.length : Int) + xs.length = p.2.2 by omega] at this
    rw [this, List.filterMap_map]
    apply filterMap_congr'
    intro x hx
    have := mem_iterUp_lt hx
    simp only [Function.comp]
    rw [lookup_append_right xs ys (by omega)]
    congr 1
    omega

/-- A slice of a concatenation, going down. -/
theorem elems_append_down (xs ys : List α) {a b c : Int} (hc : c < 0) :
    let p := cutSlice a b c (xs.length - 1)
    elems (xs ++ ys) a b c =
      elems ys (p.1.1 - xs.length) (p.1.2 - xs.length) c ++ elems xs p.2.1 p.2.2 c := by
  intro p
  obtain ⟨h1, _, h3, h4⟩ := cutUp_spec (-a) (-b) (-c) (-((xs.length : Int) - 1)) (by omega)
  have hp : p = ((-(cutUp (-a) (-b) (-c) (-((xs.length : Int) - 1))).1.1,
      -(cutUp (-a) (-b) (-c) (-((xs.length : Int) - 1))).1.2),
      (-(cutUp (-a) (-b) (-c) (-((xs.length : Int) - 1))).2.1,
      -(cutUp (-a) (-b) (-c) (-((xs.length : Int) - 1))).2.2)) := by
    show cutSlice a b c (xs.length - 1) = _
    unfold cutSlice; rw [if_pos hc]
  generalize cutUp (-a) (-b) (-c) (-((xs.length : Int) - 1)) = r at *
  have hsplit : iterDown a b c = iterDown p.1.1 p.1.2 c ++ iterDown p.2.1 p.2.2 c := by
    rw [iterDown_eq_neg, h1, List.map_append, iterDown_eq_neg p.1.1, iterDown_eq_neg p.2.1, hp]
    simp
  rw [elems_down _ hc, elems_down _ hc, elems_down _ hc, hsplit, List.filterMap_append]
  have q2 : p.1.2 = -r.1.2 := by rw [hp]
  have q3 : p.2.1 = -r.2.1 := by rw [hp]
  congr 1
  · have := iterDown_shift (p.1.1 - xs.length) (p.1.2 - xs.length) c xs.length
    rw [show p.1.1 - (xs.length : Int) + xs.length = p.1.1 by omega,
      show p.1.2 - (xs.length : Int) + xs.length = p.1.2 by omega] at this
    rw [this, List.filterMap_map]
    apply filterMap_congr'
    intro x hx
    have := mem_iterDown_lt hx
    simp only [Function.comp]
    rw [lookup_append_right xs ys (by omega)]
    congr 1
    omega
  · apply filterMap_congr'
    intro x hx
    exact lookup_append_left xs ys (by have := mem_iterDown_lt hx; omega)

/-! ### `slice.indices` on adjusted slices -/

theorem pySlice_up (xs : List α) {a b c : Int} (hc : 0 < c) (ha : 0 ≤ a) (ha' : a ≤ xs.length)
    (hb : 0 ≤ b) (hb' : b ≤ xs.length) :
    pySlice xs ⟨some a, some b, some c⟩ = .ok (elems xs a b c) := by
  unfold pySlice pyIndices
  simp only [Option.getD_some]
  rw [if_neg (by omega)]
  simp only [if_neg (show ¬ c < 0 by omega), if_neg (show ¬ a < 0 by omega),
    if_neg (show ¬ b < 0 by omega)]
  rw [show min a (xs.length : Int) = a by omega, show min b (xs.length : Int) = b by omega]

theorem clampSlice_up (xs : List α) {a b c : Int} (hc : 0 < c) (ha : 0 ≤ a) :
    pySlice xs (clampSlice a b c xs.length) = .ok (elems xs a b c) := by
  unfold clampSlice
  rw [if_neg (by omega)]
  simp only
  have hA : (if a < 0 then some 0 else if a > xs.length then some (xs.length : Int) else some a)
      = some (min a xs.length) := by
    rw [if_neg (by omega)]; split <;> congr 1 <;> omega
  have hB : (if b < 0 then some 0 else if b > xs.length then some (xs.length : Int) else some b)
      = some (max 0 (min b xs.length)) := by
    split
    · congr 1; omega
    · split <;> congr 1 <;> omega
  rw [hA, hB, pySlice_up xs hc (by omega) (by omega) (by omega) (by omega)]
  congr 1
  by_cases h : (xs.length : Int) ≤ a
  · rw [elems_past_up xs hc (by omega), elems_past_up xs hc h]
  · rw [show min a (xs.length : Int) = a by omega]
    by_cases hb : b < 0
    · rw [elems_empty_up xs hc (by omega), elems_empty_up xs hc (by omega)]
    · by_cases hbl : b ≤ xs.length
      · congr 1; omega
      · rw [show max 0 (min b (xs.length : Int)) = xs.length by omega,
          elems_stop_up xs hc (show (xs.length : Int) ≤ b by omega) a]

theorem elems_stop_down (xs : List α) {b c : Int} (hc : c < 0) (hb : b ≤ -1) (a : Int) :
    elems xs a b c = elems xs a (-1) c := by
  rw [elems_down xs hc, elems_down xs hc]
  induction a using iterDown.induct (stop := b) (step := c) with
  | case1 a h ih =>
    by_cases ha : a > -1
    · rw [iterDown, if_pos h]
      conv => rhs; rw [iterDown, if_pos (by omega)]
      rw [List.filterMap_cons, List.filterMap_cons, ih]
    · rw [iterDown_nil (b := (-1 : Int)) (by omega)]
      apply filterMap_none
      intro x hx
      exact lookup_none_neg xs (by have := mem_iterDown_lt hx; omega)
  | case2 a h => rw [iterDown_nil (by omega), iterDown_nil (by omega)]

theorem clampSlice_down (xs : List α) {a b c : Int} (hc : c < 0) (ha : a < xs.length) :
    pySlice xs (clampSlice a b c xs.length) = .ok (elems xs a b c) := by
  unfold clampSlice
  rw [if_pos hc]
  split
  · rename_i h
    unfold pySlice pyIndices
    simp only [Option.getD_some]
    rw [if_neg (by omega)]
    simp only [if_pos hc, if_neg (show ¬ (0 : Int) < 0 by omega)]
    congr 1
    have e : elems xs (min 0 ((xs.length : Int) - 1)) (min 0 ((xs.length : Int) - 1)) c = [] := by
      rw [elems_down xs hc, iterDown_nil (Int.le_refl _)]; rfl
    rw [e, elems_down xs hc]
    symm
    apply filterMap_none
    intro x hx
    have := mem_iterDown_lt hx
    rcases h with h | h
    · exact lookup_none_neg xs (by omega)
    · exact lookup_none_ge xs (by omega)
  · rename_i h
    simp only
    rw [if_neg (show ¬ a < 0 by omega), if_neg (show ¬ a ≥ (xs.length : Int) by omega)]
    by_cases hb : b < 0
    · rw [if_pos hb]
      unfold pySlice pyIndices
      simp only [Option.getD_some]
      rw [if_neg (by omega)]
      simp only [if_pos hc, if_neg (show ¬ a < 0 by omega)]
      rw [show min a ((xs.length : Int) - 1) = a by omega, elems_stop_down xs hc (show b ≤ -1 by omega) a]
    · rw [if_neg hb, if_neg (by omega)]
      unfold pySlice pyIndices
      simp only [Option.getD_some]
      rw [if_neg (by omega)]
      simp only [if_pos hc, if_neg (show ¬ a < 0 by omega), if_neg hb]
      rw [show min a ((xs.length : Int) - 1) = a by omega, show min b ((xs.length : Int) - 1) = b by omega]

/-- The adjusted bounds of a slice. -/
theorem pyIndices_range {s : Slice} {n : Nat} {a b c : Int} (h : pyIndices s n = .ok (a, b, c)) :
    c = s.step.getD 1 ∧ c ≠ 0 ∧ (0 < c → 0 ≤ a ∧ a ≤ n ∧ 0 ≤ b ∧ b ≤ n) ∧
      (c < 0 → -1 ≤ a ∧ a ≤ n - 1 ∧ -1 ≤ b ∧ b ≤ n - 1) := by
  unfold pyIndices at h
  simp only at h
  split at h
  · cases h
  · rename_i hc
    simp only [Except.ok.injEq, Prod.mk.injEq] at h
    obtain ⟨h1, h2, h3⟩ := h
    refine ⟨h3.symm, by omega, fun hp => ?_, fun hn => ?_⟩
    · have : ¬ s.step.getD 1 < 0 := by omega
      simp only [if_neg this] at h1 h2
      refine ⟨?_, ?_, ?_, ?_⟩ <;> subst h1 h2 <;> split <;> (try split) <;> omega
    · have : s.step.getD 1 < 0 := by omega
      simp only [if_pos this] at h1 h2
      refine ⟨?_, ?_, ?_, ?_⟩ <;> subst h1 h2 <;> split <;> (try split) <;> omega

end Verif.Seq
