import Verif.Strs.Ws
/-
Properties of the string methods of symbolic strings (C26-C29, C60-C63).
-/
namespace Verif.Strs

/-! ### Searching (C26) -/

/-- `find`: the first occurrence inside the window, or -1.  Missing: bounds more negative than the
length, which the code does not clamp (`find_low_start`, `find_low_end`). -/
theorem find_python_partial (s sub : Str) (a b : Option Int)
    (ha : ∀ i, a = some i → -(s.length : Int) ≤ i) (hb : ∀ i, b = some i → -(s.length : Int) ≤ i) :
    IsFind s sub a b (find s sub a b false) := by
  have := find_spec s sub a b false ha hb
  simpa [IsFind] using this

/-- `rfind`: the last occurrence inside the window, or -1, with the same restriction. -/
theorem rfind_python_partial (s sub : Str) (a b : Option Int)
    (ha : ∀ i, a = some i → -(s.length : Int) ≤ i) (hb : ∀ i, b = some i → -(s.length : Int) ≤ i) :
    IsRfind s sub a b (find s sub a b true) := by
  have := find_spec s sub a b true ha hb
  simpa [IsRfind] using this

/-- "abcabc".find("bc", 2, -1) and rfind. -/
example : find [97, 98, 99, 97, 98, 99] [98, 99] (some (-5)) (some 6) false = 1 ∧
    find [97, 98, 99, 97, 98, 99] [98, 99] (some (-5)) (some (-1)) true = 1 ∧
    find [97, 98, 99, 97, 98, 99] [98, 99] (some 2) (some (-1)) false = -1 ∧
    find [97, 98, 99, 97, 98, 99] [] (some 6) none false = 6 ∧
    find [97, 98, 99, 97, 98, 99] [] (some 7) none false = -1 := by decide +kernel

/-- The specification determines the answer. -/
theorem isFind_unique {s sub : Str} {a b : Option Int} {r r' : Int} (h : IsFind s sub a b r)
    (h' : IsFind s sub a b r') : r = r' := by
  rcases h with ⟨i, rfl, h1, h2⟩ | ⟨rfl, h⟩ <;> rcases h' with ⟨j, rfl, g1, g2⟩ | ⟨rfl, g⟩
  · have := h2 j g1; have := g2 i h1; omega
  · exact absurd h1 (g i)
  · exact absurd g1 (h j)
  · rfl

/-- `"abc".find("b", -10)` is 1 in Python; the symbolic string answers -6. -/
theorem find_low_start : find [97, 98, 99] [98] (some (-10)) none false = -6 ∧
    IsFind [97, 98, 99] [98] (some (-10)) none 1 := by
  refine ⟨by decide +kernel, Or.inl ⟨1, rfl, ⟨by decide, by decide, [97], [99], rfl, rfl⟩, ?_⟩⟩
  intro j hj
  obtain ⟨_, _, hj⟩ := hj
  obtain ⟨pre, post, h1, h2⟩ := hj
  cases pre with
  | nil => simp at h1
  | cons => simp at h2; omega

/-- `"abc".find("a", 0, -4)` is -1 in Python; the symbolic string answers 0. -/
theorem find_low_end : find [97, 98, 99] [97] (some 0) (some (-4)) false = 0 ∧
    IsFind [97, 98, 99] [97] (some 0) (some (-4)) (-1) := by
  refine ⟨by decide +kernel, Or.inr ⟨rfl, ?_⟩⟩
  intro j hj
  have h2 := hj.2.1
  have : windowHi [97, 98, 99].length (some (-4)) = 0 := by decide
  rw [this] at h2
  simp at h2

/-- `sub in s`. -/
theorem contains_python (s sub : Str) : contains s sub = true ↔ Contains s sub := by
  unfold contains
  by_cases h : sub.length = 0
  · have : sub = [] := List.length_eq_zero_iff.mp h
    subst this
    simp only [List.length_nil, if_true, true_iff]
    exact ⟨0, [], s, by simp, rfl⟩
  · rw [if_neg h]
    have hne : sub ≠ [] := fun e => h (by rw [e]; rfl)
    rcases partition_spec s hne with ⟨i, h1, h2⟩ | ⟨h1, h2⟩
    · rw [h2]; simp only [ne_eq, hne, not_false_eq_true, decide_true, true_iff]; exact ⟨i, h1.1⟩
    · rw [h2]; simp [h1]

/-- `partition` cuts at the first occurrence, or gives the string and two empty strings. -/
theorem partition_python (s sep : Str) (h : sep ≠ []) :
    (∃ pre post, s = pre ++ sep ++ post ∧ FirstAt sep s pre.length ∧
      partition s sep = some (pre, sep, post)) ∨
    (¬ Contains s sep ∧ partition s sep = some (s, [], [])) := by
  rcases partition_spec s h with ⟨i, h1, h2⟩ | h2
  · have hb := occurs_bound h1.1
    exact Or.inl ⟨_, _, occurs_split h1.1, by rw [List.length_take, Nat.min_eq_left (by omega)]; exact h1, h2⟩
  · exact Or.inr h2

/-- `rpartition` cuts at the last occurrence, or gives two empty strings and the string. -/
theorem rpartition_python (s sep : Str) (h : sep ≠ []) :
    (∃ pre post, s = pre ++ sep ++ post ∧ LastAt sep s pre.length ∧
      rpartition s sep = some (pre, sep, post)) ∨
    (¬ Contains s sep ∧ rpartition s sep = some ([], [], s)) := by
  rcases rpartition_spec s h with ⟨i, h1, h2⟩ | h2
  · have hb := occurs_bound h1.1
    exact Or.inl ⟨_, _, occurs_split h1.1, by rw [List.length_take, Nat.min_eq_left (by omega)]; exact h1, h2⟩
  · exact Or.inr h2

example : partition [1, 9, 2, 9, 3] [9] = some ([1], [9], [2, 9, 3]) ∧
    rpartition [1, 9, 2, 9, 3] [9] = some ([1, 9, 2], [9], [3]) ∧ partition [1] [9] = some ([1], [], []) ∧
    contains [1, 9, 2] [9, 2] = true ∧ contains [1, 9, 2] [2, 9] = false := by decide +kernel

/-! ### Splitting and replacing (C27) -/

/-- `split(sep, maxsplit)`: cuts at first occurrences until there is none left or the limit is used up;
an empty separator is refused. -/
theorem split_python (s sep : Str) (n : Int) :
    (sep = [] ∧ split s sep n = none) ∨
    (sep ≠ [] ∧ ∃ ps, split s sep n = some ps ∧ IsSplit sep (asLimit n) s ps) := by
  unfold split
  by_cases h : sep.length = 0
  · exact Or.inl ⟨List.length_eq_zero_iff.mp h, if_pos h⟩
  · have hne : sep ≠ [] := fun e => h (by rw [e]; rfl)
    exact Or.inr ⟨hne, _, if_neg h, splitLoop_spec hne _ s n (by omega)⟩

/-- `rsplit(sep, maxsplit)`: the same from the right. -/
theorem rsplit_python (s sep : Str) (n : Int) :
    (sep = [] ∧ rsplit s sep n = none) ∨
    (sep ≠ [] ∧ ∃ ps, rsplit s sep n = some ps ∧ IsRsplit sep (asLimit n) s ps) := by
  unfold rsplit
  by_cases h : sep.length = 0
  · exact Or.inl ⟨List.length_eq_zero_iff.mp h, if_pos h⟩
  · have hne : sep ≠ [] := fun e => h (by rw [e]; rfl)
    exact Or.inr ⟨hne, _, if_neg h, rsplitLoop_spec hne _ s n (by omega)⟩

/-- Joining the pieces with the separator restores the string; all pieces before the last are without
the separator; at most `n` cuts are made; and if fewer are made (or there is no limit) no piece
contains the separator. -/
theorem split_join (s sep : Str) (n : Int) (ps : List Str) (h : split s sep n = some ps) :
    join sep ps = s ∧ (∀ p ∈ ps.dropLast, ¬ Contains p sep) ∧ (0 ≤ n → ps.length ≤ n.toNat + 1) ∧
    ((n < 0 ∨ ps.length < n.toNat + 1) → ∀ p ∈ ps, ¬ Contains p sep) := by
  rcases split_python s sep n with ⟨_, h1⟩ | ⟨hne, qs, h1, h2⟩
  · rw [h1] at h; simp at h
  · rw [h1] at h
    simp at h
    subst h
    obtain ⟨g1, g2, g3⟩ := isSplit_pieces hne h2
    refine ⟨isSplit_join h2, g1, fun hn => ?_, fun hn => g3 ?_⟩
    · exact g2 _ (by unfold asLimit; rw [if_neg (by omega)])
    · intro m hm
      unfold asLimit at hm
      split at hm
      · simp at hm
      · simp at hm; omega

/-- The same for `rsplit`, where the first piece keeps what is left. -/
theorem rsplit_join (s sep : Str) (n : Int) (ps : List Str) (h : rsplit s sep n = some ps) :
    join sep ps = s ∧ (∀ p ∈ ps.tail, ¬ Contains p sep) ∧ (0 ≤ n → ps.length ≤ n.toNat + 1) ∧
    ((n < 0 ∨ ps.length < n.toNat + 1) → ∀ p ∈ ps, ¬ Contains p sep) := by
  rcases rsplit_python s sep n with ⟨_, h1⟩ | ⟨hne, qs, h1, h2⟩
  · rw [h1] at h; simp at h
  · rw [h1] at h
    simp at h
    subst h
    obtain ⟨g1, g2, g3⟩ := isRsplit_pieces hne h2
    refine ⟨isRsplit_join h2, g1, fun hn => ?_, fun hn => g3 ?_⟩
    · exact g2 _ (by unfold asLimit; rw [if_neg (by omega)])
    · intro m hm
      unfold asLimit at hm
      split at hm
      · simp at hm
      · simp at hm; omega

/-- "a,b,,c" at "," with limits. -/
example : split [1, 9, 2, 9, 9, 3] [9] (-1) = some [[1], [2], [], [3]] ∧
    split [1, 9, 2, 9, 9, 3] [9] 1 = some [[1], [2, 9, 9, 3]] ∧
    rsplit [1, 9, 2, 9, 9, 3] [9] 2 = some [[1, 9, 2], [], [3]] ∧
    split [9, 9, 9] [9, 9] (-1) = some [[], [9]] ∧ rsplit [9, 9, 9] [9, 9] (-1) = some [[9], []] := by
  decide +kernel

/-- `replace(old, new, count)` for a non-empty `old`: joins with `new` what `split` cuts at the first
`count` occurrences of `old`. -/
theorem replace_python (s old new : Str) (n : Int) (h : old ≠ []) :
    ∃ ps, IsSplit old (asLimit n) s ps ∧ replace s old new n = join new ps :=
  replaceLoop_spec new h _ s n (by omega)

/-- `replace("", new, count)`: `new` is put before each of the first `count` characters, and at the end
if the count allows. -/
theorem replace_empty_python (s new : Str) (n : Int) :
    replace s [] new n =
      if n < 0 ∨ (s.length : Int) < n then s.flatMap (fun c => new ++ [c]) ++ new
      else (s.take n.toNat).flatMap (fun c => new ++ [c]) ++ s.drop n.toNat :=
  replaceLoop_empty new _ s n (by omega)

example : replace [1, 9, 2, 9] [9] [7, 7] (-1) = [1, 7, 7, 2, 7, 7] ∧
    replace [1, 9, 2, 9] [9] [7, 7] 1 = [1, 7, 7, 2, 9] ∧ replace [1, 2] [] [7] (-1) = [7, 1, 7, 2, 7] ∧
    replace [1, 2] [] [7] 2 = [7, 1, 7, 2] := by decide +kernel

/-- `replace` with the same string changes nothing. -/
theorem replace_same (s old : Str) (n : Int) (h : old ≠ []) : replace s old old n = s := by
  obtain ⟨ps, h1, h2⟩ := replace_python s old old n h
  rw [h2, isSplit_join h1]

/-! ### Affixes, stripping and padding (C28) -/

/-- `startswith(p, a, b)`: `p` occurs at the start of the window and fits in it. -/
theorem startswith_python (s p : Str) (a b : Option Int) :
    startswith s p a b = true ↔ InWindow s p a b (windowLo s.length a) := startswith_spec s p a b

/-- `endswith(p, a, b)`: `p` occurs in the window and ends where the window ends. -/
theorem endswith_python (s p : Str) (a b : Option Int) :
    endswith s p a b = true ↔ ∃ i, InWindow s p a b i ∧ i + p.length = windowHi s.length b :=
  endswith_spec s p a b

/-- Without a window. -/
theorem affix_python (s p : Str) :
    (startswith s p none none = true ↔ ∃ t, s = p ++ t) ∧ (endswith s p none none = true ↔ ∃ t, s = t ++ p) :=
  ⟨startswith_whole s p, endswith_whole s p⟩

/-- With a tuple of affixes: one of them fits. -/
theorem affix_any (s : Str) (ps : List Str) (a b : Option Int) :
    (startswithAny s ps a b = true ↔ ∃ p ∈ ps, startswith s p a b = true) ∧
    (endswithAny s ps a b = true ↔ ∃ p ∈ ps, endswith s p a b = true) := by
  simp [startswithAny, endswithAny]

example : startswith [1, 2, 3] [2, 3] (some (-2)) none = true ∧ startswith [1, 2, 3] [2, 3] (some 1) (some 2) = false ∧
    endswith [1, 2, 3] [2] none (some (-1)) = true ∧ endswith [1, 2, 3] [] (some 4) none = false ∧
    endswithAny [1, 2, 3] [[1], [2, 3]] none none = true := by decide +kernel

/-- `removeprefix` and `removesuffix` remove the affix if it is there. -/
theorem remove_affix (s p t : Str) :
    removeprefix (p ++ t) p = t ∧ removesuffix (t ++ p) p = t ∧
    ((¬ ∃ t, s = p ++ t) → removeprefix s p = s) ∧ ((¬ ∃ t, s = t ++ p) → removesuffix s p = s) := by
  refine ⟨?_, ?_, ?_, ?_⟩
  · unfold removeprefix
    rw [if_pos ((startswith_whole _ _).mpr ⟨t, rfl⟩), cut_from, List.drop_left]
  · unfold removesuffix
    rw [if_pos ((endswith_whole _ _).mpr ⟨t, rfl⟩)]
    by_cases h : p.length = 0
    · rw [if_pos h, List.length_eq_zero_iff.mp h, List.append_nil]
    · rw [if_neg h, cut_but_last _ (by omega) (by simp), List.length_append, Nat.add_sub_cancel,
        List.take_left]
  · intro h; unfold removeprefix; rw [if_neg (fun e => h ((startswith_whole _ _).mp e))]
  · intro h; unfold removesuffix; rw [if_neg (fun e => h ((endswith_whole _ _).mp e))]

example : removeprefix [1, 2, 3] [1, 2] = [3] ∧ removesuffix [1, 2, 3] [3] = [1, 2] ∧
    removeprefix [1, 2, 3] [2] = [1, 2, 3] ∧ removesuffix [1, 2] [] = [1, 2] := by decide +kernel

/-- The three strips remove exactly the longest run at the end or ends. -/
theorem strip_python (p : Nat → Bool) (s : Str) :
    IsLstrip p s (lstrip p s) ∧ IsRstrip p s (rstrip p s) ∧
    ∃ t, IsLstrip p s t ∧ IsRstrip p t (strip p s) :=
  ⟨lstrip_spec p s, rstrip_spec p s, lstrip p s, lstrip_spec p s, rstrip_spec p _⟩

/-- The specification determines the answer. -/
theorem isLstrip_unique {p : Nat → Bool} : ∀ {s t u : Str}, IsLstrip p s t → IsLstrip p s u → t = u := by
  rintro s t u ⟨a, h1, h2, h3⟩ ⟨b, g1, g2, g3⟩
  subst h1
  induction a generalizing b with
  | nil =>
    cases b with
    | nil => simpa using g1
    | cons c b =>
      simp at g1
      have := h3 c (by rw [g1]; rfl)
      rw [g2 c (by simp)] at this
      simp at this
  | cons c a ih =>
    cases b with
    | nil =>
      simp at g1
      have := g3 c (by rw [← g1]; rfl)
      rw [h2 c (by simp)] at this
      simp at this
    | cons d b =>
      simp at g1
      exact ih (fun c hc => h2 c (by simp [hc])) b (fun c hc => g2 c (by simp [hc])) g1.2

example : lstrip (· == 32) [32, 32, 1, 32, 2, 32] = [1, 32, 2, 32] ∧
    rstrip (· == 32) [32, 32, 1, 32, 2, 32] = [32, 32, 1, 32, 2] ∧
    strip (· == 32) [32, 32, 1, 32, 2, 32] = [1, 32, 2] ∧ strip (· == 32) [32, 32] = [] := by decide +kernel

/-- `ljust`, `rjust`: the string padded on one side to the width, or unchanged if it is that wide. -/
theorem just_python (s : Str) (w : Int) (c : Nat) :
    ljust s w c = s ++ List.replicate (w.toNat - s.length) c ∧
    rjust s w c = List.replicate (w.toNat - s.length) c ++ s := by
  constructor
  · unfold ljust fill
    congr 2
    omega
  · unfold rjust fill
    split
    · have : w.toNat - s.length = 0 := by omega
      simp [this]
    · congr 2
      omega

/-- `center`: the padding is split evenly; an odd one out goes left exactly if the width is odd (this is
CPython's `marg / 2 + (marg & width & 1)`). -/
theorem center_python (s : Str) (w : Int) (c : Nat) :
    ∃ l r, center s w c = List.replicate l c ++ s ++ List.replicate r c ∧
      l + r = w.toNat - s.length ∧
      l = (w.toNat - s.length) / 2 + (if (w.toNat - s.length) % 2 = 1 ∧ w.toNat % 2 = 1 then 1 else 0) := by
  unfold center fill
  simp only [Int.fdiv_eq_ediv_of_nonneg _ (show (0 : Int) ≤ 2 by omega),
    Int.fmod_eq_emod_of_nonneg _ (show (0 : Int) ≤ 2 by omega)]
  by_cases h : (s.length : Int) ≥ w
  · rw [if_pos h]
    have : w.toNat - s.length = 0 := by omega
    exact ⟨0, 0, by simp, by omega, by rw [this]; simp⟩
  · rw [if_neg h]
    by_cases h2 : w % 2 = 1
    · rw [if_pos h2]
      refine ⟨_, _, rfl, by omega, ?_⟩
      split <;> omega
    · rw [if_neg h2]
      refine ⟨_, _, rfl, by omega, ?_⟩
      split <;> omega

example : center [1, 2] 5 0 = [0, 0, 1, 2, 0] ∧ center [1] 4 0 = [0, 1, 0, 0] ∧ ljust [1] 3 0 = [1, 0, 0] ∧
    rjust [1] 3 0 = [0, 0, 1] ∧ rjust [1, 2] (-3) 0 = [1, 2] := by decide +kernel

/-- `zfill`: zeros up to the width, behind a leading sign. -/
theorem zfill_python (s : Str) (w : Int) :
    (∀ t c, s = c :: t → c = 43 ∨ c = 45 → zfill s w = c :: (List.replicate (w.toNat - s.length) 48 ++ t)) ∧
    ((∀ t c, s = c :: t → c ≠ 43 ∧ c ≠ 45) → zfill s w = List.replicate (w.toNat - s.length) 48 ++ s) := by
  have hl : (max 0 (w - s.length)).toNat = w.toNat - s.length := by omega
  have hp : ∀ k, startswith s [k] none none = true ↔ ∃ t, s = k :: t := by
    intro k; rw [startswith_whole]; simp
  unfold zfill fill
  simp only [hl]
  constructor
  · intro t c hs hc
    rw [if_pos (by rw [hp, hp]; rcases hc with rfl | rfl; exacts [Or.inl ⟨t, hs⟩, Or.inr ⟨t, hs⟩]),
      show (0 : Int) = ((0 : Nat) : Int) by rfl, show (1 : Int) = ((1 : Nat) : Int) by rfl, cut_mid, cut_from, hs]
    simp
  · intro h
    rw [if_neg]
    rw [hp, hp]
    rintro (⟨t, ht⟩ | ⟨t, ht⟩)
    · exact (h t _ ht).1 rfl
    · exact (h t _ ht).2 rfl

example : zfill [45, 53] 4 = [45, 48, 48, 53] ∧ zfill [53] 3 = [48, 48, 53] ∧ zfill [43] 0 = [43] := by
  decide +kernel

/-! ### Lines (C29) -/

/-- `splitlines`: with `keepends` the lines with their ends, without it the lines alone, where a
carriage return and line feed are one end and no line is left after a final end. -/
theorem splitlines_python (nl : Nat → Bool) (s : Str) :
    ∃ ps, IsLines nl s ps ∧ splitlines nl true s = ps.map (fun p => p.1 ++ p.2) ∧
      splitlines nl false s = ps.map (·.1) := splitlines_spec nl _ s (by omega)

/-- Concatenating the lines with their ends restores the string. -/
theorem splitlines_join (nl : Nat → Bool) (s : Str) : (splitlines nl true s).flatten = s := by
  obtain ⟨ps, h1, h2, h3⟩ := splitlines_python nl s
  rw [h2]
  clear h2 h3
  induction h1 with
  | nil => rfl
  | last => simp
  | crlf line rest ps _ _ ih => simp [ih]
  | one line rest c ps _ _ _ _ ih => simp [ih]

/-- No line contains an end of line. -/
theorem splitlines_clean (nl : Nat → Bool) (s : Str) :
    ∀ l ∈ splitlines nl false s, ∀ c ∈ l, nl c = false := by
  obtain ⟨ps, h1, h2, h3⟩ := splitlines_python nl s
  rw [h3]
  clear h2 h3
  induction h1 with
  | nil => simp
  | last line _ h => simpa using h
  | crlf line rest ps h _ ih =>
    intro l hl
    rcases List.mem_cons.mp hl with rfl | hl
    · exact h
    · exact ih l hl
  | one line rest c ps h _ _ _ ih =>
    intro l hl
    rcases List.mem_cons.mp hl with rfl | hl
    · exact h
    · exact ih l hl

/-- The specification determines the lines. -/
theorem isLines_unique {nl : Nat → Bool} (h13 : nl 13 = true) {s : Str} {ps qs : List (Str × Str)}
    (h : IsLines nl s ps) (h' : IsLines nl s qs) : ps = qs := by
  have key : ∀ (l l' : Str) (c c' : Nat) (r r' : Str), (∀ x ∈ l, nl x = false) → (∀ x ∈ l', nl x = false) →
      nl c = true → nl c' = true → l ++ c :: r = l' ++ c' :: r' → l = l' ∧ c = c' ∧ r = r' := by
    intro l
    induction l with
    | nil =>
      intro l' c c' r r' _ hl' hc _ he
      cases l' with
      | nil => simp at he; exact ⟨rfl, he⟩
      | cons x l' =>
        simp at he
        have := hl' x (by simp)
        rw [← he.1, hc] at this
        simp at this
    | cons x l ih =>
      intro l' c c' r r' hl hl' hc hc' he
      cases l' with
      | nil =>
        simp at he
        have := hl x (by simp)
        rw [he.1, hc'] at this
        simp at this
      | cons y l' =>
        simp at he
        obtain ⟨rfl, he⟩ := he
        obtain ⟨e1, e2⟩ := ih l' c c' r r' (fun z hz => hl z (by simp [hz])) (fun z hz => hl' z (by simp [hz])) hc hc' he
        exact ⟨by rw [e1], e2⟩
  have nolast : ∀ (l l' : Str) (c : Nat) (r : Str), (∀ x ∈ l, nl x = false) → nl c = true → l ≠ l' ++ c :: r := by
    intro l l' c r hl hc he
    have := hl c (by rw [he]; simp)
    rw [hc] at this
    simp at this
  induction h generalizing qs with
  | nil =>
    generalize ht : ([] : Str) = t at h'
    cases h' with
    | nil => rfl
    | last _ h => exact absurd ht.symm h
    | crlf => simp at ht
    | one => simp at ht
  | last line hne hl =>
    generalize ht : line = t at h'
    cases h' with
    | nil => exact absurd ht hne
    | last => rfl
    | crlf l r qs _ _ => exact absurd (by simpa using ht) (nolast line l 13 (10 :: r) hl h13)
    | one l r c qs _ hc _ _ => exact absurd (by simpa using ht) (nolast line l c r hl hc)
  | crlf line rest ps hl _ ih =>
    generalize ht : line ++ [13, 10] ++ rest = t at h'
    cases h' with
    | nil => simp at ht
    | last _ _ h => exact absurd (by simpa using ht.symm) (nolast _ line 13 (10 :: rest) h h13)
    | crlf l r qs h1 h2 =>
      obtain ⟨e1, _, e2⟩ := key line l 13 13 (10 :: rest) (10 :: r) hl h1 h13 h13 (by simpa using ht)
      simp at e2
      subst e1 e2
      rw [ih h2]
    | one l r c qs h1 hc hcr _ =>
      obtain ⟨_, e1, e2⟩ := key line l 13 c (10 :: rest) r hl h1 h13 hc (by simpa using ht)
      exact absurd ⟨e1.symm, by rw [← e2]; rfl⟩ hcr
  | one line rest c ps hl hc hcr _ ih =>
    generalize ht : line ++ [c] ++ rest = t at h'
    cases h' with
    | nil => simp at ht
    | last _ _ h => exact absurd (by simpa using ht.symm) (nolast _ line c rest h hc)
    | crlf l r qs h1 _ =>
      obtain ⟨_, e1, e2⟩ := key line l c 13 rest (10 :: r) hl h1 hc h13 (by simpa using ht)
      exact absurd ⟨e1, by rw [e2]; rfl⟩ hcr
    | one l r d qs h1 hd _ h2 =>
      obtain ⟨e1, e2, e3⟩ := key line l c d rest r hl h1 hc hd (by simpa using ht)
      subst e1 e2 e3
      rw [ih h2]

example : splitlines (fun c => c == 10 || c == 13) false [1, 13, 10, 10, 2, 13, 3, 10] = [[1], [], [2], [3]] ∧
    splitlines (fun c => c == 10 || c == 13) true [1, 13, 10, 10, 2, 13, 3, 10] =
      [[1, 13, 10], [10], [2, 13], [3, 10]] := by decide +kernel

/-! ### Counting (C60) -/

/-- `count(sub, a, b)` for a non-empty `sub`: the number of cuts an unlimited split of `s[a:b]` makes,
that is of occurrences that do not overlap, taken from the left. -/
theorem count_python (s sub : Str) (a b : Option Int) (h : sub ≠ []) :
    ∃ ps, IsSplit sub none (pyCut s a b) ps ∧ count s sub a b + 1 = ps.length := by
  unfold count
  simp only
  rw [if_neg (fun e => h (List.length_eq_zero_iff.mp e))]
  obtain ⟨ps, h1, h2⟩ := countLoop_spec h (pyCut s a b) ((pyCut s a b).length + 1) 0 0 (by omega) (by omega)
  refine ⟨ps, by simpa using h1, ?_⟩
  have : ((0 : Nat) : Int) = 0 := rfl
  rw [this] at h2
  omega

/-- The empty string is counted once at each position of the window.  Missing: a window whose start is
past its end, where Python answers 0 (`count_empty_past_end`). -/
theorem count_empty_partial (s : Str) (a b : Option Int) (h : windowLo s.length a ≤ windowHi s.length b) :
    (∀ i, InWindow s [] a b i ↔ windowLo s.length a ≤ i ∧ i < windowLo s.length a + count s [] a b) := by
  intro i
  have hb := windowHi_le s.length b
  unfold count InWindow
  simp only [List.length_nil, if_true, Nat.add_zero, cut_length]
  constructor
  · rintro ⟨h1, h2, _⟩; omega
  · rintro ⟨h1, h2⟩
    refine ⟨h1, by omega, ?_⟩
    rw [occurs_iff]
    exact ⟨by simp; omega, by simp⟩

/-- `"a".count("", 2)` is 0 in Python (there is no position in the window); the answer is 1. -/
theorem count_empty_past_end : count [97] [] (some 2) none = 1 ∧ ∀ i, ¬ InWindow [97] [] (some 2) none i := by
  refine ⟨by decide +kernel, ?_⟩
  rintro i ⟨h1, h2, _⟩
  have e1 : windowLo [97].length (some 2) = 2 := by decide
  have e2 : windowHi [97].length none = 1 := by decide
  rw [e1] at h1
  rw [e2] at h2
  simp at h2
  omega

example : count [9, 9, 9, 1, 9] [9, 9] none none = 1 ∧ count [9, 1, 9, 1, 9] [9] (some 1) (some (-1)) = 1 ∧
    count [1, 2, 3] [] (some 1) none = 3 := by decide +kernel

/-! ### Splitting at whitespace (C61) -/

/-- `split(None, maxsplit)`: words between runs of whitespace.  Missing: a positive limit on a string
that ends in whitespace, which the code strips first (`splitWs_strips`). -/
theorem splitWs_python_partial (p : Nat → Bool) (s : Str) (n : Int)
    (h : n ≤ 0 ∨ ∀ c, s.getLast? = some c → p c = false) :
    IsWsSplit p (asLimit n) s (splitWs p s n) := splitWs_spec s n h

/-- `rsplit(None, maxsplit)` likewise, on strings shorter than `sys.maxsize`.  Missing: a positive limit
on a string that starts with whitespace (`rsplitWs_strips`). -/
theorem rsplitWs_python_partial (p : Nat → Bool) (maxsize : Int) (s : Str) (hm : s.length < maxsize) (n : Int)
    (h : n ≤ 0 ∨ ∀ c, s.head? = some c → p c = false) :
    IsWsRsplit p (asLimit n) s (rsplitWs p maxsize s n) := rsplitWs_spec maxsize s hm n h

/-- " a  b ".split() and with limits. -/
example : splitWs (· == 32) [32, 1, 32, 32, 2, 32] (-1) = [[1], [2]] ∧
    splitWs (· == 32) [32, 1, 32, 32, 2, 32] 0 = [[1, 32, 32, 2, 32]] ∧
    splitWs (· == 32) [32, 1, 32, 32, 2, 32, 3] 1 = [[1], [2, 32, 3]] ∧
    rsplitWs (· == 32) 1000 [1, 32, 32, 2, 32, 3, 32] 1 = [[1, 32, 32, 2], [3]] ∧
    rsplitWs (· == 32) 1000 [32, 1, 32, 2, 32] (-1) = [[1], [2]] := by decide +kernel

/-- `" a b ".split(None, 1)` is `["a", "b "]` in Python; the trailing space is lost. -/
theorem splitWs_strips : splitWs (· == 32) [32, 97, 32, 98, 32] 1 = [[97], [98]] ∧
    IsWsSplit (· == 32) (some 1) [32, 97, 32, 98, 32] [[97], [98, 32]] := by
  refine ⟨by decide +kernel, ?_⟩
  exact IsWsSplit.word (some 1) [32] [97] [32, 98, 32] [[98, 32]] (by simp) (by simp) (by simp) (by simp)
    (by simp) (IsWsSplit.rest [32] [98, 32] 98 (by simp) rfl rfl)

/-- `" a b ".rsplit(None, 1)` is `[" a", "b"]` in Python; the leading space is lost. -/
theorem rsplitWs_strips : rsplitWs (· == 32) 1000 [32, 97, 32, 98, 32] 1 = [[97], [98]] ∧
    IsWsRsplit (· == 32) (some 1) [32, 97, 32, 98, 32] [[32, 97], [98]] := by
  refine ⟨by decide +kernel, ?_⟩
  exact IsWsSplit.word (some 1) [32] [98] [32, 97, 32] [[97, 32]] (by simp) (by simp) (by simp) (by simp)
    (by simp) (IsWsSplit.rest [32] [97, 32] 97 (by simp) rfl rfl)

/-! ### Tabs (C62) -/

/-- `expandtabs` on a string without tabs.  Missing: everything else; the code puts the same number of
spaces for every tab, whatever its column (`expandtabs_fixed`). -/
theorem expandtabs_no_tab_partial (s : Str) (n : Nat) (h : 9 ∉ s) :
    expandtabs s n = s ∧ ∀ col, pyExpand n col s = s := by
  constructor
  · obtain ⟨ps, h1, h2⟩ := replace_python s [9] (fill 32 n) (-1) (by simp)
    have : IsSplit [9] (asLimit (-1)) s [s] := by
      refine IsSplit.last _ s ?_
      rintro ⟨i, pre, post, he, _⟩
      exact h (by rw [he]; simp)
    unfold expandtabs
    rw [h2, isSplit_unique h1 this]
    rfl
  · induction s with
    | nil => intro _; rfl
    | cons c s ih =>
      intro col
      simp at h
      unfold pyExpand
      rw [if_neg (fun e => h.1 e.symm), ih h.2, ih h.2]
      simp

/-- `"a\tb".expandtabs(4)` is `"a   b"` in Python; the symbolic string gives four spaces. -/
theorem expandtabs_fixed : expandtabs [97, 9, 98] 4 = [97, 32, 32, 32, 32, 98] ∧
    pyExpand 4 0 [97, 9, 98] = [97, 32, 32, 32, 98] := by decide +kernel

/-! ### Character classes (C63) -/

/-- `isdigit`, `isalpha` and so on: some character, and all in the class. -/
theorem charsIn_python (mask : Nat → Bool) (s : Str) :
    (charsIn mask false s = true ↔ s ≠ [] ∧ ∀ c ∈ s, mask c = true) ∧
    (charsIn mask true s = true ↔ ∀ c ∈ s, mask c = true) := by
  unfold charsIn
  cases s <;> simp

/-- `islower`: no upper- or title-case character (the class `title`), and some lower-case one. -/
theorem islower_python (lower title : Nat → Bool) (s : Str) :
    islower lower title s = true ↔ (∀ c ∈ s, title c = false) ∧ ∃ c ∈ s, lower c = true := by
  unfold islower
  cases s with
  | nil => simp
  | cons c s => rw [if_neg (by simp), islowerLoop_spec]; simp

/-- `isupper`: some upper-case character, and no lower-case or purely title-case one. -/
theorem isupper_python (lower upper title : Nat → Bool) (hd : ∀ c, upper c = true → lower c = false) (s : Str) :
    isupper lower upper title s = true ↔
      (∀ c ∈ s, lower c = false ∧ ¬ (title c = true ∧ upper c = false)) ∧ ∃ c ∈ s, upper c = true := by
  have key : ∀ c, (upper c = true ∨ (lower c = false ∧ title c = false)) ↔
      (lower c = false ∧ ¬ (title c = true ∧ upper c = false)) := by
    intro c
    have := hd c
    cases hu : upper c <;> cases hl : lower c <;> cases ht : title c <;> simp_all
  unfold isupper
  cases s with
  | nil => simp
  | cons c s =>
    rw [if_neg (by simp), isupperLoop_spec]
    simp only [key, Bool.false_eq_true, false_or]

/-- `istitle`: upper- and title-case characters (the class `title`) follow only uncased ones or the start,
lower-case ones only cased ones, and there is a cased one. -/
theorem istitle_python (lower title : Nat → Bool) (hd : ∀ c, title c = true → lower c = false) (s : Str) :
    istitle lower title s = true ↔
      (∀ a c b, s = a ++ c :: b →
        (title c = true → ∀ d, a.getLast? = some d → lower d = false ∧ title d = false) ∧
        (lower c = true → ∃ d, a.getLast? = some d ∧ (lower d = true ∨ title d = true))) ∧
      ∃ c ∈ s, lower c = true ∨ title c = true := by
  have key := istitleLoop_spec lower title hd s true false
  unfold istitle
  rw [key]
  have e1 : ∀ a : Str, ((a.getLast?.map fun d => lower d || title d).getD (!true) = false ↔
      ∀ d, a.getLast? = some d → lower d = false ∧ title d = false) := by
    intro a
    cases a.getLast? with
    | none => simp
    | some d => simp
  have e2 : ∀ a : Str, ((a.getLast?.map fun d => lower d || title d).getD (!true) = true ↔
      ∃ d, a.getLast? = some d ∧ (lower d = true ∨ title d = true)) := by
    intro a
    cases a.getLast? with
    | none => simp
    | some d => simp
  simp only [e1, e2, Bool.false_eq_true, false_or]
  constructor
  · rintro ⟨h1, c, h2, h3⟩
    exact ⟨h1, c, h2, Or.inr h3⟩
  · rintro ⟨h1, c, h2, h3⟩
    refine ⟨h1, ?_⟩
    -- the first cased character must be in title case
    have : ∀ (n : Nat) (a : Str) (c : Nat) (b : Str), a.length = n → s = a ++ c :: b →
        (lower c = true ∨ title c = true) → ∃ c ∈ s, title c = true := by
      intro n
      induction n using Nat.strongRecOn with
      | _ n ih =>
        intro a c b hn hs hc
        rcases hc with hc | hc
        · obtain ⟨d, hd1, hd2⟩ := (h1 a c b hs).2 hc
          obtain ⟨a', rfl⟩ := List.getLast?_eq_some_iff.mp hd1
          exact ih a'.length (by rw [← hn]; simp) a' d (c :: b) rfl (by rw [hs]; simp) hd2
        · exact ⟨c, by rw [hs]; simp, hc⟩
    obtain ⟨a, b, hs⟩ := List.append_of_mem h2
    exact this a.length a c b rfl hs h3

/-- "Ab Cd", "aB", "A1" with ASCII letters. -/
example : istitle (fun c => 97 ≤ c && c ≤ 122) (fun c => 65 ≤ c && c ≤ 90) [65, 98, 32, 67, 100] = true ∧
    istitle (fun c => 97 ≤ c && c ≤ 122) (fun c => 65 ≤ c && c ≤ 90) [97, 66] = false ∧
    isupper (fun c => 97 ≤ c && c ≤ 122) (fun c => 65 ≤ c && c ≤ 90) (fun c => 65 ≤ c && c ≤ 90) [65, 49] = true ∧
    islower (fun c => 97 ≤ c && c ≤ 122) (fun c => 65 ≤ c && c ≤ 90) [97, 49] = true ∧
    islower (fun c => 97 ≤ c && c ≤ 122) (fun c => 65 ≤ c && c ≤ 90) [49] = false := by decide +kernel

end Verif.Strs
