import Verif.Mask.Lemmas

/-! Sets of characters: property C84 (operations) and C85 (the characters of a regular expression). -/
namespace Verif.Mask

/-! ## C84 -/

/-- C84: the union of two masks holds the characters of both, and meets the invariant. -/
theorem union_holds (m n : Mask) (hm : m.Loose) (hn : n.Loose) :
    (union m n).Ok ∧ ∀ c, covers (union m n) c = true ↔ covers m c = true ∨ covers n c = true :=
  union_ok (fun b hb => (hm.part b hb).2) (fun b hb => (hn.part b hb).2)

/-- Two masks that overlap. -/
def low : Mask := [.one 3, .span 5 10, .one 20]
def high : Mask := [.span 4 8, .span 9 12, .one 30]

theorem low_loose : low.Loose := ⟨by decide, by decide⟩
theorem high_loose : high.Loose := ⟨by decide, by decide⟩

example : union low high = [.span 3 12, .one 20, .one 30] := by decide
example := union_holds low high low_loose high_loose

/-- C84: the intersection of two masks holds the characters that are in both, and meets the invariant. -/
theorem intersect_holds (m n : Mask) (hm : m.Loose) (hn : n.Loose) :
    (intersect m n).Ok ∧ ∀ c, covers (intersect m n) c = true ↔ covers m c = true ∧ covers n c = true := intersect_ok hm hn

example : intersect low high = [.span 5 8, .one 9] := by decide
example := intersect_holds low high low_loose high_loose

/-- C84: the inverse of a mask holds the characters that the mask does not, and meets the invariant. -/
theorem invert_holds (m : Mask) (hm : m.Loose) : (invert m).Ok ∧ ∀ c, covers (invert m) c = true ↔ c < top ∧ covers m c = false := invert_ok hm

example : invert low = [.span 0 3, .one 4, .span 10 20, .span 21 top] := by decide
example := invert_holds low low_loose

/-- C84: the difference of two masks holds the characters that are in the first and not in the second, and meets the
invariant. -/
theorem subtract_holds (m n : Mask) (hm : m.Loose) (hn : n.Loose) :
    (subtract m n).Ok ∧ ∀ c, covers (subtract m n) c = true ↔ covers m c = true ∧ covers n c = false := subtract_ok hm hn

example : subtract low high = [.one 3, .one 8, .one 20] := by decide
example := subtract_holds low high low_loose high_loose

/-- C84: adding bounds that do not begin in front of the last ones adds their characters and keeps the invariant. -/
theorem add_holds (m : Mask) (lo hi : Nat) (hm : m.Ok) (hlo : ∀ b ∈ bounds m, b.1 ≤ lo) (hhi : hi ≤ top) :
    (maybeAdd m lo hi).Ok ∧ ∀ c, covers (maybeAdd m lo hi) c = true ↔ covers m c = true ∨ (lo ≤ c ∧ c < hi) :=
  have h := add_ok hm (fun _ => hlo) hhi
  ⟨h.1, h.2.1⟩

example : maybeAdd [.one 3, .span 5 10] 9 12 = [.one 3, .span 5 12] := by decide
example := add_holds [.one 3, .span 5 10] 9 12 ⟨by decide, by decide⟩ (by decide) (by decide)

/-- C84: the constraint for the solver holds for exactly the characters of the mask. -/
theorem constraint_holds (m : Mask) (c : Int) : smtMatches m c = true ↔ 0 ≤ c ∧ covers m c.toNat = true := by
  by_cases h : 0 ≤ c
  · obtain ⟨n, rfl⟩ := Int.eq_ofNat_of_zero_le h
    rw [smtMatches_eq]
    simp
  · rw [smtMatches_neg m c (by omega)]
    simp [h]

example : smtMatches low 7 = true ∧ smtMatches low 4 = false := by decide

/-- C84: two masks that meet the invariant and hold the same characters have the same bounds: `==` of masks, up to
how single characters are written, is equality of sets. -/
theorem canonical (m n : Mask) (hm : m.Ok) (hn : n.Ok) (h : ∀ c, covers m c = covers n c) : bounds m = bounds n := by
  have key : ∀ (as bs : List (Nat × Nat)), (∀ a ∈ as, a.1 < a.2) → (∀ b ∈ bs, b.1 < b.2) → as.Pairwise (fun a b => a.2 < b.1) →
      bs.Pairwise (fun a b => a.2 < b.1) → (∀ c, (∃ a ∈ as, a.1 ≤ c ∧ c < a.2) ↔ ∃ b ∈ bs, b.1 ≤ c ∧ c < b.2) → as = bs := by
    intro as
    induction as with
    | nil =>
      intro bs _ hb _ _ hc
      cases bs with
      | nil => rfl
      | cons b bs =>
        have := (hc b.1).2 ⟨b, by simp, Nat.le_refl _, hb b (by simp)⟩
        simp at this
    | cons a as ih =>
      intro bs ha hb hao hbo hc
      cases bs with
      | nil =>
        have := (hc a.1).1 ⟨a, by simp, Nat.le_refl _, ha a (by simp)⟩
        simp at this
      | cons b bs =>
        rw [List.pairwise_cons] at hao hbo
        have ha0 := ha a (by simp)
        have hb0 := hb b (by simp)
        -- the characters of the others lie behind the first bounds
        have inA : ∀ c, (∃ x ∈ a :: as, x.1 ≤ c ∧ c < x.2) → a.1 ≤ c ∧ (c < a.2 ∨ a.2 < c) := by
          rintro c ⟨x, hx, h1, h2⟩
          rcases List.mem_cons.1 hx with rfl | hx
          · omega
          · have := hao.1 x hx; omega
        have inB : ∀ c, (∃ x ∈ b :: bs, x.1 ≤ c ∧ c < x.2) → b.1 ≤ c ∧ (c < b.2 ∨ b.2 < c) := by
          rintro c ⟨x, hx, h1, h2⟩
          rcases List.mem_cons.1 hx with rfl | hx
          · omega
          · have := hbo.1 x hx; omega
        have hA : ∀ c, a.1 ≤ c → c < a.2 → ∃ x ∈ a :: as, x.1 ≤ c ∧ c < x.2 := fun c h1 h2 => ⟨a, by simp, h1, h2⟩
        have hB : ∀ c, b.1 ≤ c → c < b.2 → ∃ x ∈ b :: bs, x.1 ≤ c ∧ c < x.2 := fun c h1 h2 => ⟨b, by simp, h1, h2⟩
        have e1 : a.1 = b.1 := by
          have h1 := inB a.1 ((hc _).1 (hA a.1 (Nat.le_refl _) ha0))
          have h2 := inA b.1 ((hc _).2 (hB b.1 (Nat.le_refl _) hb0))
          omega
        have e2 : a.2 = b.2 := by
          by_cases h1 : a.2 < b.2
          · have := inA a.2 ((hc _).2 (hB a.2 (by omega) h1)); omega
          · by_cases h2 : b.2 < a.2
            · have := inB b.2 ((hc _).1 (hA b.2 (by omega) h2)); omega
            · omega
        have hab : a = b := Prod.ext e1 e2
        subst hab
        congr 1
        refine ih bs (fun x hx => ha x (by simp [hx])) (fun x hx => hb x (by simp [hx])) hao.2 hbo.2 ?_
        intro c
        constructor
        · rintro ⟨x, hx, h1, h2⟩
          have hlt := hao.1 x hx
          obtain ⟨y, hy, h3⟩ := (hc c).1 ⟨x, by simp [hx], h1, h2⟩
          rcases List.mem_cons.1 hy with rfl | hy
          · omega
          · exact ⟨y, hy, h3⟩
        · rintro ⟨x, hx, h1, h2⟩
          have hlt := hbo.1 x hx
          obtain ⟨y, hy, h3⟩ := (hc c).2 ⟨x, by simp [hx], h1, h2⟩
          rcases List.mem_cons.1 hy with rfl | hy
          · omega
          · exact ⟨y, hy, h3⟩
  refine key _ _ (fun a ha => (hm.part a ha).1) (fun b hb => (hn.part b hb).1) hm.order hn.order fun c => ?_
  rw [← covers_iff, ← covers_iff, h c]

example : bounds (union low high) = bounds (union high low) :=
  canonical _ _ (union_holds _ _ low_loose high_loose).1 (union_holds _ _ high_loose low_loose).1 fun c => by
    rw [Bool.eq_iff_iff, (union_holds _ _ low_loose high_loose).2, (union_holds _ _ high_loose low_loose).2, or_comm]

/-! ## C85 -/

/-- C85 in part: without `re.IGNORECASE`, the mask of a term holds exactly the characters that the term matches. Missing:
`re.IGNORECASE`. -/
theorem term_partial (u : Unicode) (hu : u.Ok) (f : Flags) (hf : f.ignoreCase = false) (t : Term) (ht : t.Ok) :
    ∃ m, termMask u f t = .ok m ∧ ∀ c < top, covers m c = true ↔ t.Matches u f c := by
  obtain ⟨m, h1, _, h2⟩ := term_ok hu hf ht
  exact ⟨m, h1, h2⟩

/-- C85 in part: without `re.IGNORECASE`, the mask of a set such as `[^a-f\d]` holds exactly the characters that one of its
terms matches or, if it begins with `^`, that none of them matches. Missing: `re.IGNORECASE`. -/
theorem set_partial (u : Unicode) (hu : u.Ok) (f : Flags) (hf : f.ignoreCase = false) (negate : Bool) (ts : List Term) (ht : ∀ t ∈ ts, t.Ok) :
    ∃ m, setMask u f negate ts = .ok m ∧
      ∀ c < top, covers m c = true ↔ if negate then ¬∃ t ∈ ts, t.Matches u f c else ∃ t ∈ ts, t.Matches u f c := by
  obtain ⟨m, h1, h2, h3⟩ := unionAll_ok hu hf ts [] ht loose_nil
  have h3' : ∀ c < top, covers m c = true ↔ ∃ t ∈ ts, t.Matches u f c := by
    intro c hc
    rw [h3 c hc]
    simp [covers, bounds]
  cases negate
  · exact ⟨m, by simp [setMask, h1, Except.map], fun c hc => by simpa using h3' c hc⟩
  · refine ⟨invert m, by simp [setMask, h1, Except.map], fun c hc => ?_⟩
    rw [invert_covers h2 hc, h3' c hc]
    simp

/-- ASCII, with one letter that has no case (65 is `A`, 97 is `a`; 170 is `ª`, which is in "Lo"; 233 is `é`, 201 is `É`). -/
def small : Unicode where
  digit := [.span 48 58]
  word := [.span 48 58, .span 65 91, .one 95, .span 97 123, .one 170, .one 201, .one 233]
  caseable := List.range 128 ++ [201, 233]
  eqCase c d := c == d || asciiLower c == asciiLower d || (c == 201 && d == 233) || (c == 233 && d == 201)
  lower := fun c => if c = 201 then 233 else asciiLower c
  upper := fun c => if c = 233 then 201 else asciiUpper c

theorem small_ok : small.Ok := ⟨⟨by decide, by decide⟩, ⟨by decide, by decide⟩, by decide +kernel, by decide +kernel⟩

/-- `[^a-f\d]` matches `g` and not `b`. -/
example : (setMask small {} true [.range 97 102, .category .digit]).toOption.map (fun m => (covers m 103, covers m 98)) = some (true, false) := by decide +kernel
example := set_partial small small_ok {} rfl true [.range 97 102, .category .digit] (by simp [Term.Ok, top])
example := term_partial small small_ok { ascii := true } rfl (.category .notWord) trivial

/-- C85 in part: with `re.IGNORECASE`, a literal that is no special character matches exactly the characters that `re` takes for
equal, provided that those are among the characters looked at. With `re.ASCII` only ASCII characters match. -/
theorem literal_ignorecase_partial (u : Unicode) (hu : u.Ok) (f : Flags) (hf : f.ignoreCase = true) (c : Nat) (hs : c ∉ special)
    (hcase : ∀ d, u.eqCase c d = true → d ∈ u.caseable) :
    ∃ m, termMask u f (.literal c) = .ok m ∧ ∀ d, covers m d = true ↔ u.eqCase c d = true ∧ (f.ascii = true → d < 128) := by
  simp only [special, List.mem_cons, List.not_mem_nil, not_or] at hs
  have hp : onePattern u c = .ok (u.eqCase c) := by
    unfold onePattern
    rw [if_neg (by simp; omega), if_neg (by simp; omega), if_neg (by omega)]
  have hl : Mask.Loose ((u.caseable.filter (u.eqCase c)).map .one) :=
    ones_loose _ (hu.caseable.filter _) (fun d hd => hu.char d (List.mem_filter.1 hd).1)
  refine ⟨_, by simp only [termMask, literalMask, hf, if_true, sameCase, hp, Except.map]; rfl, fun d => ?_⟩
  rw [ascii_covers hl, ones_covers, List.mem_filter]
  constructor
  · rintro ⟨⟨_, h1⟩, h2⟩; exact ⟨h1, h2⟩
  · rintro ⟨h1, h2⟩; exact ⟨⟨hcase d h1, h1⟩, h2⟩

example : termMask small { ignoreCase := true } (.literal 107) = .ok [.one 75, .one 107] := rfl
example : ∃ m, termMask small { ignoreCase := true } (.literal 233) = .ok m ∧ ∀ d, covers m d = true ↔ small.eqCase 233 d = true ∧ (false = true → d < 128) :=
  literal_ignorecase_partial small small_ok { ignoreCase := true } rfl 233 (by decide) (by
    intro d hd
    simp only [small, Bool.or_eq_true, beq_iff_eq, Bool.and_eq_true, asciiLower] at hd ⊢
    have : d = 233 ∨ d = 201 := by
      split at hd <;> split at hd <;> omega
    rcases this with rfl | rfl <;> decide)

/-- C85 in part: with `re.IGNORECASE` and without `re.ASCII`, a set that is one range of small letters, or of capital letters, matches
exactly the ASCII letters that are in the range in one of the cases (and nothing else). -/
theorem range_ignorecase_partial (u : Unicode) (hl : ∀ c < 128, u.lower c = asciiLower c) (hup : ∀ c < 128, u.upper c = asciiUpper c)
    (f : Flags) (hf : f.ignoreCase = true) (hfa : f.ascii = false) (lo hi : Nat) (h : lo ≤ hi)
    (hr : (97 ≤ lo ∧ hi ≤ 122) ∨ (65 ≤ lo ∧ hi ≤ 90)) :
    ∃ m, setMask u f false [.range lo hi] = .ok m ∧
      ∀ d, covers m d = true ↔ ∃ e, lo ≤ e ∧ e ≤ hi ∧ asciiLower e = asciiLower d := by
  have hm : setMask u f false [.range lo hi] = .ok (union [] [.span (asciiLower lo) (asciiLower hi + 1), .span (asciiUpper lo) (asciiUpper hi + 1)]) := by
    simp [setMask, unionAll, termMask, rangeMask, hf, hfa, hl lo (by omega), hl hi (by omega), hup lo (by omega), hup hi (by omega), Except.map]
  refine ⟨_, hm, fun d => ?_⟩
  rw [(union_ok (by simp [bounds]) (fun b hb => by
    simp only [bounds, Part.bounds, List.map_cons, List.map_nil, List.mem_cons, List.not_mem_nil, or_false] at hb
    have h1 : asciiLower hi + 1 ≤ top := by unfold asciiLower top; split <;> omega
    have h2 : asciiUpper hi + 1 ≤ top := by unfold asciiUpper top; split <;> omega
    rcases hb with rfl | rfl
    · exact h1
    · exact h2)).2 d]
  simp only [covers, bounds, Part.bounds, List.map_cons, List.map_nil, List.any_cons, List.any_nil, Bool.or_false,
    Bool.or_eq_true, Bool.and_eq_true, decide_eq_true_eq, Bool.false_eq_true, false_or]
  have e1 : asciiLower lo = if 97 ≤ lo then lo else lo + 32 := by unfold asciiLower; split <;> split <;> omega
  have e2 : asciiLower hi = if 97 ≤ lo then hi else hi + 32 := by unfold asciiLower; split <;> split <;> omega
  have e3 : asciiUpper lo = if 97 ≤ lo then lo - 32 else lo := by unfold asciiUpper; split <;> split <;> omega
  have e4 : asciiUpper hi = if 97 ≤ lo then hi - 32 else hi := by unfold asciiUpper; split <;> split <;> omega
  rw [e1, e2, e3, e4]
  constructor
  · intro hd
    by_cases h97 : 97 ≤ lo
    · simp only [h97, if_true] at hd
      by_cases hd2 : 97 ≤ d
      · exact ⟨d, by omega, by omega, rfl⟩
      · refine ⟨d + 32, by omega, by omega, ?_⟩
        unfold asciiLower
        rw [if_neg (by omega), if_pos (by omega)]
    · simp only [h97, if_false] at hd
      by_cases hd2 : 97 ≤ d
      · refine ⟨d - 32, by omega, by omega, ?_⟩
        unfold asciiLower
        rw [if_pos (by omega), if_neg (by omega)]
        omega
      · exact ⟨d, by omega, by omega, rfl⟩
  · rintro ⟨e, h1, h2, h3⟩
    unfold asciiLower at h3
    split at h3 <;> split at h3 <;> split <;> omega

example : setMask small { ignoreCase := true } false [.range 97 102] = .ok [.span 65 71, .span 97 103] := rfl
example := range_ignorecase_partial small (by decide) (by decide) { ignoreCase := true } rfl rfl 97 102 (by decide) (by decide)

/-- Disagreement: with `re.IGNORECASE`, an escaped full stop matches every character of those looked at but the line feed: the
character is made into a regular expression without escaping it (relib.py:127). In Python, `re.match(r"\.", "a", re.I)` is `None`. -/
theorem dot_matches_all (u : Unicode) (d : Nat) (hd : d ∈ u.caseable) (hnl : d ≠ 10) :
    ∃ m, termMask u { ignoreCase := true } (.literal 46) = .ok m ∧ covers m d = true := by
  refine ⟨(u.caseable.filter (fun d => d != 10)).map .one, rfl, ?_⟩
  rw [ones_covers, List.mem_filter]
  exact ⟨hd, by simp [hnl]⟩

example : ∃ m, termMask small { ignoreCase := true } (.literal 46) = .ok m ∧ covers m 97 = true :=
  dot_matches_all small 97 (by decide) (by decide)

/-- Disagreement: with `re.IGNORECASE`, the regular expressions `\*` and `\^` end in an exception. -/
theorem escaped_fails (u : Unicode) :
    termMask u { ignoreCase := true } (.literal 42) = .error .reError ∧ termMask u { ignoreCase := true } (.literal 94) = .error .typeError := by
  constructor <;> rfl

/-- Disagreement: with `re.IGNORECASE`, a letter without case, such as `ª`, does not match itself: the characters of the category
"Lo" are not looked at (relib.py:112). -/
theorem letter_without_case : ∃ m, termMask small { ignoreCase := true } (.literal 170) = .ok m ∧ covers m 170 = false ∧ small.eqCase 170 170 = true :=
  ⟨[], rfl, by decide, by decide⟩

/-- Disagreement: with `re.IGNORECASE` and `re.ASCII`, a letter that is not in ASCII does not match itself. -/
theorem ascii_literal : ∃ m, termMask small { ignoreCase := true, ascii := true } (.literal 233) = .ok m ∧ covers m 233 = false :=
  ⟨[], rfl, by decide⟩

/-- Disagreement: with `re.IGNORECASE` and `re.ASCII`, `[a-f]` does not match `B`: the bounds are not in order when they are
intersected with those of ASCII. -/
theorem ascii_range : ∃ m, setMask small { ignoreCase := true, ascii := true } false [.range 97 102] = .ok m ∧ covers m 66 = false ∧ covers m 98 = true :=
  ⟨[.span 97 103], rfl, by decide, by decide⟩

/-- Disagreement: with `re.IGNORECASE`, `[Z-a]` matches nothing, not even `Z`. -/
theorem mixed_range : setMask small { ignoreCase := true } false [.range 90 97] = .ok [] := rfl

end Verif.Mask
