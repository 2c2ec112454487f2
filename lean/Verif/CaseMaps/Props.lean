import Verif.CaseMaps.Cache

/-! Characters: properties C218 (case of strings), C219 (kinds of characters), C220 (tables shared by paths), C221
(`str.translate`) and C222 (numbers of characters). -/
namespace Verif.CaseMaps

open Verif.Mask (top)

/-! ## Data to try the theorems on -/

/-- Some letters and digits. -/
def small : Unicode where
  category c :=
    if 65 ≤ c ∧ c ≤ 90 ∨ 913 ≤ c ∧ c ≤ 937 then "Lu"
    else if 97 ≤ c ∧ c ≤ 122 ∨ 945 ≤ c ∧ c ≤ 969 ∨ c = 223 then "Ll"
    else if 48 ≤ c ∧ c ≤ 57 then "Nd"
    else if c = 32 then "Zs"
    else if c = 170 then "Lo"
    else if c = 453 then "Lt"
    else if c = 688 then "Lm"
    else if c < 32 then "Cc"
    else "Po"
  bidirectional c := if c = 9 then "S" else if c = 10 then "B" else if c = 32 then "WS" else "L"
  isWord c := decide (48 ≤ c ∧ c ≤ 57 ∨ 65 ≤ c ∧ c ≤ 90 ∨ c = 95 ∨ 97 ≤ c ∧ c ≤ 122)
  isLower c := decide (97 ≤ c ∧ c ≤ 122 ∨ 945 ≤ c ∧ c ≤ 969 ∨ c = 223)
  isUpper c := decide (65 ≤ c ∧ c ≤ 90 ∨ 913 ≤ c ∧ c ≤ 937)
  isTitle c := decide (65 ≤ c ∧ c ≤ 90 ∨ 913 ≤ c ∧ c ≤ 937)
  lower c := if 65 ≤ c ∧ c ≤ 90 ∨ 913 ≤ c ∧ c ≤ 937 then [c + 32] else [c]
  upper c := if c = 223 then [83, 83] else if 97 ≤ c ∧ c ≤ 122 ∨ 945 ≤ c ∧ c ≤ 969 then [c - 32] else [c]
  title c := if c = 223 then [83, 115] else if 97 ≤ c ∧ c ≤ 122 ∨ 945 ≤ c ∧ c ≤ 969 then [c - 32] else [c]
  casefold c := if c = 223 then [115, 115] else if 65 ≤ c ∧ c ≤ 90 ∨ 913 ≤ c ∧ c ≤ 937 then [c + 32] else [c]
  decimal c := if 48 ≤ c ∧ c ≤ 57 then some (c - 48) else none
  digit c := if 48 ≤ c ∧ c ≤ 57 then some (c - 48) else if c = 178 then some 2 else none
  numeric c := if 48 ≤ c ∧ c ≤ 57 then some (c - 48, 1) else if c = 189 then some (1, 2) else none

def smallCasing : Casing where
  cased c := small.isTitle c || small.isLower c
  ignorable c := c == 39

theorem small_ok : small.Ok := by
  refine ⟨rfl, fun c => ?_⟩
  simp only [small]
  repeat' split
  all_goals decide

theorem small_short : small.Short := by
  refine ⟨?_, ?_, ?_⟩
  · intro m c
    cases m <;> simp only [Mapping.fn, small] <;> repeat' split
    all_goals simp
  · intro m c
    cases m <;> simp only [Mapping.fn, small] <;> repeat' split
    all_goals simp
  · intro c
    simp only [small]
    split <;> simp

theorem small_cases : small.Cases smallCasing := by
  refine ⟨fun _ => rfl, fun c h => ?_, fun c => ?_, rfl⟩
  · simp only [smallCasing, small, Bool.or_eq_false_iff, decide_eq_false_iff_not] at h
    simp only [small]
    rw [if_neg (by omega), if_neg (by omega), if_neg (by omega)]
    exact ⟨rfl, rfl⟩
  · simp only [small, decide_eq_true_eq]
    omega

/-- Values that obey what is said of functions that can be had. -/
theorem small_obeys {fs : List Fn} (h : ∀ f ∈ fs, (constraintOf small 1000 f).isSome) : (model small 1000).Obeys small 1000 fs := by
  intro f hf
  obtain ⟨k, hk⟩ := Option.isSome_iff_exists.1 (h f hf)
  exact ⟨k, hk, model_sat _ _ _ hk⟩

/-- The functions of the four mappings and the two kinds of letters. -/
def caseFns : List Fn :=
  [.lower, .upper, .title] ++ Mapping.tolower.fns ++ Mapping.toupper.fns ++ Mapping.totitle.fns ++ Mapping.casefold.fns

theorem small_case : (model small 1000).Obeys small 1000 caseFns :=
  small_obeys fun f hf => (show ∀ f ∈ caseFns, (constraintOf small 1000 f).isSome = true from by
    simp [caseFns, Mapping.fns, constraintOf, tableOf, maskOf]) f hf

theorem Interp.Obeys.mono {i : Interp} {u : Unicode} {n : Nat} {fs gs : List Fn} (h : i.Obeys u n gs) (hs : ∀ f ∈ fs, f ∈ gs) : i.Obeys u n fs :=
  fun f hf => h f (hs f hf)

/-! ## C218 -/

/-- C218: `upper` and `casefold` of a symbolic string are Python's: the case of each character, which may be several
characters. This holds for all values that the solver may give to its functions. -/
theorem upper_casefold (u : Unicode) (hu : u.Ok) (hs : u.Short) (n : Nat) (h1 : 1 ≤ n) (hn : n ≤ top) (i : Interp)
    (ho : i.Obeys u n (Mapping.toupper.fns ++ Mapping.casefold.fns)) (s : List Nat) (hc : ∀ c ∈ s, c < n) :
    upper i (text s) = text (s.flatMap u.upper) ∧ casefold i (text s) = text (s.flatMap u.casefold) :=
  ⟨eachChar s fun _ h => mapOne_ok hu hs h1 hn .toupper (ho.mono fun _ hf => List.mem_append_left _ hf) (hc _ h),
    eachChar s fun _ h => mapOne_ok hu hs h1 hn .casefold (ho.mono fun _ hf => List.mem_append_right _ hf) (hc _ h)⟩

example : upper (model small 1000) (text [97, 223, 49]) = text [65, 83, 83, 49] :=
  (upper_casefold small small_ok small_short 1000 (by decide) (by decide) _ (small_case.mono (by decide)) [97, 223, 49] (by decide)).1

theorem lower_eq {u : Unicode} (hu : u.Ok) (hs : u.Short) {n : Nat} (h1 : 1 ≤ n) (hn : n ≤ top) {i : Interp} (ho : i.Obeys u n caseFns)
    (s : List Nat) (hc : ∀ c ∈ s, c < n) : lower i (text s) = text (s.flatMap u.lower) :=
  eachChar s fun _ h => lowerOne_ok hu hs h1 hn (ho.mono (by decide)) (hc _ h)

theorem upper_eq {u : Unicode} (hu : u.Ok) (hs : u.Short) {n : Nat} (h1 : 1 ≤ n) (hn : n ≤ top) {i : Interp} (ho : i.Obeys u n caseFns)
    (s : List Nat) (hc : ∀ c ∈ s, c < n) : upper i (text s) = text (s.flatMap u.upper) :=
  (upper_casefold u hu hs n h1 hn i (ho.mono (by decide)) s hc).1

/-- C218 in part: `lower` of a symbolic string is Python's exactly if there is no capital sigma in it that Python
writes as final sigma. -/
theorem lower_partial (u : Unicode) (hu : u.Ok) (hs : u.Short) (k : Casing) (hk : u.Cases k) (n : Nat) (h1 : 1 ≤ n) (hn : n ≤ top)
    (i : Interp) (ho : i.Obeys u n caseFns) (s : List Nat) (hc : ∀ c ∈ s, c < n) :
    lower i (text s) = text (pyLower u k [] s) ↔ ¬HasFinal k [] s := by
  rw [lower_eq hu hs h1 hn ho s hc, ← pyLower_iff hk]
  exact ⟨text_inj, fun h => by rw [h]⟩

example : ¬HasFinal smallCasing [] [931, 913, 65] := by
  rw [← pyLower_iff small_cases]; decide

example : lower (model small 1000) (text [931, 913, 65]) = text [963, 945, 97] :=
  (lower_partial small small_ok small_short smallCasing small_cases 1000 (by decide) (by decide) _ small_case [931, 913, 65] (by decide)).2
    (by rw [← pyLower_iff small_cases]; decide)

/-- C218 in part: `swapcase` is Python's for strings without final sigma. -/
theorem swapcase_partial (u : Unicode) (hu : u.Ok) (hs : u.Short) (k : Casing) (hk : u.Cases k) (n : Nat) (h1 : 1 ≤ n) (hn : n ≤ top)
    (i : Interp) (ho : i.Obeys u n caseFns) (s : List Nat) (hc : ∀ c ∈ s, c < n) (hf : ¬HasFinal k [] s) :
    swapcase i (text s) = text (pySwapcase u k [] s) := by
  rw [pySwapcase_eq hk s [] hf]
  have hl := fun c => testMap hu h1 hn (ho .lower (by decide)) rfl c
  have hp := fun c => testMap hu h1 hn (ho .upper (by decide)) rfl c
  simp only [Means] at hl hp
  unfold swapcase
  have key : ∀ (s : List Nat), (∀ c ∈ s, c < n) → ∀ ret, (text s).foldl (fun ret c =>
      ret ++ if i.test .lower c then upper i [c] else if i.test .upper c then lower i [c] else [c]) ret =
      ret ++ text (s.flatMap fun c => if u.isLower c then u.upper c else if u.isUpper c then u.lower c else [c]) := by
    intro s
    induction s with
    | nil => intro _ ret; simp [text]
    | cons c s ih =>
      intro hc ret
      have ih := fun ret => ih (fun d hd => hc d (List.mem_cons_of_mem _ hd)) ret
      have hcn := hc c (by simp)
      have e1 := upper_eq hu hs h1 hn ho [c] (by simpa using hcn)
      have e2 := lower_eq hu hs h1 hn ho [c] (by simpa using hcn)
      have hl := hl c
      have hp := hp c
      simp only [hcn, true_and] at hl hp
      simp only [List.flatMap_cons, List.flatMap_nil, List.append_nil] at e1 e2 ⊢
      rw [text_append, ← List.append_assoc, ← ih]
      change List.foldl _ (ret ++ _) (text s) = _
      congr 2
      change (if i.test .lower c = true then upper i (text [c]) else if i.test .upper c = true then lower i (text [c]) else text [c]) = _
      rw [e1, e2]
      simp only [hl, hp]
      split
      · rfl
      · split <;> rfl
  simpa using key s hc []

example : swapcase (model small 1000) (text [97, 66, 49, 223, 931, 913]) = text [65, 98, 49, 83, 83, 963, 945] :=
  swapcase_partial small small_ok small_short smallCasing small_cases 1000 (by decide) (by decide) _ small_case [97, 66, 49, 223, 931, 913] (by decide)
    (by rw [← pyLower_iff small_cases]; decide)

theorem titleOneChar_ok {u : Unicode} (hu : u.Ok) (hs : u.Short) {n : Nat} (h1 : 1 ≤ n) (hn : n ≤ top) {i : Interp} (ho : i.Obeys u n caseFns)
    {c : Nat} (hc : c < n) : (if i.test (.exists1 .totitle) c then titleOneChar i c else [(c : Int)]) = text (u.title c) := by
  have := mapOne_ok hu hs h1 hn .totitle (ho.mono (by decide)) hc
  rw [← show Mapping.totitle.fn u c = u.title c from rfl, ← this]
  unfold mapOne titleOneChar
  cases i.test (.exists1 .totitle) c <;> rfl

theorem titleLoop_ok {u : Unicode} (hu : u.Ok) (hs : u.Short) {k : Casing} (hk : u.Cases k) {n : Nat} (h1 : 1 ≤ n) (hn : n ≤ top)
    {i : Interp} (ho : i.Obeys u n caseFns) : ∀ (s : List Nat), (∀ c ∈ s, c < n) → ∀ (cased : Bool) (ret : Str),
      titleLoop i (!cased) ret (text s) = ret ++ text (titleGo u k cased s)
  | [], _, _, _ => by simp [text, titleLoop, titleGo]
  | c :: s, hc, cased, ret => by
    have hcn := hc c (by simp)
    have ih := titleLoop_ok hu hs hk h1 hn ho s fun d hd => hc d (List.mem_cons_of_mem _ hd)
    have hl := testMap hu h1 hn (ho .lower (by decide)) rfl c
    have ht := testMap hu h1 hn (ho .title (by decide)) rfl c
    simp only [Means, hcn, true_and] at hl ht
    have hcase : (i.test .title c || i.test .lower c) = k.cased c := by
      rw [hk.cased, Bool.eq_iff_iff, Bool.or_eq_true, Bool.or_eq_true, hl, ht]
    have e1 := titleOneChar_ok hu hs h1 hn ho hcn
    have e2 := lower_eq hu hs h1 hn ho [c] (by simpa using hcn)
    simp only [List.flatMap_cons, List.flatMap_nil, List.append_nil] at e2
    change titleLoop i (!cased) ret ((c : Int) :: text s) = _
    simp only [titleLoop, titleGo, hcase, text_append]
    cases hkc : k.cased c with
    | false =>
      obtain ⟨h2, h3⟩ := hk.uncased c hkc
      simp only [Bool.not_false, if_true]
      have := ih false (ret ++ [(c : Int)])
      simp only [Bool.not_false] at this
      rw [this, h2, h3, List.append_assoc]
      cases cased <;> rfl
    | true =>
      simp only [Bool.not_true, Bool.false_eq_true, if_false]
      cases cased with
      | true =>
        simp only [Bool.not_true, Bool.not_false, if_true]
        have := ih true (ret ++ lower i (text [c]))
        simp only [Bool.not_true] at this
        change titleLoop i false (ret ++ lower i (text [c])) (text s) = _
        rw [this, e2, List.append_assoc]
      | false =>
        simp only [Bool.not_false, Bool.not_true, Bool.false_eq_true, if_false]
        have h := ih true
        simp only [Bool.not_true] at h
        rw [← e1, h, h]
        split <;> rw [List.append_assoc]

/-- C218 in part: `title` is Python's for strings without final sigma. -/
theorem title_partial (u : Unicode) (hu : u.Ok) (hs : u.Short) (k : Casing) (hk : u.Cases k) (n : Nat) (h1 : 1 ≤ n) (hn : n ≤ top)
    (i : Interp) (ho : i.Obeys u n caseFns) (s : List Nat) (hc : ∀ c ∈ s, c < n) (hf : ¬HasFinal k [] s) :
    title i (text s) = text (pyTitle u k false [] s) := by
  rw [pyTitle_eq hk s [] false hf]
  exact titleLoop_ok hu hs hk h1 hn ho s hc false []

example : title (model small 1000) (text [97, 66, 39, 223, 67, 32, 931, 913]) = text [65, 98, 39, 83, 115, 99, 32, 931, 945] :=
  title_partial small small_ok small_short smallCasing small_cases 1000 (by decide) (by decide) _ small_case [97, 66, 39, 223, 67, 32, 931, 913] (by decide)
    (by rw [← pyLower_iff small_cases]; decide)

/-- C218 in part: `capitalize` is Python's for strings without final sigma. -/
theorem capitalize_partial (u : Unicode) (hu : u.Ok) (hs : u.Short) (k : Casing) (hk : u.Cases k) (n : Nat) (h1 : 1 ≤ n) (hn : n ≤ top)
    (i : Interp) (ho : i.Obeys u n caseFns) (s : List Nat) (hc : ∀ c ∈ s, c < n) (hf : ¬HasFinal k [] s) :
    capitalize i (text s) = text (pyCapitalize u k s) := by
  cases s with
  | nil => rfl
  | cons c s =>
    have hf' : ¬HasFinal k [c] s := noFinal_tail (before := []) hf
    have h2 := titleLoop_ok hu hs hk h1 hn ho [c] (by intro d hd; exact hc d (by simp_all)) false []
    have h3 := lower_eq hu hs h1 hn ho s fun d hd => hc d (List.mem_cons_of_mem _ hd)
    rw [(pyLower_iff hk s [c]).2 hf'] at h3
    simp only [Bool.not_false, List.nil_append, titleGo, List.append_nil, Bool.false_eq_true, if_false] at h2
    simp only [pyCapitalize, text_append, ← h2, ← h3]
    rfl

example : capitalize (model small 1000) (text [223, 66, 32, 67]) = text [83, 115, 98, 32, 99] :=
  capitalize_partial small small_ok small_short smallCasing small_cases 1000 (by decide) (by decide) _ small_case [223, 66, 32, 67] (by decide)
    (by rw [← pyLower_iff small_cases]; decide)

/-- Disagreement: for a symbolic string that is "ΑΣ", `lower`, `title`, `capitalize` and (for "αΣ") `swapcase` give a
small sigma at the end where Python gives a final sigma. -/
theorem final_sigma_lost : ∃ i : Interp, i.Obeys small 1000 caseFns ∧
    (lower i (text [913, 931]) = text [945, 963] ∧ pyLower small smallCasing [] [913, 931] = [945, 962]) ∧
    (title i (text [913, 931]) = text [913, 963] ∧ pyTitle small smallCasing false [] [913, 931] = [913, 962]) ∧
    (capitalize i (text [913, 931]) = text [913, 963] ∧ pyCapitalize small smallCasing [913, 931] = [913, 962]) ∧
    (swapcase i (text [945, 931]) = text [913, 963] ∧ pySwapcase small smallCasing [] [945, 931] = [913, 962]) := by
  refine ⟨model small 1000, small_case, ⟨?_, by decide⟩, ⟨?_, by decide⟩, ⟨?_, by decide⟩, ⟨?_, by decide⟩⟩
  · exact lower_eq small_ok small_short (by decide) (by decide) small_case [913, 931] (by decide)
  · exact titleLoop_ok small_ok small_short small_cases (by decide) (by decide) small_case [913, 931] (by decide) false []
  · have h2 := titleLoop_ok small_ok small_short small_cases (by decide) (by decide) small_case [913] (by decide) false []
    have h3 := lower_eq small_ok small_short (by decide) (by decide) small_case [931] (by decide)
    change titleLoop _ true [] (text [913]) ++ lower _ (text [931]) = _
    have e : titleLoop (model small 1000) true [] (text [913]) = text [913] := h2
    rw [e, h3]; rfl
  · have e1 := upper_eq small_ok small_short (by decide) (by decide) small_case [945] (by decide)
    have e2 := lower_eq small_ok small_short (by decide) (by decide) small_case [931] (by decide)
    have hl := fun c => testMap small_ok (by decide) (by decide) (small_case .lower (by decide)) rfl c
    have hp := fun c => testMap small_ok (by decide) (by decide) (small_case .upper (by decide)) rfl c
    have t1 : (model small 1000).test .lower ((945 : Nat) : Int) = true := (hl 945).2 (by simp [Means, small])
    have t2 : (model small 1000).test .lower ((931 : Nat) : Int) = false := by
      rw [← Bool.not_eq_true, hl]; simp [Means, small]
    have t3 : (model small 1000).test .upper ((931 : Nat) : Int) = true := (hp 931).2 (by simp [Means, small])
    change ([] ++ (if (model small 1000).test .lower ((945 : Nat) : Int) = true then upper (model small 1000) (text [945]) else _)) ++
      (if (model small 1000).test .lower ((931 : Nat) : Int) = true then _ else
        if (model small 1000).test .upper ((931 : Nat) : Int) = true then lower (model small 1000) (text [931]) else _) = _
    rw [if_pos t1, t2, t3, e1, e2]
    rfl

/-! ## C219 -/

/-- C219: whatever values the solver gives to its functions, each test of a character holds for exactly the characters
that Python says: letters, digits, numbers, white space, printable characters, line ends, cases, `\w`. -/
theorem tests_hold (u : Unicode) (hu : u.Ok) (n : Nat) (h1 : 1 ≤ n) (hn : n ≤ top) (i : Interp) (f : Fn) (k : Constraint)
    (hk : constraintOf u n f = some k) (hs : i.Sat k) (ht : tableOf u n f = none) (c : Int) :
    i.test f c = true ↔ 0 ≤ c ∧ Means u n c.toNat f := test_ok hu h1 hn hk hs ht c

/-- C219: a test is to be had if all the categories that it is made of occur. -/
theorem tests_exist (u : Unicode) (hu : u.Ok) (n : Nat) (h1 : 1 ≤ n) (hn : n ≤ top) (f : Fn)
    (hc : ∀ k ∈ ["Lm", "Lt", "Lu", "Ll", "Lo", "Nd", "Cc", "Co", "Cn", "Cf", "Cs", "Zs", "Zl", "Zp"], ∃ c < n, u.category c = k) :
    ∃ k, constraintOf u n f = some k := by
  rw [← Option.isSome_iff_exists]
  have hA := unicodeMask_isSome hu h1 hn ["Lt", "Lu", "Ll", "Lo"] "Lm" fun k hk =>
    hc k ((show ∀ k ∈ ["Lm", "Lt", "Lu", "Ll", "Lo"], k ∈ ["Lm", "Lt", "Lu", "Ll", "Lo", "Nd", "Cc", "Co", "Cn", "Cf", "Cs", "Zs", "Zl", "Zp"] by decide) k hk)
  have hN := unicodeMask_isSome hu h1 hn [] "Nd" fun k hk =>
    hc k ((show ∀ k ∈ ["Nd"], k ∈ ["Lm", "Lt", "Lu", "Ll", "Lo", "Nd", "Cc", "Co", "Cn", "Cf", "Cs", "Zs", "Zl", "Zp"] by decide) k hk)
  have hP := unicodeMask_isSome hu h1 hn ["Co", "Cn", "Cf", "Cs", "Zs", "Zl", "Zp", "Zs"] "Cc" fun k hk =>
    hc k ((show ∀ k ∈ ["Cc", "Co", "Cn", "Cf", "Cs", "Zs", "Zl", "Zp", "Zs"], k ∈ ["Lm", "Lt", "Lu", "Ll", "Lo", "Nd", "Cc", "Co", "Cn", "Cf", "Cs", "Zs", "Zl", "Zp"] by decide) k hk)
  have hW := (categoryMask_isSome hu h1 hn "word").2 (Or.inl rfl)
  cases f <;> simp [constraintOf, tableOf, maskOf, hA, hN, hP, hW]

/-- The categories that `isalpha` is made of occur. -/
theorem small_alpha : (constraintOf small 1000 .alpha).isSome = true := by
  have := unicodeMask_isSome small_ok (n := 1000) (by decide) (by decide) ["Lt", "Lu", "Ll", "Lo"] "Lm" (by
    intro k hk
    simp only [List.mem_cons, List.not_mem_nil, or_false] at hk
    rcases hk with rfl | rfl | rfl | rfl | rfl
    · exact ⟨688, by decide, by decide⟩
    · exact ⟨453, by decide, by decide⟩
    · exact ⟨65, by decide, by decide⟩
    · exact ⟨97, by decide, by decide⟩
    · exact ⟨170, by decide, by decide⟩)
  simp [constraintOf, tableOf, maskOf, this]

example : (model small 1000).test .alpha 453 = true ∧ (model small 1000).test .alpha 49 = false := by
  obtain ⟨k, hk, hs⟩ := small_obeys (fs := [.alpha]) (fun f hf => by rw [List.mem_singleton] at hf; exact hf ▸ small_alpha) .alpha (by decide)
  have h := fun c => tests_hold small small_ok 1000 (by decide) (by decide) _ .alpha k hk hs rfl c
  refine ⟨(h 453).2 (by simp [Means, small]), ?_⟩
  rw [← Bool.not_eq_true, h]
  simp [Means, small]

/-! ## C220 -/

/-- The state of a fresh process. -/
def fresh : World := ⟨[], fun _ => [], fun _ => []⟩

theorem fresh_ok (u : Unicode) (n : Nat) : WorldOk u n [] fresh :=
  ⟨fun _ _ h => absurd h (by simp [fresh]), by intro i f; simp [fresh], by intro i k; simp [fresh], fun _ => List.nodup_nil⟩

/-- C220: after any functions have been asked for, in any order and in any paths, the solver of each path has been told
exactly what belongs to the functions that were asked for there, and each of it once. -/
theorem told_exactly (u : Unicode) (n : Nat) (reqs : List (Nat × Fn)) (w : World) (h : askAll u n fresh reqs = some w) (i : Nat) :
    (∀ k, k ∈ w.told i ↔ ∃ f, (i, f) ∈ reqs ∧ constraintOf u n f = some k) ∧ (w.told i).Nodup := by
  have := (askAll_ok reqs [] fresh (fresh_ok u n) (by simp)).1 w h
  exact ⟨this.told i, this.once i⟩

/-- C220: a request fails only if what is asked for is made of a category that does not occur. -/
theorem requests_served (u : Unicode) (n : Nat) (reqs : List (Nat × Fn)) :
    (∃ w, askAll u n fresh reqs = some w) ↔ ∀ q ∈ reqs, ∃ k, constraintOf u n q.2 = some k := by
  rw [(askAll_ok reqs [] fresh (fresh_ok u n) (by simp)).2]
  simp only [Option.isSome_iff_exists]

/-- C220: what is told can all be obeyed. -/
theorem consistent (u : Unicode) (n : Nat) : ∃ i : Interp, ∀ f k, constraintOf u n f = some k → i.Sat k :=
  ⟨model u n, fun f _ h => model_sat u n f h⟩

example : ∃ w, askAll small 1000 fresh [(0, .ascii), (1, .newline), (0, .newline), (1, .newline), (0, .first .toupper)] = some w ∧
    w.told 0 = [.mask "is_ascii" [.span 0 128], .mask "is_newline" ([10, 11, 12, 13, 28, 29, 30, 133, 8232, 8233].map .one),
      intTransform "toupper_1st" (caseNth 1000 small.upper 1)] ∧
    w.told 1 = [.mask "is_newline" ([10, 11, 12, 13, 28, 29, 30, 133, 8232, 8233].map .one)] := ⟨_, rfl, rfl, rfl⟩

/-! ## C221 -/

theorem translate_append (table : Int → Lookup) (hl : ∀ c, table c ≠ .lookupError) : ∀ (s : Str) (parts : List Str),
    translate table s parts = (pyTranslate table s).map fun t => parts.flatten ++ t
  | [], parts => by simp [translate, pyTranslate, Except.map]
  | c :: s, parts => by
    have ih := translate_append table hl s
    have hc := hl c
    simp only [translate, pyTranslate]
    cases h : table c with
    | lookupError => exact absurd h hc
    | keyError | indexError =>
      simp only [ih]
      cases pyTranslate table s <;> simp [Except.map]
    | failure | other => simp [Except.map]
    | str t =>
      simp only [ih]
      cases pyTranslate table s <;> simp [Except.map]
    | none =>
      simp only [ih]
      cases pyTranslate table s <;> simp [Except.map]
    | int m =>
      simp only [chr]
      by_cases hm : m < 0 ∨ m > 0x10FFFF
      · rw [if_pos hm, if_neg (by omega)]; simp [Except.map]
      · rw [if_neg hm, if_pos (by omega)]
        simp only [ih]
        cases pyTranslate table s <;> simp [Except.map]

/-- C221 in part: `translate` of a symbolic string is Python's, with the same exceptions, if the table does not raise a
`LookupError` that is neither a `KeyError` nor an `IndexError`. -/
theorem translate_partial (table : Int → Lookup) (hl : ∀ c, table c ≠ .lookupError) (s : Str) : translate table s [] = pyTranslate table s := by
  rw [translate_append table hl]
  cases pyTranslate table s <;> simp [Except.map]

/-- A table with all kinds of entries. -/
def someTable (c : Int) : Lookup := if c = 97 then .int 98 else if c = 98 then .str [99, 99] else if c = 99 then .none else .keyError

example : translate someTable [97, 98, 99, 100] [] = .ok [98, 99, 99, 100] := by
  rw [translate_partial someTable (by
    intro c
    unfold someTable
    repeat' split
    all_goals decide)]; rfl

/-- Disagreement: for a table whose lookup raises `LookupError` itself, Python keeps the character, and `translate` of a
symbolic string raises the exception. -/
theorem lookup_error_escapes : translate (fun _ => .lookupError) [97] [] = .error .lookupError ∧ pyTranslate (fun _ => .lookupError) [97] = .ok [97] := ⟨rfl, rfl⟩

/-! ## C222 -/

/-- C222: `unicodedata.decimal`, `digit` and `numeric` of a symbolic string give the number that the character stands
for, and raise `ValueError` if there is none and `TypeError` for anything but a single character. -/
theorem numbers_of_characters (u : Unicode) (hu : u.Ok) (n : Nat) (h1 : 1 ≤ n) (hn : n ≤ top) (i : Interp)
    (ho : i.Obeys u n [.decimalExists, .decimalInt, .digitExists, .digitInt, .numericExists, .numerator, .denominator]) :
    (∀ c < n, decimalOf i (text [c]) = (match u.decimal c with | some v => .ok v | none => .error .valueError) ∧
      digitOf i (text [c]) = (match u.digit c with | some v => .ok v | none => .error .valueError) ∧
      numericOf i (text [c]) = (match u.numeric c with | some v => .ok v | none => .error .valueError)) ∧
    ∀ s : Str, s.length ≠ 1 → decimalOf i s = .error .typeError ∧ digitOf i s = .error .typeError ∧ numericOf i s = .error .typeError := by
  have num : ∀ {f : Nat → Option Int} {ex val : Fn}, (∀ c, i.test ex ((c : Nat) : Int) = true ↔ c < n ∧ (f c).isSome = true) →
      (∀ p ∈ charFnMap n f, i.app val p.1 = p.2) → ∀ c < n,
      numberOf i ex val (text [c]) = (match f c with | some v => .ok v | none => .error .valueError) := by
    intro f ex val ht ha c hc
    change (if (!i.test ex (c : Int)) = true then _ else _) = _
    have ht := ht c
    cases hv : f c with
    | none =>
      have : i.test ex (c : Int) = false := by rw [← Bool.not_eq_true, ht, hv]; simp
      rw [this]; rfl
    | some v =>
      rw [ht.2 ⟨hc, by rw [hv]; rfl⟩]
      simp only [Bool.not_true, Bool.false_eq_true, if_false]
      exact congrArg Except.ok (ha (c, v) (mem_charFnMap.2 ⟨hc, hv⟩))
  refine ⟨fun c hc => ⟨?_, ?_, ?_⟩, ?_⟩
  · refine num (testMap hu h1 hn (ho .decimalExists (by decide)) rfl) ?_ c hc
    obtain ⟨k, hk, hs⟩ := ho .decimalInt (by decide)
    exact app_ok hk hs rfl
  · refine num (testMap hu h1 hn (ho .digitExists (by decide)) rfl) ?_ c hc
    obtain ⟨k, hk, hs⟩ := ho .digitInt (by decide)
    exact app_ok hk hs rfl
  · have ht := testMap hu h1 hn (ho .numericExists (by decide)) rfl c
    obtain ⟨k1, hk1, hs1⟩ := ho .numerator (by decide)
    obtain ⟨k2, hk2, hs2⟩ := ho .denominator (by decide)
    change (if (!i.test .numericExists (c : Int)) = true then _ else _) = _
    simp only [Means] at ht
    cases hv : u.numeric c with
    | none =>
      have : i.test .numericExists (c : Int) = false := by rw [← Bool.not_eq_true, ht, hv]; simp
      rw [this]; rfl
    | some v =>
      rw [ht.2 ⟨hc, by rw [hv]; rfl⟩]
      simp only [Bool.not_true, Bool.false_eq_true, if_false]
      have hm : (c, v) ∈ charFnMap n u.numeric := mem_charFnMap.2 ⟨hc, hv⟩
      have e1 := app_ok hk1 hs1 rfl (c, v.1) (List.mem_map.2 ⟨_, hm, rfl⟩)
      have e2 := app_ok hk2 hs2 rfl (c, v.2) (List.mem_map.2 ⟨_, hm, rfl⟩)
      exact congrArg Except.ok (Prod.ext e1 e2)
  · intro s hs
    match s, hs with
    | [], _ => exact ⟨rfl, rfl, rfl⟩
    | _ :: _ :: _, _ => exact ⟨rfl, rfl, rfl⟩
    | [_], h => exact absurd rfl h

example : numericOf (model small 1000) (text [189]) = .ok (1, 2) ∧ digitOf (model small 1000) (text [178]) = .ok 2 ∧
    decimalOf (model small 1000) (text [178]) = .error .valueError := by
  have h := (numbers_of_characters small small_ok 1000 (by decide) (by decide) _ (small_obeys (by
    simp [constraintOf, tableOf, maskOf]))).1
  exact ⟨(h 189 (by decide)).2.2, (h 178 (by decide)).2.1, (h 178 (by decide)).1⟩

end Verif.CaseMaps
