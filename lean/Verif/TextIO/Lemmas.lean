import Verif.TextIO.Spec

/-! Helper lemmas about the text stream. -/
namespace Verif.TextIO

/-! ## Newline translation -/

theorem unify_prev {p : Option Char} {s : List Char} (h : p ≠ some '\r' ∨ s.head? ≠ some '\n') :
    unify p s = unify none s := by
  cases s with
  | nil => rfl
  | cons c cs =>
    unfold unify
    by_cases hc : c = '\r'
    · simp [hc]
    · by_cases hn : c = '\n'
      · subst hn
        have : p ≠ some '\r' := by
          rcases h with h | h
          · exact h
          · simp at h
        simp [this]
      · simp [hc, hn]

theorem subAll_eq (s : List Char) : subAll s = unify none s := by
  induction s using subAll.induct with
  | case1 => rfl
  | case2 cs ih =>
    rw [subAll, ih, unify, if_pos rfl, unify, if_neg (by decide), if_pos ⟨rfl, rfl⟩]
    rw [unify_prev (p := some '\n') (Or.inl (by simp))]
  | case3 cs h ih =>
    rw [subAll, ih, unify, if_pos rfl, unify_prev (p := some '\r')]
    · right
      intro hh
      cases cs with
      | nil => simp at hh
      | cons c cs' =>
        simp at hh
        exact h cs' (by rw [hh])
    · exact h
  | case4 cs ih =>
    rw [subAll, ih, unify, if_neg (by decide), if_neg (by simp)]
    rw [unify_prev (p := some '\n') (Or.inl (by simp))]
  | case5 c cs h1 h2 h3 ih =>
    have hr : c ≠ '\r' := fun e => h2 e
    have hn : c ≠ '\n' := fun e => h3 e
    rw [subAll, ih, unify, if_neg hr, if_neg (by simp [hn])]
    · rw [unify_prev (p := some c) (Or.inl (by simp [hr]))]
    · exact h1
    · exact h2
    · exact h3

theorem hasLf_prev {p : Option Char} {s : List Char} (h : p ≠ some '\r' ∨ s.head? ≠ some '\n') :
    hasLf p s = hasLf none s := by
  cases s with
  | nil => rfl
  | cons c cs =>
    unfold hasLf
    by_cases hn : c = '\n'
    · subst hn
      have : p ≠ some '\r' := by
        rcases h with h | h
        · exact h
        · simp at h
      simp [this]
    · simp [hn]

theorem hasCrlf_cons (c : Char) (cs : List Char) :
    hasCrlf (c :: cs) = (decide (c = '\r' ∧ cs.head? = some '\n') || hasCrlf cs) := by
  unfold hasCrlf
  rw [← Bool.decide_or]
  apply decide_eq_decide.2
  rw [List.infix_cons_iff]
  apply or_congr _ Iff.rfl
  constructor
  · rintro ⟨t, ht⟩
    simp at ht
    exact ⟨ht.1.symm, by rw [← ht.2]; rfl⟩
  · rintro ⟨h1, h2⟩
    cases cs with
    | nil => simp at h2
    | cons d ds =>
      simp at h2
      exact ⟨ds, by simp [h1, h2]⟩

theorem hasCrlf_nil : hasCrlf [] = false := by decide

theorem scan_eq (s : List Char) : ∀ seen : Seen,
    scan seen s = ⟨seen.cr || hasCr s, seen.lf || hasLf none s, seen.crlf || hasCrlf s⟩ := by
  induction s using subAll.induct with
  | case1 => intro seen; simp [scan, hasCr, hasLf, hasCrlf_nil]
  | case2 cs ih =>
    intro seen
    rw [scan, ih, hasCrlf_cons, hasCrlf_cons]
    have e : hasLf (some '\n') cs = hasLf none cs := hasLf_prev (Or.inl (by simp))
    simp [hasCr, hasLf, e]
  | case3 cs h ih =>
    intro seen
    have hh : cs.head? ≠ some '\n' := by
      intro hh
      cases cs with
      | nil => simp at hh
      | cons c cs' =>
        simp at hh
        exact h cs' (by rw [hh])
    rw [scan, ih, hasCrlf_cons]
    · have e : hasLf (some '\r') cs = hasLf none cs := hasLf_prev (Or.inr hh)
      simp [hasCr, hasLf, e, hh]
    · exact h
  | case4 cs ih =>
    intro seen
    rw [scan, ih, hasCrlf_cons]
    have e : hasLf (some '\n') cs = hasLf none cs := hasLf_prev (Or.inl (by simp))
    simp [hasCr, hasLf, e]
  | case5 c cs h1 h2 h3 ih =>
    intro seen
    have hr : c ≠ '\r' := fun e => h2 e
    have hn : c ≠ '\n' := fun e => h3 e
    rw [scan, ih, hasCrlf_cons]
    · have e : hasLf (some c) cs = hasLf none cs := hasLf_prev (Or.inl (by simp [hr]))
      simp [hasCr, hasLf, e, hr, hn]
    · exact h1
    · exact h2
    · exact h3

theorem replaceNewlines_fst (m : Mode) (seen : Seen) (s : List Char) :
    (replaceNewlines m seen s).1 = stored m s := by
  cases m with
  | any => exact subAll_eq s
  | raw => rfl
  | lf => rfl
  | cr =>
    show s.flatMap _ = s.map _
    induction s with
    | nil => rfl
    | cons c cs ih =>
      rw [List.flatMap_cons, List.map_cons, ih]
      by_cases h : c = '\n' <;> simp [h, Mode.nl]
  | crlf => rfl

theorem kinds_append (m : Mode) (fed : List (List Char)) (s : List Char) :
    (replaceNewlines m (kinds m fed) s).2 = kinds m (fed ++ [s]) := by
  cases m <;> simp [replaceNewlines, kinds, scan_eq]

/-! ## Lines -/

/-- The end of the first line, as the code finds it. -/
def lineEnd (m : Mode) (s : List Char) : Option Nat :=
  match m with
  | .raw => matchEnd s
  | m => (findSub m.nl s).map (· + m.nl.length)

/-- The first line, as the code finds it. -/
def codeLine (m : Mode) (s : List Char) : List Char :=
  match lineEnd m s with
  | some k => s.take k
  | none => s

theorem complete_raw_zero (rest : List Char) : complete .raw [] rest = false := by simp [complete]

theorem complete_raw_cons {c : Char} (hr : c ≠ '\r') (hn : c ≠ '\n') (p rest : List Char) :
    complete .raw (c :: p) rest = complete .raw p rest := by
  cases p with
  | nil => simp [complete, hr, hn]
  | cons d ds => simp [complete, List.getLast?_cons_cons]

/-- `k` is the first place at which a complete line ends. -/
def FirstEnd (m : Mode) (s : List Char) : Option Nat → Prop
  | some k => k ≤ s.length ∧ complete m (s.take k) (s.drop k) = true ∧
      ∀ j < k, complete m (s.take j) (s.drop j) = false
  | none => ∀ j ≤ s.length, complete m (s.take j) (s.drop j) = false

theorem matchEnd_first (s : List Char) : FirstEnd .raw s (matchEnd s) := by
  induction s using matchEnd.induct with
  | case1 => intro j hj; simp at hj; simp [hj, complete]
  | case2 cs =>
    refine ⟨by simp, by simp [complete], ?_⟩
    intro j hj
    rcases Nat.lt_or_ge j 1 with h | h
    · have : j = 0 := by omega
      simp [this, complete]
    · have : j = 1 := by omega
      simp [this, complete]
  | case3 cs h =>
    rw [matchEnd]
    · refine ⟨by simp, ?_, ?_⟩
      · cases cs with
        | nil => simp [complete]
        | cons c cs =>
          have : c ≠ '\n' := fun e => h cs (by rw [e])
          simp [complete, this]
      · intro j hj
        have : j = 0 := by omega
        simp [this, complete]
    · exact h
  | case4 cs =>
    refine ⟨by simp, by simp [complete], ?_⟩
    intro j hj
    have : j = 0 := by omega
    simp [this, complete]
  | case5 c cs h1 h2 h3 ih =>
    have hr : c ≠ '\r' := fun e => h2 e
    have hn : c ≠ '\n' := fun e => h3 e
    rw [matchEnd]
    · have hz : ∀ j, complete .raw ((c :: cs).take (j + 1)) ((c :: cs).drop (j + 1)) =
          complete .raw (cs.take j) (cs.drop j) := by
        intro j
        simp only [List.take_succ_cons, List.drop_succ_cons]
        exact complete_raw_cons hr hn _ _
      cases hm : matchEnd cs with
      | none =>
        rw [hm] at ih
        intro j hj
        cases j with
        | zero => simp [complete]
        | succ j => rw [hz]; exact ih j (by simpa using hj)
      | some k =>
        rw [hm] at ih
        refine ⟨by simpa using ih.1, ?_, ?_⟩
        · rw [hz]; exact ih.2.1
        · intro j hj
          cases j with
          | zero => simp [complete]
          | succ j =>
            have hj' : j + 1 < k + 1 := hj
            rw [hz]; exact ih.2.2 j (by omega)
    · exact h1
    · exact h2
    · exact h3

theorem suffix_take_cons (nl : List Char) (c : Char) (cs : List Char) (k : Nat)
    (hk : k ≤ cs.length) :
    nl.isSuffixOf ((c :: cs).take (k + 1)) =
      (nl.isSuffixOf (cs.take k) || (decide (k + 1 = nl.length) && nl.isPrefixOf (c :: cs))) := by
  rw [Bool.eq_iff_iff]
  simp only [List.isSuffixOf_iff_suffix, Bool.or_eq_true, Bool.and_eq_true, decide_eq_true_eq,
    List.isPrefixOf_iff_prefix, List.take_succ_cons, List.suffix_cons_iff]
  constructor
  · rintro (h | h)
    · right
      refine ⟨by rw [h]; simp; omega, ?_⟩
      rw [h]
      exact ⟨cs.drop k, by simp⟩
    · exact Or.inl h
  · rintro (h | ⟨h1, h2⟩)
    · exact Or.inr h
    · left
      rw [List.prefix_iff_eq_take] at h2
      rw [← h1] at h2
      simpa using h2

theorem isSuffixOf_nil {nl : List Char} (hnl : nl ≠ []) : nl.isSuffixOf [] = false := by
  rw [Bool.eq_false_iff]
  intro h
  rw [List.isSuffixOf_iff_suffix] at h
  exact hnl (List.suffix_nil.1 h)

theorem findSub_first (nl : List Char) (hnl : nl ≠ []) : ∀ s : List Char,
    match findSub nl s with
    | some i => i + nl.length ≤ s.length ∧ nl.isSuffixOf (s.take (i + nl.length)) = true ∧
        ∀ j < i + nl.length, nl.isSuffixOf (s.take j) = false
    | none => ∀ j ≤ s.length, nl.isSuffixOf (s.take j) = false
  | [] => by
    have : nl.isEmpty = false := by simpa using hnl
    simp only [findSub, this, Bool.false_eq_true, if_false]
    intro j hj
    simp at hj
    simp [hj, isSuffixOf_nil hnl]
  | c :: cs => by
    have ih := findSub_first nl hnl cs
    have hpos : 0 < nl.length := List.length_pos_iff.2 hnl
    rw [findSub]
    by_cases hp : nl.isPrefixOf (c :: cs) = true
    · simp only [hp, if_true, Nat.zero_add]
      have hpre := List.isPrefixOf_iff_prefix.1 hp
      refine ⟨hpre.length_le, ?_, ?_⟩
      · rw [List.isSuffixOf_iff_suffix, ← List.prefix_iff_eq_take.1 hpre]
        exact List.suffix_rfl
      · intro j hj
        rw [Bool.eq_false_iff]
        intro h
        rw [List.isSuffixOf_iff_suffix] at h
        have := h.length_le
        simp at this
        omega
    · have hp' : nl.isPrefixOf (c :: cs) = false := Bool.eq_false_iff.2 hp
      simp only [hp', Bool.false_eq_true, if_false]
      have hstep : ∀ j ≤ cs.length, nl.isSuffixOf ((c :: cs).take (j + 1)) = nl.isSuffixOf (cs.take j) := by
        intro j hj
        rw [suffix_take_cons nl c cs j hj, hp']
        simp
      cases hf : findSub nl cs with
      | none =>
        rw [hf] at ih
        simp only [Option.map_none]
        intro j hj
        cases j with
        | zero => simp [isSuffixOf_nil hnl]
        | succ j => rw [hstep j (by simpa using hj)]; exact ih j (by simpa using hj)
      | some i =>
        rw [hf] at ih
        simp only [Option.map_some]
        obtain ⟨h1, h2, h3⟩ := ih
        have e : i + 1 + nl.length = (i + nl.length) + 1 := by omega
        rw [e]
        refine ⟨by simpa using h1, by rw [hstep _ h1]; exact h2, ?_⟩
        intro j hj
        cases j with
        | zero => simp [isSuffixOf_nil hnl]
        | succ j => rw [hstep j (by omega)]; exact h3 j (by omega)

theorem nl_ne {m : Mode} (h : m ≠ .raw) : m.nl ≠ [] := by cases m <;> simp_all [Mode.nl]

theorem complete_nl {m : Mode} (h : m ≠ .raw) (p rest : List Char) :
    complete m p rest = m.nl.isSuffixOf p := by cases m <;> simp_all [complete]

theorem lineEnd_nl {m : Mode} (h : m ≠ .raw) (s : List Char) :
    lineEnd m s = (findSub m.nl s).map (· + m.nl.length) := by cases m <;> simp_all [lineEnd]

theorem lineEnd_first (m : Mode) (s : List Char) : FirstEnd m s (lineEnd m s) := by
  by_cases hm : m = .raw
  · subst hm; exact matchEnd_first s
  · have := findSub_first m.nl (nl_ne hm) s
    rw [lineEnd_nl hm]
    cases hf : findSub m.nl s with
    | none =>
      rw [hf] at this
      intro j hj
      rw [complete_nl hm]
      exact this j hj
    | some i =>
      rw [hf] at this
      simp only [Option.map_some]
      refine ⟨this.1, ?_, ?_⟩
      · rw [complete_nl hm]; exact this.2.1
      · intro j hj
        rw [complete_nl hm]
        exact this.2.2 j hj

theorem codeLine_eq (m : Mode) (s : List Char) : codeLine m s = firstLine m s := by
  have h := lineEnd_first m s
  unfold codeLine firstLine
  have : ((List.range (s.length + 1)).find? fun k => complete m (s.take k) (s.drop k)) = lineEnd m s := by
    cases hl : lineEnd m s with
    | none =>
      rw [hl] at h
      rw [List.find?_eq_none]
      intro j hj
      simp only [List.mem_range] at hj
      rw [h j (by omega)]
      simp
    | some k =>
      rw [hl] at h
      rw [List.find?_range_eq_some]
      refine ⟨h.2.1, by simp; have := h.1; omega, ?_⟩
      intro j hj
      rw [h.2.2 j hj]
      rfl
  rw [this]
  cases lineEnd m s <;> rfl

theorem lineEnd_le {m : Mode} {s : List Char} {k : Nat} (h : lineEnd m s = some k) : k ≤ s.length := by
  have := lineEnd_first m s
  rw [h] at this
  exact this.1

/-- `complete` looks at most one character ahead. -/
theorem firstEnd_unique {m : Mode} {s : List Char} {a b : Option Nat} (ha : FirstEnd m s a)
    (hb : FirstEnd m s b) : a = b := by
  cases a with
  | none =>
    cases b with
    | none => rfl
    | some k => have := ha k hb.1; rw [hb.2.1] at this; cases this
  | some k =>
    cases b with
    | none => have := hb k ha.1; rw [ha.2.1] at this; cases this
    | some l =>
      rcases Nat.lt_trichotomy k l with h | h | h
      · have := hb.2.2 k h; rw [ha.2.1] at this; cases this
      · rw [h]
      · have := ha.2.2 l h; rw [hb.2.1] at this; cases this

theorem codeLine_take_raw (s : List Char) : ∀ n, (codeLine .raw s).take n = codeLine .raw (s.take n) := by
  induction s using matchEnd.induct with
  | case1 => intro n; simp [codeLine, lineEnd, matchEnd]
  | case2 cs =>
    intro n
    match n with
    | 0 => simp [codeLine, lineEnd, matchEnd]
    | 1 => simp [codeLine, lineEnd, matchEnd]
    | n + 2 => simp [codeLine, lineEnd, matchEnd]
  | case3 cs h =>
    intro n
    have e : matchEnd ('\r' :: cs) = some 1 := by rw [matchEnd]; exact h
    cases n with
    | zero => simp [codeLine, lineEnd, matchEnd]
    | succ n =>
      have h' : ∀ t, cs.take n = '\n' :: t → False := by
        intro t ht
        cases cs with
        | nil => simp at ht
        | cons d ds =>
          cases n with
          | zero => simp at ht
          | succ n =>
            simp at ht
            exact h ds (by rw [ht.1])
      have e' : matchEnd ('\r' :: cs.take n) = some 1 := by rw [matchEnd]; exact h'
      simp [codeLine, lineEnd, e, e']
  | case4 cs =>
    intro n
    cases n with
    | zero => simp [codeLine, lineEnd, matchEnd]
    | succ n => simp [codeLine, lineEnd, matchEnd]
  | case5 c cs h1 h2 h3 ih =>
    intro n
    have key : ∀ t, codeLine .raw (c :: t) = c :: codeLine .raw t := by
      intro t
      have e : matchEnd (c :: t) = (matchEnd t).map (· + 1) := by
        rw [matchEnd]
        · intro t' hc; exact absurd hc (fun e => h2 e)
        · exact h2
        · exact h3
      simp only [codeLine, lineEnd, e]
      cases matchEnd t <;> simp
    cases n with
    | zero => simp [codeLine, lineEnd, matchEnd]
    | succ n => rw [List.take_succ_cons, key, key, List.take_succ_cons, ih]

theorem codeLine_take_nl {m : Mode} (hm : m ≠ .raw) (s : List Char) (n : Nat) :
    (codeLine m s).take n = codeLine m (s.take n) := by
  rcases Nat.lt_or_ge n s.length with hn | hn
  · have h := lineEnd_first m s
    have e : lineEnd m (s.take n) = match lineEnd m s with
        | some k => if k ≤ n then some k else none
        | none => none := by
      apply firstEnd_unique (lineEnd_first m (s.take n))
      cases hl : lineEnd m s with
      | none =>
        rw [hl] at h
        intro j hj
        have hj' : j ≤ n := by simp at hj; omega
        rw [complete_nl hm, List.take_take, Nat.min_eq_left hj', ← complete_nl hm _ (s.drop j)]
        exact h j (by omega)
      | some k =>
        rw [hl] at h
        simp only
        by_cases hk : k ≤ n
        · rw [if_pos hk]
          refine ⟨by simp; omega, ?_, ?_⟩
          · rw [complete_nl hm, List.take_take, Nat.min_eq_left hk, ← complete_nl hm _ (s.drop k)]
            exact h.2.1
          · intro j hj
            rw [complete_nl hm, List.take_take, Nat.min_eq_left (by omega), ← complete_nl hm _ (s.drop j)]
            exact h.2.2 j hj
        · rw [if_neg hk]
          intro j hj
          have hj' : j ≤ n := by simp at hj; omega
          rw [complete_nl hm, List.take_take, Nat.min_eq_left hj', ← complete_nl hm _ (s.drop j)]
          exact h.2.2 j (by omega)
    unfold codeLine
    rw [e]
    cases hl : lineEnd m s with
    | none => rfl
    | some k =>
      simp only
      by_cases hk : k ≤ n
      · rw [if_pos hk]
        simp [List.take_take, Nat.min_comm]
      · rw [if_neg hk]
        simp only [List.take_take]
        congr 1
        omega
  · rw [List.take_of_length_le hn, List.take_of_length_le]
    have : (codeLine m s).length ≤ s.length := by
      unfold codeLine
      cases hl : lineEnd m s with
      | none => simp
      | some k => simp; omega
    omega

theorem codeLine_take (m : Mode) (s : List Char) (n : Nat) :
    (codeLine m s).take n = codeLine m (s.take n) := by
  by_cases hm : m = .raw
  · subst hm; exact codeLine_take_raw s n
  · exact codeLine_take_nl hm s n

/-! ## Slices -/

theorem clip_nat (n k : Nat) : clip n (k : Int) = min k n := by
  unfold clip
  simp only
  split <;> omega

theorem reClip_nat (n k : Nat) : reClip n (k : Int) = min k n := by
  unfold reClip
  omega

theorem slice_nat (s : List Char) (a b : Nat) : slice s a b = (s.take b).drop a := by
  unfold slice
  rw [clip_nat, clip_nat]
  rcases Nat.le_total b s.length with h | h
  · rw [Nat.min_eq_left h]
    rcases Nat.le_total a s.length with h' | h'
    · rw [Nat.min_eq_left h']
    · rw [Nat.min_eq_right h', List.drop_eq_nil_of_le (by simp; omega), List.drop_eq_nil_of_le (by simp; omega)]
  · rw [Nat.min_eq_right h, List.take_of_length_le (Nat.le_refl _), List.take_of_length_le h]
    rcases Nat.le_total a s.length with h' | h'
    · rw [Nat.min_eq_left h']
    · rw [Nat.min_eq_right h', List.drop_eq_nil_of_le (Nat.le_refl _), List.drop_eq_nil_of_le h']

/-- `readline` within the text. -/
theorem readline_eq (t : Sio) (limit : Option Int) (p l : Nat) (hp : t.pos = p)
    (hl : limit.getD t.contents.length = (l : Int)) (hpl : p ≤ l) (hll : l ≤ t.contents.length)
    (ho : t.closed = false) :
    readline t limit =
      (.text (codeLine t.mode ((t.contents.take l).drop p)),
        { t with pos := p + (codeLine t.mode ((t.contents.take l).drop p)).length }) := by
  have hlen : ((t.contents.take l).drop p).length = l - p := by simp; omega
  have hend : ∀ e, e ≤ l - p → slice t.contents p ((e + p : Nat) : Int) = ((t.contents.take l).drop p).take e := by
    intro e he
    rw [slice_nat, List.take_drop, List.take_take]
    congr 2
    omega
  have hall : slice t.contents p (l : Int) = (t.contents.take l).drop p := slice_nat _ _ _
  by_cases hm : t.mode = .raw
  · have hs : searchEnd t.contents p l = (lineEnd .raw ((t.contents.take l).drop p)).map (· + p) := by
      unfold searchEnd
      rw [reClip_nat, reClip_nat, Nat.min_eq_left hll, Nat.min_eq_left (by omega)]
      rfl
    unfold readline
    simp only [ho, Bool.false_eq_true, if_false, hl, hm, hp, hs]
    unfold codeLine
    cases hle : lineEnd .raw ((t.contents.take l).drop p) with
    | none => simp [hall, hlen]; omega
    | some e =>
      have he := lineEnd_le hle
      rw [hlen] at he
      simp only [Option.map_some]
      rw [hend e he]
      simp [Nat.min_eq_left, he, hlen]
      omega
  · have hs : find t.contents t.mode.nl p l =
        (findSub t.mode.nl ((t.contents.take l).drop p)).map (· + p) := by
      unfold find
      rw [clip_nat, Nat.min_eq_left (by omega), hall]
    have hcl : codeLine t.mode ((t.contents.take l).drop p) =
        match findSub t.mode.nl ((t.contents.take l).drop p) with
        | some k => ((t.contents.take l).drop p).take (k + t.mode.nl.length)
        | none => (t.contents.take l).drop p := by
      unfold codeLine
      rw [lineEnd_nl hm]
      cases findSub t.mode.nl ((t.contents.take l).drop p) <;> rfl
    have hunf : readline t limit =
        match find t.contents t.mode.nl p l with
        | none => (.text (slice t.contents p l), { t with pos := l })
        | some idx => (.text (slice t.contents p (idx + t.mode.nl.length)),
            { t with pos := idx + t.mode.nl.length }) := by
      unfold readline
      simp only [ho, Bool.false_eq_true, if_false, hl, hp]
      generalize hx : t.mode = x at hm ⊢
      cases x with
      | raw => exact absurd rfl hm
      | any => cases find t.contents (Mode.nl .any) p l <;> rfl
      | lf => cases find t.contents (Mode.nl .lf) p l <;> rfl
      | cr => cases find t.contents (Mode.nl .cr) p l <;> rfl
      | crlf => cases find t.contents (Mode.nl .crlf) p l <;> rfl
    rw [hunf, hs, hcl]
    cases hf : findSub t.mode.nl ((t.contents.take l).drop p) with
    | none => simp [hall]; omega
    | some i =>
      have he : i + t.mode.nl.length ≤ l - p := by
        rw [← hlen]
        exact lineEnd_le (m := t.mode) (by rw [lineEnd_nl hm, hf]; rfl)
      simp only [Option.map_some]
      have hc : (((i + p : Nat) : Int) + (t.mode.nl.length : Int)) = ((i + t.mode.nl.length + p : Nat) : Int) := by
        omega
      rw [hc, hend _ he]
      simp [Nat.min_eq_left, he]
      omega

theorem write_text (s ws : List Char) (p : Nat) :
    (let padded := if (p : Int) > s.length then
        s ++ List.replicate ((p : Int) - s.length).toNat (Char.ofNat 0) else s
     if (p : Int) = padded.length then padded ++ ws
      else slice s 0 p ++ ws ++ slice s ((p : Int) + ws.length) s.length) = putAt s p ws := by
  simp only
  unfold putAt
  by_cases h : (p : Int) > s.length
  · rw [if_pos h]
    have e : (p : Int) = ((s ++ List.replicate ((p : Int) - s.length).toNat (Char.ofNat 0)).length : Nat) := by
      simp; omega
    rw [if_pos e, List.take_of_length_le (by omega), List.drop_eq_nil_of_le (by omega)]
    have : ((p : Int) - s.length).toNat = p - s.length := by omega
    rw [this]; simp
  · rw [if_neg h]
    by_cases h' : (p : Int) = s.length
    · have : p = s.length := by omega
      subst this
      rw [if_pos rfl]
      simp
    · rw [if_neg h']
      have h0 : slice s 0 p = s.take p := by
        have := slice_nat s 0 p
        simpa using this
      have h1 : slice s ((p : Int) + ws.length) s.length = s.drop (p + ws.length) := by
        have := slice_nat s (p + ws.length) s.length
        rw [List.take_of_length_le (Nat.le_refl _)] at this
        rw [← this]; congr 1
      rw [h0, h1]
      have : p - s.length = 0 := by omega
      simp [this]

/-! ## One operation -/

theorem init_shows (initial : List Char) (m : Mode) : Shows m (init initial m) (fresh initial m) := by
  unfold init fresh
  cases initial with
  | nil =>
    simp only [List.isEmpty_nil, if_true]
    refine ⟨rfl, ?_, rfl, rfl, ?_⟩
    · cases m <;> rfl
    · cases m <;> simp [kinds, hasCr, hasLf, hasCrlf_nil]
  | cons c cs =>
    simp only [List.isEmpty_cons, Bool.false_eq_true, if_false]
    refine ⟨rfl, replaceNewlines_fst m _ _, rfl, rfl, ?_⟩
    have := kinds_append m [] (c :: cs)
    have e : kinds m [] = {} := by cases m <;> rfl
    rw [e] at this
    exact this

theorem step_shows {m : Mode} {t : Sio} {b : Buf} (h : Shows m t b) (op : Op) (hf : Fair b op) :
    (step t op).1 = (bufStep m b op).1 ∧ Shows m (step t op).2 (bufStep m b op).2 := by
  obtain ⟨hm, ht, hp, hc, hs⟩ := h
  by_cases hcl : b.closed = true
  · have hcl' : t.closed = true := by rw [hc, hcl]
    cases op with
    | getvalue => simp [Fair, hcl] at hf
    | newlines => simp [Fair, hcl] at hf
    | close => exact ⟨rfl, hm, ht, hp, rfl, hs⟩
    | read n => simp only [step, read, bufStep, open?, hcl, hcl', if_true]; exact ⟨trivial, hm, ht, hp, hc, hs⟩
    | readline n => simp only [step, readline, bufStep, open?, hcl, hcl', if_true]; exact ⟨trivial, hm, ht, hp, hc, hs⟩
    | write n => simp only [step, write, bufStep, open?, hcl, hcl', if_true]; exact ⟨trivial, hm, ht, hp, hc, hs⟩
    | seek n => simp only [step, seek, bufStep, open?, hcl, hcl', if_true]; exact ⟨trivial, hm, ht, hp, hc, hs⟩
    | tell => simp only [step, bufStep, open?, hcl, hcl', if_true]; exact ⟨trivial, hm, ht, hp, hc, hs⟩
    | truncate n => simp only [step, truncate, bufStep, open?, hcl, hcl', if_true]; exact ⟨trivial, hm, ht, hp, hc, hs⟩
  · have hcf : b.closed = false := by simpa using hcl
    have hcf' : t.closed = false := by rw [hc, hcf]
    have hsl : ∀ s : List Char, slice s b.pos s.length = s.drop b.pos := by
      intro s
      have := slice_nat s b.pos s.length
      rwa [List.take_of_length_le (Nat.le_refl _)] at this
    cases op with
    | getvalue => simp only [step, bufStep, open?, hcf, Bool.false_eq_true, if_false, ht]; exact ⟨trivial, hm, ht, hp, hc, hs⟩
    | newlines => simp only [step, bufStep, open?, hcf, Bool.false_eq_true, if_false, hs]; exact ⟨trivial, hm, ht, hp, hc, hs⟩
    | close => exact ⟨rfl, hm, ht, hp, rfl, hs⟩
    | tell => simp only [step, bufStep, open?, hcf, hcf', Bool.false_eq_true, if_false, hp]; exact ⟨trivial, hm, ht, hp, hc, hs⟩
    | read n =>
      have e : readText t n = upTo n (b.text.drop b.pos) := by
        cases n with
        | none => rw [readText, ht, hp]; exact hsl _
        | some n =>
          have hn : (0 : Int) ≤ n := hf
          obtain ⟨k, rfl⟩ := Int.eq_ofNat_of_zero_le hn
          simp only [upTo]
          rw [readText, ht, hp, if_neg (by omega), Int.toNat_natCast]
          have := slice_nat b.text b.pos (b.pos + k)
          rw [List.take_drop, ← this]
          congr 1
      simp only [step, read, bufStep, open?, hcf, hcf', Bool.false_eq_true, if_false]
      rw [e]
      exact ⟨rfl, hm, ht, by simp [hp], by simp [hc, hcf], hs⟩
    | readline n =>
      simp only [step, bufStep, open?, hcf, Bool.false_eq_true, if_false]
      cases n with
      | none =>
        have hf' : b.pos ≤ b.text.length := hf
        rw [readline_eq t none b.pos t.contents.length hp rfl (by rw [ht]; exact hf') (Nat.le_refl _) hcf']
        rw [List.take_of_length_le (Nat.le_refl _), hm, ht, codeLine_eq]
        exact ⟨rfl, rfl, rfl, by simp [upTo], by simp [hcf', hcf], hs⟩
      | some n =>
        obtain ⟨h0, hn, hnl⟩ : b.pos = 0 ∧ 0 ≤ n ∧ n ≤ b.text.length := hf
        obtain ⟨k, rfl⟩ := Int.eq_ofNat_of_zero_le hn
        rw [readline_eq t (some (k : Int)) b.pos k hp rfl (by omega) (by rw [ht]; omega) hcf']
        have e : codeLine t.mode ((t.contents.take k).drop b.pos) =
            upTo (some (k : Int)) (firstLine m (b.text.drop b.pos)) := by
          rw [hm, ht, h0, List.drop_zero, List.drop_zero]
          simp only [upTo]
          rw [if_neg (by omega), Int.toNat_natCast, ← codeLine_eq, codeLine_take]
        rw [e]
        exact ⟨rfl, hm, ht, by simp, by simp [hcf', hcf], hs⟩
    | write s =>
      simp only [step, write, bufStep, open?, hcf, hcf', Bool.false_eq_true, if_false]
      cases s with
      | nil => simp only [List.isEmpty_nil, if_true]; exact ⟨trivial, hm, ht, hp, hc, hs⟩
      | cons c cs =>
        simp only [List.isEmpty_cons, Bool.false_eq_true, if_false, reduceCtorEq]
        have e1 := replaceNewlines_fst t.mode t.seen (c :: cs)
        have e2 : (replaceNewlines t.mode t.seen (c :: cs)).2 = kinds m (b.fed ++ [c :: cs]) := by
          rw [hm, hs, kinds_append]
        rw [hm] at e1
        refine ⟨trivial, hm, ?_, ?_, by simp, e2⟩
        · show _ = putAt b.text b.pos (stored m (c :: cs))
          rw [← e1, ← hm, ← ht, hp]
          exact write_text t.contents _ b.pos
        · show t.pos + _ = _
          rw [← e1, ← hm, hp]
          simp
    | seek a w =>
      simp only [step, seek, bufStep, open?, hcf, hcf', Bool.false_eq_true, if_false]
      by_cases w0 : w = 0
      · subst w0
        simp only [show ¬ ((0 : Int) = 1) by omega, show ¬ ((0 : Int) = 2) by omega, if_false, if_true]
        by_cases ha : a < 0
        · simp only [ha, if_true]; exact ⟨trivial, hm, ht, hp, hc, hs⟩
        · simp only [ha, if_false]
          exact ⟨trivial, hm, ht, by simp; omega, by simp [hcf', hcf], hs⟩
      · by_cases w1 : w = 1
        · subst w1
          simp only [show ¬ ((1 : Int) = 0) by omega, if_false, if_true]
          by_cases ha : a = 0
          · subst ha
            simp only [ne_eq, not_true, if_false, if_true, Int.add_zero]
            exact ⟨by rw [hp], hm, ht, hp, by simp [hcf', hcf], hs⟩
          · simp only [ne_eq, ha, not_false_eq_true, if_true, if_false]; exact ⟨trivial, hm, ht, hp, hc, hs⟩
        · by_cases w2 : w = 2
          · subst w2
            simp only [show ¬ ((2 : Int) = 0) by omega, show ¬ ((2 : Int) = 1) by omega, if_false, if_true]
            by_cases ha : a = 0
            · subst ha
              simp only [ne_eq, not_true, if_false, if_true, Int.add_zero]
              exact ⟨by rw [ht], hm, ht, by simp [ht], by simp [hcf', hcf], hs⟩
            · simp only [ne_eq, ha, not_false_eq_true, if_true, if_false]; exact ⟨trivial, hm, ht, hp, hc, hs⟩
          · simp only [w0, w1, w2, if_false]; exact ⟨trivial, hm, ht, hp, hc, hs⟩
    | truncate n =>
      simp only [step, truncate, bufStep, open?, hcf, hcf', Bool.false_eq_true, if_false]
      have hz : ∃ k : Nat, n.getD b.pos = (k : Int) := by
        cases n with
        | none => exact ⟨b.pos, rfl⟩
        | some n => exact ⟨n.toNat, by have : (0 : Int) ≤ n := hf; simp; omega⟩
      obtain ⟨k, hk⟩ := hz
      rw [hp, hk, if_neg (by omega)]
      refine ⟨rfl, hm, ?_, rfl, by simp, hs⟩
      show slice t.contents 0 k = b.text.take (Int.toNat k)
      have := slice_nat t.contents 0 k
      rw [Int.toNat_natCast, ← ht]
      simpa using this

theorem run_shows {m : Mode} : ∀ (ops : List Op) {t : Sio} {b : Buf}, Shows m t b → FairRun m b ops →
    (run t ops).1 = (bufRun m b ops).1 ∧ Shows m (run t ops).2 (bufRun m b ops).2
  | [], _, _, h, _ => ⟨rfl, h⟩
  | op :: ops, t, b, h, hf => by
    have h1 := step_shows h op hf.1
    have h2 := run_shows ops h1.2 hf.2
    exact ⟨by simp only [run, bufRun]; rw [h1.1, h2.1], h2.2⟩

end Verif.TextIO
