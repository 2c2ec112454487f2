import Verif.CaseMaps.Lemmas

/-! Lemmas about the caches of constraints and about texts. -/
namespace Verif.CaseMaps

open Verif.Mask

def mappings : List Mapping := [.casefold, .tolower, .totitle, .toupper]

/-- All functions. -/
def fns : List Fn :=
  [.ascii, .alnum, .alpha, .decimal, .digit, .numeric, .lower, .printable, .space, .newline, .upper, .title, .word,
    .digitExists, .decimalInt, .decimalExists, .digitInt, .numericExists, .numerator, .denominator] ++
    mappings.map .exists1 ++ mappings.map .first ++ mappings.map .exists2 ++ mappings.map .second ++ mappings.map .exists3 ++ mappings.map .third

theorem mem_fns (f : Fn) : f ∈ fns := by
  cases f with
  | exists1 m => cases m <;> decide
  | first m => cases m <;> decide
  | exists2 m => cases m <;> decide
  | second m => cases m <;> decide
  | exists3 m => cases m <;> decide
  | third m => cases m <;> decide
  | _ => decide

theorem names : ∀ f ∈ fns, ∀ g ∈ fns, f.name = g.name → f = g := by decide +kernel

theorem name_inj {f g : Fn} (h : f.name = g.name) : f = g := names f (mem_fns f) g (mem_fns g) h

theorem constraint_inj {u : Unicode} {n : Nat} {f g : Fn} {k : Constraint} (hf : constraintOf u n f = some k) (hg : constraintOf u n g = some k) :
    f = g := by
  unfold constraintOf at hf hg
  cases h1 : tableOf u n f with
  | some t =>
    cases h2 : tableOf u n g with
    | some t' =>
      simp only [h1, h2, Option.some.injEq, intTransform] at hf hg
      rw [← hf] at hg
      injection hg with hg _
      exact (name_inj hg).symm
    | none =>
      simp only [h1, h2, Option.some.injEq, Option.map_eq_some_iff, intTransform] at hf hg
      obtain ⟨m, _, hm⟩ := hg
      rw [← hf] at hm
      cases hm
  | none =>
    simp only [h1, Option.map_eq_some_iff] at hf
    obtain ⟨m, _, hm⟩ := hf
    cases h2 : tableOf u n g with
    | some t' =>
      simp only [h2, Option.some.injEq, intTransform] at hg
      rw [← hm] at hg
      cases hg
    | none =>
      simp only [h2, Option.map_eq_some_iff] at hg
      obtain ⟨m', _, hm'⟩ := hg
      rw [← hm] at hm'
      injection hm' with h _
      exact (name_inj ((String.append_right_inj _).1 h)).symm

/-- What holds of the caches after these requests. -/
structure WorldOk (u : Unicode) (n : Nat) (past : List (Nat × Fn)) (w : World) : Prop where
  stored : ∀ f k, w.interpretations.lookup f.name = some k → constraintOf u n f = some k
  known : ∀ i f, f.name ∈ w.known i ↔ (i, f) ∈ past
  told : ∀ i k, k ∈ w.told i ↔ ∃ f, (i, f) ∈ past ∧ constraintOf u n f = some k
  once : ∀ i, (w.told i).Nodup

theorem tell {u : Unicode} {n : Nat} {past : List (Nat × Fn)} {w : World} (h : WorldOk u n past w) {i : Nat} {f : Fn} {k : Constraint}
    (hk : constraintOf u n f = some k) (hn : f.name ∉ w.known i) (st : List (String × Constraint))
    (hst : ∀ g k, st.lookup (Fn.name g) = some k → constraintOf u n g = some k) :
    WorldOk u n (past ++ [(i, f)])
      { interpretations := st, told := Function.update w.told i (w.told i ++ [k]), known := Function.update w.known i (f.name :: w.known i) } := by
  refine ⟨hst, ?_, ?_, ?_⟩
  · intro j g
    dsimp only
    by_cases hj : j = i
    · subst hj
      rw [Function.update_self, List.mem_cons, h.known]
      simp only [List.mem_append, List.mem_singleton, Prod.mk.injEq, true_and]
      constructor
      · rintro (h1 | h1)
        · exact Or.inr (name_inj h1)
        · exact Or.inl h1
      · rintro (h1 | rfl)
        · exact Or.inr h1
        · exact Or.inl rfl
    · rw [Function.update_of_ne hj, h.known]
      simp [hj]
  · intro j g
    dsimp only
    by_cases hj : j = i
    · subst hj
      rw [Function.update_self, List.mem_append, h.told]
      simp only [List.mem_append, List.mem_singleton, Prod.mk.injEq, true_and]
      constructor
      · rintro (⟨a, h1, h2⟩ | rfl)
        · exact ⟨a, Or.inl h1, h2⟩
        · exact ⟨f, Or.inr rfl, hk⟩
      · rintro ⟨a, h1 | rfl, h2⟩
        · exact Or.inl ⟨a, h1, h2⟩
        · rw [hk, Option.some.injEq] at h2
          exact Or.inr h2.symm
    · rw [Function.update_of_ne hj, h.told]
      simp [hj]
  · intro j
    dsimp only
    by_cases hj : j = i
    · subst hj
      rw [Function.update_self]
      rw [List.nodup_append]
      refine ⟨h.once j, List.pairwise_singleton _ _, ?_⟩
      intro a ha b hb hab
      rw [List.mem_singleton] at hb
      subst hb; subst hab
      obtain ⟨g, hg, hgk⟩ := (h.told j a).1 ha
      have := constraint_inj hgk hk
      subst this
      exact hn ((h.known j g).2 hg)
    · rw [Function.update_of_ne hj]
      exact h.once j

theorem ask_ok {u : Unicode} {n : Nat} {past : List (Nat × Fn)} {w : World} (h : WorldOk u n past w) (hp : ∀ q ∈ past, (constraintOf u n q.2).isSome)
    (i : Nat) (f : Fn) :
    if (constraintOf u n f).isSome then ∃ w', ask u n w i f = some w' ∧ WorldOk u n (past ++ [(i, f)]) w' else ask u n w i f = none := by
  by_cases hn : f.name ∈ w.known i
  · have hpast := (h.known i f).1 hn
    rw [if_pos (hp _ hpast)]
    refine ⟨w, by rw [ask, if_pos hn], h.stored, ?_, ?_, h.once⟩
    · intro j g
      rw [h.known, List.mem_append, List.mem_singleton]
      constructor
      · exact Or.inl
      · rintro (h1 | h1)
        · exact h1
        · exact h1 ▸ hpast
    · intro j k
      rw [h.told]
      constructor
      · rintro ⟨g, h1, h2⟩; exact ⟨g, List.mem_append_left _ h1, h2⟩
      · rintro ⟨g, h1, h2⟩
        rcases List.mem_append.1 h1 with h3 | h3
        · exact ⟨g, h3, h2⟩
        · rw [List.mem_singleton] at h3
          exact ⟨g, h3 ▸ hpast, h2⟩
  · unfold ask
    rw [if_neg hn]
    cases hl : w.interpretations.lookup f.name with
    | some k =>
      have hk := h.stored f k hl
      rw [hk]
      simp only [Option.isSome_some, if_true]
      exact ⟨_, rfl, tell h hk hn _ h.stored⟩
    | none =>
      cases hk : constraintOf u n f with
      | none => simp
      | some k =>
        simp only [Option.isSome_some, if_true]
        refine ⟨_, rfl, tell h hk hn _ ?_⟩
        intro g k' hg
        rw [List.lookup_cons] at hg
        by_cases he : g.name = f.name
        · have := name_inj he
          subst this
          simp only [beq_self_eq_true, Option.some.injEq] at hg
          rw [hk, hg]
        · have : (g.name == f.name) = false := by simpa using he
          rw [this] at hg
          exact h.stored g k' hg

theorem askAll_ok {u : Unicode} {n : Nat} : ∀ (reqs past : List (Nat × Fn)) (w : World), WorldOk u n past w → (∀ q ∈ past, (constraintOf u n q.2).isSome) →
    (∀ w', askAll u n w reqs = some w' → WorldOk u n (past ++ reqs) w') ∧
      ((∃ w', askAll u n w reqs = some w') ↔ ∀ q ∈ reqs, (constraintOf u n q.2).isSome)
  | [], past, w, h, _ => by
    constructor
    · intro w' hw
      simp only [askAll, Option.some.injEq] at hw
      subst hw; simpa using h
    · simp [askAll]
  | (i, f) :: rest, past, w, h, hp => by
    have ha := ask_ok h hp i f
    by_cases hc : (constraintOf u n f).isSome = true
    · rw [if_pos hc] at ha
      obtain ⟨w1, h1, h2⟩ := ha
      have ih := askAll_ok rest _ w1 h2 (by
        intro q hq
        rcases List.mem_append.1 hq with h3 | h3
        · exact hp q h3
        · rw [List.mem_singleton] at h3; subst h3; exact hc)
      simp only [askAll, h1]
      constructor
      · intro w' hw
        have := ih.1 w' hw
        simpa using this
      · rw [ih.2]
        simp [hc]
    · rw [if_neg hc] at ha
      simp only [askAll, ha]
      constructor
      · intro w' hw; cases hw
      · constructor
        · rintro ⟨w', hw⟩; cases hw
        · intro hq; exact absurd (hq (i, f) (by simp)) hc

/-! ## Texts -/

theorem lowerAt_eq {u : Unicode} {k : Casing} (hk : u.Cases k) {before after : List Nat} {c : Nat}
    (h : c = 0x3A3 → k.final before after = false) : lowerAt u k before c after = u.lower c := by
  unfold lowerAt
  by_cases hc : c = 0x3A3
  · subst hc
    rw [if_pos rfl, h rfl, hk.sigma]; rfl
  · rw [if_neg hc]

theorem noFinal_tail {k : Casing} {before s : List Nat} {c : Nat} (h : ¬HasFinal k before (c :: s)) : ¬HasFinal k (before ++ [c]) s := by
  rintro ⟨pre, post, rfl, h2⟩
  exact h ⟨c :: pre, post, rfl, by simpa using h2⟩

theorem noFinal_head {k : Casing} {before s : List Nat} {c : Nat} (h : ¬HasFinal k before (c :: s)) (hc : c = 0x3A3) :
    k.final before s = false := by
  rw [← Bool.not_eq_true]
  intro hf
  exact h ⟨[], s, by simp [hc], by simpa using hf⟩

theorem pyLower_iff {u : Unicode} {k : Casing} (hk : u.Cases k) : ∀ (s before : List Nat),
    s.flatMap u.lower = pyLower u k before s ↔ ¬HasFinal k before s
  | [], before => by
    simp only [List.flatMap_nil, pyLower, true_iff]
    rintro ⟨pre, post, h, _⟩
    simp at h
  | c :: s, before => by
    have ih := pyLower_iff hk s (before ++ [c])
    simp only [List.flatMap_cons, pyLower]
    have hlen : (u.lower c).length = (lowerAt u k before c s).length := by
      unfold lowerAt
      by_cases hc : c = 0x3A3
      · subst hc
        rw [if_pos rfl, hk.sigma]
        split <;> rfl
      · rw [if_neg hc]
    constructor
    · intro h
      obtain ⟨h1, h2⟩ := List.append_inj h hlen
      rintro ⟨pre, post, he, hf⟩
      cases pre with
      | nil =>
        simp only [List.nil_append, List.cons.injEq, List.append_nil] at he hf
        obtain ⟨rfl, rfl⟩ := he
        rw [lowerAt, if_pos rfl, if_pos hf, hk.sigma] at h1
        simp at h1
      | cons d pre =>
        simp only [List.cons_append, List.cons.injEq] at he
        obtain ⟨rfl, rfl⟩ := he
        exact ih.1 h2 ⟨pre, post, rfl, by simpa using hf⟩
    · intro h
      rw [ih.2 (noFinal_tail h), lowerAt_eq hk (noFinal_head h)]

theorem pySwapcase_eq {u : Unicode} {k : Casing} (hk : u.Cases k) : ∀ (s before : List Nat), ¬HasFinal k before s →
    pySwapcase u k before s = s.flatMap fun c => if u.isLower c then u.upper c else if u.isUpper c then u.lower c else [c]
  | [], _, _ => rfl
  | c :: s, before, h => by
    rw [pySwapcase, List.flatMap_cons, pySwapcase_eq hk s _ (noFinal_tail h), lowerAt_eq hk (noFinal_head h)]
    congr 1
    have := hk.either c
    by_cases h1 : u.isUpper c = true <;> by_cases h2 : u.isLower c = true <;> simp_all

/-- The case of each character in turn. -/
def titleGo (u : Unicode) (k : Casing) : Bool → List Nat → List Nat
  | _, [] => []
  | cased, c :: s => (if cased then u.lower c else u.title c) ++ titleGo u k (k.cased c) s

theorem pyTitle_eq {u : Unicode} {k : Casing} (hk : u.Cases k) : ∀ (s before : List Nat) (cased : Bool), ¬HasFinal k before s →
    pyTitle u k cased before s = titleGo u k cased s
  | [], _, _, _ => rfl
  | c :: s, before, cased, h => by
    rw [pyTitle, titleGo, pyTitle_eq hk s _ _ (noFinal_tail h), lowerAt_eq hk (noFinal_head h)]

/-! ## Values for all functions -/

/-- Values that obey everything. -/
noncomputable def model (u : Unicode) (n : Nat) : Interp where
  pred s c :=
    match fns.find? fun f => "is_" ++ f.name == s with
    | some f => (maskOf u n f).any fun m => smtMatches m c
    | none => false
  fn s c :=
    match fns.find? fun f => f.name == s with
    | some f => (((tableOf u n f).getD []).lookup c.toNat).getD 0
    | none => 0

theorem find_name (f : Fn) : (fns.find? fun g => g.name == f.name) = some f := by
  cases h : fns.find? fun g => g.name == f.name with
  | none =>
    rw [List.find?_eq_none] at h
    exact absurd (beq_self_eq_true f.name) (h f (mem_fns f))
  | some g =>
    have := List.find?_some h
    have e : g = f := name_inj (by simpa using this)
    rw [e]

theorem find_is (f : Fn) : (fns.find? fun g => "is_" ++ g.name == "is_" ++ f.name) = some f := by
  rw [← find_name f]
  congr 1
  funext g
  rw [Bool.eq_iff_iff, beq_iff_eq, beq_iff_eq, String.append_right_inj]

theorem lookup_sorted {ts : List (Nat × Int)} (h : ts.Pairwise fun a b => a.1 < b.1) : ∀ p ∈ ts, ts.lookup p.1 = some p.2 := by
  induction ts with
  | nil => intro p hp; cases hp
  | cons t ts ih =>
    intro p hp
    rw [List.pairwise_cons] at h
    rw [List.lookup_cons]
    rcases List.mem_cons.1 hp with rfl | hp
    · simp
    · have : (p.1 == t.1) = false := by
        have := h.1 p hp
        simp; omega
      rw [this]
      exact ih h.2 p hp

theorem table_sorted {u : Unicode} {n : Nat} {f : Fn} {t : List (Nat × Int)} (h : tableOf u n f = some t) : t.Pairwise fun a b => a.1 < b.1 := by
  have hc : ∀ g k, (caseNth n g k).Pairwise fun a b => a.1 < b.1 := by
    intro g k
    rw [caseNth, List.pairwise_map]
    exact (charFnMap_sorted _ _).filter _
  cases f <;> simp only [tableOf, Option.some.injEq, reduceCtorEq] at h <;> subst h
  case first m => exact hc _ _
  case second m => exact hc _ _
  case third m => exact hc _ _
  case decimalInt => exact charFnMap_sorted _ _
  case digitInt => exact charFnMap_sorted _ _
  case numerator => rw [List.pairwise_map]; exact charFnMap_sorted _ _
  case denominator => rw [List.pairwise_map]; exact charFnMap_sorted _ _

theorem model_sat (u : Unicode) (n : Nat) (f : Fn) {k : Constraint} (h : constraintOf u n f = some k) : (model u n).Sat k := by
  unfold constraintOf at h
  cases ht : tableOf u n f with
  | some t =>
    simp only [ht, Option.some.injEq] at h
    subst h
    rw [sat_intTransform]
    intro p hp
    simp only [model, find_name, ht, Option.getD_some, Int.toNat_natCast, lookup_sorted (table_sorted ht) p hp]
  | none =>
    simp only [ht, Option.map_eq_some_iff] at h
    obtain ⟨m, hm, rfl⟩ := h
    intro c
    simp only [model, find_is, hm, Option.any_some]

/-! ## Which categories there are -/

theorem categoryMask_isSome {u : Unicode} (hu : u.Ok) {n : Nat} (h1 : 1 ≤ n) (hn : n ≤ top) (name : String) :
    (categoryMask u n name).isSome = true ↔ name = "word" ∨ ∃ c < n, u.category c = name := by
  unfold categoryMask computeCategories
  dsimp only
  have hs := scan_ok hu.zero n h1 hn
  revert hs
  generalize ((List.range n).drop 1).foldl (scanStep u) ⟨0, u.category 0, [], []⟩ = s
  intro hs
  have hi : Items u n (s.data ++ [(u.category (n - 1), Part.span s.lastPoint n)]) := by
    refine hs.items.snoc rfl hs.lt fun c ha hb => ?_
    rw [hs.same c ha hb, hs.same (n - 1) (by have := hs.lt; omega) (by omega)]
  revert hi
  generalize s.data ++ [(u.category (n - 1), Part.span s.lastPoint n)] = data
  intro hi
  rw [lookup_map_fst]
  have hm : name ∈ (data.map Prod.fst).eraseDups ↔ ∃ c < n, u.category c = name := by
    rw [List.mem_eraseDups, List.mem_map]
    constructor
    · rintro ⟨p, hp, rfl⟩
      have := hi.part p hp
      exact ⟨p.2.bounds.1, by omega, hi.cat p hp _ (Nat.le_refl _) this.1⟩
    · rintro ⟨c, hc, rfl⟩
      obtain ⟨p, hp, h2, h3⟩ := hi.all c hc
      exact ⟨p, hp, (hi.cat p hp c h2 h3).symm⟩
  by_cases h : ∃ c < n, u.category c = name
  · rw [if_pos (hm.2 h)]; simp [h]
  · rw [if_neg fun h' => h (hm.1 h')]
    by_cases hw : name = "word"
    · subst hw; simp
    · simp [hw, h]

theorem unicodeMask_isSome {u : Unicode} (hu : u.Ok) {n : Nat} (h1 : 1 ≤ n) (hn : n ≤ top) : ∀ (more : List String) (first : String),
    (∀ k ∈ first :: more, ∃ c < n, u.category c = k) → (unicodeMask u n first more).isSome = true := by
  intro more
  induction more using List.reverseRecOn with
  | nil =>
    intro first h
    exact (categoryMask_isSome hu h1 hn first).2 (Or.inr (h first (by simp)))
  | append_singleton more k ih =>
    intro first h
    unfold unicodeMask at ih ⊢
    rw [List.foldl_append]
    have hA := ih first fun x hx => h x (by simp only [List.mem_cons, List.mem_append] at hx ⊢; tauto)
    have hB := (categoryMask_isSome hu h1 hn k).2 (Or.inr (h k (by simp)))
    obtain ⟨a, ha⟩ := Option.isSome_iff_exists.1 hA
    obtain ⟨b, hb⟩ := Option.isSome_iff_exists.1 hB
    rw [List.foldl_cons, List.foldl_nil, ha, hb]
    rfl

end Verif.CaseMaps
