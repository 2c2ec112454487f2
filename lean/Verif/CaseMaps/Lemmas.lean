import Verif.CaseMaps.Spec
import Verif.Mask.Lemmas
import Mathlib.Data.List.Induction
import Mathlib.Data.Nat.Init
import Mathlib.Order.Basic

/-! Lemmas about tables of characters. -/
namespace Verif.CaseMaps

open Verif.Mask

/-! ## Masks of lists -/

theorem makeMask_ok {vals : List Nat} (h : vals.Pairwise (· < ·)) (ht : ∀ v ∈ vals, v < top) :
    (makeMask vals).Ok ∧ ∀ c, covers (makeMask vals) c = true ↔ c ∈ vals := by
  have e : makeMask vals = addAll (vals.map fun v => (v, v + 1)) := by
    simp [makeMask, addAll, List.foldl_map]
  have := addAll_ok (bs := vals.map fun v => (v, v + 1)) (by
      intro b hb
      obtain ⟨v, hv, rfl⟩ := List.mem_map.1 hb
      exact ht v hv) (by
      rw [List.pairwise_map]
      exact h.imp fun h _ _ => Nat.le_of_lt h)
  rw [e]
  refine ⟨this.1, fun c => ?_⟩
  rw [this.2]
  constructor
  · rintro ⟨b, hb, h1, h2⟩
    obtain ⟨v, hv, rfl⟩ := List.mem_map.1 hb
    have : c = v := by dsimp only at h1 h2; omega
    exact this ▸ hv
  · intro hc
    exact ⟨(c, c + 1), List.mem_map.2 ⟨c, hc, rfl⟩, Nat.le_refl _, Nat.lt_succ_self _⟩

theorem mem_charFnMap {A : Type} {n : Nat} {f : Nat → Option A} {p : Nat × A} : p ∈ charFnMap n f ↔ p.1 < n ∧ f p.1 = some p.2 := by
  obtain ⟨a, b⟩ := p
  simp only [charFnMap, List.mem_filterMap, List.mem_range, Option.map_eq_some_iff, Prod.mk.injEq]
  constructor
  · rintro ⟨c, hc, v, hv, rfl, rfl⟩
    exact ⟨hc, hv⟩
  · rintro ⟨h1, h2⟩
    exact ⟨a, h1, b, h2, rfl, rfl⟩

theorem charFnMap_sorted {A : Type} (n : Nat) (f : Nat → Option A) : (charFnMap n f).Pairwise fun a b => a.1 < b.1 := by
  unfold charFnMap
  rw [List.pairwise_filterMap]
  refine List.pairwise_lt_range.imp ?_
  intro a b hab x hx y hy
  simp only [Option.map_eq_some_iff] at hx hy
  obtain ⟨_, _, rfl⟩ := hx
  obtain ⟨_, _, rfl⟩ := hy
  exact hab

theorem domainMask_ok {A : Type} {n : Nat} (hn : n ≤ top) (f : Nat → Option A) :
    (domainMask n f).Ok ∧ ∀ c, covers (domainMask n f) c = true ↔ c < n ∧ (f c).isSome := by
  have h := makeMask_ok (vals := (charFnMap n f).map Prod.fst) (by
      rw [List.pairwise_map]; exact charFnMap_sorted n f) (by
      intro v hv
      obtain ⟨p, hp, rfl⟩ := List.mem_map.1 hv
      have := (mem_charFnMap.1 hp).1
      omega)
  refine ⟨h.1, fun c => ?_⟩
  unfold domainMask
  rw [h.2, List.mem_map, Option.isSome_iff_exists]
  constructor
  · rintro ⟨p, hp, rfl⟩
    exact ⟨(mem_charFnMap.1 hp).1, _, (mem_charFnMap.1 hp).2⟩
  · rintro ⟨h1, v, hv⟩
    exact ⟨(c, v), mem_charFnMap.2 ⟨h1, hv⟩, rfl⟩

theorem predicateMask_eq (n : Nat) (p : Nat → Bool) : predicateMask n p = makeMask ((List.range n).filter p) := by
  unfold predicateMask makeMask
  rw [List.foldl_filter]

theorem predicateMask_ok {n : Nat} (hn : n ≤ top) (p : Nat → Bool) :
    (predicateMask n p).Ok ∧ ∀ c, covers (predicateMask n p) c = true ↔ c < n ∧ p c = true := by
  have h := makeMask_ok (vals := (List.range n).filter p) (List.pairwise_lt_range.filter _) (by
    intro v hv
    have := (List.mem_filter.1 hv).1
    rw [List.mem_range] at this
    omega)
  rw [predicateMask_eq]
  refine ⟨h.1, fun c => ?_⟩
  rw [h.2, List.mem_filter, List.mem_range]

theorem mem_casemap {n : Nat} {f : Nat → List Nat} {p : Nat × List Nat} : p ∈ casemap n f ↔ p.1 < n ∧ f p.1 ≠ [p.1] ∧ f p.1 = p.2 := by
  unfold casemap
  rw [mem_charFnMap]
  by_cases h : f p.1 = [p.1] <;> simp [h]

theorem caseExists_ok {n : Nat} (hn : n ≤ top) (f : Nat → List Nat) (k : Nat) :
    (caseExists n f k).Ok ∧ ∀ c, covers (caseExists n f k) c = true ↔ c < n ∧ f c ≠ [c] ∧ k ≤ (f c).length := by
  have h := makeMask_ok (vals := ((casemap n f).filter fun p => k ≤ p.2.length).map Prod.fst) (by
      rw [List.pairwise_map]
      exact (charFnMap_sorted n _).filter _) (by
      intro v hv
      obtain ⟨p, hp, rfl⟩ := List.mem_map.1 hv
      have := (mem_casemap.1 (List.mem_filter.1 hp).1).1
      omega)
  refine ⟨h.1, fun c => ?_⟩
  unfold caseExists
  rw [h.2, List.mem_map]
  constructor
  · rintro ⟨p, hp, rfl⟩
    obtain ⟨h1, h2⟩ := List.mem_filter.1 hp
    obtain ⟨h3, h4, h5⟩ := mem_casemap.1 h1
    refine ⟨h3, h4, ?_⟩
    rw [h5]; simpa using h2
  · rintro ⟨h1, h2, h3⟩
    exact ⟨(c, f c), List.mem_filter.2 ⟨mem_casemap.2 ⟨h1, h2, rfl⟩, by simpa using h3⟩, rfl⟩

theorem mem_caseNth {n : Nat} {f : Nat → List Nat} {k : Nat} {p : Nat × Int} :
    p ∈ caseNth n f k ↔ p.1 < n ∧ f p.1 ≠ [p.1] ∧ k ≤ (f p.1).length ∧ p.2 = ((f p.1).getD (k - 1) 0 : Int) := by
  obtain ⟨a, b⟩ := p
  simp only [caseNth, List.mem_map, List.mem_filter, Prod.mk.injEq]
  constructor
  · rintro ⟨q, ⟨h1, h2⟩, rfl, rfl⟩
    obtain ⟨h3, h4, h5⟩ := mem_casemap.1 h1
    refine ⟨h3, h4, ?_, ?_⟩
    · rw [h5]; simpa using h2
    · rw [h5]
  · rintro ⟨h1, h2, h3, h4⟩
    exact ⟨(a, f a), ⟨mem_casemap.2 ⟨h1, h2, rfl⟩, by simpa using h3⟩, rfl, h4.symm⟩

/-! ## Categories -/

/-- The items that have been found up to `last`. -/
structure Items (u : Unicode) (last : Nat) (data : List (String × Part)) : Prop where
  part : ∀ p ∈ data, p.2.bounds.1 < p.2.bounds.2 ∧ p.2.bounds.2 ≤ last
  order : data.Pairwise fun a b => a.2.bounds.2 ≤ b.2.bounds.1
  all : ∀ c < last, ∃ p ∈ data, p.2.bounds.1 ≤ c ∧ c < p.2.bounds.2
  cat : ∀ p ∈ data, ∀ c, p.2.bounds.1 ≤ c → c < p.2.bounds.2 → u.category c = p.1

theorem Items.snoc {u : Unicode} {last cur : Nat} {data : List (String × Part)} (h : Items u last data) {cat : String} {part : Part}
    (hp : part.bounds = (last, cur)) (hlt : last < cur) (hc : ∀ c, last ≤ c → c < cur → u.category c = cat) :
    Items u cur (data ++ [(cat, part)]) := by
  refine ⟨?_, ?_, ?_, ?_⟩
  · intro p hp'
    rcases List.mem_append.1 hp' with h' | h'
    · have := h.part p h'; omega
    · rw [List.mem_singleton] at h'; subst h'; rw [hp]; exact ⟨hlt, Nat.le_refl _⟩
  · rw [List.pairwise_append]
    refine ⟨h.order, List.pairwise_singleton _ _, ?_⟩
    intro a ha b hb
    rw [List.mem_singleton] at hb; subst hb
    rw [hp]; exact (h.part a ha).2
  · intro c hcl
    by_cases hl : c < last
    · obtain ⟨p, h1, h2⟩ := h.all c hl
      exact ⟨p, List.mem_append_left _ h1, h2⟩
    · refine ⟨(cat, part), by simp, ?_⟩
      rw [hp]; dsimp only; omega
  · intro p hp' c h1 h2
    rcases List.mem_append.1 hp' with h' | h'
    · exact h.cat p h' c h1 h2
    · rw [List.mem_singleton] at h'; subst h'
      rw [hp] at h1 h2; exact hc c h1 h2

/-- What holds after the characters below `n`. -/
structure ScanOk (u : Unicode) (n : Nat) (s : Scan) : Prop where
  lt : s.lastPoint < n
  same : ∀ c, s.lastPoint ≤ c → c < n → u.category c = s.lastCategory
  items : Items u s.lastPoint s.data
  wordOk : s.word.Ok
  upto : ∀ b ∈ bounds s.word, b.1 ≤ n
  word : ∀ c, covers s.word c = true ↔ c < n ∧ u.isWord c = true

theorem scanStep_ok {u : Unicode} {n : Nat} {s : Scan} (h : ScanOk u n s) (hn : n < top) : ScanOk u (n + 1) (scanStep u s n) := by
  have hw : let w := if u.isWord n then maybeAdd s.word n (n + 1) else s.word
      w.Ok ∧ (∀ b ∈ bounds w, b.1 ≤ n + 1) ∧ ∀ c, covers w c = true ↔ c < n + 1 ∧ u.isWord c = true := by
    dsimp only
    by_cases hi : u.isWord n = true
    · rw [if_pos hi]
      have ha := add_ok h.wordOk (fun _ => h.upto) (show n + 1 ≤ top from hn)
      have hc : ∀ c, covers (maybeAdd s.word n (n + 1)) c = true ↔ c < n + 1 ∧ u.isWord c = true := by
        intro c
        rw [ha.2.1, h.word]
        constructor
        · rintro (⟨h1, h2⟩ | ⟨h1, h2⟩)
          · exact ⟨by omega, h2⟩
          · have : c = n := by omega
            exact ⟨h2, this ▸ hi⟩
        · rintro ⟨h1, h2⟩
          by_cases hcn : c = n
          · right; omega
          · left; exact ⟨by omega, h2⟩
      refine ⟨ha.1, ?_, hc⟩
      intro b hb
      have := (hc b.1).1 ((covers_iff _ _).2 ⟨b, hb, Nat.le_refl _, (ha.1.part b hb).1⟩)
      omega
    · rw [if_neg hi]
      refine ⟨h.wordOk, fun b hb => Nat.le_succ_of_le (h.upto b hb), ?_⟩
      intro c
      rw [h.word]
      constructor
      · rintro ⟨h1, h2⟩; exact ⟨by omega, h2⟩
      · rintro ⟨h1, h2⟩
        refine ⟨?_, h2⟩
        by_contra hcn
        have : c = n := by omega
        exact hi (this ▸ h2)
  obtain ⟨w1, w2, w3⟩ := hw
  unfold scanStep
  dsimp only
  by_cases hc : u.category n ≠ s.lastCategory
  · rw [if_pos hc]
    refine ⟨Nat.lt_succ_self _, ?_, ?_, w1, w2, w3⟩
    · intro c h1 h2
      have : c = n := by dsimp only at h1; omega
      rw [this]
    · refine h.items.snoc ?_ h.lt h.same
      by_cases h1 : n = s.lastPoint + 1
      · rw [if_pos h1]; simp [Part.bounds, h1]
      · rw [if_neg h1]; rfl
  · rw [if_neg hc]
    refine ⟨Nat.lt_succ_of_lt h.lt, ?_, h.items, w1, w2, w3⟩
    intro c h1 h2
    by_cases hcn : c = n
    · subst hcn; exact not_not.1 hc
    · exact h.same c h1 (by omega)

theorem scan_ok {u : Unicode} (hu : u.isWord 0 = false) : ∀ n, 1 ≤ n → n ≤ top →
    ScanOk u n (((List.range n).drop 1).foldl (scanStep u) ⟨0, u.category 0, [], []⟩) := by
  intro n h1
  induction n, h1 using Nat.le_induction with
  | base =>
    intro _
    refine ⟨Nat.zero_lt_one, ?_, ⟨by simp, by simp, by simp, by simp⟩, ⟨by simp [bounds], by simp [bounds]⟩, by simp [bounds], ?_⟩
    · intro c _ h
      have : c = 0 := by omega
      rw [this]; rfl
    · intro c
      simp only [List.range_one, List.drop_one, List.tail_cons, List.foldl_nil]
      constructor
      · intro h; simp [covers, bounds] at h
      · rintro ⟨h1, h2⟩
        have : c = 0 := by omega
        rw [this, hu] at h2; cases h2
  | succ n hn ih =>
    intro ht
    have := scanStep_ok (ih (by omega)) (by omega)
    rw [List.range_succ, List.drop_append_of_le_length (by simpa using hn), List.foldl_append]
    exact this

theorem lookup_map_fst {A : Type} (ns : List String) (g : String → A) (rest : List (String × A)) (k : String) :
    ((ns.map fun n => (n, g n)) ++ rest).lookup k = if k ∈ ns then some (g k) else rest.lookup k := by
  induction ns with
  | nil => simp
  | cons n ns ih =>
    simp only [List.map_cons, List.cons_append, List.lookup_cons, ih, List.mem_cons]
    by_cases h : k = n
    · subst h; simp
    · have : (k == n) = false := by simpa using h
      simp [this, h]

/-- The masks of the categories hold what they should. -/
theorem categoryMask_ok {u : Unicode} (hu : u.Ok) {n : Nat} (h1 : 1 ≤ n) (hn : n ≤ top) {name : String} {m : Mask}
    (h : categoryMask u n name = some m) : m.Loose ∧ ∀ c, covers m c = true ↔ c < n ∧ if name = "word" then u.isWord c = true else u.category c = name := by
  unfold categoryMask computeCategories at h
  dsimp only at h
  have hs := scan_ok hu.zero n h1 hn
  revert h hs
  generalize ((List.range n).drop 1).foldl (scanStep u) ⟨0, u.category 0, [], []⟩ = s
  intro h hs
  have hi : Items u n (s.data ++ [(u.category (n - 1), Part.span s.lastPoint n)]) := by
    refine hs.items.snoc rfl hs.lt fun c ha hb => ?_
    rw [hs.same c ha hb, hs.same (n - 1) (by have := hs.lt; omega) (by omega)]
  revert h hi
  generalize s.data ++ [(u.category (n - 1), Part.span s.lastPoint n)] = data
  intro h hi
  rw [lookup_map_fst] at h
  have hword : "word" ∉ (data.map Prod.fst).eraseDups := by
    rw [List.mem_eraseDups, List.mem_map]
    rintro ⟨p, hp, hpw⟩
    have hb := (hi.part p hp).1
    exact hu.word _ ((hi.cat p hp _ (Nat.le_refl _) hb).trans hpw)
  by_cases hk : name ∈ (data.map Prod.fst).eraseDups
  · rw [if_pos hk, Option.some.injEq] at h
    subst h
    have hnw : name ≠ "word" := fun e => hword (e ▸ hk)
    refine ⟨⟨?_, ?_⟩, ?_⟩
    · intro b hb
      simp only [bounds, List.mem_map, List.mem_filter] at hb
      obtain ⟨_, ⟨p, ⟨hp, _⟩, rfl⟩, rfl⟩ := hb
      have := hi.part p hp
      omega
    · rw [bounds, List.map_map, List.pairwise_map]
      exact (hi.order.filter _)
    · intro c
      rw [if_neg hnw, covers_iff]
      constructor
      · rintro ⟨b, hb, h2, h3⟩
        simp only [bounds, List.mem_map, List.mem_filter] at hb
        obtain ⟨_, ⟨p, ⟨hp, hpn⟩, rfl⟩, rfl⟩ := hb
        have := hi.part p hp
        refine ⟨by omega, ?_⟩
        rw [hi.cat p hp c h2 h3]; simpa using hpn
      · rintro ⟨h2, h3⟩
        obtain ⟨p, hp, h4, h5⟩ := hi.all c h2
        refine ⟨p.2.bounds, ?_, h4, h5⟩
        simp only [bounds, List.mem_map, List.mem_filter]
        exact ⟨p.2, ⟨p, ⟨hp, by rw [← hi.cat p hp c h4 h5, h3]; simp⟩, rfl⟩, rfl⟩
  · rw [if_neg hk] at h
    by_cases hw : name = "word"
    · subst hw
      simp only [List.lookup_cons, beq_self_eq_true] at h
      rw [Option.some.injEq] at h
      subst h
      refine ⟨hs.wordOk.loose, fun c => ?_⟩
      rw [hs.word, if_pos rfl]
    · have : (name == "word") = false := by simpa using hw
      simp [List.lookup_cons, this] at h

/-- The masks of several categories. -/
theorem unicodeMask_ok {u : Unicode} (hu : u.Ok) {n : Nat} (h1 : 1 ≤ n) (hn : n ≤ top) : ∀ (more : List String) (first : String) {m : Mask},
    (∀ k ∈ first :: more, k ≠ "word") → unicodeMask u n first more = some m →
      m.Loose ∧ ∀ c, covers m c = true ↔ c < n ∧ u.category c ∈ first :: more := by
  intro more
  induction more using List.reverseRecOn with
  | nil =>
    intro first m hw h
    have := categoryMask_ok hu h1 hn h
    refine ⟨this.1, fun c => ?_⟩
    rw [this.2, if_neg (hw first (by simp)), List.mem_singleton]
  | append_singleton more k ih =>
    intro first m hw h
    unfold unicodeMask at h ih
    rw [List.foldl_append] at h
    simp only [List.foldl_cons, List.foldl_nil, bind, Option.bind, pure] at h
    split at h
    · cases h
    · rename_i a ha
      dsimp only at h
      split at h
      · cases h
      · rename_i b hb
        rw [Option.some.injEq] at h
        subst h
        have hA := ih first (fun x hx => hw x (by simp only [List.mem_cons, List.mem_append] at hx ⊢; tauto)) ha
        have hB := categoryMask_ok hu h1 hn hb
        have hU := union_ok (fun b hb => (hA.1.part b hb).2) (fun b hb => (hB.1.part b hb).2)
        refine ⟨hU.1.loose, fun c => ?_⟩
        rw [hU.2, hA.2, hB.2, if_neg (hw k (by simp))]
        simp only [List.mem_cons, List.mem_append, List.not_mem_nil, or_false]
        tauto

/-! ## What the constraints say -/

theorem nil_loose : Mask.Loose [] := ⟨by simp [bounds], by simp [bounds]⟩

theorem maskOf_ok {u : Unicode} (hu : u.Ok) {n : Nat} (h1 : 1 ≤ n) (hn : n ≤ top) {f : Fn} {m : Mask} (h : maskOf u n f = some m)
    (c : Nat) : covers m c = true ↔ Means u n c f := by
  cases f <;> simp only [maskOf, Option.some.injEq, Option.map_eq_some_iff, reduceCtorEq] at h <;> simp only [Means]
  case ascii => subst h; simp [covers, bounds, Part.bounds]
  case alnum =>
    obtain ⟨a, ha, rfl⟩ := h
    have hA := unicodeMask_ok hu h1 hn _ _ (by decide) ha
    have hB := domainMask_ok hn u.numeric
    rw [(union_ok (fun b hb => (hA.1.part b hb).2) (fun b hb => (hB.1.part b hb).2)).2, hA.2, hB.2]
    tauto
  case alpha => exact (unicodeMask_ok hu h1 hn _ _ (by decide) h).2 c
  case decimal =>
    rw [(unicodeMask_ok hu h1 hn _ _ (by decide) h).2 c, List.mem_singleton]
  case digit => subst h; exact (domainMask_ok hn _).2 c
  case numeric => subst h; exact (domainMask_ok hn _).2 c
  case lower => subst h; rw [(domainMask_ok hn _).2 c]; split <;> simp_all
  case printable =>
    obtain ⟨a, ha, rfl⟩ := h
    have hA := unicodeMask_ok hu h1 hn _ _ (by decide) ha
    have hI := invert_ok hA.1
    have hO := one_loose 32 (by decide)
    rw [(union_ok (fun b hb => (hI.1.part b hb).2) (fun b hb => (hO.part b hb).2)).2, hI.2, one_covers, ← Bool.not_eq_true, hA.2]
    have ht : (0x110000 : Nat) = top := rfl
    rw [ht]
    have h32 : c = 32 → c < top := by rintro rfl; decide
    have hm : u.category c ∈ ["Cc", "Co", "Cn", "Cf", "Cs", "Zs", "Zl", "Zp", "Zs"] ↔
        u.category c ∈ ["Cc", "Cf", "Cs", "Co", "Cn", "Zl", "Zp", "Zs"] :=
      ⟨(show ∀ x ∈ ["Cc", "Co", "Cn", "Cf", "Cs", "Zs", "Zl", "Zp", "Zs"], x ∈ ["Cc", "Cf", "Cs", "Co", "Cn", "Zl", "Zp", "Zs"] by decide) _,
        (show ∀ x ∈ ["Cc", "Cf", "Cs", "Co", "Cn", "Zl", "Zp", "Zs"], x ∈ ["Cc", "Co", "Cn", "Cf", "Cs", "Zs", "Zl", "Zp", "Zs"] by decide) _⟩
    rw [hm]
    constructor
    · rintro (⟨h2, h3⟩ | h2)
      · exact ⟨h2, Or.inr h3⟩
      · exact ⟨h32 h2, Or.inl h2⟩
    · rintro ⟨h2, h3 | h3⟩
      · exact Or.inr h3
      · exact Or.inl ⟨h2, h3⟩
  case space =>
    subst h
    rw [(predicateMask_ok hn _).2 c]
    simp only [isSpaceChar]
    by_cases h1 : u.category c = "Zs"
    · simp [h1]
    · simp [h1]
  case newline => subst h; exact ones_covers _ _
  case upper => subst h; rw [(domainMask_ok hn _).2 c]; split <;> simp_all
  case title => subst h; rw [(domainMask_ok hn _).2 c]; split <;> simp_all
  case word => rw [(categoryMask_ok hu h1 hn h).2 c, if_pos rfl]
  case exists1 mp => subst h; rw [(caseExists_ok hn _ _).2 c]; simp
  case exists2 mp => subst h; exact (caseExists_ok hn _ _).2 c
  case exists3 mp => subst h; exact (caseExists_ok hn _ _).2 c
  case digitExists => subst h; exact (domainMask_ok hn _).2 c
  case decimalExists => subst h; exact (domainMask_ok hn _).2 c
  case numericExists => subst h; exact (domainMask_ok hn _).2 c

theorem table_mask {u : Unicode} {n : Nat} {f : Fn} {m : Mask} (h : maskOf u n f = some m) : tableOf u n f = none := by
  cases f <;> simp [tableOf, maskOf] at h ⊢

theorem addKey_mem (gs : List (Int × List Nat)) (p q : Nat × Int) :
    (∃ g ∈ addKey gs p, g.1 = q.2 ∧ q.1 ∈ g.2) ↔ (∃ g ∈ gs, g.1 = q.2 ∧ q.1 ∈ g.2) ∨ q = p := by
  unfold addKey
  by_cases h : (gs.any fun g => g.1 == p.2) = true
  · rw [if_pos h]
    simp only [List.any_eq_true, beq_iff_eq] at h
    obtain ⟨g0, hg0, he⟩ := h
    constructor
    · rintro ⟨g, hg, h1, h2⟩
      obtain ⟨g', hg', rfl⟩ := List.mem_map.1 hg
      by_cases h3 : g'.1 = p.2
      · rw [if_pos h3] at h1 h2
        rcases List.mem_append.1 h2 with h4 | h4
        · exact Or.inl ⟨g', hg', h1, h4⟩
        · right
          rw [List.mem_singleton] at h4
          exact Prod.ext h4 (h1.symm.trans h3)
      · rw [if_neg h3] at h1 h2
        exact Or.inl ⟨g', hg', h1, h2⟩
    · rintro (⟨g, hg, h1, h2⟩ | rfl)
      · refine ⟨_, List.mem_map.2 ⟨g, hg, rfl⟩, ?_⟩
        by_cases h3 : g.1 = p.2
        · rw [if_pos h3]; exact ⟨h1, List.mem_append_left _ h2⟩
        · rw [if_neg h3]; exact ⟨h1, h2⟩
      · refine ⟨_, List.mem_map.2 ⟨g0, hg0, rfl⟩, ?_⟩
        rw [if_pos he]
        exact ⟨he, by simp⟩
  · rw [if_neg h]
    simp only [List.mem_append, List.mem_singleton]
    constructor
    · rintro ⟨g, hg | rfl, h1, h2⟩
      · exact Or.inl ⟨g, hg, h1, h2⟩
      · right
        rw [List.mem_singleton] at h2
        exact Prod.ext h2 h1.symm
    · rintro (⟨g, hg, h1⟩ | rfl)
      · exact ⟨g, Or.inl hg, h1⟩
      · exact ⟨_, Or.inr rfl, rfl, by simp⟩

theorem groups_mem (ts : List (Nat × Int)) (gs : List (Int × List Nat)) (q : Nat × Int) :
    (∃ g ∈ ts.foldl addKey gs, g.1 = q.2 ∧ q.1 ∈ g.2) ↔ (∃ g ∈ gs, g.1 = q.2 ∧ q.1 ∈ g.2) ∨ q ∈ ts := by
  induction ts generalizing gs with
  | nil => simp
  | cons t ts ih => rw [List.foldl_cons, ih, addKey_mem, List.mem_cons, or_assoc]

/-- The equations are those of the table. -/
theorem sat_intTransform (i : Interp) (name : String) (ts : List (Nat × Int)) :
    i.Sat (intTransform name ts) ↔ ∀ p ∈ ts, i.fn name p.1 = p.2 := by
  simp only [intTransform, Interp.Sat]
  have key : ∀ q : Nat × Int, q ∈ ((ts.foldl addKey []).flatMap fun g => g.2.map fun k => (k, g.1)) ↔ q ∈ ts := by
    intro q
    have := groups_mem ts [] q
    simp only [List.not_mem_nil, false_and, exists_false, false_or] at this
    rw [← this, List.mem_flatMap]
    constructor
    · rintro ⟨g, hg, h⟩
      obtain ⟨k, hk, rfl⟩ := List.mem_map.1 h
      exact ⟨g, hg, rfl, hk⟩
    · rintro ⟨g, hg, h1, h2⟩
      exact ⟨g, hg, List.mem_map.2 ⟨q.1, h2, Prod.ext rfl h1⟩⟩
  constructor
  · intro h p hp; exact h p ((key p).2 hp)
  · intro h p hp; exact h p ((key p).1 hp)

/-- A constraint of a mask. -/
theorem test_ok {u : Unicode} (hu : u.Ok) {n : Nat} (h1 : 1 ≤ n) (hn : n ≤ top) {i : Interp} {f : Fn} {k : Constraint}
    (hk : constraintOf u n f = some k) (hs : i.Sat k) (ht : tableOf u n f = none) (c : Int) :
    i.test f c = true ↔ 0 ≤ c ∧ Means u n c.toNat f := by
  unfold constraintOf at hk
  rw [ht] at hk
  simp only [Option.map_eq_some_iff] at hk
  obtain ⟨m, hm, rfl⟩ := hk
  have := hs c
  rw [Interp.test, this]
  by_cases h : 0 ≤ c
  · obtain ⟨d, rfl⟩ := Int.eq_ofNat_of_zero_le h
    rw [smtMatches_eq, maskOf_ok hu h1 hn hm]
    simp
  · rw [smtMatches_neg m c (by omega)]
    simp [h]

theorem app_ok {u : Unicode} {n : Nat} {i : Interp} {f : Fn} {k : Constraint} {t : List (Nat × Int)}
    (hk : constraintOf u n f = some k) (hs : i.Sat k) (ht : tableOf u n f = some t) : ∀ p ∈ t, i.app f p.1 = p.2 := by
  unfold constraintOf at hk
  rw [ht] at hk
  simp only [Option.some.injEq] at hk
  subst hk
  exact (sat_intTransform _ _ _).1 hs

/-! ## Mappings of characters -/

theorem nth_ok {u : Unicode} {n : Nat} {i : Interp} {m : Mapping} {f : Fn} {j : Nat} (ho : ∃ k, constraintOf u n f = some k ∧ i.Sat k)
    (ht : tableOf u n f = some (caseNth n (m.fn u) (j + 1))) {c : Nat} (hc : c < n) (hne : m.fn u c ≠ [c]) (hl : j + 1 ≤ (m.fn u c).length) :
    i.app f c = ((m.fn u c).getD j 0 : Int) := by
  obtain ⟨k, hk, hs⟩ := ho
  exact app_ok hk hs ht (c, _) (mem_caseNth.2 ⟨hc, hne, hl, rfl⟩)

theorem testMap {u : Unicode} (hu : u.Ok) {n : Nat} (h1 : 1 ≤ n) (hn : n ≤ top) {i : Interp} {f : Fn}
    (ho : ∃ k, constraintOf u n f = some k ∧ i.Sat k) (ht : tableOf u n f = none) (c : Nat) :
    i.test f c = true ↔ Means u n c f := by
  obtain ⟨k, hk, hs⟩ := ho
  have := test_ok hu h1 hn hk hs ht c
  simpa using this

theorem mapOne_ok {u : Unicode} (hu : u.Ok) (hs : u.Short) {n : Nat} (h1 : 1 ≤ n) (hn : n ≤ top) {i : Interp} (m : Mapping)
    (ho : i.Obeys u n m.fns) {c : Nat} (hc : c < n) : mapOne i m c = text (m.fn u c) := by
  have t1 := testMap hu h1 hn (ho (.exists1 m) (by simp [Mapping.fns])) rfl c
  have t2 := testMap hu h1 hn (ho (.exists2 m) (by simp [Mapping.fns])) rfl c
  have t3 := testMap hu h1 hn (ho (.exists3 m) (by simp [Mapping.fns])) rfl c
  have a1 := fun hne hl => nth_ok (j := 0) (c := c) (ho (.first m) (by simp [Mapping.fns])) rfl hc hne hl
  have a2 := fun hne hl => nth_ok (j := 1) (c := c) (ho (.second m) (by simp [Mapping.fns])) rfl hc hne hl
  have a3 := fun hne hl => nth_ok (j := 2) (c := c) (ho (.third m) (by simp [Mapping.fns])) rfl hc hne hl
  simp only [Means] at t1 t2 t3
  have hn0 := hs.some m c
  have hl3 := hs.three m c
  unfold mapOne
  by_cases he : m.fn u c = [c]
  · have : i.test (.exists1 m) c = false := by rw [← Bool.not_eq_true, t1]; simp [he]
    rw [this]; simp [he, text]
  · rw [t1.2 ⟨hc, he⟩]
    simp only [Bool.not_true, Bool.false_eq_true, if_false]
    generalize hx : m.fn u c = xs at *
    match xs, hn0, hl3 with
    | [a], _, _ =>
      have : i.test (.exists2 m) c = false := by rw [← Bool.not_eq_true, t2]; simp
      rw [this, a1 he (by simp)]; simp [text]
    | [a, b], _, _ =>
      have : i.test (.exists3 m) c = false := by rw [← Bool.not_eq_true, t3]; simp
      rw [t2.2 ⟨hc, he, by simp⟩, this, a1 he (by simp), a2 he (by simp)]; simp [text]
    | [a, b, d], _, _ =>
      rw [t2.2 ⟨hc, he, by simp⟩, t3.2 ⟨hc, he, by simp⟩, a1 he (by simp), a2 he (by simp), a3 he (by simp)]; simp [text]
    | _ :: _ :: _ :: _ :: _, _, hl => simp at hl

theorem lowerOne_ok {u : Unicode} (hu : u.Ok) (hs : u.Short) {n : Nat} (h1 : 1 ≤ n) (hn : n ≤ top) {i : Interp}
    (ho : i.Obeys u n [.exists1 .tolower, .first .tolower, .exists2 .tolower, .second .tolower]) {c : Nat} (hc : c < n) :
    lowerOne i c = text (u.lower c) := by
  have t1 := testMap hu h1 hn (ho (.exists1 .tolower) (by simp)) rfl c
  have t2 := testMap hu h1 hn (ho (.exists2 .tolower) (by simp)) rfl c
  have a1 := fun hne hl => nth_ok (m := .tolower) (j := 0) (c := c) (ho (.first .tolower) (by simp)) rfl hc hne hl
  have a2 := fun hne hl => nth_ok (m := .tolower) (j := 1) (c := c) (ho (.second .tolower) (by simp)) rfl hc hne hl
  simp only [Means, Mapping.fn] at t1 t2 a1 a2
  have hn0 : u.lower c ≠ [] := hs.some .tolower c
  have hl2 := hs.two c
  unfold lowerOne
  by_cases he : u.lower c = [c]
  · have : i.test (.exists1 .tolower) c = false := by rw [← Bool.not_eq_true, t1]; simp [he]
    rw [this]; simp [he, text]
  · rw [t1.2 ⟨hc, he⟩]
    simp only [Bool.not_true, Bool.false_eq_true, if_false]
    generalize hx : u.lower c = xs at *
    match xs, hn0, hl2 with
    | [a], _, _ =>
      have : i.test (.exists2 .tolower) c = false := by rw [← Bool.not_eq_true, t2]; simp
      rw [this, a1 he (by simp)]; simp [text]
    | [a, b], _, _ =>
      rw [t2.2 ⟨hc, he, by simp⟩, a1 he (by simp), a2 he (by simp)]; simp [text]
    | _ :: _ :: _ :: _, _, hl => simp at hl

theorem flatMap_text {g : Int → Str} {f : Nat → List Nat} : ∀ (s : List Nat), (∀ c ∈ s, g c = text (f c)) →
    (text s).flatMap g = text (s.flatMap f)
  | [], _ => rfl
  | c :: s, h => by
    have ih := flatMap_text s fun d hd => h d (List.mem_cons_of_mem _ hd)
    have hc := h c (by simp)
    simp only [text, List.map_cons, List.flatMap_cons, List.map_append] at ih hc ⊢
    rw [← hc, ← ih]; rfl

theorem eachChar {g : Int → Str} {f : Nat → List Nat} (s : List Nat) (h : ∀ c ∈ s, g c = text (f c)) :
    (if (text s).length ≠ 1 then (text s).flatMap g else g ((text s).getD 0 0)) = text (s.flatMap f) := by
  by_cases hl : (text s).length ≠ 1
  · rw [if_pos hl, flatMap_text s h]
  · rw [if_neg hl]
    match s, hl with
    | [c], _ =>
      have := h c (by simp)
      simp only [List.flatMap_cons, List.flatMap_nil, List.append_nil]
      exact this
    | [], hl => simp [text] at hl
    | _ :: _ :: _, hl => simp [text] at hl

theorem text_append (a b : List Nat) : text (a ++ b) = text a ++ text b := List.map_append

theorem text_inj {a b : List Nat} (h : text a = text b) : a = b := by
  unfold text at h
  exact (List.map_inj_right fun x y hxy => by injection hxy).1 h

end Verif.CaseMaps
