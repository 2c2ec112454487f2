import Verif.Sigs.Spec
import Mathlib.Data.List.Nodup

namespace Verif.Sigs

/-! ## Dictionaries -/

/-- Equal names mean equal parameters. -/
def Functional (l : List Param) : Prop := ∀ p ∈ l, ∀ q ∈ l, p.name = q.name → p = q

/-- Add to a list what is not in it. -/
def ins (acc : List Param) (p : Param) : List Param := if p ∈ acc then acc else acc ++ [p]

theorem put_eq_ins (acc : List Param) (p : Param) (h : ∀ q ∈ acc, q.name = p.name → q = p) (hn : (acc.map (·.name)).Nodup) :
    put acc p = ins acc p := by
  induction acc with
  | nil => simp [put, ins]
  | cons q qs ih =>
    rw [put]
    by_cases hq : q.name = p.name
    · have := h q (by simp) hq
      subst this
      simp [ins]
    · rw [if_neg hq]
      rw [List.map_cons, List.nodup_cons] at hn
      rw [ih (fun r hr => h r (by simp [hr])) hn.2]
      have hne : p ≠ q := by rintro rfl; exact hq rfl
      simp only [ins, List.mem_cons, hne, false_or]
      split <;> simp

theorem mem_ins {acc : List Param} {p x : Param} : x ∈ ins acc p ↔ x ∈ acc ∨ x = p := by
  unfold ins
  split
  · constructor
    · exact .inl
    · rintro (h | rfl) <;> assumption
  · simp

theorem nodup_ins {acc : List Param} {p : Param} (hn : (acc.map (·.name)).Nodup) (h : ∀ q ∈ acc, q.name = p.name → q = p) :
    ((ins acc p).map (·.name)).Nodup := by
  unfold ins
  split
  · exact hn
  · rename_i hp
    rw [List.map_append, List.nodup_append]
    refine ⟨hn, by simp, ?_⟩
    intro a ha b hb
    simp only [List.map_cons, List.map_nil, List.mem_singleton] at hb
    obtain ⟨q, hq, rfl⟩ := List.mem_map.1 ha
    rintro rfl
    exact hp (h q hq hb ▸ hq)

theorem foldl_put (l : List Param) : ∀ acc : List Param, (acc.map (·.name)).Nodup → Functional (acc ++ l) →
    l.foldl put acc = l.foldl ins acc := by
  induction l with
  | nil => intro acc _ _; rfl
  | cons p ps ih =>
    intro acc hn hf
    have hp : ∀ q ∈ acc, q.name = p.name → q = p := fun q hq h => hf q (by simp [hq]) p (by simp) h
    rw [List.foldl_cons, List.foldl_cons, put_eq_ins acc p hp hn]
    refine ih _ (nodup_ins hn hp) ?_
    intro a ha b hb h
    refine hf a ?_ b ?_ h
    · rcases List.mem_append.1 ha with ha | ha
      · rcases mem_ins.1 ha with ha | rfl <;> simp [*]
      · simp [ha]
    · rcases List.mem_append.1 hb with hb | hb
      · rcases mem_ins.1 hb with hb | rfl <;> simp [*]
      · simp [hb]

theorem mem_foldl_ins (l : List Param) : ∀ (acc : List Param) (x : Param), x ∈ l.foldl ins acc ↔ x ∈ acc ∨ x ∈ l := by
  induction l with
  | nil => intro acc x; simp
  | cons p ps ih => intro acc x; rw [List.foldl_cons, ih, mem_ins, List.mem_cons, or_assoc]

theorem filter_ins (f : Param → Bool) (acc : List Param) (p : Param) :
    (ins acc p).filter f = if f p then ins (acc.filter f) p else acc.filter f := by
  unfold ins
  by_cases hp : p ∈ acc
  · by_cases hf : f p = true
    · simp [hp, hf, List.mem_filter]
    · simp [hp, hf]
  · by_cases hf : f p = true
    · simp [hp, hf, List.mem_filter, List.filter_append]
    · simp [hp, hf, List.filter_append]

theorem filter_foldl_ins (f : Param → Bool) (l : List Param) : ∀ acc : List Param,
    (l.foldl ins acc).filter f = (l.filter f).foldl ins (acc.filter f) := by
  induction l with
  | nil => intro acc; rfl
  | cons p ps ih =>
    intro acc
    rw [List.foldl_cons, ih, filter_ins]
    by_cases hf : f p = true
    · rw [if_pos hf, List.filter_cons_of_pos hf, List.foldl_cons]
    · rw [if_neg hf, List.filter_cons_of_neg hf]

theorem foldl_ins_nodup (l : List Param) : ∀ acc : List Param, (acc ++ l).Nodup → l.foldl ins acc = acc ++ l := by
  induction l with
  | nil => intro acc _; simp
  | cons p ps ih =>
    intro acc h
    have hp : p ∉ acc := by
      intro hp
      rw [List.nodup_append] at h
      exact h.2.2 p hp p (by simp) rfl
    rw [List.foldl_cons, ins, if_neg hp, ih _ (by simpa using h)]
    simp

theorem nodup_of_names {l : List Param} (h : (l.map (·.name)).Nodup) : l.Nodup := List.Nodup.of_map _ h

theorem functional_of_names {l : List Param} (h : (l.map (·.name)).Nodup) : Functional l :=
  fun _ hp _ hq hpq => List.inj_on_of_nodup_map h hp hq hpq

/-! ## Positional parameters -/

theorem zipPos_get (u : Nat → Nat → Bool) (b1 b2 : Bool) : ∀ (l1 l2 : List Param) (i : Nat) (x : Param),
    (zipPos u b1 b2 l1 l2)[i]? = some x → l1[i]? = some x ∨ l2[i]? = some x := by
  intro l1
  induction l1 with
  | nil =>
    intro l2 i x h
    rw [zipPos] at h
    split at h
    · exact .inr h
    · simp at h
  | cons p1 l1 ih =>
    intro l2 i x h
    cases l2 with
    | nil =>
      rw [zipPos] at h
      split at h
      · exact .inl h
      · simp at h
    | cons p2 l2 =>
      rw [zipPos] at h
      cases i with
      | zero =>
        simp only [List.getElem?_cons_zero, Option.some.injEq] at h
        split at h
        · left; simpa using h
        · right; simpa using h
      | succ i =>
        rw [List.getElem?_cons_succ] at h
        rcases ih l2 i x h with h | h
        · left; simpa using h
        · right; simpa using h

theorem zipPos_length (u : Nat → Nat → Bool) (b1 b2 : Bool) : ∀ (l1 l2 : List Param),
    (zipPos u b1 b2 l1 l2).length = max (if b2 then l1.length else min l1.length l2.length)
      (if b1 then l2.length else min l1.length l2.length) := by
  intro l1
  induction l1 with
  | nil => intro l2; rw [zipPos]; cases b1 <;> cases b2 <;> simp
  | cons p1 l1 ih =>
    intro l2
    cases l2 with
    | nil => rw [zipPos]; cases b1 <;> cases b2 <;> simp
    | cons p2 l2 => rw [zipPos, List.length_cons, ih]; cases b1 <;> cases b2 <;> simp <;> omega

/-! ## Keyword parameters -/

theorem mem_interleave (l1 l2 : List Nat) (k : Nat) : k ∈ interleave l1 l2 ↔ k ∈ l1 ∨ k ∈ l2 := by
  induction l1, l2 using interleave.induct with
  | case1 l2 => simp [interleave]
  | case2 l1 h => cases l1 <;> simp_all [interleave]
  | case3 a l1 b l2 ih =>
    rw [interleave]
    simp only [List.mem_cons, ih]
    constructor
    · rintro (h | h | h | h) <;> simp [h]
    · rintro ((h | h) | (h | h)) <;> simp [h]

theorem find_name {l : List Param} {k : Nat} {p : Param} (h : l.find? (·.name = k) = some p) : p ∈ l ∧ p.name = k :=
  ⟨List.mem_of_find?_eq_some h, by simpa using List.find?_some h⟩

theorem keyParam_spec {u : Nat → Nat → Bool} {s1 s2 : List Param} {k : Nat} {x : Param} (h : keyParam u s1 s2 k = some x) :
    x.name = k ∧ x.kind = .kwOnly ∧ ∃ p, (p ∈ keyed s1 ∨ p ∈ keyed s2) ∧ p.name = k ∧ p.dflt = x.dflt ∧ p.ann = x.ann := by
  unfold keyParam at h
  cases h1 : (keyed s1).find? (·.name = k) with
  | none =>
    cases h2 : (keyed s2).find? (·.name = k) with
    | none => rw [h1, h2] at h; simp at h
    | some p2 =>
      rw [h1, h2] at h
      simp only at h
      split at h
      · simp only [Option.some.injEq] at h
        subst h
        have := find_name h2
        exact ⟨this.2, rfl, p2, .inr this.1, this.2, rfl, rfl⟩
      · simp at h
  | some p1 =>
    have k1 := find_name h1
    cases h2 : (keyed s2).find? (·.name = k) with
    | none =>
      rw [h1, h2] at h
      simp only at h
      split at h
      · simp only [Option.some.injEq] at h
        subst h
        exact ⟨k1.2, rfl, p1, .inl k1.1, k1.2, rfl, rfl⟩
      · simp at h
    | some p2 =>
      have k2 := find_name h2
      rw [h1, h2] at h
      simp only at h
      split at h
      · simp only [Option.some.injEq] at h
        subst h
        exact ⟨k1.2, rfl, p1, .inl k1.1, k1.2, rfl, rfl⟩
      · simp only [Option.some.injEq] at h
        subst h
        exact ⟨k2.2, rfl, p2, .inr k2.1, k2.2, rfl, rfl⟩

theorem find_some_iff {l : List Param} {k : Nat} : (∃ p, l.find? (·.name = k) = some p) ↔ ∃ p ∈ l, p.name = k := by
  constructor
  · rintro ⟨p, hp⟩; exact ⟨p, (find_name hp).1, (find_name hp).2⟩
  · rintro ⟨p, hp, hk⟩
    cases h : l.find? (·.name = k) with
    | some q => exact ⟨q, rfl⟩
    | none =>
      rw [List.find?_eq_none] at h
      exact absurd hk (by simpa using h p hp)

/-- When something is put for a name. -/
theorem keyParam_some {u : Nat → Nat → Bool} {s1 s2 : List Param} {k : Nat}
    (h : ((∃ p ∈ keyed s1, p.name = k) ∧ ((∃ p ∈ keyed s2, p.name = k) ∨ squishy s2 = true)) ∨
      ((∃ p ∈ keyed s2, p.name = k) ∧ squishy s1 = true)) : ∃ x, keyParam u s1 s2 k = some x := by
  simp only [← find_some_iff] at h
  unfold keyParam
  cases h1 : (keyed s1).find? (·.name = k) <;> cases h2 : (keyed s2).find? (·.name = k) <;> simp only [h1, h2] at h ⊢
  · simp at h
  · simp at h
    exact ⟨_, by rw [if_pos h]⟩
  · simp at h
    exact ⟨_, by rw [if_pos h]⟩
  · split <;> exact ⟨_, rfl⟩

theorem mem_posOnly {s : List Param} {p : Param} : p ∈ posOnly s ↔ p ∈ s ∧ p.kind = .posOnly := by simp [posOnly]

theorem mem_keyed {s : List Param} {p : Param} : p ∈ keyed s ↔ p ∈ s ∧ (p.kind = .posKw ∨ p.kind = .kwOnly) := by simp [keyed]

theorem varPos_some {s : List Param} {p : Param} (h : varPos s = some p) : p ∈ s ∧ p.kind = .varPos :=
  ⟨List.mem_of_find?_eq_some h, by simpa using List.find?_some h⟩

theorem varKw_some {s : List Param} {p : Param} (h : varKw s = some p) : p ∈ s ∧ p.kind = .varKw :=
  ⟨List.mem_of_find?_eq_some h, by simpa using List.find?_some h⟩

theorem varPos_of_mem {s : List Param} {p : Param} (h : p ∈ s) (hk : p.kind = .varPos) : ∃ q, varPos s = some q := by
  cases hv : varPos s with
  | some q => exact ⟨q, rfl⟩
  | none =>
    unfold varPos at hv
    rw [List.find?_eq_none] at hv
    exact absurd hk (by simpa using hv p h)

theorem varKw_of_mem {s : List Param} {p : Param} (h : p ∈ s) (hk : p.kind = .varKw) : ∃ q, varKw s = some q := by
  cases hv : varKw s with
  | some q => exact ⟨q, rfl⟩
  | none =>
    unfold varKw at hv
    rw [List.find?_eq_none] at hv
    exact absurd hk (by simpa using hv p h)

theorem mem_varParams {s1 s2 : List Param} {p : Param} (h : p ∈ varParams s1 s2) : p ∈ s1 ∧ (p.kind = .varPos ∨ p.kind = .varKw) := by
  unfold varParams at h
  rcases List.mem_append.1 h with h | h
  · cases h1 : varPos s1 <;> cases h2 : varPos s2 <;> simp only [h1, h2] at h <;> simp at h
    subst h
    exact ⟨(varPos_some h1).1, .inl (varPos_some h1).2⟩
  · cases h1 : varKw s1 <;> cases h2 : varKw s2 <;> simp only [h1, h2] at h <;> simp at h
    subst h
    exact ⟨(varKw_some h1).1, .inr (varKw_some h1).2⟩

/-! ## Calls by keyword -/

/-- What is left for keywords. -/
theorem style_drop {s : List Param} {n : Nat} (h : KeywordStyle s n) {p : Param} (hp : p ∈ s) (hk : p.kind = .posKw) :
    p ∈ (positional s).drop n := by
  rcases h with h | h
  · unfold positional
    rw [List.drop_append_of_le_length h]
    exact List.mem_append_right _ (List.mem_filter.2 ⟨hp, by simpa using hk⟩)
  · exact absurd hk (h p hp)

theorem accepts_key {s : List Param} {n : Nat} {kws : List Nat} (ha : Accepts s n kws) (hs : KeywordStyle s n) {p : Param}
    (hp : p ∈ keyed s) : p.dflt = true ∨ p.name ∈ kws := by
  obtain ⟨hp, hk | hk⟩ := mem_keyed.1 hp
  · exact ha.posKw p (style_drop hs hp hk) hk
  · exact ha.kwOnly p hp hk

theorem accepts_keyword {s : List Param} {n : Nat} {kws : List Nat} (ha : Accepts s n kws) {k : Nat} (hk : k ∈ kws) :
    (∃ p ∈ keyed s, p.name = k) ∨ ∃ p ∈ s, p.kind = .varKw := by
  rcases ha.keywords k hk with ⟨p, hp, h1, h2⟩ | ⟨p, hp, h1, h2⟩ | ⟨h, _⟩
  · exact .inl ⟨p, mem_keyed.2 ⟨hp, .inr h1⟩, h2⟩
  · have := List.mem_of_mem_drop hp
    rcases List.mem_append.1 this with h | h
    · rw [mem_posOnly] at h; rw [h.2] at h1; simp at h1
    · exact .inl ⟨p, mem_keyed.2 ⟨(List.mem_filter.1 h).1, .inl h1⟩, h2⟩
  · exact .inr h

theorem accepts_few {s : List Param} {n : Nat} {kws : List Nat} (ha : Accepts s n kws) (hs : KeywordStyle s n) :
    n ≤ (posOnly s).length ∨ ∃ p ∈ s, p.kind = .varPos := by
  rcases hs with hs | hs
  · exact .inl hs
  · rcases ha.few with h | h
    · left
      have : s.filter (·.kind = .posKw) = [] := by
        rw [List.filter_eq_nil_iff]
        intro p hp
        simpa using hs p hp
      unfold positional at h
      rw [this] at h
      simpa using h
    · exact .inr h

theorem accepts_pos {s : List Param} {n : Nat} {kws : List Nat} (ha : Accepts s n kws) {i : Nat} {p : Param} (hi : n ≤ i)
    (hp : (posOnly s)[i]? = some p) : p.dflt = true := by
  have hk : p.kind = .posOnly := (mem_posOnly.1 (List.mem_of_getElem? hp)).2
  refine ha.posOnly p ?_ hk
  have : ((positional s).drop n)[i - n]? = some p := by
    rw [List.getElem?_drop, Nat.add_sub_cancel' hi]
    unfold positional
    rw [List.getElem?_append_left (by
      have := (List.getElem?_eq_some_iff.1 hp).1
      exact this)]
    exact hp
  exact List.mem_of_getElem? this

end Verif.Sigs
