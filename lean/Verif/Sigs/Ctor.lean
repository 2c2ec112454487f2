import Verif.Sigs.Parts

/-! Lemmas on constructors. -/
namespace Verif.Sigs

theorem rank_of_check : ∀ (l : List Param) (top : Nat) (seen : Bool), checkOrder top seen l = true → ∀ p ∈ l, top ≤ p.kind.rank := by
  intro l
  induction l with
  | nil => simp
  | cons q l ih =>
    intro top seen h p hp
    rw [checkOrder] at h
    by_cases hq : q.kind.rank < top
    · rw [if_pos hq] at h; simp at h
    · rw [if_neg hq] at h
      have hrest : ∃ b, checkOrder q.kind.rank b l = true := by
        split at h
        · split at h
          · exact ⟨_, h⟩
          · split at h
            · simp at h
            · exact ⟨_, h⟩
        · exact ⟨_, h⟩
      obtain ⟨b, hb⟩ := hrest
      rcases List.mem_cons.1 hp with rfl | hp
      · omega
      · have := ih _ _ hb p hp
        omega

theorem positional_cons {first : Param} {rest : List Param} (hk : first.kind = .posOnly ∨ first.kind = .posKw)
    (hv : mkSig (first :: rest) ≠ none) : positional (first :: rest) = first :: positional rest := by
  unfold positional posOnly
  rcases hk with hk | hk
  · rw [List.filter_cons_of_pos (by simpa using hk), List.filter_cons_of_neg (by simp [hk])]
    rfl
  · have hno : ∀ p ∈ rest, p.kind ≠ .posOnly := by
      intro p hp hpk
      have hc : checkOrder 0 false (first :: rest) = true := by
        unfold mkSig at hv
        by_contra h
        rw [if_neg h] at hv
        exact hv rfl
      rw [checkOrder, hk] at hc
      have : ∃ b, checkOrder 1 b rest = true := by
        simp only [Kind.rank] at hc
        simp only [Nat.not_lt_zero, if_false, Nat.le_refl, if_true, Bool.false_eq_true] at hc
        split at hc
        · exact ⟨_, hc⟩
        · exact ⟨_, hc⟩
      obtain ⟨b, hb⟩ := this
      have := rank_of_check _ _ _ hb p hp
      rw [hpk] at this
      simp [Kind.rank] at this
    have e : rest.filter (·.kind = .posOnly) = [] := by
      rw [List.filter_eq_nil_iff]
      intro p hp
      simpa using hno p hp
    rw [List.filter_cons_of_neg (by simp [hk]), List.filter_cons_of_pos (by simpa using hk), e]
    rfl

theorem filterMap_keyed {f : Nat → Option Param} : ∀ (l : List Param),
    (∀ p ∈ l, f p.name = some { p with kind := .kwOnly }) → (l.map (·.name)).filterMap f = l.map fun p => { p with kind := .kwOnly } := by
  intro l
  induction l with
  | nil => intro _; rfl
  | cons p l ih =>
    intro h
    rw [List.map_cons, List.filterMap_cons_some (h p (by simp)), ih (fun q hq => h q (by simp [hq]))]
    rfl

theorem find_distinct {l : List Param} (h : (l.map (·.name)).Nodup) {p : Param} (hp : p ∈ l) : l.find? (·.name = p.name) = some p := by
  obtain ⟨q, hq⟩ := find_some_iff.2 ⟨p, hp, rfl⟩
  have := find_name hq
  rw [hq, functional_of_names h q this.1 p hp this.2]

theorem check_kwOnly : ∀ (l : List Param) (top : Nat) (seen : Bool), top ≤ 3 → (∀ p ∈ l, p.kind = .kwOnly) → checkOrder top seen l = true := by
  intro l
  induction l with
  | nil => intros; rfl
  | cons p l ih =>
    intro top seen ht h
    have hp := h p (by simp)
    rw [checkOrder, hp]
    have h1 : ¬ (Kind.kwOnly.rank < top) := by simp only [Kind.rank]; omega
    have h2 : ¬ (Kind.kwOnly.rank ≤ 1) := by simp [Kind.rank]
    rw [if_neg h1, if_neg h2]
    exact ih _ _ (by simp [Kind.rank]) (fun q hq => h q (by simp [hq]))

theorem ordinary_parts {s : List Param} (h : Ordinary s) : posOnly s = [] ∧ keyed s = s ∧ varPos s = none ∧ varKw s = none ∧ squishy s = false := by
  have h1 : posOnly s = [] := by
    rw [posOnly, List.filter_eq_nil_iff]
    intro p hp
    rcases h.keyed p hp with h | h <;> simp [h]
  have h2 : keyed s = s := by
    rw [Sigs.keyed, List.filter_eq_self]
    intro p hp
    rcases h.keyed p hp with h | h <;> simp [h]
  have h3 : varPos s = none := by
    rw [varPos, List.find?_eq_none]
    intro p hp
    rcases h.keyed p hp with h | h <;> simp [h]
  have h4 : varKw s = none := by
    rw [varKw, List.find?_eq_none]
    intro p hp
    rcases h.keyed p hp with h | h <;> simp [h]
  exact ⟨h1, h2, h3, h4, by simp [squishy, h3, h4]⟩

theorem catchAll_parts (a b c : Nat) : posOnly (catchAll a b c) = [] ∧ keyed (catchAll a b c) = [⟨a, .posKw, false, 0⟩] ∧
    squishy (catchAll a b c) = true := by
  refine ⟨by simp [posOnly, catchAll], by simp [keyed, catchAll], by simp [squishy, varPos, varKw, catchAll]⟩

/-- The intersection with a signature that accepts everything. -/
theorem intersect_catchAll (u : Nat → Nat → Bool) (a b c : Nat) (s : List Param) (hs : Ordinary s) (ha : ∀ p ∈ s, p.name ≠ a) :
    intersect u (catchAll a b c) s = some (s.map fun p => { p with kind := .kwOnly }) ∧
    intersect u s (catchAll a b c) = some (s.map fun p => { p with kind := .kwOnly }) := by
  obtain ⟨s1, s2, s3, s4, s5⟩ := ordinary_parts hs
  obtain ⟨c1, c2, c3⟩ := catchAll_parts a b c
  have hnames : ((s.map fun p => ({ p with kind := .kwOnly } : Param)).map (·.name)) = s.map (·.name) := by
    rw [List.map_map]; rfl
  have hfold : (s.map fun p => ({ p with kind := .kwOnly } : Param)).foldl put [] = s.map fun p => { p with kind := .kwOnly } := by
    have hnd : ((s.map fun p => ({ p with kind := .kwOnly } : Param)).map (·.name)).Nodup := by rw [hnames]; exact hs.distinct
    rw [foldl_put _ [] (by simp) (by simpa using functional_of_names hnd), foldl_ins_nodup _ [] (by simpa using nodup_of_names hnd)]
    rfl
  have hcheck : mkSig (s.map fun p => ({ p with kind := .kwOnly } : Param)) = some (s.map fun p => { p with kind := .kwOnly }) := by
    rw [mkSig, if_pos]
    refine check_kwOnly _ _ _ (by omega) ?_
    intro p hp
    obtain ⟨q, _, rfl⟩ := List.mem_map.1 hp
    rfl
  have hna : s.find? (·.name = a) = none := by
    rw [List.find?_eq_none]
    intro p hp
    simpa using ha p hp
  have hca : ∀ k, k ≠ a → ([⟨a, .posKw, false, 0⟩] : List Param).find? (·.name = k) = none := by
    intro k hk
    simp [List.find?, Ne.symm hk]
  have haa : ([⟨a, .posKw, false, 0⟩] : List Param).find? (·.name = a) = some ⟨a, .posKw, false, 0⟩ := by simp
  have inter1 : ∀ l : List Nat, interleave [a] l = match l with | [] => [a] | x :: xs => a :: x :: xs := by
    intro l; cases l <;> simp [interleave]
  have inter2 : ∀ l : List Nat, interleave l [a] = match l with | [] => [a] | x :: xs => x :: a :: xs := by
    intro l
    cases l with
    | nil => simp [interleave]
    | cons x xs => cases xs <;> simp [interleave]
  have key1 : keyParam u (catchAll a b c) s a = none := by
    unfold keyParam
    rw [c2, s2, haa, hna]
    simp [s5]
  have key2 : keyParam u s (catchAll a b c) a = none := by
    unfold keyParam
    rw [c2, s2, haa, hna]
    simp [s5]
  have key1' : ∀ p ∈ s, keyParam u (catchAll a b c) s p.name = some { p with kind := .kwOnly } := by
    intro p hp
    unfold keyParam
    rw [c2, s2, hca _ (ha p hp), find_distinct hs.distinct hp]
    simp [c3]
  have key2' : ∀ p ∈ s, keyParam u s (catchAll a b c) p.name = some { p with kind := .kwOnly } := by
    intro p hp
    unfold keyParam
    rw [c2, s2, hca _ (ha p hp), find_distinct hs.distinct hp]
    simp [c3]
  have v1 : varParams (catchAll a b c) s = [] := by simp [varParams, s3, s4]
  have v2 : varParams s (catchAll a b c) = [] := by simp [varParams, s3, s4]
  constructor
  · unfold intersect
    rw [c1, s1, c2, s2, v1, zipPos, ite_self, List.nil_append, List.append_nil]
    have : (interleave (([⟨a, .posKw, false, 0⟩] : List Param).map (·.name)) (s.map (·.name))).filterMap (keyParam u (catchAll a b c) s) =
        s.map fun p => { p with kind := .kwOnly } := by
      rw [← filterMap_keyed (f := keyParam u (catchAll a b c) s) s key1']
      rw [show ([⟨a, .posKw, false, 0⟩] : List Param).map (·.name) = [a] from rfl, inter1]
      cases s with
      | nil => simp [key1]
      | cons p s => simp [key1]
    rw [this, hfold, hcheck]
  · unfold intersect
    rw [c1, s1, c2, s2, v2, zipPos, ite_self, List.nil_append, List.append_nil]
    have : (interleave (s.map (·.name)) (([⟨a, .posKw, false, 0⟩] : List Param).map (·.name))).filterMap (keyParam u s (catchAll a b c)) =
        s.map fun p => { p with kind := .kwOnly } := by
      rw [← filterMap_keyed (f := keyParam u s (catchAll a b c)) s key2']
      rw [show ([⟨a, .posKw, false, 0⟩] : List Param).map (·.name) = [a] from rfl, inter2]
      cases s with
      | nil => simp [key2]
      | cons p s => simp [List.filterMap_cons, key2]
    rw [this, hfold, hcheck]

theorem ordinary_accepts {first : Param} {rest : List Param} (hs : Ordinary (first :: rest)) (hf : first.kind = .posKw) (kws : List Nat)
    (hkeys : ∀ k ∈ kws, ∃ p ∈ rest, p.name = k) (hall : ∀ p ∈ rest, p.dflt = true ∨ p.name ∈ kws) : Accepts (first :: rest) 1 kws := by
  have hpo : posOnly (first :: rest) = [] := (ordinary_parts hs).1
  have hpos : positional (first :: rest) = first :: rest.filter (·.kind = .posKw) := by
    rw [positional, hpo, List.filter_cons_of_pos (by simpa using hf)]; rfl
  refine ⟨.inl (by rw [hpos]; simp), ?_, ?_, ?_, ?_⟩
  · intro p hp hk
    rw [hpos] at hp
    simp only [List.drop_succ_cons, List.drop_zero, List.mem_filter] at hp
    simp [hk] at hp
  · intro p hp _
    rw [hpos] at hp
    simp only [List.drop_succ_cons, List.drop_zero, List.mem_filter] at hp
    exact hall p hp.1
  · intro p hp hk
    rcases List.mem_cons.1 hp with rfl | hp
    · rw [hf] at hk; simp at hk
    · exact hall p hp
  · intro k hk
    obtain ⟨p, hp, hn⟩ := hkeys k hk
    rcases hs.keyed p (List.mem_cons_of_mem _ hp) with h | h
    · exact .inr (.inl ⟨p, by rw [hpos]; simp [hp, h], h, hn⟩)
    · exact .inl ⟨p, List.mem_cons_of_mem _ hp, h, hn⟩

end Verif.Sigs
