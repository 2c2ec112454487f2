import Verif.Repro.Model
import Mathlib.Tactic.Linarith

/-! # Values, heaps, and the numbers of `cleanup` -/

namespace Verif.Repro

mutual
/-- The size of a value. -/
def Val.size : Val → Nat
  | .atom _ => 1
  | .node _ _ ps => 1 + sizeAll ps
/-- … of several values. -/
def sizeAll : List Val → Nat
  | [] => 1
  | p :: ps => p.size + sizeAll ps
end

theorem size_mem : ∀ (ps : List Val) (p : Val), p ∈ ps → p.size < sizeAll ps := by
  intro ps
  induction ps with
  | nil => intro p h; cases h
  | cons q qs ih =>
    intro p h
    have hpos : ∀ qs : List Val, 0 < sizeAll qs := by
      intro qs
      induction qs with
      | nil => exact Nat.one_pos
      | cons q qs ih => rw [sizeAll]; omega
    rw [sizeAll]
    rcases List.mem_cons.mp h with rfl | h
    · have := hpos qs; omega
    · have := ih p h; omega

mutual
theorem rename_congr (ρ ρ' : Nat → Nat) : ∀ v : Val, (∀ i ∈ v.ids, ρ i = ρ' i) → v.rename ρ = v.rename ρ'
  | .atom _, _ => rfl
  | .node i k ps, h => by
    rw [Val.rename, Val.rename, h i (by rw [Val.ids]; exact List.mem_cons_self ..),
      renameAll_congr ρ ρ' ps fun j hj => h j (by rw [Val.ids]; exact List.mem_cons_of_mem _ hj)]
theorem renameAll_congr (ρ ρ' : Nat → Nat) : ∀ ps : List Val, (∀ i ∈ idsAll ps, ρ i = ρ' i) →
    renameAll ρ ps = renameAll ρ' ps
  | [], _ => rfl
  | p :: ps, h => by
    rw [renameAll, renameAll, rename_congr ρ ρ' p fun j hj => h j (by rw [idsAll]; exact List.mem_append_left _ hj),
      renameAll_congr ρ ρ' ps fun j hj => h j (by rw [idsAll]; exact List.mem_append_right _ hj)]
end

mutual
theorem ids_heap (h : Nat → Option (Kind × List Val)) : ∀ v : Val, v.InHeap h → ∀ j ∈ v.ids,
    ∃ k ps, h j = some (k, ps) ∧ sizeAll ps < v.size
  | .atom _, _, j, hj => by rw [Val.ids] at hj; cases hj
  | .node i k ps, hv, j, hj => by
    rw [Val.InHeap] at hv
    rw [Val.ids] at hj
    rcases List.mem_cons.mp hj with rfl | hj
    · exact ⟨k, ps, hv.1, by rw [Val.size]; omega⟩
    · obtain ⟨k', ps', h1, h2⟩ := idsAll_heap h ps hv.2 j hj
      exact ⟨k', ps', h1, by rw [Val.size]; omega⟩
theorem idsAll_heap (h : Nat → Option (Kind × List Val)) : ∀ ps : List Val, allInHeap h ps → ∀ j ∈ idsAll ps,
    ∃ k qs, h j = some (k, qs) ∧ sizeAll qs < sizeAll ps
  | [], _, j, hj => by rw [idsAll] at hj; cases hj
  | p :: ps, hv, j, hj => by
    rw [allInHeap] at hv
    rw [idsAll] at hj
    rcases List.mem_append.mp hj with hj | hj
    · obtain ⟨k', ps', h1, h2⟩ := ids_heap h p hv.1 j hj
      exact ⟨k', ps', h1, by rw [sizeAll]; omega⟩
    · obtain ⟨k', ps', h1, h2⟩ := idsAll_heap h ps hv.2 j hj
      exact ⟨k', ps', h1, by rw [sizeAll]; omega⟩
end

/-- No object contains itself. -/
theorem not_inside {h : Nat → Option (Kind × List Val)} {i : Nat} {k : Kind} {ps : List Val}
    (hv : (Val.node i k ps).InHeap h) : i ∉ idsAll ps := by
  intro hm
  rw [Val.InHeap] at hv
  obtain ⟨k', qs, h1, h2⟩ := idsAll_heap h ps hv.2 i hm
  rw [hv.1] at h1
  injection h1 with h1
  injection h1 with h1 h3
  rw [h3] at h2
  exact Nat.lt_irrefl _ h2

theorem allInHeap_mem {h : Nat → Option (Kind × List Val)} : ∀ {ps : List Val}, allInHeap h ps → ∀ p ∈ ps, p.InHeap h
  | [], _, p, hp => by cases hp
  | q :: qs, hv, p, hp => by
    rw [allInHeap] at hv
    rcases List.mem_cons.mp hp with rfl | hp
    · exact hv.1
    · exact allInHeap_mem hv.2 p hp

/-! ## Names -/

/-- The names of a list of tokens. -/
abbrev namesOf (ts : List Tok) : List Nat := ts.filterMap Tok.name

theorem namesOf_append (a b : List Tok) : namesOf (a ++ b) = namesOf a ++ namesOf b := List.filterMap_append

theorem namesOf_joined : ∀ ts : List (List Tok), namesOf (joined ts) = ts.flatMap namesOf
  | [] => rfl
  | [t] => by simp [joined]
  | t :: u :: ts => by
    rw [joined]
    · rw [namesOf_append, List.flatMap_cons, ← namesOf_joined (u :: ts)]
      rfl
    · simp

theorem namesOf_paired : ∀ ts : List (List Tok), ts.length % 2 = 0 → (paired ts).flatMap namesOf = ts.flatMap namesOf
  | [], _ => rfl
  | [t], h => by simp at h
  | t :: u :: ts, h => by
    rw [paired, List.flatMap_cons, List.flatMap_cons, List.flatMap_cons, namesOf_paired ts (by simp at h; omega), namesOf_append]
    show namesOf t ++ namesOf u ++ _ = _
    rw [List.append_assoc]

theorem namesOf_withKws : ∀ (ks : List (Option String)) (ts : List (List Tok)), ks.length = ts.length →
    (withKws ks ts).flatMap namesOf = ts.flatMap namesOf
  | [], [], _ => rfl
  | some x :: ks, t :: ts, h => by
    rw [withKws, List.flatMap_cons, List.flatMap_cons, namesOf_withKws ks ts (by simpa using h)]
    rfl
  | none :: ks, t :: ts, h => by
    rw [withKws, List.flatMap_cons, List.flatMap_cons, namesOf_withKws ks ts (by simpa using h)]
  | [], t :: ts, h => by simp at h
  | _ :: ks, [], h => by simp at h

theorem namesOf_body (k : Kind) (ts : List (List Tok)) (ps : List Val) (hl : ts.length = ps.length) (hf : k.Fits ps) :
    namesOf (body k ts) = ts.flatMap namesOf := by
  have happ : ∀ (a b : List Tok), namesOf b = [] → namesOf (a ++ b) = namesOf a := by
    intro a b hb; rw [namesOf_append, hb, List.append_nil]
  cases k with
  | list =>
    show namesOf (joined ts ++ [.rbrack]) = _
    rw [happ _ _ rfl, namesOf_joined]
  | tuple =>
    show namesOf (joined ts ++ [.rpar]) = _
    rw [happ _ _ rfl, namesOf_joined]
  | set =>
    cases ts with
    | nil => rfl
    | cons t ts =>
      show namesOf (joined (t :: ts) ++ [.rbrace]) = _
      rw [happ _ _ rfl, namesOf_joined]
  | frozenset =>
    cases ts with
    | nil => rfl
    | cons t ts =>
      show namesOf (joined (t :: ts) ++ [.rbrace, .rpar]) = _
      rw [happ _ _ rfl, namesOf_joined]
  | dict =>
    show namesOf (joined (paired ts) ++ [.rbrace]) = _
    rw [happ _ _ rfl, namesOf_joined, namesOf_paired ts (by rw [hl]; exact hf)]
  | blob t =>
    have : ps.length = 0 := hf
    have : ts = [] := List.length_eq_zero_iff.mp (by omega)
    rw [this]
    rfl
  | call f ks =>
    show namesOf (joined (withKws ks ts) ++ [.rpar]) = _
    rw [happ _ _ rfl, namesOf_joined, namesOf_withKws ks ts (by rw [hl]; exact hf.2.2.1)]

theorem reprAll_length : ∀ (nm : List Nat) (ps : List Val), (reprAll nm ps).1.length = ps.length
  | _, [] => by rw [reprAll]; rfl
  | nm, p :: ps => by
    rw [reprAll]
    show (reprAll _ ps).1.length + 1 = _
    rw [reprAll_length _ ps]; rfl

mutual
/-- The names in the text of a value are the objects met, in order; and those named afterwards are
    those met. -/
theorem names_val : ∀ (v : Val) (nm seen : List Nat), v.WellMade → (∀ i, i ∈ seen ↔ i ∈ nm) →
    namesOf (reprVal nm v).1 = v.meets seen ∧ ∀ i, i ∈ v.meets seen ++ seen ↔ i ∈ (reprVal nm v).2
  | .atom a, nm, seen, _, hs => by
    rw [reprVal, Val.meets]
    exact ⟨rfl, by simpa using hs⟩
  | .node i k ps, nm, seen, hw, hs => by
    rw [reprVal, Val.meets]
    rw [Val.WellMade] at hw
    by_cases hi : i ∈ nm
    · rw [if_pos hi, if_pos ((hs i).mpr hi)]
      refine ⟨rfl, fun j => ?_⟩
      rw [List.mem_append, List.mem_singleton, hs]
      constructor
      · rintro (rfl | h)
        · exact hi
        · exact h
      · exact Or.inr
    · rw [if_neg hi, if_neg (fun h => hi ((hs i).mp h))]
      obtain ⟨h1, h2⟩ := names_all ps nm seen hw.2 hs
      refine ⟨?_, fun j => ?_⟩
      · show i :: namesOf (body k _) = _
        rw [namesOf_body k _ ps (reprAll_length nm ps) hw.1, h1]
      · rw [List.cons_append, List.mem_cons, List.mem_cons, h2]
theorem names_all : ∀ (ps : List Val) (nm seen : List Nat), allWellMade ps → (∀ i, i ∈ seen ↔ i ∈ nm) →
    (reprAll nm ps).1.flatMap namesOf = meetsAll seen ps ∧ ∀ i, i ∈ meetsAll seen ps ++ seen ↔ i ∈ (reprAll nm ps).2
  | [], nm, seen, _, hs => by
    rw [reprAll, meetsAll]
    exact ⟨rfl, by simpa using hs⟩
  | p :: ps, nm, seen, hw, hs => by
    rw [allWellMade] at hw
    obtain ⟨h1, h2⟩ := names_val p nm seen hw.1 hs
    obtain ⟨h3, h4⟩ := names_all ps (reprVal nm p).2 (p.meets seen ++ seen) hw.2 h2
    rw [reprAll, meetsAll]
    refine ⟨?_, fun j => ?_⟩
    · show namesOf (reprVal nm p).1 ++ (reprAll _ ps).1.flatMap namesOf = _
      rw [h1, h3]
    · rw [← h4, List.mem_append, List.mem_append, List.mem_append, List.mem_append]
      tauto
end

/-! ## The numbers -/

theorem firsts_mem : ∀ (is seen : List Nat) (i : Nat), i ∈ firsts seen is ↔ i ∈ is ∧ i ∉ seen
  | [], seen, i => by simp [firsts]
  | j :: is, seen, i => by
    rw [firsts]
    by_cases hj : j ∈ seen
    · rw [if_pos hj, firsts_mem is seen i, List.mem_cons]
      constructor
      · rintro ⟨h1, h2⟩; exact ⟨.inr h1, h2⟩
      · rintro ⟨rfl | h1, h2⟩
        · exact absurd hj h2
        · exact ⟨h1, h2⟩
    · rw [if_neg hj, List.mem_cons, firsts_mem is (j :: seen) i, List.mem_cons, List.mem_cons]
      constructor
      · rintro (rfl | ⟨h1, h2⟩)
        · exact ⟨.inl rfl, hj⟩
        · exact ⟨.inr h1, fun h => h2 (.inr h)⟩
      · rintro ⟨rfl | h1, h2⟩
        · exact .inl rfl
        · by_cases he : i = j
          · exact .inl he
          · exact .inr ⟨h1, by rintro (h | h); exacts [he h, h2 h]⟩

theorem renumber_remaps (all : List Nat) : ∀ (is : List Nat) (n i : Nat),
    ((renumber (remaps all n is) i).isSome ↔ i ∈ is ∧ 1 < all.count i)
  | [], n, i => by simp [remaps, renumber]
  | j :: is, n, i => by
    rw [remaps]
    by_cases hj : all.count j > 1
    · rw [if_pos hj, renumber]
      by_cases he : j = i
      · rw [if_pos he]; subst he; simp [hj]
      · rw [if_neg he, renumber_remaps all is, List.mem_cons]
        constructor
        · rintro ⟨h1, h2⟩; exact ⟨.inr h1, h2⟩
        · rintro ⟨rfl | h1, h2⟩
          · exact absurd rfl he
          · exact ⟨h1, h2⟩
    · rw [if_neg hj, renumber_remaps all is, List.mem_cons]
      constructor
      · rintro ⟨h1, h2⟩; exact ⟨.inr h1, h2⟩
      · rintro ⟨rfl | h1, h2⟩
        · exact absurd h2 hj
        · exact ⟨h1, h2⟩

theorem renumber_ge (all : List Nat) : ∀ (is : List Nat) (n i m : Nat), renumber (remaps all n is) i = some m → n ≤ m
  | [], n, i, m, h => by simp [remaps, renumber] at h
  | j :: is, n, i, m, h => by
    rw [remaps] at h
    by_cases hj : all.count j > 1
    · rw [if_pos hj, renumber] at h
      by_cases he : j = i
      · rw [if_pos he] at h; injection h with h; omega
      · rw [if_neg he] at h
        have := renumber_ge all is (n + 1) i m h; omega
    · rw [if_neg hj] at h
      exact renumber_ge all is n i m h

theorem renumber_inj (all : List Nat) : ∀ (is : List Nat) (n i j m : Nat), renumber (remaps all n is) i = some m →
    renumber (remaps all n is) j = some m → i = j
  | [], n, i, j, m, h, _ => by simp [remaps, renumber] at h
  | l :: is, n, i, j, m, h, h' => by
    rw [remaps] at h h'
    by_cases hj : all.count l > 1
    · rw [if_pos hj, renumber] at h h'
      by_cases he : l = i
      · rw [if_pos he] at h
        injection h with h
        by_cases he' : l = j
        · omega
        · rw [if_neg he'] at h'
          have := renumber_ge all is (n + 1) j m h'; omega
      · rw [if_neg he] at h
        by_cases he' : l = j
        · rw [if_pos he'] at h'
          injection h' with h'
          have := renumber_ge all is (n + 1) i m h; omega
        · rw [if_neg he'] at h'
          exact renumber_inj all is (n + 1) i j m h h'
    · rw [if_neg hj] at h h'
      exact renumber_inj all is n i j m h h'

theorem numbers_isSome (ts : List Tok) (i : Nat) : (numbers ts i).isSome ↔ 2 ≤ (namesOf ts).count i := by
  rw [numbers, renumber_remaps, firsts_mem]
  constructor
  · rintro ⟨_, h⟩; exact h
  · intro h
    exact ⟨⟨List.count_pos_iff.mp (by show 0 < (namesOf ts).count i; omega), by simp⟩, h⟩

theorem numbers_inj (ts : List Tok) {i j m : Nat} (h : numbers ts i = some m) (h' : numbers ts j = some m) : i = j :=
  renumber_inj _ _ _ _ _ _ h h'

end Verif.Repro
