import Verif.Sigs.Lemmas

/-! Lemmas on what an intersection is made of. -/
namespace Verif.Sigs

/-- All that is put into the dictionary. -/
abbrev parts (u : Nat → Nat → Bool) (s1 s2 : List Param) : List Param :=
  zipPos u (squishy s1) (squishy s2) (posOnly s1) (posOnly s2) ++
    (interleave ((keyed s1).map (·.name)) ((keyed s2).map (·.name))).filterMap (keyParam u s1 s2) ++ varParams s1 s2

theorem same_name {s : List Param} (h : Distinct s) {p q : Param} (hp : p ∈ s) (hq : q ∈ s) (hn : p.name = q.name) : p = q :=
  functional_of_names h p hp q hq hn

theorem posOnly_index {s : List Param} (h : Distinct s) {i j : Nat} {p q : Param} (hp : (posOnly s)[i]? = some p)
    (hq : (posOnly s)[j]? = some q) (hn : p.name = q.name) : i = j := by
  have hnd : ((posOnly s).map (·.name)).Nodup := List.Nodup.sublist (List.Sublist.map _ List.filter_sublist) h
  have h1 : ((posOnly s).map (·.name))[i]? = some p.name := by rw [List.getElem?_map, hp]; rfl
  have h2 : ((posOnly s).map (·.name))[j]? = some p.name := by rw [List.getElem?_map, hq, hn]; rfl
  obtain ⟨hi, e1⟩ := List.getElem?_eq_some_iff.1 h1
  obtain ⟨hj, e2⟩ := List.getElem?_eq_some_iff.1 h2
  exact (List.Nodup.getElem_inj_iff hnd).1 (e1.trans e2.symm)

theorem mem_zip {u : Nat → Nat → Bool} {b1 b2 : Bool} {l1 l2 : List Param} {p : Param} (h : p ∈ zipPos u b1 b2 l1 l2) : p ∈ l1 ∨ p ∈ l2 := by
  obtain ⟨i, hi⟩ := List.getElem?_of_mem h
  rcases zipPos_get u b1 b2 l1 l2 i p hi with h | h
  · exact .inl (List.mem_of_getElem? h)
  · exact .inr (List.mem_of_getElem? h)

theorem zip_names {u : Nat → Nat → Bool} {s1 s2 : List Param} (h1 : Distinct s1) (h2 : Distinct s2) (hc : NoClash s1 s2) :
    ((zipPos u (squishy s1) (squishy s2) (posOnly s1) (posOnly s2)).map (·.name)).Nodup := by
  rw [List.nodup_iff_injective_getElem]
  intro ⟨i, hi⟩ ⟨j, hj⟩ he
  simp only [List.getElem_map] at he
  simp only [List.length_map] at hi hj
  have gi := List.getElem?_eq_getElem hi
  have gj := List.getElem?_eq_getElem hj
  have : i = j := by
    rcases zipPos_get _ _ _ _ _ _ _ gi with a | a <;> rcases zipPos_get _ _ _ _ _ _ _ gj with b | b
    · exact posOnly_index h1 a b he
    · exact hc.place _ _ _ _ a b he
    · exact (hc.place _ _ _ _ b a he.symm).symm
    · exact posOnly_index h2 a b he
  subst this
  rfl

/-- Where a part comes from. -/
theorem part_from {u : Nat → Nat → Bool} {s1 s2 : List Param} {x : Param} (h : x ∈ parts u s1 s2) :
    (x.kind = .posOnly ∧ x ∈ zipPos u (squishy s1) (squishy s2) (posOnly s1) (posOnly s2) ∧ (x ∈ s1 ∨ x ∈ s2)) ∨
    (x.kind = .kwOnly ∧ keyParam u s1 s2 x.name = some x) ∨
    ((x.kind = .varPos ∨ x.kind = .varKw) ∧ x ∈ s1 ∧ x ∈ varParams s1 s2) := by
  rcases List.mem_append.1 h with h | h
  · rcases List.mem_append.1 h with h | h
    · left
      rcases mem_zip h with h' | h'
      · exact ⟨(mem_posOnly.1 h').2, h, .inl (mem_posOnly.1 h').1⟩
      · exact ⟨(mem_posOnly.1 h').2, h, .inr (mem_posOnly.1 h').1⟩
    · right; left
      obtain ⟨k, _, hk⟩ := List.mem_filterMap.1 h
      have := keyParam_spec hk
      exact ⟨this.2.1, by rw [this.1]; exact hk⟩
  · right; right
    exact ⟨(mem_varParams h).2, (mem_varParams h).1, h⟩

theorem parts_functional {u : Nat → Nat → Bool} {s1 s2 : List Param} (h1 : Distinct s1) (h2 : Distinct s2) (hc : NoClash s1 s2) :
    Functional (parts u s1 s2) := by
  have key : ∀ x, keyParam u s1 s2 x.name = some x → ∃ p, ((p ∈ s1 ∧ p ∈ keyed s1) ∨ (p ∈ s2 ∧ p ∈ keyed s2)) ∧ p.name = x.name := by
    intro x hx
    obtain ⟨_, _, p, hp, hn, _⟩ := keyParam_spec hx
    rcases hp with hp | hp
    · exact ⟨p, .inl ⟨(mem_keyed.1 hp).1, hp⟩, hn⟩
    · exact ⟨p, .inr ⟨(mem_keyed.1 hp).1, hp⟩, hn⟩
  -- a parameter of one of the signatures that is not keyed has no name of a keyed one
  have apart : ∀ x, (x ∈ s1 ∨ x ∈ s2) → x.kind ≠ .posKw → x.kind ≠ .kwOnly → ∀ y, keyParam u s1 s2 y.name = some y → x.name ≠ y.name := by
    intro x hx hk1 hk2 y hy hn
    obtain ⟨p, hp, hpn⟩ := key y hy
    have hxp : x.name = p.name := hn.trans hpn.symm
    have nk : ∀ s, x ∉ keyed s := by
      intro s hs
      rcases (mem_keyed.1 hs).2 with h | h
      · exact hk1 h
      · exact hk2 h
    have nk2 : ∀ q s, q ∈ keyed s → x.kind ≠ q.kind := by
      intro q s hq he
      rcases (mem_keyed.1 hq).2 with h | h
      · exact hk1 (he.trans h)
      · exact hk2 (he.trans h)
    rcases hx with hx | hx <;> rcases hp with ⟨hp, hpk⟩ | ⟨hp, hpk⟩
    · exact nk _ (same_name h1 hx hp hxp ▸ hpk)
    · rcases hc.kind x hx p hp hxp with h | ⟨h, _⟩
      · exact nk2 p _ hpk h
      · exact nk _ h
    · rcases hc.kind p hp x hx hxp.symm with h | ⟨_, h⟩
      · exact nk2 p _ hpk h.symm
      · exact nk _ h
    · exact nk _ (same_name h2 hx hp hxp ▸ hpk)
  intro x hx y hy hn
  rcases part_from hx with ⟨a1, a2, a3⟩ | ⟨a1, a2⟩ | ⟨a1, a2, a3⟩ <;> rcases part_from hy with ⟨b1, b2, b3⟩ | ⟨b1, b2⟩ | ⟨b1, b2, b3⟩
  · exact functional_of_names (zip_names h1 h2 hc) x a2 y b2 hn
  · exact absurd hn (apart x a3 (by simp [a1]) (by simp [a1]) y b2)
  · rcases a3 with a3 | a3
    · have := same_name h1 a3 b2 hn
      subst this
      simp [a1] at b1
    · rcases hc.kind y b2 x a3 hn.symm with h | ⟨_, h⟩
      · rw [a1] at h; rw [h] at b1; simp at b1
      · rw [mem_keyed, a1] at h; simp at h
  · exact absurd hn.symm (apart y b3 (by simp [b1]) (by simp [b1]) x a2)
  · rw [hn, b2] at a2
    exact (Option.some.inj a2).symm
  · exact absurd hn.symm (apart y (.inl b2) (by rcases b1 with h | h <;> simp [h]) (by rcases b1 with h | h <;> simp [h]) x a2)
  · rcases b3 with b3 | b3
    · have := same_name h1 a2 b3 hn
      subst this
      simp [b1] at a1
    · rcases hc.kind x a2 y b3 hn with h | ⟨_, h⟩
      · rw [b1] at h; rw [h] at a1; simp at a1
      · rw [mem_keyed, b1] at h; simp at h
  · exact absurd hn (apart x (.inl a2) (by rcases a1 with h | h <;> simp [h]) (by rcases a1 with h | h <;> simp [h]) y b2)
  · exact same_name h1 a2 b2 hn

end Verif.Sigs
