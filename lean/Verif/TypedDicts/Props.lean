import Verif.TypedDicts.Model
/-
What it means that `unify` accepts a `TypedDict` where another one is expected.
-/
namespace Verif.TypedDicts

theorem mem_of_lookup {α : Type} (k : Nat) (x : α) : ∀ fs : List (Nat × α), fs.lookup k = some x → (k, x) ∈ fs
  | [], h => by cases h
  | (j, y) :: fs, h => by
    rw [List.lookup_cons] at h
    by_cases hj : k = j
    · subst hj
      simp at h
      subst h
      exact List.mem_cons_self
    · rw [show (k == j) = false from by simpa using hj] at h
      exact List.mem_cons_of_mem _ (mem_of_lookup k x fs h)

theorem mem_drop (k : Nat) (fs : List (Nat × Ty)) (p : Nat × Ty) : p ∈ drop k fs ↔ p ∈ fs ∧ p.1 ≠ k := by
  simp [drop, List.mem_filter]

/-- If the loop goes through, each field was found and accepted, and no field of the value's type was forgotten. -/
theorem loop_through (u : Ty → Ty → Maps → Res) : ∀ (rs vs : List (Nat × Ty)) (b : Maps) (rest : List (Nat × Ty)) (b' : Maps),
    loop u vs rs b = .through rest b' →
    (∀ k t, (k, t) ∈ rs → ∃ vt b1 b2, (k, vt) ∈ vs ∧ u vt t b1 = .yes b2) ∧
    (∀ k vt, (k, vt) ∈ vs → (∃ t, (k, t) ∈ rs) ∨ (k, vt) ∈ rest)
  | [], vs, b, rest, b', h => by
    simp only [loop] at h
    injection h with h1 h2
    subst h1
    exact ⟨fun k t hk => (by cases hk), fun k vt hk => Or.inr hk⟩
  | (k0, t0) :: rs, vs, b, rest, b', h => by
    simp only [loop] at h
    cases hl : vs.lookup k0 with
    | none => simp only [hl] at h; cases h
    | some vt0 =>
      simp only [hl] at h
      cases hu : u vt0 t0 b with
      | no => simp only [hu] at h; cases h
      | error => simp only [hu] at h; cases h
      | yes b1 =>
        simp only [hu] at h
        obtain ⟨i1, i2⟩ := loop_through u rs (drop k0 vs) b1 rest b' h
        constructor
        · intro k t hk
          rcases List.mem_cons.mp hk with hk | hk
          · cases hk
            exact ⟨vt0, b, b1, mem_of_lookup _ _ _ hl, hu⟩
          · obtain ⟨vt, c1, c2, hm, hv⟩ := i1 k t hk
            exact ⟨vt, c1, c2, ((mem_drop _ _ _).mp hm).1, hv⟩
        · intro k vt hk
          by_cases hkk : k = k0
          · exact Or.inl ⟨t0, by rw [hkk]; exact List.mem_cons_self⟩
          · rcases i2 k vt ((mem_drop _ _ _).mpr ⟨hk, hkk⟩) with ⟨t, ht⟩ | hr
            · exact Or.inl ⟨t, List.mem_cons_of_mem _ ht⟩
            · exact Or.inr hr

theorem unifyDicts_yes (u : Ty → Ty → Maps → Res) (vs rs : List (Nat × Ty)) (b b' : Maps) (h : unifyDicts u vs rs b = .yes b') :
    (∀ k t, (k, t) ∈ rs → ∃ vt b1 b2, (k, vt) ∈ vs ∧ u vt t b1 = .yes b2) ∧ (∀ k vt, (k, vt) ∈ vs → ∃ t, (k, t) ∈ rs) := by
  unfold unifyDicts at h
  cases hl : loop u vs rs ([] :: b) with
  | no => simp only [hl] at h; cases h
  | error => simp only [hl] at h; cases h
  | through rest c =>
    simp only [hl] at h
    cases rest with
    | cons p ps => cases h
    | nil =>
      obtain ⟨i1, i2⟩ := loop_through u rs vs _ _ _ hl
      exact ⟨i1, fun k vt hk => (i2 k vt hk).resolve_right (by simp)⟩

theorem mem_common (fs gs : List (Nat × Ty)) (k : Nat) (t : Ty) : (k, t) ∈ common fs gs ↔ (k, t) ∈ fs ∧ ∃ u, (k, u) ∈ gs := by
  simp only [common, List.mem_filter, List.any_eq_true, beq_iff_eq]
  constructor
  · rintro ⟨h1, ⟨j, u⟩, h2, h3⟩
    exact ⟨h1, u, by have : k = j := h3; rw [this]; exact h2⟩
  · rintro ⟨h1, u, h2⟩
    exact ⟨h1, (k, u), h2, rfl⟩

theorem get_plain (b : Maps) (t : Ty) (h : Plain t) : get b t = t := by
  cases h <;> rfl

theorem accepted (H : Hier) (trans : ∀ a b c, H.sub a b = true → H.sub b c = true → H.sub a c = true) : ∀ (n : Nat) (v r : Ty) (b b' : Maps),
    Plain v → Plain r → unify H n v r b = .yes b' → ∀ x, Made H x v → Usable H x r
  | 0, v, r, b, b', _, _, h, _, _ => by simp only [unify] at h; cases h
  | n + 1, v, r, b, b', hv, hr, h, x, hx => by
    have ih := accepted H trans n
    simp only [unify, get_plain b v hv, get_plain b r hr] at h
    cases hr with
    | con d =>
      cases hv with
      | con c =>
        simp only at h
        by_cases hs : H.sub c d = true
        · cases hx with
          | inst a _ ha => exact .inst a d (trans a c d ha hs)
        · simp only [if_neg hs] at h; cases h
      | td vr vo _ _ _ =>
        simp only at h
        by_cases hq : hasRequired (.td vr vo) = true
        · simp only [if_pos hq] at h; cases h
        · simp only [if_neg hq] at h
          by_cases hs : H.sub H.dict d = true
          · cases hx with
            | dict f _ _ _ _ _ _ => exact .dictClass f d hs
          · simp only [if_neg hs] at h; cases h
    | td rr ro h1 h2 h3 =>
      cases hv with
      | con c => simp only at h; cases h
      | td vr vo g1 g2 g3 =>
        simp only at h
        by_cases hq : hasRequired (.td rr ro) = true
        · simp only [if_pos hq] at h
          cases hd : unifyDicts (unify H n) vr rr b with
          | no => simp only [hd] at h; cases h
          | error => simp only [hd] at h; cases h
          | yes b1 =>
            simp only [hd] at h
            obtain ⟨a1, a2⟩ := unifyDicts_yes _ _ _ _ _ hd
            obtain ⟨c1, c2⟩ := unifyDicts_yes _ _ _ _ _ h
            cases hx with
            | dict f _ _ m1 m2 m3 m4 =>
              refine .dict f rr ro ?_ ?_ ?_
              · intro k t hk
                obtain ⟨vt, _, _, hm, _⟩ := a1 k t hk
                exact m1 k vt hm
              · intro k t y hk hy
                obtain ⟨vt, b2, b3, hm, hu⟩ := a1 k t hk
                exact ih vt t b2 b3 (g1 k vt hm) (h1 k t hk) hu y (m2 k vt y hm hy)
              · intro k t y hk hy
                rcases m4 k y hy with ⟨vt, hm⟩ | ⟨vt, hm⟩
                · obtain ⟨t', ht'⟩ := a2 k vt hm
                  exact absurd hk (h3 k t' t ht')
                · obtain ⟨wt, b2, b3, hw, hu⟩ := c1 k t ((mem_common _ _ _ _).mpr ⟨hk, vt, hm⟩)
                  have hw' := ((mem_common _ _ _ _).mp hw).1
                  exact ih wt t b2 b3 (g2 k wt hw') (h2 k t hk) hu y (m3 k wt y hw' hy)
        · simp only [if_neg hq] at h
          by_cases hp : hasRequired (.td vr vo) = true
          · simp only [if_pos hp] at h; cases h
          · simp only [if_neg hp] at h; cases h

/-- If a `TypedDict` is accepted where another one is expected, values made for the first can be used as values of the second, at any depth of
`TypedDict`s in `TypedDict`s. For types without type variables. -/
theorem accepted_partial (H : Hier) (trans : ∀ a b c, H.sub a b = true → H.sub b c = true → H.sub a c = true) (n : Nat) (v r : Ty) (b b' : Maps)
    (hv : Plain v) (hr : Plain r) (h : unify H n v r b = .yes b') (x : Val) (hx : Made H x v) : Usable H x r :=
  accepted H trans n v r b b' hv hr h x hx

/-- Classes for examples: 0 is `object`, 1 `int`, 2 `bool`, 3 `str`, 4 `dict`. -/
def classes : Hier := ⟨fun a b => a == b || b == 0 || (a == 2 && b == 1), 0, 4⟩

/-- Whether it is accepted. -/
def Res.accepted : Res → Option Bool
  | .yes _ => some true
  | .no => some false
  | .error => none

example : (unify classes 5 (.td [(7, .con 2), (8, .td [(9, .con 3)] [])] [(6, .con 1)]) (.td [(8, .td [(9, .con 0)] []), (7, .con 1)] [(6, .con 1), (5, .con 3)])
    []).accepted = some true := by decide +kernel
/-- A `bool` in a required field, and a field that is not required and left out. -/
example : Usable classes (.dict [(7, .inst 2)]) (.td [(7, .con 1)] [(6, .con 3)]) := by
  refine accepted_partial classes ?_ 5 (.td [(7, .con 2)] [(6, .con 3)]) (.td [(7, .con 1)] [(6, .con 3)]) [] _ ?_ ?_ rfl _ ?_
  · intro a b c h1 h2
    simp only [classes, Bool.or_eq_true, Bool.and_eq_true, beq_iff_eq] at h1 h2 ⊢
    omega
  · refine .td _ _ ?_ ?_ ?_ <;> simp [Plain.con]
    omega
  · refine .td _ _ ?_ ?_ ?_ <;> simp [Plain.con]
    omega
  · refine .dict _ _ _ (by simp [List.lookup]) ?_ ?_ ?_
    · intro k t x hk hx
      simp at hk
      obtain ⟨rfl, rfl⟩ := hk
      simp [List.lookup] at hx
      subst hx
      exact .inst 2 2 rfl
    · intro k t x hk hx
      simp at hk
      obtain ⟨rfl, rfl⟩ := hk
      simp [List.lookup] at hx
    · intro k x h
      simp [List.lookup] at h ⊢
      split at h <;> simp_all

example : (unify classes 5 (.td [(7, .con 3)] []) (.td [(7, .con 1)] []) []).accepted = some false := by decide +kernel
example : (unify classes 5 (.td [(7, .con 1)] [(6, .con 3)]) (.td [(7, .con 1)] [(6, .con 1)]) []).accepted = some false := by decide +kernel

/-- What a type variable is bound to. -/
def Res.bound (x : Nat) : Res → Option Ty
  | .yes b => b.findSome? fun m => m.lookup x
  | _ => none

/-- A type variable that is the type of a field is bound to the type of that field of the value. -/
theorem binds_field (H : Hier) (n k x c : Nat) (b : Maps) (hx : ∀ m ∈ b, m.lookup x = none) :
    (unify H (n + 2) (.td [(k, .con c)] []) (.td [(k, .var x)] []) b).bound x = some (.con c) := by
  have hg : (b.findSome? fun m => List.lookup x m) = none := List.findSome?_eq_none_iff.mpr hx
  simp [unify, get, unifyDicts, loop, hasRequired, common, setVar, drop, Res.bound, List.findSome?_cons, hg]

example : (unify classes 2 (.td [(7, .con 1)] []) (.td [(7, .var 20)] []) [[(21, .con 3)]]).bound 20 = some (.con 1) :=
  binds_field classes 0 7 20 1 _ (by intro m hm; simp at hm; subst hm; rfl)

/-- Disagreement: a type variable in a `TypedDict` that is the type of a field of another `TypedDict` is not bound afterwards, although the types were
accepted: the map with it was put in front of those of a child, which is gone. -/
theorem disagreement_nested_not_bound (H : Hier) (n k j x c : Nat) :
    (unify H (n + 3) (.td [(j, .td [(k, .con c)] [])] []) (.td [(j, .td [(k, .var x)] [])] []) []).accepted = some true ∧
    (unify H (n + 3) (.td [(j, .td [(k, .con c)] [])] []) (.td [(j, .td [(k, .var x)] [])] []) []).bound x = none := by
  constructor <;> simp [unify, get, unifyDicts, loop, hasRequired, common, setVar, drop, Res.bound, Res.accepted, List.findSome?_cons]

/-- A field of a field of a field, and a field: both of type `s` and `t`. -/
def deep (s t : Ty) : Ty := .td [(7, .td [(8, .td [(9, s)] [])] []), (6, t)] []

/-- Disagreement: so a variable that stands for `int` in one field and for `str` in another is accepted if the first is deep enough, and refused if
not. Neither of the two types makes all values made for the one type usable as the other, and the variable is not bound afterwards. -/
theorem disagreement_inconsistent :
    (unify classes 6 (.td [(7, .con 1), (6, .con 3)] []) (.td [(7, .var 20), (6, .var 20)] []) []).accepted = some false ∧
    (unify classes 6 (deep (.con 1) (.con 3)) (deep (.var 20) (.var 20)) []).accepted = some true ∧
    (unify classes 6 (deep (.con 1) (.con 3)) (deep (.var 20) (.var 20)) []).bound 20 = none ∧
    Made classes (.dict [(7, .dict [(8, .dict [(9, .inst 1)])]), (6, .inst 3)]) (deep (.con 1) (.con 3)) ∧
    ¬ Usable classes (.dict [(7, .dict [(8, .dict [(9, .inst 1)])]), (6, .inst 3)]) (subst (fun _ => .con 3) (deep (.var 20) (.var 20))) ∧
    ¬ Usable classes (.dict [(7, .dict [(8, .dict [(9, .inst 1)])]), (6, .inst 3)]) (subst (fun _ => .con 1) (deep (.var 20) (.var 20))) := by
  refine ⟨by decide +kernel, by decide +kernel, rfl, ?_, ?_, ?_⟩
  · refine .dict _ _ _ ?_ ?_ ?_ ?_
    · intro k t hk
      simp at hk
      rcases hk with ⟨rfl, _⟩ | ⟨rfl, _⟩ <;> simp [List.lookup]
    · intro k t x hk hx
      simp at hk
      rcases hk with ⟨rfl, rfl⟩ | ⟨rfl, rfl⟩
      · simp [List.lookup] at hx
        subst hx
        refine .dict _ _ _ (by simp [List.lookup]) ?_ (by simp) (by intro k x h; simp [List.lookup] at h ⊢; split at h <;> simp_all)
        intro k t x hk hx
        simp at hk
        obtain ⟨rfl, rfl⟩ := hk
        simp [List.lookup] at hx
        subst hx
        refine .dict _ _ _ (by simp [List.lookup]) ?_ (by simp) (by intro k x h; simp [List.lookup] at h ⊢; split at h <;> simp_all)
        intro k t x hk hx
        simp at hk
        obtain ⟨rfl, rfl⟩ := hk
        simp [List.lookup] at hx
        subst hx
        exact .inst 1 1 rfl
      · simp [List.lookup] at hx
        subst hx
        exact .inst 3 3 rfl
    · intro k t x hk; simp at hk
    · intro k x h
      simp [List.lookup] at h ⊢
      split at h <;> simp_all
      split at h <;> simp_all
  · intro h
    simp only [deep, subst, substAll] at h
    cases h with
    | dict _ _ _ _ h _ =>
      have h1 := h 7 _ _ List.mem_cons_self rfl
      cases h1 with
      | dict _ _ _ _ h _ =>
        have h2 := h 8 _ _ List.mem_cons_self rfl
        cases h2 with
        | dict _ _ _ _ h _ =>
          have h3 := h 9 _ _ List.mem_cons_self rfl
          cases h3 with
          | inst _ _ h => exact absurd h (by decide)
  · intro h
    simp only [deep, subst, substAll] at h
    cases h with
    | dict _ _ _ _ h _ =>
      have h1 := h 6 _ _ (List.mem_cons_of_mem _ List.mem_cons_self) rfl
      cases h1 with
      | inst _ _ h => exact absurd h (by decide)

/-- Disagreement: a `TypedDict` with required fields is not accepted where an `object` is expected, nor, with one more required field, where the same
is expected without it; and there are exceptions where a `TypedDict` is expected and a class is given, and for `TypedDict`s without required fields. -/
theorem disagreement_refused (H : Hier) (n k j c d : Nat) (hkj : j ≠ k) (hs : H.sub c c = true) (b : Maps) :
    (unify H (n + 2) (.td [(k, .con c)] []) (.con H.object) b).accepted = some false ∧
    (unify H (n + 2) (.td [(k, .con c), (j, .con d)] []) (.td [(k, .con c)] []) b).accepted = some false ∧
    (unify H (n + 2) (.con d) (.td [(k, .con c)] []) b).accepted = none ∧
    (unify H (n + 2) (.td [] [(k, .con c)]) (.td [] [(k, .con c)]) b).accepted = none := by
  refine ⟨?_, ?_, ?_, ?_⟩ <;> simp [unify, get, unifyDicts, loop, hasRequired, drop, Res.accepted, hs, hkj]

example : (unify classes 3 (.td [(7, .con 1), (8, .con 3)] []) (.td [(7, .con 1)] []) []).accepted = some false :=
  (disagreement_refused classes 1 7 8 1 3 (by decide) rfl []).2.1

end Verif.TypedDicts
