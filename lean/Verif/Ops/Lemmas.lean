import Verif.Ops.Spec
namespace Verif.Ops

/-! ### Fan-out -/

theorem attempt_first {α : Type} (exprs : List Bool) (results : List α) : ∀ (fuel start stop : Nat), start < stop → stop ≤ exprs.length →
    stop - start ≤ fuel → ∃ i, start ≤ i ∧ i < stop ∧ attempt exprs results fuel start stop = results[i]? ∧
      (∀ j, start ≤ j → j < i → exprs[j]? = some false) ∧ (exprs[i]? = some true ∨ i + 1 = stop)
  | 0, start, stop, h, _, hf => by omega
  | fuel + 1, start, stop, h, hl, hf => by
    rw [attempt]
    by_cases h1 : stop - start = 1
    · rw [if_pos h1]
      exact ⟨start, Nat.le_refl _, h, rfl, fun j _ _ => by omega, Or.inr (by omega)⟩
    · rw [if_neg h1]
      simp only
      by_cases ha : ((exprs.take ((start + stop) / 2)).drop start).any id = true
      · rw [if_pos ha]
        obtain ⟨i, hi1, hi2, hi3, hi4, hi5⟩ := attempt_first exprs results fuel start ((start + stop) / 2) (by omega) (by omega) (by omega)
        refine ⟨i, hi1, by omega, hi3, hi4, ?_⟩
        rcases hi5 with hi5 | hi5
        · exact Or.inl hi5
        · left
          rw [List.any_eq_true] at ha
          obtain ⟨b, hb, hbt⟩ := ha
          simp only [id_eq] at hbt
          subst hbt
          obtain ⟨j, hj⟩ := List.mem_iff_getElem?.1 hb
          rw [List.getElem?_drop, List.getElem?_take] at hj
          by_cases hjl : start + j < (start + stop) / 2
          · rw [if_pos hjl] at hj
            by_cases hji : start + j = i
            · rw [← hji]; exact hj
            · have := hi4 (start + j) (by omega) (by omega)
              rw [hj] at this; simp at this
          · rw [if_neg hjl] at hj; cases hj
      · rw [if_neg ha]
        obtain ⟨i, hi1, hi2, hi3, hi4, hi5⟩ := attempt_first exprs results fuel ((start + stop) / 2) stop (by omega) (by omega) (by omega)
        refine ⟨i, by omega, hi2, hi3, ?_, hi5⟩
        intro j hj1 hj2
        by_cases hjm : j < (start + stop) / 2
        · have hlt : j < exprs.length := by omega
          rw [List.getElem?_eq_getElem hlt]
          cases hb : exprs[j] with
          | false => rfl
          | true =>
            exfalso
            apply ha
            rw [List.any_eq_true]
            refine ⟨true, List.mem_iff_getElem?.2 ⟨j - start, ?_⟩, rfl⟩
            rw [List.getElem?_drop, List.getElem?_take, show start + (j - start) = j by omega, if_pos hjm, List.getElem?_eq_getElem hlt, hb]
        · exact hi4 j (by omega) hj2

/-! ### Grouping -/

theorem mem_addTo {α β : Type} [DecidableEq α] (a : α) (b : β) : ∀ (l : List (α × List β)) (a' : α) (b' : β),
    (∃ bs, (a', bs) ∈ addTo a b l ∧ b' ∈ bs) ↔ ((∃ bs, (a', bs) ∈ l ∧ b' ∈ bs) ∨ (a' = a ∧ b' = b))
  | [], a', b' => by
    constructor
    · rintro ⟨bs, h, hb⟩
      simp only [addTo, List.mem_singleton, Prod.mk.injEq] at h
      obtain ⟨rfl, rfl⟩ := h
      exact Or.inr ⟨rfl, by simpa using hb⟩
    · rintro (⟨bs, h, _⟩ | ⟨rfl, rfl⟩)
      · cases h
      · exact ⟨[b'], by simp [addTo], by simp⟩
  | (a0, bs0) :: l, a', b' => by
    have ih := mem_addTo a b l a' b'
    rw [addTo]
    by_cases h : a = a0
    · rw [if_pos h]
      subst h
      constructor
      · rintro ⟨bs, hm, hb⟩
        rcases List.mem_cons.1 hm with hm | hm
        · cases hm
          rcases List.mem_append.1 hb with hb | hb
          · exact Or.inl ⟨bs0, List.mem_cons_self .., hb⟩
          · exact Or.inr ⟨rfl, by simpa using hb⟩
        · exact Or.inl ⟨bs, List.mem_cons_of_mem _ hm, hb⟩
      · rintro (⟨bs, hm, hb⟩ | ⟨rfl, rfl⟩)
        · rcases List.mem_cons.1 hm with hm | hm
          · cases hm
            exact ⟨_, List.mem_cons_self .., List.mem_append_left _ hb⟩
          · exact ⟨bs, List.mem_cons_of_mem _ hm, hb⟩
        · exact ⟨_, List.mem_cons_self .., by simp⟩
    · rw [if_neg h]
      constructor
      · rintro ⟨bs, hm, hb⟩
        rcases List.mem_cons.1 hm with hm | hm
        · cases hm
          exact Or.inl ⟨_, List.mem_cons_self .., hb⟩
        · rcases ih.1 ⟨bs, hm, hb⟩ with ⟨bs, h1, h2⟩ | h1
          · exact Or.inl ⟨bs, List.mem_cons_of_mem _ h1, h2⟩
          · exact Or.inr h1
      · intro hx
        rcases hx with ⟨bs, hm, hb⟩ | hx
        · rcases List.mem_cons.1 hm with hm | hm
          · cases hm
            exact ⟨_, List.mem_cons_self .., hb⟩
          · obtain ⟨bs, h1, h2⟩ := ih.2 (Or.inl ⟨bs, hm, hb⟩)
            exact ⟨bs, List.mem_cons_of_mem _ h1, h2⟩
        · obtain ⟨bs, h1, h2⟩ := ih.2 (Or.inr hx)
          exact ⟨bs, List.mem_cons_of_mem _ h1, h2⟩

variable {K : Type}

theorem classify_type (promote : Nat → Nat → Option Nat) : ∀ (es : List (K × Obj)) (bt : List (Nat × List (K × Nat))) (bi : List (Obj × List K))
    (ty : Nat) (k : K) (w : Nat), (∃ ps, (ty, ps) ∈ (classify promote es bt bi).1 ∧ (k, w) ∈ ps) ↔
      ((∃ ps, (ty, ps) ∈ bt ∧ (k, w) ∈ ps) ∨ ∃ o, (k, o) ∈ es ∧ o.ty = ty ∧ promote o.ty o.val = some w)
  | [], bt, bi, ty, k, w => by simp [classify]
  | (k0, o0) :: es, bt, bi, ty, k, w => by
    rw [classify]
    cases hp : promote o0.ty o0.val with
    | none =>
      simp only
      rw [classify_type promote es]
      constructor
      · rintro (h | ⟨o, h, h2⟩)
        · exact Or.inl h
        · exact Or.inr ⟨o, List.mem_cons_of_mem _ h, h2⟩
      · rintro (h | ⟨o, h, h2, h3⟩)
        · exact Or.inl h
        · rcases List.mem_cons.1 h with h | h
          · cases h; rw [hp] at h3; cases h3
          · exact Or.inr ⟨o, h, h2, h3⟩
    | some w0 =>
      simp only
      rw [classify_type promote es, mem_addTo]
      constructor
      · rintro ((h | ⟨rfl, h⟩) | ⟨o, h, h2⟩)
        · exact Or.inl h
        · cases h
          exact Or.inr ⟨o0, List.mem_cons_self .., rfl, hp⟩
        · exact Or.inr ⟨o, List.mem_cons_of_mem _ h, h2⟩
      · rintro (h | ⟨o, h, h2, h3⟩)
        · exact Or.inl (Or.inl h)
        · rcases List.mem_cons.1 h with h | h
          · cases h
            rw [hp] at h3
            cases h3
            exact Or.inl (Or.inr ⟨h2.symm, rfl⟩)
          · exact Or.inr ⟨o, h, h2, h3⟩

theorem classify_id (promote : Nat → Nat → Option Nat) : ∀ (es : List (K × Obj)) (bt : List (Nat × List (K × Nat))) (bi : List (Obj × List K))
    (o : Obj) (k : K), (∃ ks, (o, ks) ∈ (classify promote es bt bi).2 ∧ k ∈ ks) ↔
      ((∃ ks, (o, ks) ∈ bi ∧ k ∈ ks) ∨ ((k, o) ∈ es ∧ promote o.ty o.val = none))
  | [], bt, bi, o, k => by simp [classify]
  | (k0, o0) :: es, bt, bi, o, k => by
    rw [classify]
    cases hp : promote o0.ty o0.val with
    | some w =>
      simp only
      rw [classify_id promote es]
      constructor
      · rintro (h | ⟨h, h2⟩)
        · exact Or.inl h
        · exact Or.inr ⟨List.mem_cons_of_mem _ h, h2⟩
      · rintro (h | ⟨h, h2⟩)
        · exact Or.inl h
        · rcases List.mem_cons.1 h with h | h
          · cases h; rw [hp] at h2; cases h2
          · exact Or.inr ⟨h, h2⟩
    | none =>
      simp only
      rw [classify_id promote es, mem_addTo]
      constructor
      · rintro ((h | ⟨rfl, rfl⟩) | ⟨h, h2⟩)
        · exact Or.inl h
        · exact Or.inr ⟨List.mem_cons_self .., hp⟩
        · exact Or.inr ⟨List.mem_cons_of_mem _ h, h2⟩
      · rintro (h | ⟨h, h2⟩)
        · exact Or.inl (Or.inl h)
        · rcases List.mem_cons.1 h with h | h
          · cases h
            exact Or.inl (Or.inr ⟨rfl, rfl⟩)
          · exact Or.inr ⟨h, h2⟩

/-! ### Options -/

theorem conds_some (cmp : K → Cmp) : ∀ (ps : List (K × Nat)), (∀ p ∈ ps, cmp p.1 ≠ .yes) →
    ∃ cv, conds cmp ps = some cv ∧ ∀ w, (true, w) ∈ cv ↔ ∃ k, (k, w) ∈ ps ∧ (cmp k).holds = true
  | [], _ => ⟨[], rfl, by simp⟩
  | (k0, w0) :: ps, h => by
    obtain ⟨cv, h1, h2⟩ := conds_some cmp ps fun p hp => h p (List.mem_cons_of_mem _ hp)
    rw [conds]
    cases hc : cmp k0 with
    | yes => exact absurd hc (h _ (List.mem_cons_self ..))
    | no =>
      refine ⟨cv, h1, fun w => ?_⟩
      rw [h2]
      constructor
      · rintro ⟨k, hk, hh⟩; exact ⟨k, List.mem_cons_of_mem _ hk, hh⟩
      · rintro ⟨k, hk, hh⟩
        rcases List.mem_cons.1 hk with hk | hk
        · cases hk; rw [hc] at hh; cases hh
        · exact ⟨k, hk, hh⟩
    | sym b =>
      refine ⟨(b, w0) :: cv, by simp [h1], fun w => ?_⟩
      constructor
      · intro hm
        rcases List.mem_cons.1 hm with hm | hm
        · cases hm
          exact ⟨k0, List.mem_cons_self .., by rw [hc]; rfl⟩
        · obtain ⟨k, hk, hh⟩ := (h2 w).1 hm
          exact ⟨k, List.mem_cons_of_mem _ hk, hh⟩
      · rintro ⟨k, hk, hh⟩
        rcases List.mem_cons.1 hk with hk | hk
        · cases hk
          rw [hc] at hh
          simp only [Cmp.holds] at hh
          subst hh
          exact List.mem_cons_self ..
        · exact List.mem_cons_of_mem _ ((h2 w).2 ⟨k, hk, hh⟩)

theorem chain_mem (last : Bool × Nat) : ∀ (l : List (Bool × Nat)), (l ++ [last]).any (·.1) = true → (true, chain last.2 l) ∈ l ++ [last]
  | [], h => by
    obtain ⟨b, w⟩ := last
    simp only [List.nil_append, List.any_cons, List.any_nil, Bool.or_false] at h
    subst h
    simp [chain]
  | (b, w) :: l, h => by
    rw [chain]
    cases b with
    | true => simp
    | false =>
      simp only [Bool.false_eq_true, if_false, List.cons_append]
      exact List.mem_cons_of_mem _ (chain_mem last l (by simpa using h))

/-- Of an option for a type: if its guard holds, some pair of the group matches and gives its value. -/
theorem typeOption_spec (ty : Nat) (cv : List (Bool × Nat)) :
    (∀ o ∈ typeOption ty cv, o.1 = true → ∃ w, (true, w) ∈ cv ∧ o.2 = .fresh ty w) ∧
    ((∃ w, (true, w) ∈ cv) → ∃ o ∈ typeOption ty cv, o.1 = true) := by
  unfold typeOption
  cases h : cv.getLast? with
  | none =>
    rw [List.getLast?_eq_none_iff] at h
    subst h
    simp
  | some last =>
    obtain ⟨init, rfl⟩ := List.getLast?_eq_some_iff.1 h
    simp only [List.mem_singleton, forall_eq, List.dropLast_concat]
    constructor
    · intro ha
      exact ⟨_, chain_mem last init ha, rfl⟩
    · rintro ⟨w, hw⟩
      exact ⟨_, rfl, by rw [List.any_eq_true]; exact ⟨_, hw, rfl⟩⟩

theorem typeOptions_spec (cmp : K → Cmp) : ∀ (g : List (Nat × List (K × Nat))), (∀ ty ps, (ty, ps) ∈ g → ∀ p ∈ ps, cmp p.1 ≠ .yes) →
    ∃ os, typeOptions cmp g = some os ∧
      (∀ o ∈ os, o.1 = true → ∃ ty ps k w, (ty, ps) ∈ g ∧ (k, w) ∈ ps ∧ (cmp k).holds = true ∧ o.2 = .fresh ty w) ∧
      (∀ ty ps k w, (ty, ps) ∈ g → (k, w) ∈ ps → (cmp k).holds = true → ∃ o ∈ os, o.1 = true)
  | [], _ => ⟨[], rfl, by simp, by simp⟩
  | (ty0, ps0) :: g, h => by
    obtain ⟨os, h1, h2, h3⟩ := typeOptions_spec cmp g fun ty ps hm => h ty ps (List.mem_cons_of_mem _ hm)
    obtain ⟨cv, hc1, hc2⟩ := conds_some cmp ps0 (h ty0 ps0 (List.mem_cons_self ..))
    obtain ⟨ht1, ht2⟩ := typeOption_spec ty0 cv
    refine ⟨typeOption ty0 cv ++ os, by simp [typeOptions, hc1, h1], ?_, ?_⟩
    · intro o ho hb
      rcases List.mem_append.1 ho with ho | ho
      · obtain ⟨w, hw, hr⟩ := ht1 o ho hb
        obtain ⟨k, hk, hh⟩ := (hc2 w).1 hw
        exact ⟨ty0, ps0, k, w, List.mem_cons_self .., hk, hh, hr⟩
      · obtain ⟨ty, ps, k, w, a, b⟩ := h2 o ho hb
        exact ⟨ty, ps, k, w, List.mem_cons_of_mem _ a, b⟩
    · intro ty ps k w hm hk hh
      rcases List.mem_cons.1 hm with hm | hm
      · cases hm
        obtain ⟨o, ho, hb⟩ := ht2 ⟨w, (hc2 w).2 ⟨k, hk, hh⟩⟩
        exact ⟨o, List.mem_append_left _ ho, hb⟩
      · obtain ⟨o, ho, hb⟩ := h3 ty ps k w hm hk hh
        exact ⟨o, List.mem_append_right _ ho, hb⟩

theorem anyMatch_spec (cmp : K → Cmp) (ks : List K) (h : ∀ k ∈ ks, cmp k ≠ .yes) :
    anyMatch cmp ks = .no ∧ (∀ k ∈ ks, (cmp k).holds = false) ∨
    ∃ b, anyMatch cmp ks = .sym b ∧ (b = true ↔ ∃ k ∈ ks, (cmp k).holds = true) := by
  unfold anyMatch
  have h1 : (ks.any fun k => cmp k == .yes) = false := by
    rw [List.any_eq_false]
    intro k hk
    simpa using h k hk
  rw [h1]
  simp only [Bool.false_eq_true, if_false]
  by_cases h2 : (ks.all fun k => cmp k == .no) = true
  · rw [if_pos h2]
    refine Or.inl ⟨rfl, fun k hk => ?_⟩
    rw [List.all_eq_true] at h2
    have := h2 k hk
    simp only [beq_iff_eq] at this
    rw [this]; rfl
  · rw [if_neg h2]
    refine Or.inr ⟨_, rfl, ?_⟩
    rw [List.any_eq_true]
    constructor
    · rintro ⟨k, hk, hh⟩
      simp only [beq_iff_eq] at hh
      exact ⟨k, hk, by rw [hh]; rfl⟩
    · rintro ⟨k, hk, hh⟩
      refine ⟨k, hk, ?_⟩
      cases hc : cmp k with
      | yes => exact absurd hc (h k hk)
      | no => rw [hc] at hh; cases hh
      | sym b => rw [hc] at hh; simp only [Cmp.holds] at hh; subst hh; rfl

/-! ### Stacks -/

theorem setEntry_py (k v : Nat) : ∀ (es : List (Nat × Nat)), (es.map (·.1)).Nodup →
    setEntry k v es = (if es.any (fun e => e.1 == k) then es.map (fun e => if e.1 = k then (e.1, v) else e) else es ++ [(k, v)])
  | [], _ => by simp [setEntry]
  | (k', v') :: es, h => by
    rw [List.map_cons, List.nodup_cons] at h
    rw [setEntry, setEntry_py k v es h.2]
    by_cases hk : k' = k
    · subst hk
      simp only [if_true, List.any_cons, beq_self_eq_true, Bool.true_or, List.map_cons]
      congr 1
      symm
      rw [List.map_congr_left (g := id), List.map_id]
      intro e he
      have : e.1 ≠ k' := fun hh => h.1 (List.mem_map.2 ⟨e, he, hh⟩)
      simp [this]
    · simp only [hk, if_false, List.any_cons, List.map_cons]
      rw [show (k' == k) = false by simpa using hk, Bool.false_or]
      split <;> simp

theorem setEntry_keys (k v : Nat) : ∀ (es : List (Nat × Nat)), (es.map (·.1)).Nodup →
    ((setEntry k v es).map (·.1)).Nodup ∧ ∀ x, x ∈ (setEntry k v es).map (·.1) ↔ x ∈ es.map (·.1) ∨ x = k
  | [], _ => by simp [setEntry]
  | (k', v') :: es, h => by
    rw [List.map_cons, List.nodup_cons] at h
    obtain ⟨h1, h2⟩ := setEntry_keys k v es h.2
    rw [setEntry]
    by_cases hk : k' = k
    · rw [if_pos hk]
      subst hk
      refine ⟨by rw [List.map_cons, List.nodup_cons]; exact h, fun x => ?_⟩
      simp only [List.map_cons, List.mem_cons]
      constructor
      · exact Or.inl
      · rintro (h | rfl)
        · exact h
        · exact Or.inl rfl
    · rw [if_neg hk]
      refine ⟨?_, fun x => ?_⟩
      · rw [List.map_cons, List.nodup_cons]
        refine ⟨?_, h1⟩
        rw [h2]
        rintro (hx | hx)
        · exact h.1 hx
        · exact hk hx
      · simp only [List.map_cons, List.mem_cons, h2]
        constructor
        · rintro (h | h | h)
          · exact Or.inl (Or.inl h)
          · exact Or.inl (Or.inr h)
          · exact Or.inr h
        · rintro ((h | h) | h)
          · exact Or.inl h
          · exact Or.inr (Or.inl h)
          · exact Or.inr (Or.inr h)

theorem mapAdd_step (i : Nat) (k : Key) (v : Nat) (s : List Item) (n : Bool) (es : List (Nat × Nat)) (hs : s[i]? = some (.map n es)) :
    ∃ n', mapAdd (i + 1) (.val v :: .key k :: s) = some (s.set i (.map n' (setEntry k.val v es))) := by
  have hlt : i < s.length := (List.getElem?_eq_some_iff.1 hs).1
  rw [mapAdd]
  simp only [List.getElem?_cons_succ]
  rw [hs]
  simp only
  by_cases hc : (n && k.concrete) = true
  · rw [if_pos hc]
    simp only [Bool.and_eq_true] at hc
    refine ⟨true, ?_⟩
    rw [opMapAdd]
    simp only [Nat.add_sub_cancel]
    rw [hs, hc.1]
    simp
  · rw [if_neg hc]
    refine ⟨false, ?_⟩
    simp only [List.set_cons_succ, List.set_cons_zero]
    rw [opMapAdd]
    simp [hlt]

theorem setAdd_step (i : Nat) (k : Key) (s : List Item) (n : Bool) (xs : List Nat) (hs : s[i]? = some (.set n xs)) :
    ∃ n', setAdd (i + 1) (.key k :: s) = some (s.set i (.set n' (addItem k.val xs))) := by
  have hlt : i < s.length := (List.getElem?_eq_some_iff.1 hs).1
  rw [setAdd]
  simp only [List.getElem?_cons_succ]
  rw [hs]
  simp only
  by_cases hc : (n && k.concrete) = true
  · rw [if_pos hc]
    simp only [Bool.and_eq_true] at hc
    refine ⟨true, ?_⟩
    rw [opSetAdd]
    simp only [Nat.add_sub_cancel]
    rw [hs, hc.1]
    simp
  · rw [if_neg hc]
    refine ⟨false, ?_⟩
    simp only [List.set_cons_succ, List.set_cons_zero]
    rw [opSetAdd]
    simp [hlt]

end Verif.Ops
