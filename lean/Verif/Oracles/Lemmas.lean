import Verif.Oracles.Model
import Mathlib.Tactic.Linarith
/-
Helper lemmas about counting and the walk along a path.
-/
namespace Verif.Oracles

section counter
variable {K : Type} [DecidableEq K]

theorem lookup_cons (k k' : K) (n : Nat) (rest : Counter K) :
    List.lookup k ((k', n) :: rest) = if k = k' then some n else List.lookup k rest := by
  rw [List.lookup_cons]
  by_cases h : k = k'
  · subst h; simp
  · have : (k == k') = false := by simpa using h
    simp [this, h]

theorem get_bump (c : Counter K) (k j : K) : (c.bump k).get j = c.get j + (if j = k then 1 else 0) := by
  induction c with
  | nil =>
    simp only [Counter.bump, Counter.get, lookup_cons, List.lookup_nil]
    split <;> simp
  | cons p c ih =>
    obtain ⟨k', n⟩ := p
    simp only [Counter.bump]
    by_cases h : k' = k
    · subst h
      simp only [if_true, Counter.get, lookup_cons]
      split <;> simp
    · simp only [h, if_false, Counter.get, lookup_cons]
      by_cases hj : j = k'
      · subst hj
        simp [h]
      · simp only [hj, if_false]
        exact ih

theorem get_addAll (c : Counter K) (ks : List K) (j : K) : (c.addAll ks).get j = c.get j + ks.count j := by
  induction ks generalizing c with
  | nil => simp [Counter.addAll]
  | cons k ks ih =>
    have : Counter.addAll c (k :: ks) = Counter.addAll (c.bump k) ks := rfl
    rw [this, ih, get_bump, List.count_cons]
    by_cases h : j = k
    · subst h; simp; omega
    · have h' : (k == j) = false := by simpa using fun e => h e.symm
      simp [h, h']

theorem mem_keys_bump (c : Counter K) (k j : K) : j ∈ (c.bump k).map Prod.fst ↔ j ∈ c.map Prod.fst ∨ j = k := by
  induction c with
  | nil => simp [Counter.bump]
  | cons p c ih =>
    obtain ⟨k', n⟩ := p
    simp only [Counter.bump]
    by_cases h : k' = k
    · subst h
      simp only [if_true, List.map_cons, List.mem_cons]
      tauto
    · simp only [h, if_false, List.map_cons, List.mem_cons, ih]
      tauto

theorem length_bump (c : Counter K) (k : K) : (c.bump k).length = c.length + (if k ∈ c.map Prod.fst then 0 else 1) := by
  induction c with
  | nil => simp [Counter.bump]
  | cons p c ih =>
    obtain ⟨k', n⟩ := p
    simp only [Counter.bump]
    by_cases h : k' = k
    · subst h
      simp
    · have h2 : ¬ k = k' := fun e => h e.symm
      simp only [h, if_false, List.length_cons, ih, List.map_cons, List.mem_cons, h2, false_or]
      omega

theorem nodup_bump (c : Counter K) (k : K) (h : (c.map Prod.fst).Nodup) : ((c.bump k).map Prod.fst).Nodup := by
  induction c with
  | nil => simp [Counter.bump]
  | cons p c ih =>
    obtain ⟨k', n⟩ := p
    simp only [Counter.bump]
    rw [List.map_cons, List.nodup_cons] at h
    by_cases hk : k' = k
    · subst hk
      simp only [if_true, List.map_cons, List.nodup_cons]
      exact h
    · simp only [hk, if_false, List.map_cons, List.nodup_cons, mem_keys_bump]
      exact ⟨fun e => e.elim h.1 (fun x => absurd x (by simp)), ih h.2⟩

theorem mem_keys_addAll (c : Counter K) (ks : List K) (j : K) :
    j ∈ (c.addAll ks).map Prod.fst ↔ j ∈ c.map Prod.fst ∨ j ∈ ks := by
  induction ks generalizing c with
  | nil => simp [Counter.addAll]
  | cons k ks ih =>
    have : Counter.addAll c (k :: ks) = Counter.addAll (c.bump k) ks := rfl
    rw [this, ih, mem_keys_bump, List.mem_cons]
    tauto

theorem nodup_addAll (c : Counter K) (ks : List K) (h : (c.map Prod.fst).Nodup) : ((c.addAll ks).map Prod.fst).Nodup := by
  induction ks generalizing c with
  | nil => exact h
  | cons k ks ih => exact ih _ (nodup_bump c k h)

theorem length_addAll_ge (c : Counter K) (ks : List K) : c.length ≤ (c.addAll ks).length := by
  induction ks generalizing c with
  | nil => exact Nat.le_refl _
  | cons k ks ih =>
    have := ih (c.bump k)
    have h2 := length_bump c k
    have : Counter.addAll c (k :: ks) = Counter.addAll (c.bump k) ks := rfl
    rw [this]
    omega

theorem length_addAll (c : Counter K) (ks : List K) :
    c.length < (c.addAll ks).length ↔ ∃ k ∈ ks, k ∉ c.map Prod.fst := by
  induction ks generalizing c with
  | nil => simp [Counter.addAll]
  | cons k ks ih =>
    have e : Counter.addAll c (k :: ks) = Counter.addAll (c.bump k) ks := rfl
    rw [e]
    have h2 := length_bump c k
    by_cases hk : k ∈ c.map Prod.fst
    · simp only [hk, if_true] at h2
      rw [Nat.add_zero] at h2
      rw [← h2, ih]
      constructor
      · rintro ⟨j, hj, hn⟩
        refine ⟨j, by simp [hj], fun h => hn ?_⟩
        rw [mem_keys_bump]; exact Or.inl h
      · rintro ⟨j, hj, hn⟩
        rcases List.mem_cons.mp hj with rfl | hj
        · exact absurd hk hn
        · refine ⟨j, hj, fun h => ?_⟩
          rw [mem_keys_bump] at h
          rcases h with h | rfl
          · exact hn h
          · exact hn hk
    · simp only [hk, if_false] at h2
      have := length_addAll_ge (c.bump k) ks
      constructor
      · intro _; exact ⟨k, by simp, hk⟩
      · intro _; omega

end counter

section interned
variable {E : Type} [DecidableEq E]

/-- Reading the table of numbers. -/
def Interned.num (s : Interned E) (e : E) : Option Nat := s.exprId.lookup e

/-- What holds of the tables after objects `objs` have been numbered. -/
structure Interned.Inv (s : Interned E) (objs : List (Obj E)) : Prop where
  ids : ∀ a u, s.idId.lookup a = some u → ∃ o ∈ objs, o.addr = a ∧ s.num o.expr = some u
  exprs : ∀ e u, s.num e = some u → ∃ o ∈ objs, o.addr = u ∧ o.expr = e

/-- Numbers once given stay. -/
def Interned.Ext (s t : Interned E) : Prop := ∀ e u, s.num e = some u → t.num e = some u

theorem Interned.Ext.refl (s : Interned E) : s.Ext s := fun _ _ h => h
theorem Interned.Ext.trans {s t r : Interned E} (h : s.Ext t) (h2 : t.Ext r) : s.Ext r := fun e u x => h2 e u (h e u x)

theorem lookup_cons' {A B : Type} [DecidableEq A] (k k' : A) (n : B) (rest : List (A × B)) :
    List.lookup k ((k', n) :: rest) = if k = k' then some n else List.lookup k rest := by
  rw [List.lookup_cons]
  by_cases h : k = k'
  · subst h; simp
  · have : (k == k') = false := by simpa using h
    simp [this, h]

theorem internalize_spec (s : Interned E) (objs : List (Obj E)) (h : s.Inv objs) (hf : Faithful objs) (o : Obj E) (ho : o ∈ objs) :
    (internalize s o).2.Inv objs ∧ s.Ext (internalize s o).2 ∧ (internalize s o).2.num o.expr = some (internalize s o).1 := by
  unfold internalize
  cases h1 : s.idId.lookup o.addr with
  | some u =>
    obtain ⟨o', ho', ha, hn⟩ := h.ids _ _ h1
    exact ⟨h, Interned.Ext.refl s, by rw [← hf.2 o' ho' o ho ha]; exact hn⟩
  | none =>
    cases h2 : s.exprId.lookup o.expr with
    | some u =>
      refine ⟨⟨?_, h.exprs⟩, Interned.Ext.refl s, h2⟩
      intro a v hv
      simp only [lookup_cons'] at hv
      split at hv
      · rename_i e
        cases hv
        exact ⟨o, ho, e.symm, h2⟩
      · exact h.ids a v hv
    | none =>
      have hext : s.Ext ⟨(o.expr, o.addr) :: s.exprId, (o.addr, o.addr) :: s.idId⟩ := by
        intro e u hu
        simp only [Interned.num, lookup_cons'] at hu ⊢
        split
        · rename_i he; subst he; rw [h2] at hu; cases hu
        · exact hu
      refine ⟨⟨?_, ?_⟩, hext, ?_⟩
      · intro a v hv
        simp only [lookup_cons'] at hv
        split at hv
        · rename_i e
          cases hv
          refine ⟨o, ho, e.symm, ?_⟩
          simp [Interned.num]
        · obtain ⟨o', ho', ha, hn⟩ := h.ids a v hv
          exact ⟨o', ho', ha, hext _ _ hn⟩
      · intro e u hu
        simp only [Interned.num, lookup_cons'] at hu
        split at hu
        · rename_i he
          cases hu
          exact ⟨o, ho, rfl, he.symm⟩
        · exact h.exprs e u hu
      · simp [Interned.num]

end interned

section walk
variable {L E : Type} [DecidableEq L] [DecidableEq E]

/-- The counter of a place. -/
def summaryOf (m : List (L × Counter Int)) (l : L) : Counter Int := (m.lookup l).getD []

theorem summaryOf_summarize (m : List (L × Counter Int)) (l j : L) (ks : List Int) :
    summaryOf (summarize m l ks) j = if j = l then (summaryOf m j).addAll ks else summaryOf m j := by
  induction m with
  | nil =>
    simp only [summarize, summaryOf, lookup_cons', List.lookup_nil]
    by_cases h : j = l <;> simp [h]
  | cons p m ih =>
    obtain ⟨l', c⟩ := p
    simp only [summarize]
    by_cases h : l' = l
    · subst h
      simp only [if_true, summaryOf, lookup_cons']
      by_cases hj : j = l' <;> simp [hj]
    · simp only [h, if_false, summaryOf, lookup_cons'] at ih ⊢
      by_cases hj : j = l'
      · subst hj; simp [h]
      · simp only [hj, if_false]; exact ih

theorem isSome_summarize (m : List (L × Counter Int)) (l j : L) (ks : List Int) :
    ((summarize m l ks).lookup j).isSome = true ↔ j = l ∨ (m.lookup j).isSome = true := by
  induction m with
  | nil =>
    simp only [summarize, lookup_cons', List.lookup_nil]
    by_cases h : j = l <;> simp [h]
  | cons p m ih =>
    obtain ⟨l', c⟩ := p
    simp only [summarize]
    by_cases h : l' = l
    · subst h
      simp only [if_true, lookup_cons']
      by_cases hj : j = l' <;> simp [hj]
    · simp only [h, if_false, lookup_cons']
      by_cases hj : j = l'
      · simp [hj]
      · simp only [hj, if_false]; exact ih

omit [DecidableEq L] [DecidableEq E] in
theorem counted_cons (n m : PathNode L E) (rest : List (PathNode L E)) (h : n.isDetached = false) :
    counted (n :: m :: rest) = n :: counted (m :: rest) := by
  unfold counted
  rw [List.dropLast_cons_of_ne_nil (by simp), List.takeWhile_cons]
  simp [h]

omit [DecidableEq L] [DecidableEq E] in
theorem counted_one (n : PathNode L E) : counted [n] = [] := rfl

omit [DecidableEq L] [DecidableEq E] in
theorem counted_detached (m : PathNode L E) (rest : List (PathNode L E)) (h : m.isDetached = true) : counted (m :: rest) = [] := by
  unfold counted
  cases rest with
  | nil => rfl
  | cons r rest =>
    rw [List.dropLast_cons_of_ne_nil (by simp), List.takeWhile_cons]
    simp [h]

omit [DecidableEq E] in
theorem reaches_other (l : L) (n : PathNode L E) (hn : n.isDecision = false) (nodes : List (PathNode L E)) :
    reaches l (n :: nodes) = reaches l nodes := by
  have h : n.loc? = none := by cases n <;> first | rfl | cases hn
  unfold reaches
  rw [List.dropWhile_cons, h]
  simp

omit [DecidableEq E] in
theorem before_other (l : L) (n : PathNode L E) (hn : n.isDecision = false) (nodes : List (PathNode L E)) :
    before l (n :: nodes) = before l nodes := by
  have h : n.loc? = none := by cases n <;> first | rfl | cases hn
  have h2 : n.truth? = none := by cases n <;> first | rfl | cases hn
  unfold before
  rw [List.takeWhile_cons, h]
  simp [h2]

omit [DecidableEq E] in
theorem reaches_decision (l loc : L) (mv p : Bool) (r : Obj E) (t : Option Bool) (nodes : List (PathNode L E)) :
    reaches l (.decision loc mv p r t :: nodes) = if l = loc then !mv else reaches l nodes := by
  have h : (PathNode.decision loc mv p r t : PathNode L E).loc? = some loc := rfl
  unfold reaches
  rw [List.dropWhile_cons, h]
  by_cases hl : l = loc
  · subst hl; simp
  · have hl' : ¬ loc = l := fun e => hl e.symm
    simp [hl, hl']

omit [DecidableEq E] in
theorem before_decision (l loc : L) (mv p : Bool) (r : Obj E) (b : Bool) (nodes : List (PathNode L E)) :
    before l (.decision loc mv p r (some b) :: nodes) = if l = loc then [] else (r.expr, if p then b else !b) :: before l nodes := by
  have h : (PathNode.decision loc mv p r (some b) : PathNode L E).loc? = some loc := rfl
  have h2 : (PathNode.decision loc mv p r (some b) : PathNode L E).truth? = some (r.expr, if p then b else !b) := by cases p <;> rfl
  unfold before
  rw [List.takeWhile_cons, h]
  by_cases hl : l = loc
  · subst hl; simp
  · have hl' : ¬ loc = l := fun e => hl e.symm
    simp [hl, hl', h2]

/-- The signs of what is decided, as numbers. -/
def signs (F : E → Nat) (xs : List (E × Bool)) : List Int := xs.map fun x => signed x.2 (F x.1)

/-- What a path adds to the counter of a place, when the places `locs` have been seen and `conds` decided. -/
def added (F : E → Nat) (l : L) (locs : List L) (conds : List Int) (nodes : List (PathNode L E)) : List Int :=
  if l ∈ locs then [] else if reaches l nodes then conds ++ signs F (before l nodes) else []

omit [DecidableEq E] in
theorem added_nil (F : E → Nat) (l : L) (locs : List L) (conds : List Int) : added F l locs conds ([] : List (PathNode L E)) = [] := by
  unfold added
  split
  · rfl
  · rw [if_neg (by simp [reaches])]

omit [DecidableEq E] in
theorem added_other (F : E → Nat) (l : L) (locs : List L) (conds : List Int) (n : PathNode L E) (hn : n.isDecision = false)
    (nodes : List (PathNode L E)) : added F l locs conds (n :: nodes) = added F l locs conds nodes := by
  unfold added
  rw [reaches_other l n hn, before_other l n hn]

omit [DecidableEq E] in
theorem added_decision (F : E → Nat) (l loc : L) (locs : List L) (conds : List Int) (mv p : Bool) (r : Obj E) (b : Bool)
    (nodes : List (PathNode L E)) :
    added F l locs conds (.decision loc mv p r (some b) :: nodes) =
      (if l = loc ∧ loc ∉ locs ∧ mv = false then conds else []) ++
      added F l (locs ++ [loc]) (conds ++ [signed (if p then b else !b) (F r.expr)]) nodes := by
  unfold added
  rw [reaches_decision, before_decision]
  by_cases hl : l ∈ locs
  · have : ¬ (l = loc ∧ loc ∉ locs ∧ mv = false) := by rintro ⟨rfl, h, _⟩; exact h hl
    rw [if_pos hl, if_neg this, if_pos (by simp [hl])]
    rfl
  · by_cases he : l = loc
    · subst he
      cases mv <;> simp [hl, signs]
    · simp only [he, hl, false_and, if_false, List.nil_append, List.mem_append, List.mem_singleton, or_self]
      split
      · simp [signs]
      · rfl

theorem walk_spec (objs : List (Obj E)) (hf : Faithful objs) (path : List (PathNode L E)) :
    ∀ (afterDecision : Bool) (locs : List L) (conds : List Int) (s : Coverage L E) (locs' : List L) (s' : Coverage L E),
    detachOk afterDecision path = true → path.head?.map PathNode.isDetached ≠ some true →
    (∀ o ∈ objects path, o ∈ objs) → s.interned.Inv objs →
    walk path locs conds s = some (locs', s') →
    locs' = locs ++ places path ∧ s'.visits = s.visits ∧ s'.itersSinceDiscovery = s.itersSinceDiscovery ∧
    s'.interned.Inv objs ∧ s.interned.Ext s'.interned ∧
    (∀ F : E → Nat, (∀ e u, s'.interned.num e = some u → F e = u) → ∀ l k,
      (summaryOf s'.summarized l).get k = (summaryOf s.summarized l).get k + (added F l locs conds (counted path)).count k) ∧
    (∀ l, (s'.summarized.lookup l).isSome = true ↔
      (s.summarized.lookup l).isSome = true ∨ (l ∉ locs ∧ reaches l (counted path) = true)) ∧
    ∀ F : E → Nat, (∀ e u, s'.interned.num e = some u → F e = u) → ∀ l k,
      k ∈ (summaryOf s'.summarized l).map Prod.fst ↔
        k ∈ (summaryOf s.summarized l).map Prod.fst ∨ k ∈ added F l locs conds (counted path) := by
  induction path with
  | nil =>
    intro ad locs conds s locs' s' hd hh ho hi hw
    simp only [walk, Option.some.injEq, Prod.mk.injEq] at hw
    obtain ⟨rfl, rfl⟩ := hw
    have hc : counted ([] : List (PathNode L E)) = [] := rfl
    refine ⟨by simp [places, hc], rfl, rfl, hi, Interned.Ext.refl _, ?_, ?_, ?_⟩
    · intro F _ l k; rw [hc, added_nil]; simp
    · intro l; rw [hc]; simp [reaches]
    · intro F _ l k; rw [hc, added_nil]; simp
  | cons n rest ih =>
    intro ad locs conds s locs' s' hd hh ho hi hw
    cases rest with
    | nil =>
      have hw : some (locs, s) = some (locs', s') := by rw [← hw]; cases n <;> rfl
      simp only [Option.some.injEq, Prod.mk.injEq] at hw
      obtain ⟨rfl, rfl⟩ := hw
      have hc : counted [n] = [] := rfl
      refine ⟨by simp [places, hc], rfl, rfl, hi, Interned.Ext.refl _, ?_, ?_, ?_⟩
      · intro F _ l k; rw [hc, added_nil]; simp
      · intro l; rw [hc]; simp [reaches]
      · intro F _ l k; rw [hc, added_nil]; simp
    | cons next rest =>
      cases n with
      | detached => simp [PathNode.isDetached] at hh
      | other =>
        have hw : walk (next :: rest) locs conds s = some (locs', s') := hw
        have hd' : detachOk false (next :: rest) = true := hd
        have hnd : next.isDetached = false := by
          cases next <;> first | rfl | (simp [detachOk] at hd')
        have hc : counted (.other :: next :: rest : List (PathNode L E)) = .other :: counted (next :: rest) := counted_cons _ _ _ rfl
        obtain ⟨h1, h2, h3, h4, h5, h6, h7, h8⟩ := ih false locs conds s locs' s' hd' (by simp [hnd])
          (fun o h => ho o h) hi hw
        refine ⟨?_, h2, h3, h4, h5, ?_, ?_, ?_⟩
        · rw [h1]
          have : (PathNode.other : PathNode L E).loc? = none := rfl
          simp [places, hc, this]
        · intro F hF l k
          rw [hc, added_other _ _ _ _ _ rfl]
          exact h6 F hF l k
        · intro l
          rw [h7 l, hc]
          have : reaches l (.other :: counted (next :: rest)) = reaches l (counted (next :: rest)) := by
            exact reaches_other l _ rfl _
          rw [this]
        · intro F hF l k
          rw [hc, added_other _ _ _ _ _ rfl]
          exact h8 F hF l k
      | decision loc mv p r took =>
        have hd' : detachOk true (next :: rest) = true := hd
        simp only [walk] at hw
        obtain ⟨s1, hs1⟩ : ∃ s1 : Coverage L E, s1 = (if ¬ loc ∈ locs ∧ mv = false then { s with summarized := summarize s.summarized loc conds } else s) := ⟨_, rfl⟩
        rw [← hs1] at hw
        have e1 : s1.visits = s.visits := by rw [hs1]; split <;> rfl
        have e2 : s1.itersSinceDiscovery = s.itersSinceDiscovery := by rw [hs1]; split <;> rfl
        have e3 : s1.interned = s.interned := by rw [hs1]; split <;> rfl
        have e4 : ∀ l k, (summaryOf s1.summarized l).get k = (summaryOf s.summarized l).get k +
            (if l = loc ∧ loc ∉ locs ∧ mv = false then conds else []).count k := by
          intro l k
          rw [hs1]
          by_cases hc : ¬ loc ∈ locs ∧ mv = false
          · simp only [hc, if_true, summaryOf_summarize, not_false_eq_true, and_true]
            by_cases hl : l = loc
            · simp only [hl, if_true, get_addAll]
            · simp [hl]
          · rw [if_neg hc, if_neg (fun h => hc h.2)]
            simp
        have e5 : ∀ l, (s1.summarized.lookup l).isSome = true ↔ (s.summarized.lookup l).isSome = true ∨
            (l = loc ∧ loc ∉ locs ∧ mv = false) := by
          intro l
          rw [hs1]
          by_cases hc : ¬ loc ∈ locs ∧ mv = false
          · rw [if_pos hc]
            show ((summarize s.summarized loc conds).lookup l).isSome = true ↔ _
            rw [isSome_summarize]
            have := hc
            tauto
          · rw [if_neg hc]
            tauto
        have e6 : ∀ l k, k ∈ (summaryOf s1.summarized l).map Prod.fst ↔ k ∈ (summaryOf s.summarized l).map Prod.fst ∨
            k ∈ (if l = loc ∧ loc ∉ locs ∧ mv = false then conds else []) := by
          intro l k
          rw [hs1]
          by_cases hc : ¬ loc ∈ locs ∧ mv = false
          · simp only [hc, if_true, summaryOf_summarize, not_false_eq_true, and_true]
            by_cases hl : l = loc
            · simp only [hl, if_true, mem_keys_addAll]
            · simp [hl]
          · rw [if_neg hc, if_neg (fun h => hc h.2)]
            simp
        cases hnd : next.isDetached with
        | true =>
          simp only [hnd, if_true, Option.some.injEq, Prod.mk.injEq] at hw
          obtain ⟨rfl, rfl⟩ := hw
          have hc : counted (.decision loc mv p r took :: next :: rest : List (PathNode L E)) = [.decision loc mv p r took] := by
            rw [counted_cons _ _ _ rfl, counted_detached _ _ hnd]
          have ha : ∀ F l, added F l locs conds [(.decision loc mv p r took : PathNode L E)] =
              if l = loc ∧ loc ∉ locs ∧ mv = false then conds else [] := by
            intro F l
            have hb : reaches l [(.decision loc mv p r took : PathNode L E)] = if l = loc then !mv else false := by
              rw [reaches_decision]; rfl
            unfold added
            rw [hb]
            by_cases hl : l = loc
            · subst hl
              have : before l [(.decision l mv p r took : PathNode L E)] = [] := by
                have h : (PathNode.decision l mv p r took : PathNode L E).loc? = some l := rfl
                unfold before
                rw [List.takeWhile_cons, h]; simp
              rw [this]
              by_cases hm : l ∈ locs
              · simp [hm]
              · cases mv <;> simp [hm, signs]
            · simp [hl]
          refine ⟨?_, e1, e2, by rw [e3]; exact hi, by rw [e3]; exact Interned.Ext.refl _, ?_, ?_, ?_⟩
          · simp [places, hc, PathNode.loc?]
          · intro F _ l k
            rw [hc, ha, e4]
          · intro l
            rw [e5, hc]
            have : reaches l [(.decision loc mv p r took : PathNode L E)] = decide (l = loc ∧ mv = false) := by
              rw [reaches_decision]
              by_cases hl : l = loc
              · subst hl; cases mv <;> simp
              · simp [hl, reaches]
            rw [this]
            simp only [decide_eq_true_eq]
            constructor
            · rintro (h | ⟨rfl, h1, h2⟩)
              · exact Or.inl h
              · exact Or.inr ⟨h1, rfl, h2⟩
            · rintro (h | ⟨h1, rfl, h2⟩)
              · exact Or.inl h
              · exact Or.inr ⟨rfl, h1, h2⟩
          · intro F _ l k
            rw [hc, ha, e6]
        | false =>
          simp only [hnd, Bool.false_eq_true, if_false] at hw
          have hro : r ∈ objs := ho r (by simp [objects])
          obtain ⟨i1, i2, i3⟩ := internalize_spec s.interned objs hi hf r hro
          obtain ⟨u, t, hut⟩ : ∃ u t, internalize s.interned r = (u, t) := ⟨_, _, rfl⟩
          rw [hut] at i1 i2 i3
          simp only [e3, hut] at hw
          obtain ⟨b, sig, htook, hsig, hw⟩ : ∃ (b : Bool) (sig : Int), took = some b ∧ sig = signed (if p then b else !b) u ∧
              walk (next :: rest) (locs ++ [loc]) (conds ++ [sig]) { s1 with interned := t } = some (locs', s') := by
            cases took with
            | none => simp at hw
            | some b =>
              cases b with
              | true =>
                refine ⟨true, _, rfl, ?_, hw⟩
                cases p <;> simp [signed]
              | false =>
                refine ⟨false, _, rfl, ?_, hw⟩
                cases p <;> simp [signed]
          obtain ⟨h1, h2, h3, h4, h5, h6, h7, h8⟩ := ih true (locs ++ [loc]) (conds ++ [sig]) { s1 with interned := t } locs' s' hd'
            (by simp [hnd]) (fun o h => ho o (by simp [objects, h])) i1 hw
          have hc : counted (.decision loc mv p r took :: next :: rest : List (PathNode L E)) =
              .decision loc mv p r took :: counted (next :: rest) := counted_cons _ _ _ rfl
          subst htook
          have hsigF : ∀ F : E → Nat, (∀ e u, s'.interned.num e = some u → F e = u) → sig = signed (if p then b else !b) (F r.expr) := by
            intro F hF
            rw [hsig, hF _ _ (h5 _ _ i3)]
          refine ⟨?_, h2.trans e1, h3.trans e2, h4, i2.trans h5, ?_, ?_, ?_⟩
          · rw [h1]
            have : (PathNode.decision loc mv p r (some b) : PathNode L E).loc? = some loc := rfl
            simp [places, hc, this]
          · intro F hF l k
            rw [hc, added_decision, h6 F hF l k]
            show (summaryOf s1.summarized l).get k + _ = _
            rw [e4, List.count_append, hsigF F hF]
            omega
          · intro l
            rw [h7 l]
            show (s1.summarized.lookup l).isSome = true ∨ _ ↔ _
            rw [e5, hc]
            have hre : reaches l (.decision loc mv p r (some b) :: counted (next :: rest)) =
                if l = loc then !mv else reaches l (counted (next :: rest)) := reaches_decision ..
            rw [hre]
            by_cases hl : l = loc
            · subst hl; cases mv <;> simp
            · simp only [hl, false_and, or_false, if_false, List.mem_append, List.mem_singleton]
          · intro F hF l k
            rw [hc, added_decision, h8 F hF l k]
            show k ∈ (summaryOf s1.summarized l).map Prod.fst ∨ _ ↔ _
            rw [e6, List.mem_append, hsigF F hF, or_assoc]

end walk
end Verif.Oracles
