import Verif.Contract.Spec
/-
Helper lemmas about merging dicts of conditions.
-/
namespace Verif.Contract

variable {γ : Type}

theorem classCondsList_eq (bs : List (Cls γ)) : classCondsList bs = bs.map classConds := by
  induction bs with
  | nil => rfl
  | cons b bs ih => simp [classCondsList, ih]

theorem lookup_append {β : Type} (n : Name) (l m : List (Name × β)) :
    (l ++ m).lookup n = (l.lookup n).or (m.lookup n) := by
  induction l with
  | nil => simp
  | cons e l ih =>
    obtain ⟨k, v⟩ := e
    simp only [List.cons_append, List.lookup_cons]
    cases n == k <;> simp [ih]

theorem foldl_update (cs : List (ClassConds γ)) (acc : List (Name × Conds γ)) :
    cs.reverse.foldl (fun methods c => update methods c.methods) acc
      = cs.flatMap (fun c => c.methods) ++ acc := by
  induction cs generalizing acc with
  | nil => rfl
  | cons c cs ih =>
    rw [List.reverse_cons, List.foldl_append, ih]
    simp only [List.foldl_cons, List.foldl_nil, update, List.flatMap_cons, List.append_assoc]

theorem mergeMethods_eq (cs : List (ClassConds γ)) :
    mergeMethods cs = cs.flatMap (fun c => c.methods) := by
  unfold mergeMethods
  rw [foldl_update, List.append_nil]

theorem lookup_merge (cs : List (ClassConds γ)) (n : Name) :
    (mergeMethods cs).lookup n = cs.findSome? (fun c => c.methods.lookup n) := by
  rw [mergeMethods_eq]
  induction cs with
  | nil => rfl
  | cons c cs ih =>
    simp only [List.flatMap_cons, lookup_append, ih, List.findSome?_cons]
    cases c.methods.lookup n <;> rfl

/-- The conditions inherited for a name: those of the leftmost base that has any. -/
theorem lookup_bases (bases : List (Cls γ)) (n : Name) :
    (mergeMethods (classCondsList bases)).lookup n = bases.findSome? (fun b => methodConds b n) := by
  rw [lookup_merge, classCondsList_eq, List.findSome?_map]
  rfl

theorem lookup_filterMap (f : Name → Option (Conds γ)) (names : List Name) (n : Name) :
    (names.filterMap (fun m => (f m).map (fun c => (m, c)))).lookup n
      = if n ∈ names then f n else none := by
  induction names with
  | nil => rfl
  | cons m names ih =>
    cases hf : f m with
    | none =>
      simp only [List.filterMap_cons, hf, Option.map_none, ih, List.mem_cons]
      by_cases h : n = m
      · subst h; simp [hf]
      · simp [h]
    | some c =>
      simp only [List.filterMap_cons, hf, Option.map_some, List.lookup_cons, ih, List.mem_cons]
      by_cases h : n = m
      · subst h; simp [hf]
      · simp [h, beq_false_of_ne h]

theorem lookup_none_of_not_mem {β : Type} (n : Name) (l : List (Name × β))
    (h : n ∉ l.map Prod.fst) : l.lookup n = none := by
  induction l with
  | nil => rfl
  | cons e l ih =>
    obtain ⟨k, v⟩ := e
    simp only [List.map_cons, List.mem_cons, not_or] at h
    simp [List.lookup_cons, beq_false_of_ne h.1, ih h.2]

theorem lookup_loop (d : Decl γ) (sup : List (Name × Conds γ)) (inv : List γ) (n : Name) :
    (loop d sup inv).lookup n = finalConds d sup inv n := by
  unfold loop
  rw [lookup_filterMap]
  split
  · rfl
  · rename_i h
    simp only [List.mem_eraseDups, List.mem_append, not_or] at h
    simp [finalConds, baseConds, lookup_none_of_not_mem _ _ h.1, lookup_none_of_not_mem _ _ h.2]

theorem loop_hasAny (d : Decl γ) (sup : List (Name × Conds γ)) (inv : List γ) :
    ∀ e ∈ loop d sup inv, e.2.hasAny = true := by
  intro e he
  unfold loop at he
  simp only [List.mem_filterMap, Option.map_eq_some_iff] at he
  obtain ⟨n, _, c, hc, rfl⟩ := he
  unfold finalConds at hc
  split at hc
  · cases hc
  · split at hc
    · rename_i h; cases hc; exact h
    · cases hc

theorem baseConds_eq (d : Decl γ) (sup : List (Name × Conds γ)) (n : Name) :
    baseConds d sup n = match says d n with
      | .nothing => sup.lookup n
      | .hides => none
      | .declares own => some (match sup.lookup n with
          | none => own
          | some s => mergeFn own s) := by
  unfold baseConds says
  cases d.dict.lookup n with
  | none => rfl
  | some e =>
    cases e with
    | noneValue => rfl
    | value ps =>
      cases h : compositeFn ps none with
      | none => simp [h]
      | some own => simp only [h]; cases sup.lookup n <;> rfl

theorem concrete_methods (d : Decl γ) (bases : List (ClassConds γ)) (p : Bool × List γ)
    (hp : p.1 = true) (n : Name) :
    (concrete d bases p).inv = p.2 ∧
    (concrete d bases p).methods.lookup n =
      match finalConds d (mergeMethods bases) p.2 n with
      | some c => some c
      | none => if n = "__init__".toList ∧ p.2 ≠ [] then some ⟨d.initFn, [], p.2, [], none, []⟩ else none := by
  unfold concrete
  simp only [hp, Bool.not_true, Bool.false_eq_true, if_false]
  by_cases hi : p.2 = []
  · simp only [hi, List.isEmpty_nil, Bool.not_true, Bool.false_and, Bool.false_eq_true, if_false, ne_eq,
      not_true_eq_false, and_false, lookup_loop, true_and]
    cases finalConds d (mergeMethods bases) [] n <;> rfl
  · have he : p.2.isEmpty = false := by cases h : p.2 <;> simp_all
    simp only [he, Bool.not_false, Bool.true_and, lookup_loop]
    cases hf : finalConds d (mergeMethods bases) p.2 "__init__".toList with
    | none =>
      simp only [Option.isNone_none, if_true, List.lookup_cons, lookup_loop, true_and]
      by_cases hn : n = "__init__".toList
      · subst hn; rw [hf]; simp only [beq_self_eq_true, true_and, ne_eq, hi, not_false_eq_true, if_true]
      · simp only [beq_false_of_ne hn, hn, false_and, if_false]
        cases finalConds d (mergeMethods bases) p.2 n <;> rfl
    | some c =>
      simp only [Option.isNone_some, Bool.false_eq_true, if_false, lookup_loop, true_and]
      by_cases hn : n = "__init__".toList
      · subst hn; rw [hf]
      · simp only [hn, false_and, if_false]
        cases finalConds d (mergeMethods bases) p.2 n <;> rfl

theorem concrete_not (d : Decl γ) (bases : List (ClassConds γ)) (p : Bool × List γ)
    (hp : p.1 = false) : concrete d bases p = ⟨[], []⟩ := by
  simp [concrete, hp]

theorem hasAny_of_lookup (cc : ClassConds γ) (n : Name) (c : Conds γ)
    (h : cc.methods.lookup n = some c) (hc : c.hasAny = true) : cc.hasAny = true := by
  obtain ⟨inv, ms⟩ := cc
  simp only [ClassConds.hasAny, Bool.or_eq_true, List.any_eq_true] at h ⊢
  right
  clear inv
  induction ms with
  | nil => cases h
  | cons e ms ih =>
    obtain ⟨k, v⟩ := e
    rw [List.lookup_cons] at h
    cases hk : n == k with
    | true => rw [hk] at h; cases h; exact ⟨_, List.mem_cons_self, hc⟩
    | false =>
      rw [hk] at h
      obtain ⟨x, hx, hx'⟩ := ih h
      exact ⟨x, List.mem_cons_of_mem _ hx, hx'⟩

theorem finalConds_hasAny (d : Decl γ) (sup : List (Name × Conds γ)) (inv : List γ) (n : Name)
    (c : Conds γ) (h : finalConds d sup inv n = some c) : c.hasAny = true := by
  unfold finalConds at h
  split at h
  · cases h
  · split at h
    · rename_i h'; cases h; exact h'
    · cases h

/-- What the composite parser returns: the result of a parser that looks at the class, with that
parser's invariants. -/
theorem step_methods (d : Decl γ) (bases : List (ClassConds γ)) (hd : Ordinary d) (n : Name) :
    (compositeStep d bases).methods.lookup n =
      match finalConds d (mergeMethods bases) (compositeStep d bases).inv n with
      | some c => some c
      | none => if n = "__init__".toList ∧ (compositeStep d bases).inv ≠ []
          then some ⟨d.initFn, [], (compositeStep d bases).inv, [], none, []⟩ else none := by
  obtain ⟨ht, q, hq, hq1⟩ := hd
  unfold compositeStep
  simp only [ht, Bool.false_eq_true, if_false]
  generalize d.parsers = ps at hq
  induction ps with
  | nil => cases hq
  | cons p ps ih =>
    simp only [List.map_cons, firstAny]
    cases hany : (concrete d bases p).hasAny with
    | true =>
      simp only [if_true]
      cases hp : p.1 with
      | false => rw [concrete_not d bases p hp] at hany; cases hany
      | true =>
        have h := concrete_methods d bases p hp n
        rw [h.1, h.2]
    | false =>
      simp only [Bool.false_eq_true, if_false]
      by_cases hin : q ∈ ps
      · exact ih hin
      · have hpq : q = p := by
          rcases List.mem_cons.mp hq with h | h
          · exact h
          · exact absurd h hin
        subst hpq
        -- the parser that can look at the class found nothing
        have h := concrete_methods d bases q hq1
        have hinv : q.2 = [] := by
          simp only [ClassConds.hasAny, Bool.or_eq_false_iff, (h n).1] at hany
          cases hq2 : q.2 with
          | nil => rfl
          | cons a l => simp [hq2] at hany
        have hnone : ∀ m, finalConds d (mergeMethods bases) [] m = none := by
          intro m
          cases hf : finalConds d (mergeMethods bases) [] m with
          | none => rfl
          | some c =>
            have h2 := (h m).2
            rw [hinv, hf] at h2
            have := hasAny_of_lookup _ m c h2 (finalConds_hasAny _ _ _ _ _ hf)
            rw [this] at hany; cases hany
        -- all remaining parsers with a nonempty result are handled by the same argument
        clear ih hq h
        induction ps with
        | nil => simp [firstAny, hnone]
        | cons p' ps' ih' =>
          simp only [List.map_cons, firstAny]
          cases hany' : (concrete d bases p').hasAny with
          | true =>
            simp only [if_true]
            cases hp : p'.1 with
            | false => rw [concrete_not d bases p' hp] at hany'; cases hany'
            | true =>
              have h := concrete_methods d bases p' hp n
              rw [h.1, h.2]
          | false =>
            simp only [Bool.false_eq_true, if_false]
            exact ih' (fun h => hin (List.mem_cons_of_mem _ h))

theorem methodConds_eq (d : Decl γ) (bases : List (Cls γ)) (hd : Ordinary d) (n : Name) :
    methodConds (.mk d bases) n =
      match finalConds d (mergeMethods (classCondsList bases)) (classConds (.mk d bases)).inv n with
      | some c => some c
      | none => if n = "__init__".toList ∧ (classConds (.mk d bases)).inv ≠ []
          then some ⟨d.initFn, [], (classConds (.mk d bases)).inv, [], none, []⟩ else none := by
  unfold methodConds
  rw [classConds]
  exact step_methods d _ hd n

/-- The same, with the inherited conditions and the class body made explicit. -/
theorem methodConds_cases (d : Decl γ) (bases : List (Cls γ)) (hd : Ordinary d) (n : Name)
    (c : Conds γ) (h : methodConds (.mk d bases) n = some c) :
    (∃ b, baseConds d (mergeMethods (classCondsList bases)) n = some b ∧
        c = addInv (classConds (.mk d bases)).inv n b) ∨
    (baseConds d (mergeMethods (classCondsList bases)) n = none ∧ n = "__init__".toList ∧
      (classConds (.mk d bases)).inv ≠ [] ∧
      c = ⟨d.initFn, [], (classConds (.mk d bases)).inv, [], none, []⟩) := by
  rw [methodConds_eq d bases hd n] at h
  cases hb : baseConds d (mergeMethods (classCondsList bases)) n with
  | none =>
    have hf : finalConds d (mergeMethods (classCondsList bases)) (classConds (.mk d bases)).inv n = none := by
      simp [finalConds, hb]
    rw [hf] at h
    right
    simp only at h
    split at h
    · rename_i hc; cases h; exact ⟨rfl, hc.1, hc.2, rfl⟩
    · cases h
  | some b =>
    left
    refine ⟨b, rfl, ?_⟩
    have hf : finalConds d (mergeMethods (classCondsList bases)) (classConds (.mk d bases)).inv n
        = if (addInv (classConds (.mk d bases)).inv n b).hasAny
            then some (addInv (classConds (.mk d bases)).inv n b) else none := by
      simp [finalConds, hb]
    rw [hf] at h
    by_cases ha : (addInv (classConds (.mk d bases)).inv n b).hasAny = true
    · simp only [ha, if_true] at h; cases h; rfl
    · simp only [ha, Bool.false_eq_true, if_false] at h
      split at h
      · rename_i hc
        exfalso; apply ha
        obtain ⟨rfl, hi⟩ := hc
        have : invPlaces "__init__".toList = (false, true) := by decide +kernel
        simp only [addInv, this, Conds.hasAny, if_true]
        cases hinv : (classConds (.mk d bases)).inv with
        | nil => exact absurd hinv hi
        | cons a l => cases b.post <;> simp
      · cases h

theorem findSome_leftmost (n : Name) (bases : List (Cls γ)) (s : Conds γ) :
    bases.findSome? (fun b => methodConds b n) = some s ↔
      ∃ b, Leftmost n bases b ∧ methodConds b n = some s := by
  rw [List.findSome?_eq_some_iff]
  constructor
  · rintro ⟨l1, b, l2, rfl, hb, hl⟩
    exact ⟨b, ⟨l1, l2, rfl, hl, by rw [hb]; simp⟩, hb⟩
  · rintro ⟨b, ⟨l1, l2, rfl, hl, _⟩, hb⟩
    exact ⟨l1, b, l2, rfl, hb, hl⟩

theorem leftmost_findSome (n : Name) (bases : List (Cls γ)) (b : Cls γ) (h : Leftmost n bases b) :
    bases.findSome? (fun b => methodConds b n) = methodConds b n := by
  cases hs : methodConds b n with
  | none => obtain ⟨_, _, _, _, h'⟩ := h; exact absurd hs h'
  | some s => exact (findSome_leftmost n bases s).mpr ⟨b, h, hs⟩

theorem findSome_none (n : Name) (bases : List (Cls γ)) :
    bases.findSome? (fun b => methodConds b n) = none ↔ ∀ b ∈ bases, methodConds b n = none := by
  simp [List.findSome?_eq_none_iff]

/-- How the conditions along a line are put together. -/
inductive Built (n : Name) : List (Level γ) → Conds γ → Prop where
  | root (own : Conds γ) (inv : List γ) : Built n [⟨some own, inv⟩] (addInv inv n own)
  | override (own sup : Conds γ) (inv : List γ) (ls : List (Level γ)) :
      Built n ls sup → Built n (ls ++ [⟨some own, inv⟩]) (addInv inv n (mergeFn own sup))
  | inherit (sup : Conds γ) (inv : List γ) (ls : List (Level γ)) :
      Built n ls sup → Built n (ls ++ [⟨none, inv⟩]) (addInv inv n sup)
  | constructor (f : Nat) (inv : List γ) : n = "__init__".toList →
      Built n [⟨none, inv⟩] ⟨f, [], inv, [], none, []⟩

theorem built_of_line {n : Name} {c : Cls γ} {ls : List (Level γ)} (h : Line n c ls) :
    ∀ cc, methodConds c n = some cc → Built n ls cc := by
  induction h with
  | @root d bases own hd hb hs =>
    intro cc hc
    have hl := lookup_bases bases n
    rw [(findSome_none n bases).mpr hb] at hl
    have he := baseConds_eq d (mergeMethods (classCondsList bases)) n
    rw [hs, hl] at he
    rcases methodConds_cases d bases hd n cc hc with ⟨b, hb', rfl⟩ | ⟨hb', _⟩
    · rw [he] at hb'; cases hb'; exact .root _ _
    · rw [he] at hb'; cases hb'
  | @override d bases b own ls hd hb _ hs ih =>
    intro cc hc
    have hl := lookup_bases bases n
    rw [leftmost_findSome n bases b hb] at hl
    cases hm : methodConds b n with
    | none => obtain ⟨_, _, _, _, h'⟩ := hb; exact absurd hm h'
    | some s =>
      rw [hm] at hl
      have he := baseConds_eq d (mergeMethods (classCondsList bases)) n
      rw [hs, hl] at he
      rcases methodConds_cases d bases hd n cc hc with ⟨b', hb', rfl⟩ | ⟨hb', _⟩
      · rw [he] at hb'; cases hb'; exact .override _ _ _ _ (ih s hm)
      · rw [he] at hb'; cases hb'
  | @inherit d bases b ls hd hb _ hs ih =>
    intro cc hc
    have hl := lookup_bases bases n
    rw [leftmost_findSome n bases b hb] at hl
    cases hm : methodConds b n with
    | none => obtain ⟨_, _, _, _, h'⟩ := hb; exact absurd hm h'
    | some s =>
      rw [hm] at hl
      have he := baseConds_eq d (mergeMethods (classCondsList bases)) n
      rw [hs, hl] at he
      rcases methodConds_cases d bases hd n cc hc with ⟨b', hb', rfl⟩ | ⟨hb', _⟩
      · rw [he] at hb'; cases hb'; exact .inherit _ _ _ (ih s hm)
      · rw [he] at hb'; cases hb'
  | @constructor d bases hd hn hi hs =>
    intro cc hc
    have hl := lookup_bases bases n
    have he := baseConds_eq d (mergeMethods (classCondsList bases)) n
    have hnone : baseConds d (mergeMethods (classCondsList bases)) n = none := by
      rcases hs with hs | ⟨hs, hb⟩
      · rw [hs] at he; exact he
      · rw [hs, hl, (findSome_none n bases).mpr hb] at he; exact he
    rcases methodConds_cases d bases hd n cc hc with ⟨b', hb', _⟩ | ⟨_, _, _, rfl⟩
    · rw [hnone] at hb'; cases hb'
    · exact .constructor _ _ hn

theorem snoc_split {α : Type} {ls above below : List α} {x l : α}
    (h : ls ++ [x] = above ++ l :: below) :
    (below = [] ∧ l = x ∧ above = ls) ∨ ∃ below', below = below' ++ [x] ∧ ls = above ++ l :: below' := by
  rcases List.eq_nil_or_concat below with rfl | ⟨b', y, rfl⟩
  · left
    have := List.append_inj' h rfl
    exact ⟨rfl, by simpa using this.2.symm, this.1.symm⟩
  · right
    rw [List.concat_eq_append, ← List.cons_append, ← List.append_assoc] at h
    have := List.append_inj' h rfl
    have hx : x = y := by simpa using this.2
    subst hx
    exact ⟨b', List.concat_eq_append, this.1⟩

end Verif.Contract
