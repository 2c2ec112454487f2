import Verif.Oracles.Lemmas
import Mathlib.Data.List.Induction
/-
Helper lemmas about the history of the coverage heuristic.
-/
namespace Verif.Oracles

section coverage
variable {L E : Type} [DecidableEq L] [DecidableEq E]

theorem run_append (s : Coverage L E) (a b : List (Event L E)) : run s (a ++ b) = (run s a).bind fun s => run s b := by
  induction a generalizing s with
  | nil => rfl
  | cons e a ih =>
    simp only [List.cons_append, run]
    cases step s e with
    | none => rfl
    | some t => exact ih t

omit [DecidableEq L] [DecidableEq E] in
theorem pathsOf_append (a b : List (Event L E)) : pathsOf (a ++ b) = pathsOf a ++ pathsOf b := by
  induction a with
  | nil => rfl
  | cons e a ih => cases e <;> simp [pathsOf, ih]

omit [DecidableEq L] [DecidableEq E] in
theorem objectsOf_append (a b : List (Event L E)) : objectsOf (a ++ b) = objectsOf a ++ objectsOf b := by
  induction a with
  | nil => rfl
  | cons e a ih => cases e <;> simp [objectsOf, ih]

/-- The last `n` paths visited only places that had been visited before, and the one before them did not. -/
def SinceDiscovery (n : Nat) (visited : List (List L)) : Prop :=
  ∃ old new, visited = old ++ new ∧ new.length = n ∧ (∀ ls ∈ new, ∀ l ∈ ls, l ∈ old.flatten) ∧
    (old = [] ∨ ∃ earlier ls, old = earlier ++ [ls] ∧ ∃ l ∈ ls, l ∉ earlier.flatten)

omit [DecidableEq E] in
theorem added_first (F : E → Nat) (l : L) (nodes : List (PathNode L E)) :
    added F l [] [] nodes = signs F (leading l nodes) := by
  unfold added leading
  simp only [List.not_mem_nil, if_false, List.nil_append]
  split <;> simp [signs]

omit [DecidableEq L] [DecidableEq E] in
theorem detached_first (path : List (PathNode L E)) (h : detachOk false path = true) :
    path.head?.map PathNode.isDetached ≠ some true := by
  cases path with
  | nil => simp
  | cons n rest =>
    cases n with
    | detached => simp [detachOk] at h
    | decision => simp [PathNode.isDetached]
    | other => simp [PathNode.isDetached]

theorem run_spec (objs : List (Obj E)) (hf : Faithful objs) (events : List (Event L E)) :
    ∀ s : Coverage L E, (∀ o ∈ objectsOf events, o ∈ objs) → (∀ p ∈ pathsOf events, detachOk false p = true) →
    run {} events = some s →
    s.interned.Inv objs ∧
    (∀ l, s.visits.get l = ((pathsOf events).map fun p => (places p).count l).sum) ∧
    (∀ l, l ∈ s.visits.map Prod.fst ↔ l ∈ ((pathsOf events).map places).flatten) ∧
    SinceDiscovery s.itersSinceDiscovery ((pathsOf events).map places) ∧
    (∀ l, (s.summarized.lookup l).isSome = true ↔ ∃ p ∈ pathsOf events, reaches l (counted p) = true) ∧
    ∀ F : E → Nat, (∀ e u, s.interned.num e = some u → F e = u) → ∀ l k,
      (summaryOf s.summarized l).get k = ((pathsOf events).map fun p => (signs F (leading l (counted p))).count k).sum ∧
      (k ∈ (summaryOf s.summarized l).map Prod.fst ↔ ∃ p ∈ pathsOf events, k ∈ signs F (leading l (counted p))) := by
  induction events using List.reverseRecOn with
  | nil =>
    intro s _ _ hr
    cases hr
    refine ⟨⟨by simp, by simp [Interned.num]⟩, ?_, ?_, ?_, ?_, ?_⟩
    · intro l; simp [Counter.get, pathsOf]
    · intro l; simp [pathsOf]
    · exact ⟨[], [], rfl, rfl, by simp, Or.inl rfl⟩
    · intro l; simp [pathsOf]
    · intro F _ l k; simp [summaryOf, Counter.get, pathsOf]
  | append_singleton events e ih =>
    intro s' ho hd hr
    rw [run_append] at hr
    cases hr1 : run {} events with
    | none => rw [hr1] at hr; cases hr
    | some s =>
      rw [hr1] at hr
      simp only [Option.bind_some, run] at hr
      rw [pathsOf_append] at hd ⊢
      rw [objectsOf_append] at ho
      obtain ⟨h1, h2, h3, h4, h5, h6⟩ := ih s (fun o h => ho o (by simp [h])) (fun p h => hd p (by simp [h])) hr1
      cases e with
      | asked o =>
        simp only [step, Option.bind_some, Option.some.injEq] at hr
        subst hr
        have hoo : o ∈ objs := ho o (by simp [objectsOf])
        obtain ⟨i1, i2, _⟩ := internalize_spec s.interned objs h1 hf o hoo
        simp only [pathsOf, List.append_nil]
        exact ⟨i1, h2, h3, h4, h5, fun F hF => h6 F (fun e u h => hF e u (i2 e u h))⟩
      | path nodes =>
        simp only [step] at hr
        obtain ⟨t, ht, hr⟩ := Option.bind_eq_some_iff.mp hr
        cases hr
        unfold postPath at ht
        cases hw : walk nodes [] [] s with
        | none => rw [hw] at ht; cases ht
        | some r =>
          obtain ⟨locs, w⟩ := r
          rw [hw] at ht
          simp only [Option.some.injEq] at ht
          have hdn : detachOk false nodes = true := hd nodes (by simp [pathsOf])
          obtain ⟨w1, w2, w3, w4, w5, w6, w7, w8⟩ := walk_spec objs hf nodes false [] [] s locs w hdn
            (detached_first nodes hdn) (fun o h => ho o (by simp [objectsOf, h])) h1 hw
          have hl : locs = places nodes := by simpa using w1
          subst hl
          subst ht
          simp only [pathsOf, List.map_append, List.map_cons, List.map_nil, List.sum_append, List.sum_cons, List.sum_nil, w2, w3]
          refine ⟨w4, ?_, ?_, ?_, ?_, ?_⟩
          · intro l
            rw [get_addAll, h2]; rfl
          · intro l
            rw [mem_keys_addAll, h3, List.flatten_append, List.mem_append]
            simp
          · obtain ⟨old, new, g1, g2, g3, g4⟩ := h4
            by_cases hlt : s.visits.length < (s.visits.addAll (places nodes)).length
            · rw [if_pos hlt]
              obtain ⟨l, hl, hn⟩ := (length_addAll _ _).mp hlt
              rw [h3] at hn
              exact ⟨(pathsOf events).map places ++ [places nodes], [], by simp, rfl, by simp,
                Or.inr ⟨_, _, rfl, l, hl, hn⟩⟩
            · rw [if_neg hlt]
              refine ⟨old, new ++ [places nodes], by rw [g1, List.append_assoc], by simp [g2], ?_, g4⟩
              intro ls hls l hl
              rcases List.mem_append.mp hls with h | h
              · exact g3 ls h l hl
              · rw [List.mem_singleton] at h
                subst h
                have : l ∈ s.visits.map Prod.fst := by
                  by_contra hn
                  exact hlt ((length_addAll _ _).mpr ⟨l, hl, hn⟩)
                rw [h3, g1, List.flatten_append, List.mem_append] at this
                rcases this with h | h
                · exact h
                · obtain ⟨ls, h1, h2⟩ := List.mem_flatten.mp h
                  exact g3 ls h1 l h2
          · intro l
            rw [w7, h5]
            simp only [List.not_mem_nil, not_false_eq_true, true_and, List.mem_append, List.mem_singleton]
            constructor
            · rintro (⟨p, hp, hr⟩ | hr)
              · exact ⟨p, Or.inl hp, hr⟩
              · exact ⟨nodes, Or.inr rfl, hr⟩
            · rintro ⟨p, hp | rfl, hq⟩
              · exact Or.inl ⟨p, hp, hq⟩
              · exact Or.inr hq
          · intro F hF l k
            have hF' : ∀ e u, s.interned.num e = some u → F e = u := fun e u h => hF e u (w5 e u h)
            constructor
            · rw [w6 F hF l k, (h6 F hF' l k).1, added_first]
              rfl
            · rw [w8 F hF l k, (h6 F hF' l k).2, added_first]
              simp only [List.mem_append, List.mem_singleton]
              constructor
              · rintro (⟨p, hp, hr⟩ | hr)
                · exact ⟨p, Or.inl hp, hr⟩
                · exact ⟨nodes, Or.inr rfl, hr⟩
              · rintro ⟨p, hp | rfl, hq⟩
                · exact Or.inl ⟨p, hp, hq⟩
                · exact Or.inr hq

omit [DecidableEq L] [DecidableEq E] in
theorem truth_objects (n : PathNode L E) (nodes : List (PathNode L E)) (hn : n ∈ nodes) (x : E × Bool) (hx : n.truth? = some x) :
    ∃ o ∈ objects nodes, o.expr = x.1 := by
  induction nodes with
  | nil => cases hn
  | cons m nodes ih =>
    rcases List.mem_cons.mp hn with rfl | hn
    · cases n with
      | decision l mv p r t =>
        refine ⟨r, by simp [objects], ?_⟩
        cases p <;> cases t <;> simp only [PathNode.truth?, Option.some.injEq, reduceCtorEq] at hx <;> rw [← hx]
      | detached => cases hx
      | other => cases hx
    · obtain ⟨o, ho, he⟩ := ih hn
      refine ⟨o, ?_, he⟩
      cases m <;> simp [objects, ho]

omit [DecidableEq E] in
theorem leading_objects (l : L) (path : List (PathNode L E)) (x : E × Bool) (hx : x ∈ leading l (counted path)) :
    ∃ o ∈ objects path, o.expr = x.1 := by
  unfold leading at hx
  split at hx
  · unfold before at hx
    obtain ⟨n, hn, hx⟩ := List.mem_filterMap.mp hx
    have h1 := (List.takeWhile_sublist _).subset hn
    have h2 : n ∈ path.dropLast := (List.takeWhile_sublist _).subset h1
    exact truth_objects n path (List.dropLast_sublist _ |>.subset h2) x hx
  · cases hx

omit [DecidableEq L] [DecidableEq E] in
theorem objectsOf_path (events : List (Event L E)) (p : List (PathNode L E)) (hp : p ∈ pathsOf events) (o : Obj E)
    (ho : o ∈ objects p) : o ∈ objectsOf events := by
  induction events with
  | nil => cases hp
  | cons e events ih =>
    cases e with
    | asked a => exact List.mem_cons_of_mem _ (ih hp)
    | path nodes =>
      rcases List.mem_cons.mp hp with rfl | hp
      · simp [objectsOf, ho]
      · simp [objectsOf, ih hp]

theorem signed_inj (b b' : Bool) (n n' : Nat) (h0 : n ≠ 0) (h : signed b n = signed b' n') : b = b' ∧ n = n' := by
  unfold signed at h
  cases b <;> cases b' <;> simp at h ⊢ <;> omega

theorem count_map_of_inj {A B : Type} [BEq A] [LawfulBEq A] [BEq B] [LawfulBEq B] (f : A → B) (xs : List A) (a : A)
    (h : ∀ x ∈ xs, f x = f a → x = a) : (xs.map f).count (f a) = xs.count a := by
  induction xs with
  | nil => rfl
  | cons x xs ih =>
    rw [List.map_cons, List.count_cons, List.count_cons, ih (fun y hy => h y (by simp [hy]))]
    by_cases hx : x = a
    · subst hx; simp
    · have h1 : ¬ f x = f a := fun e => hx (h x (by simp) e)
      have h2 : (x == a) = false := by simpa using hx
      have h3 : (f x == f a) = false := by simpa using h1
      simp [h2, h3]

/-- Numbers for all expressions, in accordance with the table and with the next number given to `o`. -/
theorem numbers (objs : List (Obj E)) (hf : Faithful objs) (s : Interned E) (hi : s.Inv objs) (o : Obj E) (ho : o ∈ objs) :
    ∃ F : E → Nat, (∀ e u, s.num e = some u → F e = u) ∧ F o.expr = (internalize s o).1 ∧
      (∀ a ∈ objs, ∃ b ∈ objs, b.expr = a.expr ∧ b.addr = F a.expr) := by
  classical
  obtain ⟨i1, i2, i3⟩ := internalize_spec s objs hi hf o ho
  have key : ∀ e : E, ∃ u, ((internalize s o).2.num e = some u ∨ (internalize s o).2.num e = none) ∧
      ((internalize s o).2.num e = none → ∀ a ∈ objs, a.expr = e → ∃ b ∈ objs, b.expr = e ∧ b.addr = u) := by
    intro e
    cases h : (internalize s o).2.num e with
    | some u => exact ⟨u, Or.inl rfl, fun h => by cases h⟩
    | none =>
      by_cases hx : ∃ a ∈ objs, a.expr = e
      · obtain ⟨a, ha, hae⟩ := hx
        exact ⟨a.addr, Or.inr rfl, fun _ _ _ _ => ⟨a, ha, hae, rfl⟩⟩
      · exact ⟨0, Or.inr rfl, fun _ a ha hae => absurd ⟨a, ha, hae⟩ hx⟩
  choose G hG1 hG2 using key
  have hG : ∀ e u, (internalize s o).2.num e = some u → G e = u := by
    intro e u h
    rcases hG1 e with h' | h'
    · rw [h] at h'; cases h'; rfl
    · rw [h] at h'; cases h'
  refine ⟨G, fun e u h => hG e u (i2 e u h), hG _ _ i3, ?_⟩
  intro a ha
  cases h : (internalize s o).2.num a.expr with
  | some u =>
    obtain ⟨b, hb, h1, h2⟩ := i1.exprs _ _ h
    exact ⟨b, hb, h2, by rw [hG _ _ h]; exact h1⟩
  | none => exact hG2 a.expr h a ha rfl

theorem nodup_summarize (m : List (L × Counter Int)) (l : L) (ks : List Int) (h : ∀ j, ((summaryOf m j).map Prod.fst).Nodup) (j : L) :
    ((summaryOf (summarize m l ks) j).map Prod.fst).Nodup := by
  rw [summaryOf_summarize]
  split
  · exact nodup_addAll _ _ (h j)
  · exact h j

theorem nodup_walk (path : List (PathNode L E)) : ∀ (locs : List L) (conds : List Int) (s : Coverage L E) (locs' : List L)
    (s' : Coverage L E), (∀ j, ((summaryOf s.summarized j).map Prod.fst).Nodup) → walk path locs conds s = some (locs', s') →
    ∀ j, ((summaryOf s'.summarized j).map Prod.fst).Nodup := by
  induction path with
  | nil =>
    intro locs conds s locs' s' h hw
    simp only [walk, Option.some.injEq, Prod.mk.injEq] at hw
    rw [← hw.2]; exact h
  | cons n rest ih =>
    intro locs conds s locs' s' h hw
    cases rest with
    | nil =>
      have hw : some (locs, s) = some (locs', s') := by rw [← hw]; cases n <;> rfl
      simp only [Option.some.injEq, Prod.mk.injEq] at hw
      rw [← hw.2]; exact h
    | cons next rest =>
      cases n with
      | detached => exact ih locs conds s locs' s' h hw
      | other => exact ih locs conds s locs' s' h hw
      | decision loc mv p r took =>
        simp only [walk] at hw
        obtain ⟨s1, hs1⟩ : ∃ s1 : Coverage L E, s1 = (if ¬ loc ∈ locs ∧ mv = false then { s with summarized := summarize s.summarized loc conds } else s) := ⟨_, rfl⟩
        rw [← hs1] at hw
        have h1 : ∀ j, ((summaryOf s1.summarized j).map Prod.fst).Nodup := by
          rw [hs1]
          split
          · exact nodup_summarize _ _ _ h
          · exact h
        split at hw
        · simp only [Option.some.injEq, Prod.mk.injEq] at hw
          rw [← hw.2]; exact h1
        · split at hw
          · exact ih _ _ { s1 with interned := (internalize s1.interned r).2 } locs' s' h1 hw
          · exact ih _ _ { s1 with interned := (internalize s1.interned r).2 } locs' s' h1 hw
          · cases hw

theorem nodup_run (events : List (Event L E)) : ∀ (s s' : Coverage L E), (∀ j, ((summaryOf s.summarized j).map Prod.fst).Nodup) →
    run s events = some s' → ∀ j, ((summaryOf s'.summarized j).map Prod.fst).Nodup := by
  induction events with
  | nil =>
    intro s s' h hr
    cases hr; exact h
  | cons e events ih =>
    intro s s' h hr
    simp only [run] at hr
    obtain ⟨t, ht, hr⟩ := Option.bind_eq_some_iff.mp hr
    refine ih t s' ?_ hr
    cases e with
    | asked o => simp only [step, Option.some.injEq] at ht; subst ht; exact h
    | path nodes =>
      simp only [step, postPath] at ht
      split at ht
      · cases ht
      · rename_i locs w hw
        simp only [Option.some.injEq] at ht
        subst ht
        exact nodup_walk nodes [] [] s locs w h hw

theorem zero_run (events : List (Event L E)) (s : Coverage L E) (hf : Faithful (objectsOf events))
    (hd : ∀ p ∈ pathsOf events, detachOk false p = true) (hr : run {} events = some s) (l : L) (o : Obj E) (ho : o ∈ objectsOf events) :
    (0 : Int) ∉ (summaryOf s.summarized l).map Prod.fst ∧ (internalize s.interned o).1 ≠ 0 := by
  obtain ⟨h1, -, -, -, -, h6⟩ := run_spec (objectsOf events) hf events s (fun o h => h) hd hr
  obtain ⟨F, hF1, hF2, hF3⟩ := numbers (objectsOf events) hf s.interned h1 o ho
  constructor
  · rw [(h6 F hF1 l 0).2]
    rintro ⟨p, hp, hk⟩
    unfold signs at hk
    obtain ⟨x, hx, he⟩ := List.mem_map.mp hk
    obtain ⟨a, ha, hae⟩ := leading_objects l p x hx
    obtain ⟨c, hc, hce, hca⟩ := hF3 a (objectsOf_path events p hp a ha)
    rw [← hae, ← hca] at he
    have := hf.1 c hc
    unfold signed at he
    split at he <;> omega
  · rw [← hF2]
    obtain ⟨c, hc, hce, hca⟩ := hF3 o ho
    rw [← hca]
    exact hf.1 c hc

end coverage

theorem decideAll_eq {O P N : Type} (ops : Oracle O P N) (qs : List (N × Option Rat)) : ∀ (r : Rotating O) (o : O),
    r.oracles[position r.oracles.length r.index]? = some o →
    r.decideAll ops qs = some ({ r with oracles := r.oracles.set (position r.oracles.length r.index) (askAll ops o qs).1 }, (askAll ops o qs).2) := by
  induction qs with
  | nil =>
    intro r o h
    simp only [Rotating.decideAll, askAll, Option.some.injEq, Prod.mk.injEq, and_true]
    have hlt : position r.oracles.length r.index < r.oracles.length := (List.getElem?_eq_some_iff.mp h).1
    have he := (List.getElem?_eq_some_iff.mp h).2
    have : r.oracles.set (position r.oracles.length r.index) o = r.oracles := by
      conv_lhs => rw [← he]
      exact List.set_getElem_self hlt
    rw [this]
  | cons q qs ih =>
    intro r o h
    obtain ⟨n, e⟩ := q
    have hlt : position r.oracles.length r.index < r.oracles.length := (List.getElem?_eq_some_iff.mp h).1
    simp only [Rotating.decideAll, Rotating.decide, h, askAll]
    rw [ih { r with oracles := r.oracles.set (position r.oracles.length r.index) (ops.decide o n e).1 } (ops.decide o n e).1 (by
      simp only [List.length_set]
      rw [List.getElem?_set_self hlt])]
    simp only [List.length_set, List.set_set]

end Verif.Oracles
