import Verif.Builtin.Spec

namespace Verif.Builtin

section AllAny
variable {A E : Type}

theorem conj_nil (a : A) : conj [] a = true := rfl
theorem conj_snoc (pre : List (A → Bool)) (φ : A → Bool) (a : A) : conj (pre ++ [φ]) a = (conj pre a && φ a) := by
  simp [conj]
theorem disj_nil (a : A) : disj [] a = false := rfl
theorem disj_snoc (pre : List (A → Bool)) (φ : A → Bool) (a : A) : disj (pre ++ [φ]) a = (disj pre a || φ a) := by
  simp [disj]

theorem nonempty_of_conj {pre : List (A → Bool)} {a : A} (h : conj pre a = false) : pre.isEmpty = false := by
  cases pre with
  | nil => simp [conj_nil] at h
  | cons => rfl

theorem nonempty_of_disj {pre : List (A → Bool)} {a : A} (h : disj pre a = true) : pre.isEmpty = false := by
  cases pre with
  | nil => simp [disj_nil] at h
  | cons => rfl

theorem allEnd_value (a : A) (pre : List (A → Bool)) :
    (if pre.isEmpty then (Res.concrete true : Res A E) else .symbolic (conj pre)).value a = .ok (conj pre a) := by
  cases pre <;> rfl

theorem anyEnd_value (a : A) (pre : List (A → Bool)) :
    (if pre.isEmpty then (Res.concrete false : Res A E) else .symbolic (disj pre)).value a = .ok (disj pre a) := by
  cases pre <;> rfl

theorem foreign_next (ev : List Event) : foreign (.next :: ev) = foreign ev := rfl
theorem foreign_ch (i : Nat) (ev : List Event) : foreign (.truth true i :: ev) = foreign ev := rfl
theorem foreign_other (i : Nat) (ev : List Event) : foreign (.truth false i :: ev) = .truth false i :: foreign ev := rfl
theorem foreign_append (x y : List Event) : foreign (x ++ y) = foreign x ++ foreign y := by simp [foreign]

theorem allLoop_false (a : A) (steps : List (Step A E)) : ∀ (i : Nat) (pre : List (A → Bool)),
    conj pre a = false →
    ((∀ b, (allLoop a steps i pre).1.value a = .ok b → b = false) ∧
      (Quiet steps → (allLoop a steps i pre).1.value a = .ok false) ∧
      foreign (allLoop a steps i pre).2 = []) := by
  induction steps with
  | nil =>
    intro i pre h
    refine ⟨?_, ?_, rfl⟩
    · intro b hb
      simp only [allLoop, allEnd_value, h] at hb
      cases hb; rfl
    · intro _
      simp only [allLoop, allEnd_value, h]
  | cons s rest ih =>
    intro i pre h
    have hq : Quiet (s :: rest) → Quiet rest := fun q t ht => q t (List.mem_cons_of_mem _ ht)
    cases s with
    | raises e =>
      refine ⟨?_, ?_, rfl⟩
      · intro b hb; simp [allLoop, Res.value] at hb
      · intro q; exact (q (.raises e) (by simp)).elim
    | item x =>
      cases x with
      | bool b0 =>
        cases b0 with
        | false => exact ⟨fun b hb => by simp [allLoop, Res.value] at hb; exact hb, fun _ => by simp [allLoop, Res.value], rfl⟩
        | true =>
          obtain ⟨h1, h2, h3⟩ := ih (i + 1) pre h
          exact ⟨fun b hb => h1 b (by simpa [allLoop] using hb), fun q => by simpa [allLoop] using h2 (hq q),
            by simpa [allLoop, foreign_next] using h3⟩
      | sym φ =>
        obtain ⟨h1, h2, h3⟩ := ih (i + 1) (pre ++ [φ]) (by rw [conj_snoc, h]; rfl)
        exact ⟨fun b hb => h1 b (by simpa [allLoop] using hb), fun q => by simpa [allLoop] using h2 (hq q),
          by simpa [allLoop, foreign_next] using h3⟩
      | other ch truth =>
        cases ch with
        | false =>
          have he := nonempty_of_conj h
          simp only [allLoop, he, h, Bool.not_false, Bool.and_self, if_true]
          exact ⟨fun b hb => by simp [Res.value] at hb; exact hb, fun _ => rfl, rfl⟩
        | true =>
          simp only [allLoop, Bool.not_true, Bool.false_and, Bool.false_eq_true, if_false, if_true]
          cases ht : truth a with
          | error e =>
            refine ⟨fun b hb => by simp [Res.value] at hb, fun q => ?_, rfl⟩
            obtain ⟨b, hb⟩ := q (.item (.other true truth)) (by simp) a
            rw [ht] at hb; cases hb
          | ok b0 =>
            cases b0 with
            | false => exact ⟨fun b hb => by simp [Res.value] at hb; exact hb, fun _ => rfl, rfl⟩
            | true =>
              obtain ⟨h1, h2, h3⟩ := ih (i + 1) pre h
              exact ⟨fun b hb => h1 b hb, fun q => h2 (hq q), by simpa [foreign_next, foreign_ch] using h3⟩

theorem allLoop_true (a : A) (steps : List (Step A E)) : ∀ (i : Nat) (pre : List (A → Bool)),
    conj pre a = true →
    ((∀ b, (allLoop a steps i pre).1.value a = .ok b → (pyAll a steps i).1 = .ok b) ∧
      (∀ e, (pyAll a steps i).1 = .error e → (allLoop a steps i pre).1.value a = .error e) ∧
      (Quiet steps → (allLoop a steps i pre).1.value a = (pyAll a steps i).1) ∧
      foreign (allLoop a steps i pre).2 = foreign (pyAll a steps i).2) := by
  induction steps with
  | nil =>
    intro i pre h
    refine ⟨?_, ?_, ?_, rfl⟩
    · intro b hb
      simp only [allLoop, allEnd_value, h] at hb
      exact hb
    · intro e he; simp [pyAll] at he
    · intro _
      simp only [allLoop, allEnd_value, h, pyAll]
  | cons s rest ih =>
    intro i pre h
    have hq : Quiet (s :: rest) → Quiet rest := fun q t ht => q t (List.mem_cons_of_mem _ ht)
    cases s with
    | raises e =>
      refine ⟨fun b hb => by simp [allLoop, Res.value] at hb, fun e' he => he, fun _ => rfl, rfl⟩
    | item x =>
      cases x with
      | bool b0 =>
        cases b0 with
        | false => exact ⟨fun b hb => hb, fun e he => he, fun _ => rfl, rfl⟩
        | true =>
          obtain ⟨h1, h2, h3, h4⟩ := ih (i + 1) pre h
          simp only [allLoop, pyAll, Item.isTrue, Item.events, Bool.not_true, Bool.false_eq_true, if_false,
            List.cons_append, List.nil_append, foreign_next]
          exact ⟨h1, h2, fun q => h3 (hq q), h4⟩
      | sym φ =>
        cases hp : φ a with
        | true =>
          obtain ⟨h1, h2, h3, h4⟩ := ih (i + 1) (pre ++ [φ]) (by rw [conj_snoc, h, hp]; rfl)
          simp only [allLoop, pyAll, Item.isTrue, Item.events, hp,
            List.cons_append, List.nil_append, foreign_next]
          exact ⟨h1, h2, fun q => h3 (hq q), h4⟩
        | false =>
          obtain ⟨h1, h2, h3⟩ := allLoop_false a rest (i + 1) (pre ++ [φ]) (by rw [conj_snoc, hp]; simp)
          simp only [allLoop, pyAll, Item.isTrue, Item.events, hp, foreign_next]
          exact ⟨fun b hb => (by rw [h1 b hb]), fun e he => (by simp at he), fun q => h2 (hq q), h3⟩
      | other ch truth =>
        simp only [allLoop, h, Bool.not_true, Bool.and_false, Bool.false_eq_true, if_false, pyAll, Item.isTrue,
          Item.events]
        cases ht : truth a with
        | error e => exact ⟨fun b hb => hb, fun e he => he, fun _ => rfl, rfl⟩
        | ok b0 =>
          cases b0 with
          | false => exact ⟨fun b hb => hb, fun e he => he, fun _ => rfl, rfl⟩
          | true =>
            obtain ⟨h1, h2, h3, h4⟩ := ih (i + 1) (if ch then pre else []) (by cases ch; rfl; exact h)
            refine ⟨h1, h2, fun q => h3 (hq q), ?_⟩
            cases ch with
            | true =>
              simp only [foreign_next, foreign_ch, List.cons_append, List.nil_append]; exact h4
            | false =>
              simp only [foreign_next, foreign_other, List.cons_append, List.nil_append]; rw [h4]

theorem anyLoop_true (a : A) (steps : List (Step A E)) : ∀ (i : Nat) (pre : List (A → Bool)),
    disj pre a = true →
    ((∀ b, (anyLoop a steps i pre).1.value a = .ok b → b = true) ∧
      (Quiet steps → (anyLoop a steps i pre).1.value a = .ok true) ∧
      foreign (anyLoop a steps i pre).2 = []) := by
  induction steps with
  | nil =>
    intro i pre h
    refine ⟨?_, ?_, rfl⟩
    · intro b hb
      simp only [anyLoop, anyEnd_value, h] at hb
      cases hb; rfl
    · intro _
      simp only [anyLoop, anyEnd_value, h]
  | cons s rest ih =>
    intro i pre h
    have hq : Quiet (s :: rest) → Quiet rest := fun q t ht => q t (List.mem_cons_of_mem _ ht)
    cases s with
    | raises e =>
      refine ⟨?_, ?_, rfl⟩
      · intro b hb; simp [anyLoop, Res.value] at hb
      · intro q; exact (q (.raises e) (by simp)).elim
    | item x =>
      cases x with
      | bool b0 =>
        cases b0 with
        | true => exact ⟨fun b hb => by simp [anyLoop, Res.value] at hb; exact hb, fun _ => by simp [anyLoop, Res.value], rfl⟩
        | false =>
          obtain ⟨h1, h2, h3⟩ := ih (i + 1) pre h
          exact ⟨fun b hb => h1 b (by simpa [anyLoop] using hb), fun q => by simpa [anyLoop] using h2 (hq q),
            by simpa [anyLoop, foreign_next] using h3⟩
      | sym φ =>
        obtain ⟨h1, h2, h3⟩ := ih (i + 1) (pre ++ [φ]) (by rw [disj_snoc, h]; rfl)
        exact ⟨fun b hb => h1 b (by simpa [anyLoop] using hb), fun q => by simpa [anyLoop] using h2 (hq q),
          by simpa [anyLoop, foreign_next] using h3⟩
      | other ch truth =>
        cases ch with
        | false =>
          have he := nonempty_of_disj h
          simp only [anyLoop, he, h, Bool.not_false, Bool.and_self, if_true]
          exact ⟨fun b hb => by simp [Res.value] at hb; exact hb, fun _ => rfl, rfl⟩
        | true =>
          simp only [anyLoop, Bool.not_true, Bool.false_and, Bool.false_eq_true, if_false, if_true]
          cases ht : truth a with
          | error e =>
            refine ⟨fun b hb => by simp [Res.value] at hb, fun q => ?_, rfl⟩
            obtain ⟨b, hb⟩ := q (.item (.other true truth)) (by simp) a
            rw [ht] at hb; cases hb
          | ok b0 =>
            cases b0 with
            | true => exact ⟨fun b hb => by simp [Res.value] at hb; exact hb, fun _ => rfl, rfl⟩
            | false =>
              obtain ⟨h1, h2, h3⟩ := ih (i + 1) pre h
              exact ⟨fun b hb => h1 b hb, fun q => h2 (hq q), by simpa [foreign_next, foreign_ch] using h3⟩

theorem anyLoop_false (a : A) (steps : List (Step A E)) : ∀ (i : Nat) (pre : List (A → Bool)),
    disj pre a = false →
    ((∀ b, (anyLoop a steps i pre).1.value a = .ok b → (pyAny a steps i).1 = .ok b) ∧
      (∀ e, (pyAny a steps i).1 = .error e → (anyLoop a steps i pre).1.value a = .error e) ∧
      (Quiet steps → (anyLoop a steps i pre).1.value a = (pyAny a steps i).1) ∧
      foreign (anyLoop a steps i pre).2 = foreign (pyAny a steps i).2) := by
  induction steps with
  | nil =>
    intro i pre h
    refine ⟨?_, ?_, ?_, rfl⟩
    · intro b hb
      simp only [anyLoop, anyEnd_value, h] at hb
      exact hb
    · intro e he; simp [pyAny] at he
    · intro _
      simp only [anyLoop, anyEnd_value, h, pyAny]
  | cons s rest ih =>
    intro i pre h
    have hq : Quiet (s :: rest) → Quiet rest := fun q t ht => q t (List.mem_cons_of_mem _ ht)
    cases s with
    | raises e =>
      refine ⟨fun b hb => by simp [anyLoop, Res.value] at hb, fun e' he => he, fun _ => rfl, rfl⟩
    | item x =>
      cases x with
      | bool b0 =>
        cases b0 with
        | true => exact ⟨fun b hb => hb, fun e he => he, fun _ => rfl, rfl⟩
        | false =>
          obtain ⟨h1, h2, h3, h4⟩ := ih (i + 1) pre h
          simp only [anyLoop, pyAny, Item.isTrue, Item.events, Bool.false_eq_true, if_false,
            List.cons_append, List.nil_append, foreign_next]
          exact ⟨h1, h2, fun q => h3 (hq q), h4⟩
      | sym φ =>
        cases hp : φ a with
        | false =>
          obtain ⟨h1, h2, h3, h4⟩ := ih (i + 1) (pre ++ [φ]) (by rw [disj_snoc, h, hp]; rfl)
          simp only [anyLoop, pyAny, Item.isTrue, Item.events, hp,
            List.cons_append, List.nil_append, foreign_next]
          exact ⟨h1, h2, fun q => h3 (hq q), h4⟩
        | true =>
          obtain ⟨h1, h2, h3⟩ := anyLoop_true a rest (i + 1) (pre ++ [φ]) (by rw [disj_snoc, hp]; simp)
          simp only [anyLoop, pyAny, Item.isTrue, Item.events, hp, foreign_next]
          exact ⟨fun b hb => (by rw [h1 b hb]), fun e he => (by simp at he), fun q => h2 (hq q), h3⟩
      | other ch truth =>
        simp only [anyLoop, h, Bool.and_false, Bool.false_eq_true, if_false, pyAny, Item.isTrue,
          Item.events]
        cases ht : truth a with
        | error e => exact ⟨fun b hb => hb, fun e he => he, fun _ => rfl, rfl⟩
        | ok b0 =>
          cases b0 with
          | true => exact ⟨fun b hb => hb, fun e he => he, fun _ => rfl, rfl⟩
          | false =>
            obtain ⟨h1, h2, h3, h4⟩ := ih (i + 1) (if ch then pre else []) (by cases ch; rfl; exact h)
            refine ⟨h1, h2, fun q => h3 (hq q), ?_⟩
            cases ch with
            | true =>
              simp only [foreign_next, foreign_ch, List.cons_append, List.nil_append]; exact h4
            | false =>
              simp only [foreign_next, foreign_other, List.cons_append, List.nil_append]; rw [h4]

end AllAny

section Dict
variable {κ ν : Type} (K : Keys κ)

theorem scan_ok (arg : List (Elem κ ν)) (h : Pairs K arg) : ∀ (acc : List (κ × ν)) (c : Bool),
    ∃ c', scan K arg acc c = .ok (acc ++ pairsOf arg, c') := by
  induction arg with
  | nil => intro acc c; exact ⟨c, by simp [scan, pairsOf]⟩
  | cons e rest ih =>
    intro acc c
    have hr : Pairs K rest := fun e he => h e (List.mem_cons_of_mem _ he)
    have h0 := h e (by simp)
    cases e with
    | badLength => exact h0.elim
    | pair k v =>
      obtain ⟨c', hc⟩ := ih hr (acc ++ [(k, v)]) (c || acc.any (fun p => K.eq k p.1))
      refine ⟨c', ?_⟩
      have hk : K.hashable k = true := h0
      simp only [scan, hk, Bool.not_true, Bool.false_eq_true, if_false, hc]
      simp [pairsOf, List.append_assoc]

theorem scan_conflict (arg : List (Elem κ ν)) : ∀ (acc out : List (κ × ν)) (c c' : Bool),
    scan K arg acc c = .ok (out, c') →
    (c' = false ↔ c = false ∧ (pairsOf arg).Pairwise (fun p q => K.eq q.1 p.1 = false) ∧
      ∀ p ∈ acc, ∀ q ∈ pairsOf arg, K.eq q.1 p.1 = false) := by
  induction arg with
  | nil =>
    intro acc out c c' h
    simp only [scan, Except.ok.injEq, Prod.mk.injEq] at h
    obtain ⟨-, rfl⟩ := h
    simp [pairsOf]
  | cons e rest ih =>
    intro acc out c c' h
    cases e with
    | badLength => simp [scan] at h
    | pair k v =>
      simp only [scan] at h
      split at h
      · cases h
      · have h2 := ih _ _ _ _ h
        have hp : pairsOf (Elem.pair k v :: rest) = (k, v) :: pairsOf rest := by simp [pairsOf]
        rw [h2, hp, List.pairwise_cons]
        constructor
        · rintro ⟨hc, hw, hx⟩
          simp only [Bool.or_eq_false_iff] at hc
          refine ⟨hc.1, ⟨fun q hq => hx (k, v) (by simp) q hq, hw⟩, ?_⟩
          intro p hp q hq
          rcases List.mem_cons.1 hq with rfl | hq
          · have := hc.2
            rw [List.any_eq_false] at this
            simpa using this p hp
          · exact hx p (by simp [hp]) q hq
        · rintro ⟨hc, ⟨hw1, hw2⟩, hx⟩
          refine ⟨?_, hw2, ?_⟩
          · simp only [hc, Bool.false_or]
            rw [List.any_eq_false]
            intro p hp
            simpa using hx p hp (k, v) (by simp)
          · intro p hp q hq
            rcases List.mem_append.1 hp with hp | hp
            · exact hx p hp q (by simp [hq])
            · simp only [List.mem_singleton] at hp
              subst hp
              exact hw1 q hq

variable {K}

theorem Keys.Lawful.either (hK : K.Lawful) (k l : κ) : (K.is k l || K.eq k l) = K.eq k l := by
  cases h : K.is k l with
  | false => simp
  | true => rw [hK.is_eq k l h]; rfl

theorem Keys.Lawful.comm (hK : K.Lawful) (k l : κ) : K.eq k l = K.eq l k := by
  cases h : K.eq k l with
  | true => exact (hK.symm k l h).symm
  | false =>
    cases h' : K.eq l k with
    | false => rfl
    | true => rw [hK.symm l k h'] at h; cases h

theorem Keys.Lawful.congr (hK : K.Lawful) {k l : κ} (h : K.eq k l = true) (m : κ) : K.eq k m = K.eq l m := by
  cases hm : K.eq l m with
  | true => exact hK.trans k l m h hm
  | false =>
    cases hm' : K.eq k m with
    | false => rfl
    | true => rw [hK.trans l k m (hK.symm _ _ h) hm'] at hm; cases hm

theorem simpleGet_cons (hK : K.Lawful) (k : κ) (v : ν) (d : List (κ × ν)) (key : κ) :
    simpleGet K ((k, v) :: d) key = if K.eq k key then some v else simpleGet K d key := by
  rw [simpleGet]
  simp only [hK.either]

theorem simpleGet_append (hK : K.Lawful) (d e : List (κ × ν)) (key : κ) :
    simpleGet K (d ++ e) key = (simpleGet K d key).or (simpleGet K e key) := by
  induction d with
  | nil => simp [simpleGet]
  | cons p d ih =>
    obtain ⟨k, v⟩ := p
    rw [List.cons_append, simpleGet_cons hK, simpleGet_cons hK]
    split
    · rfl
    · exact ih

theorem simpleSet_absent (hK : K.Lawful) (d : List (κ × ν)) (k : κ) (v : ν) (h : simpleGet K d k = none) :
    simpleSet K d k v = d ++ [(k, v)] := by
  induction d with
  | nil => rfl
  | cons p d ih =>
    obtain ⟨k', v'⟩ := p
    rw [simpleGet_cons hK] at h
    split at h
    · cases h
    · rename_i hne
      rw [simpleSet, if_neg hne, ih h]
      rfl

theorem keepLast_get (hK : K.Lawful) (ps : List (κ × ν)) (key : κ) : ∀ d : List (κ × ν),
    simpleGet K (keepLast K ps d) key = (simpleGet K d key).or (simpleGet K ps key) := by
  induction ps with
  | nil => intro d; simp [keepLast, simpleGet]
  | cons p ps ih =>
    intro d
    obtain ⟨k, v⟩ := p
    rw [keepLast, ih, simpleGet_cons hK]
    cases hd : simpleGet K d k with
    | none =>
      simp only [Option.isNone_none, if_true]
      rw [simpleSet_absent hK d k v hd, simpleGet_append hK, simpleGet_cons hK]
      cases simpleGet K d key with
      | some x => rfl
      | none => by_cases hk : K.eq k key = true <;> simp [hk, simpleGet]
    | some x =>
      simp only [Option.isNone_some, Bool.false_eq_true, if_false]
      by_cases hk : K.eq k key = true
      · have : simpleGet K d key = simpleGet K d k := by
          clear ih hd
          induction d with
          | nil => rfl
          | cons q d ihd =>
            obtain ⟨k2, v2⟩ := q
            rw [simpleGet_cons hK, simpleGet_cons hK, ihd, hK.comm k2 key, hK.comm k2 k, hK.congr hk]
        rw [this, hd]; rfl
      · rw [if_neg hk]

theorem keepLast_distinct (hK : K.Lawful) (ps : List (κ × ν)) : ∀ d : List (κ × ν),
    DistinctKeys K d → DistinctKeys K (keepLast K ps d) := by
  induction ps with
  | nil => intro d h; exact h
  | cons p ps ih =>
    intro d h
    obtain ⟨k, v⟩ := p
    rw [keepLast]
    apply ih
    cases hd : simpleGet K d k with
    | some x => simpa using h
    | none =>
      simp only [Option.isNone_none, if_true]
      rw [simpleSet_absent hK d k v hd]
      unfold DistinctKeys
      rw [List.pairwise_append]
      refine ⟨h, by simp, ?_⟩
      intro q hq q' hq'
      simp only [List.mem_singleton] at hq'
      subst hq'
      clear ih h
      induction d with
      | nil => cases hq
      | cons r d ihd =>
        obtain ⟨k2, v2⟩ := r
        rw [simpleGet_cons hK] at hd
        split at hd
        · cases hd
        · rename_i hne
          rcases List.mem_cons.1 hq with rfl | hq
          · simpa using hne
          · exact ihd hd hq

theorem pySet_get (hK : K.Lawful) (d : List (κ × ν)) (k : κ) (v : ν) (key : κ) :
    simpleGet K (pySet K d k v) key = if K.eq k key then some v else simpleGet K d key := by
  induction d with
  | nil => rw [pySet, simpleGet_cons hK]
  | cons p d ih =>
    obtain ⟨k', v'⟩ := p
    rw [pySet, hK.either]
    by_cases h : K.eq k' k = true
    · rw [if_pos h, simpleGet_cons hK, simpleGet_cons hK, hK.congr h key]
      by_cases h2 : K.eq k key = true <;> simp [h2]
    · rw [if_neg h, simpleGet_cons hK, ih, simpleGet_cons hK]
      by_cases h2 : K.eq k' key = true
      · have : K.eq k key = false := by
          cases hx : K.eq k key with
          | false => rfl
          | true => exact absurd (hK.trans k' key k h2 (hK.symm _ _ hx)) h
        simp [h2, this]
      · simp [h2]

theorem pySet_absent (hK : K.Lawful) (d : List (κ × ν)) (k : κ) (v : ν)
    (h : ∀ p ∈ d, K.eq p.1 k = false) : pySet K d k v = d ++ [(k, v)] := by
  induction d with
  | nil => rfl
  | cons p d ih =>
    obtain ⟨k', v'⟩ := p
    rw [pySet, hK.either, h (k', v') (by simp)]
    simp only [Bool.false_eq_true, if_false]
    rw [ih (fun q hq => h q (List.mem_cons_of_mem _ hq))]
    rfl

theorem pyDictFrom_get (hK : K.Lawful) (arg : List (Elem κ ν)) (h : Pairs K arg) : ∀ d : List (κ × ν),
    ∃ d', pyDictFrom K arg d = .ok d' ∧
      ∀ key, simpleGet K d' key = (simpleGet K (pairsOf arg).reverse key).or (simpleGet K d key) := by
  induction arg with
  | nil => intro d; exact ⟨d, rfl, fun key => by simp [pairsOf, simpleGet]⟩
  | cons e rest ih =>
    intro d
    have hr : Pairs K rest := fun e he => h e (List.mem_cons_of_mem _ he)
    have h0 := h e (by simp)
    cases e with
    | badLength => exact h0.elim
    | pair k v =>
      have hk : K.hashable k = true := h0
      obtain ⟨d', hd, hg⟩ := ih hr (pySet K d k v)
      refine ⟨d', by rw [pyDictFrom, if_pos hk, hd], ?_⟩
      intro key
      have hp : pairsOf (Elem.pair k v :: rest) = (k, v) :: pairsOf rest := by simp [pairsOf]
      rw [hg, pySet_get hK, hp, List.reverse_cons, simpleGet_append hK, simpleGet_cons hK]
      cases simpleGet K (pairsOf rest).reverse key with
      | some x => rfl
      | none => by_cases h2 : K.eq k key = true <;> simp [h2, simpleGet]

theorem pyDictFrom_distinct (hK : K.Lawful) (arg : List (Elem κ ν)) (h : Pairs K arg) : ∀ d : List (κ × ν),
    DistinctKeys K (d ++ pairsOf arg) → pyDictFrom K arg d = .ok (d ++ pairsOf arg) := by
  induction arg with
  | nil => intro d _; simp [pyDictFrom, pairsOf]
  | cons e rest ih =>
    intro d hd
    have hr : Pairs K rest := fun e he => h e (List.mem_cons_of_mem _ he)
    have h0 := h e (by simp)
    cases e with
    | badLength => exact h0.elim
    | pair k v =>
      have hk : K.hashable k = true := h0
      have hp : pairsOf (Elem.pair k v :: rest) = (k, v) :: pairsOf rest := by simp [pairsOf]
      rw [hp] at hd ⊢
      have hab : ∀ p ∈ d, K.eq p.1 k = false := fun p hpm =>
        (List.pairwise_append.1 hd).2.2 p hpm (k, v) (by simp)
      rw [pyDictFrom, if_pos hk, pySet_absent hK d k v hab, ih hr]
      · simp
      · simpa using hd

end Dict

section Index
variable {α : Type} (eq : α → α → Bool)

theorem search_spec (value : α) (xs : List α) : ∀ idx : Nat,
    match search eq value xs idx with
    | .ok i => ∃ j x, i = idx + j ∧ xs[j]? = some x ∧ eq value x = true ∧
        ∀ j' x', j' < j → xs[j']? = some x' → eq value x' = false
    | .error e => e = .valueError ∧ ∀ x ∈ xs, eq value x = false := by
  induction xs with
  | nil => intro idx; exact ⟨rfl, by simp⟩
  | cons x xs ih =>
    intro idx
    rw [search]
    by_cases h : eq value x = true
    · rw [if_pos h]
      exact ⟨0, x, rfl, rfl, h, fun j' x' hj => absurd hj (Nat.not_lt_zero _)⟩
    · rw [if_neg h]
      have h' : eq value x = false := by simpa using h
      have := ih (idx + 1)
      cases hs : search eq value xs (idx + 1) with
      | ok i =>
        rw [hs] at this
        obtain ⟨j, y, hi, hy, he, hlt⟩ := this
        refine ⟨j + 1, y, by omega, by simpa using hy, he, ?_⟩
        intro j' x' hj hx
        cases j' with
        | zero => simp at hx; rw [← hx]; exact h'
        | succ j' => exact hlt j' x' (by omega) (by simpa using hx)
      | error e =>
        rw [hs] at this
        refine ⟨this.1, ?_⟩
        intro y hy
        rcases List.mem_cons.1 hy with rfl | hy
        · exact h'
        · exact this.2 y hy

theorem rangeSearch_spec (self : List α) (value : α) (k : Nat) : ∀ idx : Nat, idx + k ≤ self.length ∨ k = 0 →
    match rangeSearch eq self value idx k with
    | .ok i => idx ≤ i ∧ i < idx + k ∧ (∃ x, self[i]? = some x ∧ eq x value = true) ∧
        ∀ j x, idx ≤ j → j < i → self[j]? = some x → eq x value = false
    | .error e => e = .valueError ∧ ∀ j x, idx ≤ j → j < idx + k → self[j]? = some x → eq x value = false := by
  induction k with
  | zero => intro idx _; exact ⟨rfl, fun j x h1 h2 => by omega⟩
  | succ k ih =>
    intro idx hk
    have hlt : idx < self.length := by omega
    rw [rangeSearch]
    have hget : self[idx]? = some self[idx] := List.getElem?_eq_getElem hlt
    rw [hget]
    simp only
    by_cases h : eq self[idx] value = true
    · rw [if_pos h]
      exact ⟨Nat.le_refl _, by omega, ⟨_, hget, h⟩, fun j x h1 h2 => by omega⟩
    · rw [if_neg h]
      have h' : eq self[idx] value = false := by simpa using h
      have := ih (idx + 1) (by omega)
      cases hs : rangeSearch eq self value (idx + 1) k with
      | ok i =>
        rw [hs] at this
        obtain ⟨h1, h2, h3, h4⟩ := this
        refine ⟨by omega, by omega, h3, ?_⟩
        intro j x hj hji hx
        by_cases hj' : j = idx
        · subst hj'; rw [hget] at hx; cases hx; exact h'
        · exact h4 j x (by omega) hji hx
      | error e =>
        rw [hs] at this
        refine ⟨this.1, ?_⟩
        intro j x hj hji hx
        by_cases hj' : j = idx
        · subst hj'; rw [hget] at hx; cases hx; exact h'
        · exact this.2 j x (by omega) (by omega) hx

end Index

section Join
variable {E : Type}

theorem joinLoop_texts (sep : List Char) (ss : List (List Char)) : ∀ (idx : Nat) (result : List Char),
    0 < idx → joinLoop sep (ss.map (Piece.text (E := E))) idx result = .ok (result ++ (ss.map (sep ++ ·)).flatten) := by
  induction ss with
  | nil => intro idx result _; simp [joinLoop]
  | cons s ss ih =>
    intro idx result h
    simp only [List.map_cons, joinLoop, gt_iff_lt, h, if_true]
    rw [ih (idx + 1) _ (by omega)]
    simp

theorem intercalate_cons' (sep s : List Char) (ss : List (List Char)) :
    sep.intercalate (s :: ss) = s ++ (ss.map (sep ++ ·)).flatten := by
  induction ss generalizing s with
  | nil => simp [List.intercalate]
  | cons t ss ih =>
    have := ih t
    simp only [List.intercalate, List.intersperse_cons_cons, List.flatten_cons, List.map_cons] at this ⊢
    rw [this]
    simp

theorem join_texts (sep : List Char) (ss : List (List Char)) :
    join sep (ss.map (Piece.text (E := E))) = .ok (sep.intercalate ss) := by
  cases ss with
  | nil => rfl
  | cons s ss =>
    simp only [join, List.map_cons, joinLoop, gt_iff_lt, Nat.lt_irrefl, if_false, List.nil_append]
    rw [joinLoop_texts sep ss 1 s (by omega), intercalate_cons']

theorem joinLoop_bad (sep : List Char) (itr : List (Piece E)) : ∀ (idx : Nat) (result : List Char),
    (∀ e, Piece.raises e ∉ itr) → Piece.notText ∈ itr → joinLoop sep itr idx result = .error .typeError := by
  induction itr with
  | nil => intro _ _ _ h; cases h
  | cons p itr ih =>
    intro idx result hr hn
    cases p with
    | raises e => exact absurd (List.mem_cons_self ..) (hr e)
    | notText => rfl
    | text s =>
      rw [joinLoop]
      apply ih
      · intro e he; exact hr e (List.mem_cons_of_mem _ he)
      · simpa using hn

theorem commas_eq (reprs : List String) : commas reprs = ", ".toList.intercalate (reprs.map String.toList) := by
  unfold commas
  have : reprs.map (fun s => Piece.text (E := Unit) s.toList) = (reprs.map String.toList).map Piece.text := by
    simp
  rw [this, join_texts]

theorem frozen_split (a b c d e f t : List Char) (h1 : a = b ++ c) (h2 : d = e ++ f) :
    a ++ t ++ d = b ++ (c ++ t ++ e) ++ f := by
  subst h1 h2; simp

end Join

end Verif.Builtin
