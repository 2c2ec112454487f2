import Verif.Enforce.Spec
namespace Verif.Enforce

section
variable {σ V E O : Type}

/-- One evaluator answers whatever the other does. -/
def Below (ev ev' : Busy → σ → Prog σ V E → Run σ V E) : Prop :=
  ∀ b s p x, ev b s p = some x → ev' b s p = some x

/-- The evaluator leaves the set of functions being enforced as it was. -/
def Keeps (ev : Busy → σ → Prog σ V E → Run σ V E) : Prop :=
  ∀ b s p o s' b', ev b s p = some (o, s', b') → b' = b

/-- Both loops over conditions are of this form. -/
def loop (truthy : V → Bool) (ev : Busy → σ → Prog σ V E → Run σ V E) (mk : Nat → Exc E) :
    Nat → List (Prog σ V E) → Busy → σ → Option (Option (Exc E) × σ × Busy)
  | _, [], b, s => some (none, s, b)
  | i, p :: ps, b, s =>
    match ev b s p with
    | none => none
    | some (.exc e, s', b') => some (some e, s', b')
    | some (.val v, s', b') =>
      if truthy v then loop truthy ev mk (i + 1) ps b' s' else some (some (mk i), s', b')

theorem preLoop_eq (truthy : V → Bool) (ev : Busy → σ → Prog σ V E → Run σ V E) (f : Fn) (args : V)
    (ps : List (V → Prog σ V E)) (i : Nat) (b : Busy) (s : σ) :
    preLoop truthy ev f args i ps b s = loop truthy ev (Exc.pre f) i (ps.map (fun p => p args)) b s := by
  induction ps generalizing i b s with
  | nil => rfl
  | cons p ps ih =>
    simp only [preLoop, loop, List.map_cons]
    rcases ev b s (p args) with _ | ⟨o, s', b'⟩
    · rfl
    · cases o with
      | exc e => rfl
      | val v => simp only [ih]

theorem loop_mono {truthy : V → Bool} {ev ev' : Busy → σ → Prog σ V E → Run σ V E} (h : Below ev ev')
    (mk : Nat → Exc E) (ps : List (Prog σ V E)) (i : Nat) (b : Busy) (s : σ) (x : Option (Exc E) × σ × Busy)
    (hx : loop truthy ev mk i ps b s = some x) : loop truthy ev' mk i ps b s = some x := by
  induction ps generalizing i b s with
  | nil => exact hx
  | cons p ps ih =>
    simp only [loop] at hx ⊢
    cases he : ev b s p with
    | none => rw [he] at hx; exact absurd hx (by simp)
    | some r =>
      rw [he] at hx
      rw [h b s p r he]
      obtain ⟨o, s', b'⟩ := r
      cases o with
      | exc e => exact hx
      | val v =>
        simp only at hx ⊢
        cases ht : truthy v with
        | true => rw [ht, if_pos rfl] at hx; rw [if_pos rfl]; exact ih _ _ _ hx
        | false => rw [ht] at hx; exact hx

theorem postLoop_mono {truthy : V → Bool} {ev ev' : Busy → σ → Prog σ V E → Run σ V E} (h : Below ev ev')
    (f : Fn) (old : O) (args r : V) (ps : List (Option (O → V → V → Prog σ V E))) (i : Nat) (b : Busy) (s : σ)
    (x : Option (Exc E) × σ × Busy) (hx : postLoop truthy ev f old args r i ps b s = some x) :
    postLoop truthy ev' f old args r i ps b s = some x := by
  induction ps generalizing i b s with
  | nil => exact hx
  | cons p ps ih =>
    cases p with
    | none => simp only [postLoop] at hx ⊢; exact ih _ _ _ hx
    | some p =>
      simp only [postLoop] at hx ⊢
      cases he : ev b s (p old args r) with
      | none => rw [he] at hx; exact absurd hx (by simp)
      | some y =>
        rw [he] at hx
        rw [h b s _ y he]
        obtain ⟨o, s', b'⟩ := y
        cases o with
        | exc e => exact hx
        | val v =>
          simp only at hx ⊢
          cases ht : truthy v with
          | true => rw [ht, if_pos rfl] at hx; rw [if_pos rfl]; exact ih _ _ _ hx
          | false => rw [ht] at hx; exact hx

theorem before_mono {truthy : V → Bool} {ev ev' : Busy → σ → Prog σ V E → Run σ V E} (h : Below ev ev')
    (f : Fn) (c : Conds σ V E O) (a : V) (b : Busy) (s : σ) (x : Option (Exc E) × σ × Busy)
    (hx : before truthy ev f c a b s = some x) : before truthy ev' f c a b s = some x := by
  unfold before at hx ⊢
  cases hb : c.bind a with
  | none => rw [hb] at hx; exact hx
  | some args =>
    rw [hb] at hx
    simp only at hx ⊢
    cases hu : unknownMutable c with
    | true => rw [hu] at hx; exact hx
    | false =>
      rw [hu] at hx
      simp only [Bool.false_eq_true, if_false] at hx ⊢
      rw [preLoop_eq] at hx ⊢
      exact loop_mono h _ _ _ _ _ _ hx

theorem wrapper_mono {truthy : V → Bool} {ev ev' : Busy → σ → Prog σ V E → Run σ V E} (h : Below ev ev')
    (body : Prog σ V E) (f : Fn) (c : Conds σ V E O) (a : V) (b : Busy) (s : σ) (x : Out V E × σ × Busy)
    (hx : wrapper truthy ev body f c a b s = some x) : wrapper truthy ev' body f c a b s = some x := by
  unfold wrapper at hx ⊢
  cases b with
  | none => exact h _ _ _ _ hx
  | some l =>
    simp only at hx ⊢
    split at hx
    · rename_i hc; rw [if_pos hc]; exact h _ _ _ _ hx
    · rename_i hc
      rw [if_neg hc]
      cases hb : before truthy ev f c a (enter f (some l)) s with
      | none => rw [hb] at hx; exact absurd hx (by simp)
      | some y =>
        rw [hb] at hx
        rw [before_mono h _ _ _ _ _ _ hb]
        obtain ⟨oe, s', b'⟩ := y
        cases oe with
        | some e => exact hx
        | none =>
          simp only at hx ⊢
          generalize hl : leave f (Out.val a : Out V E) b' = lv at hx ⊢
          obtain ⟨o, b''⟩ := lv
          cases o with
          | exc e => exact hx
          | val v =>
            simp only at hx ⊢
            cases he : ev b'' s' body with
            | none => rw [he] at hx; exact absurd hx (by simp)
            | some z =>
              rw [he] at hx
              rw [h _ _ _ _ he]
              obtain ⟨o2, s2, b2⟩ := z
              cases o2 with
              | exc e => exact hx
              | val r =>
                simp only at hx ⊢
                cases hp : postLoop truthy ev f (c.snap s ((c.bind a).getD a)) ((c.bind a).getD a) r 0 c.post
                    (enter f b2) s2 with
                | none => rw [hp] at hx; exact absurd hx (by simp)
                | some q =>
                  rw [hp] at hx
                  rw [postLoop_mono h _ _ _ _ _ _ _ _ _ hp]
                  exact hx

theorem callFn_mono (c : Code σ V E O) {ev ev' : Busy → σ → Prog σ V E → Run σ V E} (h : Below ev ev') (w : Bool)
    (f : Fn) (a : V) (b : Busy) (s : σ) (x : Out V E × σ × Busy) (hx : callFn c ev w f a b s = some x) :
    callFn c ev' w f a b s = some x := by
  unfold callFn at hx ⊢
  cases w with
  | false => exact h _ _ _ _ hx
  | true =>
    cases hc : c.conds f with
    | none => rw [hc] at hx; exact h _ _ _ _ hx
    | some cs => rw [hc] at hx; exact wrapper_mono h _ _ _ _ _ _ _ hx

theorem run_succ (c : Code σ V E O) (n : Nat) : Below (run c n) (run c (n + 1)) := by
  induction n with
  | zero => intro b s p x h; exact absurd h (by simp [run])
  | succ n ih =>
    intro b s p x h
    cases p with
    | ret v => exact h
    | raise e => exact h
    | get k => exact ih _ _ _ _ h
    | put s' k => exact ih _ _ _ _ h
    | call w f a k =>
      rw [run] at h ⊢
      cases hc : callFn c (run c n) w f a b s with
      | none => rw [hc] at h; exact absurd h (by simp)
      | some y =>
        rw [hc] at h
        rw [callFn_mono c ih _ _ _ _ _ _ hc]
        obtain ⟨o, s', b'⟩ := y
        exact ih _ _ _ _ h

theorem run_mono (c : Code σ V E O) {n m : Nat} (hnm : n ≤ m) : Below (run c n) (run c m) := by
  induction m with
  | zero =>
    have : n = 0 := by omega
    subst this
    intro b s p x h; exact h
  | succ m ih =>
    by_cases e : n = m + 1
    · subst e; intro b s p x h; exact h
    · intro b s p x h
      exact run_succ c m _ _ _ _ (ih (by omega) _ _ _ _ h)

/-! ### The functions being enforced come back -/

theorem loop_keeps {truthy : V → Bool} {ev : Busy → σ → Prog σ V E → Run σ V E} (h : Keeps ev) (mk : Nat → Exc E)
    (ps : List (Prog σ V E)) (i : Nat) (b : Busy) (s : σ) (o : Option (Exc E)) (s' : σ) (b' : Busy)
    (hx : loop truthy ev mk i ps b s = some (o, s', b')) : b' = b := by
  induction ps generalizing i b s with
  | nil => simp only [loop, Option.some.injEq, Prod.mk.injEq] at hx; exact hx.2.2.symm
  | cons p ps ih =>
    simp only [loop] at hx
    cases he : ev b s p with
    | none => rw [he] at hx; exact absurd hx (by simp)
    | some r =>
      rw [he] at hx
      obtain ⟨o', s1, b1⟩ := r
      have hb := h _ _ _ _ _ _ he
      subst hb
      cases o' with
      | exc e => simp only [Option.some.injEq, Prod.mk.injEq] at hx; exact hx.2.2.symm
      | val v =>
        simp only at hx
        cases ht : truthy v with
        | true => rw [ht, if_pos rfl] at hx; exact ih _ _ _ hx
        | false => rw [ht] at hx; simp only [Bool.false_eq_true, if_false, Option.some.injEq, Prod.mk.injEq] at hx; exact hx.2.2.symm

theorem postLoop_keeps {truthy : V → Bool} {ev : Busy → σ → Prog σ V E → Run σ V E} (h : Keeps ev) (f : Fn) (old : O)
    (args r : V) (ps : List (Option (O → V → V → Prog σ V E))) (i : Nat) (b : Busy) (s : σ) (o : Option (Exc E))
    (s' : σ) (b' : Busy) (hx : postLoop truthy ev f old args r i ps b s = some (o, s', b')) : b' = b := by
  induction ps generalizing i b s with
  | nil => simp only [postLoop, Option.some.injEq, Prod.mk.injEq] at hx; exact hx.2.2.symm
  | cons p ps ih =>
    cases p with
    | none => simp only [postLoop] at hx; exact ih _ _ _ hx
    | some p =>
      simp only [postLoop] at hx
      cases he : ev b s (p old args r) with
      | none => rw [he] at hx; exact absurd hx (by simp)
      | some y =>
        rw [he] at hx
        obtain ⟨o', s1, b1⟩ := y
        have hb := h _ _ _ _ _ _ he
        subst hb
        cases o' with
        | exc e => simp only [Option.some.injEq, Prod.mk.injEq] at hx; exact hx.2.2.symm
        | val v =>
          simp only at hx
          cases ht : truthy v with
          | true => rw [ht, if_pos rfl] at hx; exact ih _ _ _ hx
          | false => rw [ht] at hx; simp only [Bool.false_eq_true, if_false, Option.some.injEq, Prod.mk.injEq] at hx; exact hx.2.2.symm

theorem before_keeps {truthy : V → Bool} {ev : Busy → σ → Prog σ V E → Run σ V E} (h : Keeps ev) (f : Fn)
    (c : Conds σ V E O) (a : V) (b : Busy) (s : σ) (o : Option (Exc E)) (s' : σ) (b' : Busy)
    (hx : before truthy ev f c a b s = some (o, s', b')) : b' = b := by
  unfold before at hx
  cases hb : c.bind a with
  | none => rw [hb] at hx; simp only [Option.some.injEq, Prod.mk.injEq] at hx; exact hx.2.2.symm
  | some args =>
    rw [hb] at hx
    simp only at hx
    cases hu : unknownMutable c with
    | true => rw [hu] at hx; simp only [if_true, Option.some.injEq, Prod.mk.injEq] at hx; exact hx.2.2.symm
    | false =>
      rw [hu] at hx
      simp only [Bool.false_eq_true, if_false] at hx
      rw [preLoop_eq] at hx
      exact loop_keeps h _ _ _ _ _ _ _ _ hx

theorem filter_ne_self (f : Fn) (l : List Fn) (h : l.contains f = false) : l.filter (· != f) = l := by
  rw [List.filter_eq_self]
  intro x hx
  have : f ∉ l := by simpa using h
  simp only [bne_iff_ne, ne_eq]
  rintro rfl
  exact this hx

/-- Entering and leaving gives back the set, and does not fail. -/
theorem leave_enter (f : Fn) (l : List Fn) (h : l.contains f = false) (o : Out V E) :
    enter f (some l) = some (f :: l) ∧ leave f o (some (f :: l)) = (o, some l) := by
  constructor
  · simp only [enter, h, Bool.false_eq_true, if_false]
  · have e : (f :: l).contains f = true := by simp
    have e2 : (f :: l).filter (· != f) = l := by
      rw [List.filter_cons_of_neg (by simp)]
      exact filter_ne_self f l h
    simp only [leave, e, if_true, e2]

/-- The wrapper without its bookkeeping. -/
theorem wrapper_eq {truthy : V → Bool} {ev : Busy → σ → Prog σ V E → Run σ V E} (h : Keeps ev) (body : Prog σ V E)
    (f : Fn) (c : Conds σ V E O) (a : V) (l : List Fn) (hl : l.contains f = false) (s : σ) :
    wrapper truthy ev body f c a (some l) s =
      match before truthy ev f c a (some (f :: l)) s with
      | none => none
      | some (some e, s', _) => some (.exc e, s', some l)
      | some (none, s', _) =>
        match ev (some l) s' body with
        | none => none
        | some (.exc e, s2, _) => some (.exc e, s2, some l)
        | some (.val r, s2, _) =>
          match postLoop truthy ev f (c.snap s ((c.bind a).getD a)) ((c.bind a).getD a) r 0 c.post (some (f :: l)) s2 with
          | none => none
          | some (some e, s3, _) => some (.exc e, s3, some l)
          | some (none, s3, _) => some (.val r, s3, some l) := by
  unfold wrapper
  simp only [hl, Bool.false_eq_true, if_false]
  rw [(leave_enter (V := V) (E := E) f l hl (.val a)).1]
  cases hb : before truthy ev f c a (some (f :: l)) s with
  | none => rfl
  | some y =>
    obtain ⟨oe, s', b'⟩ := y
    have e := before_keeps h _ _ _ _ _ _ _ _ hb
    subst e
    cases oe with
    | some e => simp only [(leave_enter f l hl (.exc e)).2]
    | none =>
      simp only [(leave_enter f l hl (.val a)).2]
      cases he : ev (some l) s' body with
      | none => rfl
      | some z =>
        obtain ⟨o2, s2, b2⟩ := z
        have e := h _ _ _ _ _ _ he
        subst e
        cases o2 with
        | exc e => rfl
        | val r =>
          simp only [(leave_enter (V := V) (E := E) f l hl (.val a)).1]
          cases hp : postLoop truthy ev f (c.snap s ((c.bind a).getD a)) ((c.bind a).getD a) r 0 c.post
              (some (f :: l)) s2 with
          | none => rfl
          | some q =>
            obtain ⟨oe, s3, b3⟩ := q
            have e := postLoop_keeps h _ _ _ _ _ _ _ _ _ _ _ hp
            subst e
            cases oe with
            | none => simp only [(leave_enter f l hl (.val r)).2]
            | some e => simp only [(leave_enter f l hl (.exc e)).2]

theorem wrapper_keeps {truthy : V → Bool} {ev : Busy → σ → Prog σ V E → Run σ V E} (h : Keeps ev) (body : Prog σ V E)
    (f : Fn) (c : Conds σ V E O) (a : V) (b : Busy) (s : σ) (o : Out V E) (s' : σ) (b' : Busy)
    (hx : wrapper truthy ev body f c a b s = some (o, s', b')) : b' = b := by
  cases b with
  | none => exact h _ _ _ _ _ _ hx
  | some l =>
    cases hl : l.contains f with
    | true => simp only [wrapper, hl, if_true] at hx; exact h _ _ _ _ _ _ hx
    | false =>
      rw [wrapper_eq h _ _ _ _ _ hl] at hx
      revert hx
      repeat' split
      all_goals intro hx
      all_goals first
        | (simp only [Option.some.injEq, Prod.mk.injEq] at hx; exact hx.2.2.symm)
        | exact absurd hx (by simp)

theorem callFn_keeps (c : Code σ V E O) {ev : Busy → σ → Prog σ V E → Run σ V E} (h : Keeps ev) (w : Bool)
    (f : Fn) (a : V) (b : Busy) (s : σ) (o : Out V E) (s' : σ) (b' : Busy)
    (hx : callFn c ev w f a b s = some (o, s', b')) : b' = b := by
  unfold callFn at hx
  cases w with
  | false => exact h _ _ _ _ _ _ hx
  | true =>
    cases hc : c.conds f with
    | none => rw [hc] at hx; exact h _ _ _ _ _ _ hx
    | some cs => rw [hc] at hx; exact wrapper_keeps h _ _ _ _ _ _ _ _ _ hx

theorem run_keeps (c : Code σ V E O) (n : Nat) : Keeps (run c n) := by
  induction n with
  | zero => intro b s p o s' b' h; exact absurd h (by simp [run])
  | succ n ih =>
    intro b s p o s' b' h
    cases p with
    | ret v => simp only [run, Option.some.injEq, Prod.mk.injEq] at h; exact h.2.2.symm
    | raise e => simp only [run, Option.some.injEq, Prod.mk.injEq] at h; exact h.2.2.symm
    | get k => exact ih _ _ _ _ _ _ h
    | put s' k => exact ih _ _ _ _ _ _ h
    | call w f a k =>
      rw [run] at h
      cases hc : callFn c (run c n) w f a b s with
      | none => rw [hc] at h; exact absurd h (by simp)
      | some y =>
        rw [hc] at h
        obtain ⟨o1, s1, b1⟩ := y
        have e := callFn_keeps c ih _ _ _ _ _ _ _ _ hc
        subst e
        exact ih _ _ _ _ _ _ h

/-! ### Runs -/

theorem runs_iff (c : Code σ V E O) (b : Busy) (s : σ) (p : Prog σ V E) (o : Out V E) (s' : σ) :
    Runs c b s p o s' ↔ ∃ n, run c n b s p = some (o, s', b) := by
  constructor
  · rintro ⟨n, b', h⟩
    have e := run_keeps c n _ _ _ _ _ _ h
    subst e
    exact ⟨n, h⟩
  · rintro ⟨n, h⟩; exact ⟨n, b, h⟩

theorem loop_iff (c : Code σ V E O) (mk : Nat → Exc E) (ps : List (Prog σ V E)) (i : Nat) (b : Busy) (s : σ)
    (x : Option (Exc E)) (s' : σ) :
    (∃ n, loop c.truthy (run c n) mk i ps b s = some (x, s', b)) ↔
      match x with
      | none => AllHold c b s ps s'
      | some e => (∃ j, e = mk (i + j) ∧ FirstFalse c b s ps j s') ∨ FirstRaises c b s ps e s' := by
  induction ps generalizing i s with
  | nil =>
    constructor
    · rintro ⟨n, h⟩
      simp only [loop, Option.some.injEq, Prod.mk.injEq] at h
      obtain ⟨rfl, rfl, _⟩ := h
      rfl
    · intro h
      cases x with
      | none => simp only [AllHold] at h; subst h; exact ⟨0, rfl⟩
      | some e =>
        rcases h with ⟨j, _, p, t, hp, _⟩ | ⟨j, p, t, hp, _⟩
        · simp at hp
        · simp at hp
  | cons p ps ih =>
    constructor
    · rintro ⟨n, h⟩
      simp only [loop] at h
      cases he : run c n b s p with
      | none => rw [he] at h; exact absurd h (by simp)
      | some y =>
        rw [he] at h
        obtain ⟨o, s1, b1⟩ := y
        have e := run_keeps c n _ _ _ _ _ _ he
        subst e
        cases o with
        | exc e =>
          simp only [Option.some.injEq, Prod.mk.injEq] at h
          obtain ⟨rfl, rfl, _⟩ := h
          exact Or.inr ⟨0, p, s, rfl, rfl, n, b1, he⟩
        | val v =>
          simp only at h
          cases ht : c.truthy v with
          | false =>
            rw [ht] at h
            simp only [Bool.false_eq_true, if_false, Option.some.injEq, Prod.mk.injEq] at h
            obtain ⟨rfl, rfl, _⟩ := h
            exact Or.inl ⟨0, rfl, p, s, rfl, rfl, v, ⟨n, b1, he⟩, ht⟩
          | true =>
            rw [ht, if_pos rfl] at h
            have hh : Holds c b1 s p s1 := ⟨v, ⟨n, b1, he⟩, ht⟩
            have := (ih (i + 1) s1).mp ⟨n, h⟩
            cases x with
            | none => exact ⟨s1, hh, this⟩
            | some e =>
              rcases this with ⟨j, hj, q, t, hq, ha, hf⟩ | ⟨j, q, t, hq, ha, hf⟩
              · refine Or.inl ⟨j + 1, ?_, q, t, by simpa using hq, ⟨s1, hh, ha⟩, hf⟩
                rw [hj]; congr 1; omega
              · exact Or.inr ⟨j + 1, q, t, by simpa using hq, ⟨s1, hh, ha⟩, hf⟩
    · intro h
      -- the first condition and the rest, in either case
      have step : ∀ s1, Holds c b s p s1 →
          (∃ n, loop c.truthy (run c n) mk (i + 1) ps b s1 = some (x, s', b)) →
          ∃ n, loop c.truthy (run c n) mk i (p :: ps) b s = some (x, s', b) := by
        rintro s1 ⟨v, hv, ht⟩ ⟨n, hn⟩
        obtain ⟨m, hm⟩ := (runs_iff ..).mp hv
        refine ⟨max n m, ?_⟩
        simp only [loop]
        rw [run_mono c (Nat.le_max_right n m) _ _ _ _ hm]
        simp only [ht, if_true]
        exact loop_mono (run_mono c (Nat.le_max_left n m)) _ _ _ _ _ _ hn
      cases x with
      | none =>
        obtain ⟨s1, hh, ha⟩ := h
        exact step s1 hh ((ih (i + 1) s1).mpr ha)
      | some e =>
        rcases h with ⟨j, hj, q, t, hq, ha, hf⟩ | ⟨j, q, t, hq, ha, hf⟩
        · cases j with
          | zero =>
            simp only [List.getElem?_cons_zero, Option.some.injEq] at hq
            subst hq
            simp only [List.take_zero, AllHold] at ha
            subst ha
            obtain ⟨v, hv, ht⟩ := hf
            obtain ⟨n, hn⟩ := (runs_iff ..).mp hv
            refine ⟨n, ?_⟩
            simp only [loop, hn, ht, Bool.false_eq_true, if_false, hj, Nat.add_zero]
          | succ j =>
            obtain ⟨s1, hh, ha⟩ := ha
            refine step s1 hh ((ih (i + 1) s1).mpr (Or.inl ⟨j, ?_, q, t, by simpa using hq, ha, hf⟩))
            rw [hj]; congr 1; omega
        · cases j with
          | zero =>
            simp only [List.getElem?_cons_zero, Option.some.injEq] at hq
            subst hq
            simp only [List.take_zero, AllHold] at ha
            subst ha
            obtain ⟨n, hn⟩ := (runs_iff ..).mp hf
            refine ⟨n, ?_⟩
            simp only [loop, hn]
          | succ j =>
            obtain ⟨s1, hh, ha⟩ := ha
            exact step s1 hh ((ih (i + 1) s1).mpr (Or.inr ⟨j, q, t, by simpa using hq, ha, hf⟩))

/-- The postcondition loop, as a loop over programs. -/
theorem postLoop_iff (c : Code σ V E O) (cs : Conds σ V E O) (yes : V) (hy : c.truthy yes = true) (f : Fn) (old : O)
    (args r : V) (b : Busy) (s : σ) (x : Option (Exc E)) (s' : σ) :
    (∃ n, postLoop c.truthy (run c n) f old args r 0 cs.post b s = some (x, s', b)) ↔
      ∃ n, loop c.truthy (run c n) (Exc.post f) 0 (cs.posts yes old args r) b s = some (x, s', b) := by
  unfold Conds.posts
  generalize cs.post = ps
  generalize hi : (0 : Nat) = i
  clear hi
  constructor
  · rintro ⟨n, h⟩
    refine ⟨n + 1, ?_⟩
    induction ps generalizing i s with
    | nil => exact h
    | cons p ps ih =>
      cases p with
      | none =>
        simp only [postLoop] at h
        simp only [List.map_cons, loop, run, hy, if_true]
        exact ih _ _ h
      | some p =>
        simp only [postLoop] at h
        simp only [List.map_cons, loop]
        cases he : run c n b s (p old args r) with
        | none => rw [he] at h; exact absurd h (by simp)
        | some y =>
          rw [he] at h
          rw [run_succ c n _ _ _ _ he]
          obtain ⟨o, s1, b1⟩ := y
          have e := run_keeps c n _ _ _ _ _ _ he
          subst e
          cases o with
          | exc e => exact h
          | val v =>
            simp only at h ⊢
            cases ht : c.truthy v with
            | true => rw [ht, if_pos rfl] at h; rw [if_pos rfl]; exact ih _ _ h
            | false => rw [ht] at h; exact h
  · rintro ⟨n, h⟩
    refine ⟨n, ?_⟩
    induction ps generalizing i s with
    | nil => exact h
    | cons p ps ih =>
      cases p with
      | none =>
        simp only [postLoop]
        simp only [List.map_cons, loop] at h
        cases n with
        | zero => simp only [run] at h; exact absurd h (by simp)
        | succ n => simp only [run, hy, if_true] at h; exact ih _ _ h
      | some p =>
        simp only [postLoop]
        simp only [List.map_cons, loop] at h
        cases he : run c n b s (p old args r) with
        | none => rw [he] at h; exact absurd h (by simp)
        | some y =>
          rw [he] at h
          obtain ⟨o, s1, b1⟩ := y
          have e := run_keeps c n _ _ _ _ _ _ he
          subst e
          cases o with
          | exc e => exact h
          | val v =>
            simp only at h ⊢
            cases ht : c.truthy v with
            | true => rw [ht, if_pos rfl] at h; rw [if_pos rfl]; exact ih _ _ h
            | false => rw [ht] at h; exact h

end

end Verif.Enforce
