import Verif.Enforce.Lemmas
/-
Properties of contract enforcement (C40, C74).
-/
namespace Verif.Enforce

section
variable {σ V E O : Type}

/-- The bookkeeping of functions being enforced is restored by every run of every program, whether it
returns or raises. -/
theorem enforcing_restored (c : Code σ V E O) (n : Nat) (b : Busy) (s : σ) (p : Prog σ V E) (o : Out V E) (s' : σ)
    (b' : Busy) (h : run c n b s p = some (o, s', b')) : b' = b := run_keeps c n b s p o s' b' h

/-- Outcomes are unique. -/
theorem runs_unique (c : Code σ V E O) (b : Busy) (s : σ) (p : Prog σ V E) (o o' : Out V E) (s' s'' : σ)
    (h : Runs c b s p o s') (h' : Runs c b s p o' s'') : o = o' ∧ s' = s'' := by
  obtain ⟨n, hn⟩ := (runs_iff ..).mp h
  obtain ⟨m, hm⟩ := (runs_iff ..).mp h'
  have e1 := run_mono c (Nat.le_max_left n m) _ _ _ _ hn
  have e2 := run_mono c (Nat.le_max_right n m) _ _ _ _ hm
  rw [e1] at e2
  simp only [Option.some.injEq, Prod.mk.injEq] at e2
  exact ⟨e2.1, e2.2.1⟩

theorem run_justCall (c : Code σ V E O) (b : Busy) (s : σ) (f : Fn) (a : V) (o : Out V E) (s' : σ) :
    Runs c b s (justCall f a) o s' ↔ ∃ n, callFn c (run c n) true f a b s = some (o, s', b) := by
  rw [runs_iff]
  constructor
  · rintro ⟨n, h⟩
    cases n with
    | zero => exact absurd h (by simp [run])
    | succ n =>
      refine ⟨n, ?_⟩
      rw [justCall, run] at h
      cases hc : callFn c (run c n) true f a b s with
      | none => rw [hc] at h; exact absurd h (by simp)
      | some y =>
        rw [hc] at h
        obtain ⟨o1, s1, b1⟩ := y
        cases n with
        | zero => exact absurd h (by cases o1 <;> simp [run])
        | succ n =>
          cases o1 with
          | val v => simp only [run] at h; exact h
          | exc e => simp only [run] at h; exact h
  · rintro ⟨n, h⟩
    refine ⟨n + 2, ?_⟩
    rw [justCall, run, callFn_mono c (run_succ c n) _ _ _ _ _ _ h]
    cases o with
    | val v => rfl
    | exc e => rfl

/-- A call is not guarded when enforcement is off, when the function has no conditions, or while its own
conditions are being evaluated: it is then just the function's body. -/
theorem unguarded_call (c : Code σ V E O) (b : Busy) (s : σ) (f : Fn) (a : V) (o : Out V E) (s' : σ)
    (h : b = none ∨ c.conds f = none ∨ ∃ l, b = some l ∧ f ∈ l) :
    Runs c b s (justCall f a) o s' ↔ Runs c b s (c.body f a) o s' := by
  rw [run_justCall, runs_iff]
  have e : ∀ n, callFn c (run c n) true f a b s = run c n b s (c.body f a) := by
    intro n
    unfold callFn
    cases hc : c.conds f with
    | none => rfl
    | some cs =>
      simp only
      rcases h with rfl | hn | ⟨l, rfl, hl⟩
      · rfl
      · rw [hn] at hc; exact absurd hc (by simp)
      · have : l.contains f = true := by simpa using hl
        simp only [wrapper, this, if_true]
  simp only [e]

/-- **C40.** The outcomes of a guarded call, all of them, with who is to blame.  `l` are the functions
whose conditions are being evaluated further up.  The conditions of `f` are evaluated with `f` among
them, the body is not.  Postconditions see the arguments as bound, their copies from before the call,
and the result. -/
theorem guarded_call (c : Code σ V E O) (cs : Conds σ V E O) (yes : V) (hy : c.truthy yes = true) (l : List Fn)
    (s : σ) (f : Fn) (a : V) (o : Out V E) (s' : σ) (hc : c.conds f = some cs) (hl : f ∉ l) :
    Runs c (some l) s (justCall f a) o s' ↔
      (cs.bind a = none ∧ o = .exc (.bad f) ∧ s' = s) ∨
      ∃ args, cs.bind a = some args ∧
        ((unknownMutable cs = true ∧ o = .exc (.mutableArgs f) ∧ s' = s) ∨
         (unknownMutable cs = false ∧
          ((∃ i, FirstFalse c (some (f :: l)) s (cs.pres args) i s' ∧ o = .exc (.pre f i)) ∨
           (∃ e, FirstRaises c (some (f :: l)) s (cs.pres args) e s' ∧ o = .exc e) ∨
           ∃ t, AllHold c (some (f :: l)) s (cs.pres args) t ∧
             ((∃ e, Runs c (some l) t (c.body f a) (.exc e) s' ∧ o = .exc e) ∨
              ∃ r u, Runs c (some l) t (c.body f a) (.val r) u ∧
                ((∃ i, FirstFalse c (some (f :: l)) u (cs.posts yes (cs.snap s args) args r) i s' ∧ o = .exc (.post f i)) ∨
                 (∃ e, FirstRaises c (some (f :: l)) u (cs.posts yes (cs.snap s args) args r) e s' ∧ o = .exc e) ∨
                 (AllHold c (some (f :: l)) u (cs.posts yes (cs.snap s args) args r) s' ∧ o = .val r)))))) := by
  have hl' : l.contains f = false := by simpa using hl
  rw [run_justCall]
  have e : ∀ n, callFn c (run c n) true f a (some l) s = wrapper c.truthy (run c n) (c.body f a) f cs a (some l) s := by
    intro n; unfold callFn; rw [hc]
  simp only [e, wrapper_eq (run_keeps c _) _ _ _ _ _ hl', before]
  cases hb : cs.bind a with
  | none =>
    simp only [Option.some.injEq, Prod.mk.injEq, exists_const, and_true, true_and, reduceCtorEq, false_and,
      exists_false, or_false]
    constructor
    · rintro ⟨rfl, rfl⟩; exact ⟨rfl, rfl⟩
    · rintro ⟨rfl, rfl⟩; exact ⟨rfl, rfl⟩
  | some args =>
    simp only [reduceCtorEq, false_and, false_or, Option.some.injEq, exists_eq_left', Option.getD_some]
    cases hu : unknownMutable cs with
    | true =>
      simp only [if_true, Option.some.injEq, Prod.mk.injEq, exists_const, and_true, true_and, reduceCtorEq, false_and,
        or_false]
      constructor
      · rintro ⟨rfl, rfl⟩; exact ⟨rfl, rfl⟩
      · rintro ⟨rfl, rfl⟩; exact ⟨rfl, rfl⟩
    | false =>
      simp only [Bool.false_eq_true, if_false, false_and, true_and, false_or, preLoop_eq]
      constructor
      · rintro ⟨n, h⟩
        cases hp : loop c.truthy (run c n) (Exc.pre f) 0 (cs.pre.map (fun p => p args)) (some (f :: l)) s with
        | none => rw [hp] at h; exact absurd h (by simp)
        | some y =>
          rw [hp] at h
          obtain ⟨x, t, b1⟩ := y
          have eb := loop_keeps (run_keeps c n) _ _ _ _ _ _ _ _ hp
          subst eb
          have hpre := (loop_iff c (Exc.pre f) (cs.pres args) 0 (some (f :: l)) s x t).mp ⟨n, hp⟩
          cases x with
          | some e =>
            simp only [Option.some.injEq, Prod.mk.injEq, and_true] at h
            obtain ⟨rfl, rfl⟩ := h
            rcases hpre with ⟨j, hj, hf⟩ | hr
            · refine Or.inl ⟨j, hf, ?_⟩
              rw [hj, Nat.zero_add]
            · exact Or.inr (Or.inl ⟨e, hr, rfl⟩)
          | none =>
            refine Or.inr (Or.inr ⟨t, hpre, ?_⟩)
            simp only at h
            cases hbody : run c n (some l) t (c.body f a) with
            | none => rw [hbody] at h; exact absurd h (by simp)
            | some z =>
              rw [hbody] at h
              obtain ⟨o2, u, b2⟩ := z
              have eb := run_keeps c n _ _ _ _ _ _ hbody
              subst eb
              cases o2 with
              | exc e =>
                simp only [Option.some.injEq, Prod.mk.injEq, and_true] at h
                obtain ⟨rfl, rfl⟩ := h
                exact Or.inl ⟨e, (runs_iff ..).mpr ⟨n, hbody⟩, rfl⟩
              | val r =>
                refine Or.inr ⟨r, u, (runs_iff ..).mpr ⟨n, hbody⟩, ?_⟩
                simp only at h
                cases hq : postLoop c.truthy (run c n) f (cs.snap s args) args r 0 cs.post (some (f :: l)) u with
                | none => rw [hq] at h; exact absurd h (by simp)
                | some q =>
                  rw [hq] at h
                  obtain ⟨x, s3, b3⟩ := q
                  have eb := postLoop_keeps (run_keeps c n) _ _ _ _ _ _ _ _ _ _ _ hq
                  subst eb
                  have hpost := (loop_iff c (Exc.post f) _ 0 (some (f :: l)) u x s3).mp
                    ((postLoop_iff c cs yes hy f (cs.snap s args) args r (some (f :: l)) u x s3).mp ⟨n, hq⟩)
                  cases x with
                  | none =>
                    simp only [Option.some.injEq, Prod.mk.injEq, and_true] at h
                    obtain ⟨rfl, rfl⟩ := h
                    exact Or.inr (Or.inr ⟨hpost, rfl⟩)
                  | some e =>
                    simp only [Option.some.injEq, Prod.mk.injEq, and_true] at h
                    obtain ⟨rfl, rfl⟩ := h
                    rcases hpost with ⟨j, hj, hf⟩ | hr
                    · refine Or.inl ⟨j, hf, ?_⟩
                      rw [hj, Nat.zero_add]
                    · exact Or.inr (Or.inl ⟨e, hr, rfl⟩)
      · have preOf : ∀ x t, (match x with
            | none => AllHold c (some (f :: l)) s (cs.pres args) t
            | some e => (∃ j, e = Exc.pre f (0 + j) ∧ FirstFalse c (some (f :: l)) s (cs.pres args) j t) ∨
                FirstRaises c (some (f :: l)) s (cs.pres args) e t) →
            ∃ n, ∀ m, n ≤ m → loop c.truthy (run c m) (Exc.pre f) 0 (cs.pre.map (fun p => p args)) (some (f :: l)) s
              = some (x, t, some (f :: l)) := by
          intro x t hx
          obtain ⟨n, hn⟩ := (loop_iff c (Exc.pre f) (cs.pres args) 0 (some (f :: l)) s x t).mpr hx
          exact ⟨n, fun m hm => loop_mono (run_mono c hm) _ _ _ _ _ _ hn⟩
        have postOf : ∀ r u x t, (match x with
            | none => AllHold c (some (f :: l)) u (cs.posts yes (cs.snap s args) args r) t
            | some e => (∃ j, e = Exc.post f (0 + j) ∧
                  FirstFalse c (some (f :: l)) u (cs.posts yes (cs.snap s args) args r) j t) ∨
                FirstRaises c (some (f :: l)) u (cs.posts yes (cs.snap s args) args r) e t) →
            ∃ n, ∀ m, n ≤ m → postLoop c.truthy (run c m) f (cs.snap s args) args r 0 cs.post (some (f :: l)) u
              = some (x, t, some (f :: l)) := by
          intro r u x t hx
          obtain ⟨n, hn⟩ := (postLoop_iff c cs yes hy f (cs.snap s args) args r (some (f :: l)) u x t).mpr
            ((loop_iff c (Exc.post f) _ 0 (some (f :: l)) u x t).mpr hx)
          exact ⟨n, fun m hm => postLoop_mono (run_mono c hm) _ _ _ _ _ _ _ _ _ hn⟩
        rintro (⟨i, hf, rfl⟩ | ⟨e, hr, rfl⟩ | ⟨t, ha, h⟩)
        · obtain ⟨n, hn⟩ := preOf (some (.pre f i)) s' (Or.inl ⟨i, by rw [Nat.zero_add], hf⟩)
          exact ⟨n, by rw [hn n (Nat.le_refl n)]⟩
        · obtain ⟨n, hn⟩ := preOf (some e) s' (Or.inr hr)
          exact ⟨n, by rw [hn n (Nat.le_refl n)]⟩
        · obtain ⟨n, hn⟩ := preOf none t ha
          rcases h with ⟨e, hbody, rfl⟩ | ⟨r, u, hbody, h⟩
          · obtain ⟨m, hm⟩ := (runs_iff ..).mp hbody
            refine ⟨max n m, ?_⟩
            rw [hn _ (Nat.le_max_left n m)]
            simp only [run_mono c (Nat.le_max_right n m) _ _ _ _ hm]
          · obtain ⟨m, hm⟩ := (runs_iff ..).mp hbody
            obtain ⟨x, ⟨k, hk⟩, ho⟩ : ∃ x, (∃ k, ∀ j, k ≤ j → postLoop c.truthy (run c j) f (cs.snap s args) args r 0
                cs.post (some (f :: l)) u = some (x, s', some (f :: l))) ∧
                o = (match x with
                  | none => Out.val r
                  | some e => Out.exc e) := by
              rcases h with ⟨i, hf, rfl⟩ | ⟨e, hr, rfl⟩ | ⟨ha', rfl⟩
              · exact ⟨_, postOf r u (some (.post f i)) s' (Or.inl ⟨i, by rw [Nat.zero_add], hf⟩), rfl⟩
              · exact ⟨_, postOf r u (some e) s' (Or.inr hr), rfl⟩
              · exact ⟨_, postOf r u none s' ha', rfl⟩
            refine ⟨max (max n m) k, ?_⟩
            rw [hn _ (by omega)]
            simp only [run_mono c (show m ≤ max (max n m) k by omega) _ _ _ _ hm, hk _ (Nat.le_max_right (max n m) k)]
            cases x with
            | none => simp only [ho]
            | some e => simp only [ho]

/-! ### Conditions that only look -/

/-- A condition that only looks at the state. -/
def look (yes no : V) (P : σ → Bool) : Prog σ V E := .get (fun s => .ret (if P s then yes else no))

theorem look_runs (c : Code σ V E O) (b : Busy) (s : σ) (yes no : V) (P : σ → Bool) (o : Out V E) (s' : σ) :
    Runs c b s (look yes no P) o s' ↔ o = .val (if P s then yes else no) ∧ s' = s := by
  rw [runs_iff]
  constructor
  · rintro ⟨n, h⟩
    match n, h with
    | 0, h => exact absurd h (by simp [run])
    | 1, h => exact absurd h (by simp [run, look])
    | n + 2, h =>
      simp only [look, run, Option.some.injEq, Prod.mk.injEq, and_true] at h
      exact ⟨h.1.symm, h.2.symm⟩
  · rintro ⟨rfl, rfl⟩; exact ⟨2, rfl⟩

theorem look_holds (c : Code σ V E O) (b : Busy) (s : σ) (yes no : V) (hy : c.truthy yes = true)
    (hn : c.truthy no = false) (P : σ → Bool) (s' : σ) :
    (Holds c b s (look yes no P) s' ↔ P s = true ∧ s' = s) ∧ (Fails c b s (look yes no P) s' ↔ P s = false ∧ s' = s) := by
  simp only [Holds, Fails, look_runs]
  constructor
  · constructor
    · rintro ⟨v, ⟨hv, rfl⟩, ht⟩
      simp only [Out.val.injEq] at hv
      subst hv
      refine ⟨?_, rfl⟩
      cases hp : P s' with
      | true => rfl
      | false => rw [hp] at ht; simp only [Bool.false_eq_true, if_false] at ht; rw [hn] at ht; exact absurd ht (by simp)
    · rintro ⟨hp, rfl⟩; exact ⟨yes, ⟨by rw [hp]; rfl, rfl⟩, hy⟩
  · constructor
    · rintro ⟨v, ⟨hv, rfl⟩, ht⟩
      simp only [Out.val.injEq] at hv
      subst hv
      refine ⟨?_, rfl⟩
      cases hp : P s' with
      | false => rfl
      | true => rw [hp] at ht; simp only [if_true] at ht; rw [hy] at ht; exact absurd ht (by simp)
    · rintro ⟨hp, rfl⟩; exact ⟨no, ⟨by rw [hp]; rfl, rfl⟩, hn⟩

theorem look_all (c : Code σ V E O) (b : Busy) (s : σ) (yes no : V) (hy : c.truthy yes = true)
    (hn : c.truthy no = false) (Ps : List (σ → Bool)) (s' : σ) :
    AllHold c b s (Ps.map (look yes no)) s' ↔ (∀ P ∈ Ps, P s = true) ∧ s' = s := by
  induction Ps generalizing s with
  | nil => simp [AllHold]
  | cons P Ps ih =>
    simp only [List.map_cons, AllHold, (look_holds c b s yes no hy hn P _).1, List.forall_mem_cons]
    constructor
    · rintro ⟨t, ⟨hp, rfl⟩, h⟩
      rw [ih] at h
      exact ⟨⟨hp, h.1⟩, h.2⟩
    · rintro ⟨⟨hp, ha⟩, rfl⟩
      exact ⟨s', ⟨hp, rfl⟩, (ih s').mpr ⟨ha, rfl⟩⟩

/-- The first false one of a list of facts. -/
def FirstNot (Ps : List (σ → Bool)) (s : σ) (i : Nat) : Prop :=
  (∃ P, Ps[i]? = some P ∧ P s = false) ∧ ∀ P ∈ Ps.take i, P s = true

theorem look_first (c : Code σ V E O) (b : Busy) (s : σ) (yes no : V) (hy : c.truthy yes = true)
    (hn : c.truthy no = false) (Ps : List (σ → Bool)) (i : Nat) (s' : σ) :
    FirstFalse c b s (Ps.map (look yes no)) i s' ↔ FirstNot Ps s i ∧ s' = s := by
  unfold FirstFalse FirstNot
  simp only [List.getElem?_map, ← List.map_take, look_all c b s yes no hy hn]
  constructor
  · rintro ⟨p, t, hp, ⟨ha, rfl⟩, hf⟩
    simp only [Option.map_eq_some_iff] at hp
    obtain ⟨P, hP, rfl⟩ := hp
    rw [(look_holds c b t yes no hy hn P _).2] at hf
    exact ⟨⟨⟨P, hP, hf.1⟩, ha⟩, hf.2⟩
  · rintro ⟨⟨⟨P, hP, hf⟩, ha⟩, rfl⟩
    exact ⟨look yes no P, s', by rw [hP]; rfl, ⟨ha, rfl⟩, ((look_holds c b s' yes no hy hn P s').2).mpr ⟨hf, rfl⟩⟩

theorem look_raises (c : Code σ V E O) (b : Busy) (s : σ) (yes no : V) (Ps : List (σ → Bool)) (e : Exc E) (s' : σ) :
    ¬ FirstRaises c b s (Ps.map (look yes no)) e s' := by
  rintro ⟨i, p, t, hp, _, hr⟩
  simp only [List.getElem?_map, Option.map_eq_some_iff] at hp
  obtain ⟨P, _, rfl⟩ := hp
  rw [look_runs] at hr
  exact absurd hr.1 (by simp)

/-- **C40.** For conditions that only look at arguments, state and result, blame is exact.  A
precondition failure of the call means that a precondition is false on entry, and then the function is
not called; a postcondition failure means that the preconditions held, the function returned and a
postcondition is false; otherwise the outcome is the function's own. -/
theorem blame (c : Code σ V E O) (cs : Conds σ V E O) (yes no : V) (hy : c.truthy yes = true) (hn : c.truthy no = false)
    (l : List Fn) (s : σ) (f : Fn) (a args : V) (o : Out V E) (s' : σ) (Ps : List (V → σ → Bool))
    (Qs : List (O → V → V → σ → Bool)) (hc : c.conds f = some cs) (hl : f ∉ l) (hb : cs.bind a = some args)
    (hm : unknownMutable cs = false) (hp : cs.pre = Ps.map (fun P x => look yes no (P x)))
    (hq : cs.post = Qs.map (fun Q => some (fun old x r => look yes no (Q old x r)))) :
    Runs c (some l) s (justCall f a) o s' ↔
      (∃ i, FirstNot (Ps.map (fun P => P args)) s i ∧ o = .exc (.pre f i) ∧ s' = s) ∨
      ((∀ P ∈ Ps, P args s = true) ∧
        ((∃ e, Runs c (some l) s (c.body f a) (.exc e) s' ∧ o = .exc e) ∨
         ∃ r, Runs c (some l) s (c.body f a) (.val r) s' ∧
           ((∃ i, FirstNot (Qs.map (fun Q => Q (cs.snap s args) args r)) s' i ∧ o = .exc (.post f i)) ∨
            ((∀ Q ∈ Qs, Q (cs.snap s args) args r s' = true) ∧ o = .val r)))) := by
  have e1 : cs.pres args = (Ps.map (fun P => P args)).map (look yes no) := by
    simp only [Conds.pres, hp, List.map_map]; rfl
  have e2 : ∀ r, cs.posts yes (cs.snap s args) args r
      = (Qs.map (fun Q => Q (cs.snap s args) args r)).map (look yes no) := by
    intro r; simp only [Conds.posts, hq, List.map_map]; rfl
  rw [guarded_call c cs yes hy l s f a o s' hc hl, hb]
  simp only [reduceCtorEq, false_and, false_or, Option.some.injEq, exists_eq_left', hm, true_and, Bool.false_eq_true,
    e1, e2, look_all c _ _ yes no hy hn, look_first c _ _ yes no hy hn, look_raises, exists_false, List.forall_mem_map]
  constructor
  · rintro (⟨i, ⟨hf, rfl⟩, rfl⟩ | ⟨t, ⟨ha, rfl⟩, h⟩)
    · exact Or.inl ⟨i, hf, rfl, rfl⟩
    · refine Or.inr ⟨ha, ?_⟩
      rcases h with h | ⟨r, u, hr, h⟩
      · exact Or.inl h
      · rcases h with ⟨i, ⟨hf, rfl⟩, ho⟩ | ⟨⟨hh, rfl⟩, ho⟩
        · exact Or.inr ⟨r, hr, Or.inl ⟨i, hf, ho⟩⟩
        · exact Or.inr ⟨r, hr, Or.inr ⟨hh, ho⟩⟩
  · rintro (⟨i, hf, rfl, rfl⟩ | ⟨ha, h⟩)
    · exact Or.inl ⟨i, ⟨hf, rfl⟩, rfl⟩
    · refine Or.inr ⟨s, ⟨ha, rfl⟩, ?_⟩
      rcases h with h | ⟨r, hr, h⟩
      · exact Or.inl h
      · refine Or.inr ⟨r, s', hr, ?_⟩
        rcases h with ⟨i, hf, ho⟩ | ⟨hh, ho⟩
        · exact Or.inl ⟨i, ⟨hf, rfl⟩, ho⟩
        · exact Or.inr ⟨⟨hh, rfl⟩, ho⟩

/-! ### Enforcement changes nothing but failures -/

theorem loop_quiet (c : Code σ V E O) (n : Nat) (mk : Nat → Exc E) (hk : ∀ i, (mk i).contract = true)
    (ps : List (Prog σ V E)) (hq : ∀ p ∈ ps, Quiet c p) (i : Nat) (b : Busy) (s : σ) (x : Option (Exc E)) (s' : σ)
    (b' : Busy) (h : loop c.truthy (run c n) mk i ps b s = some (x, s', b')) :
    s' = s ∧ ∀ e, x = some e → e.contract = true := by
  induction ps generalizing i b s with
  | nil =>
    simp only [loop, Option.some.injEq, Prod.mk.injEq] at h
    obtain ⟨rfl, rfl, _⟩ := h
    exact ⟨rfl, by simp⟩
  | cons p ps ih =>
    simp only [loop] at h
    cases he : run c n b s p with
    | none => rw [he] at h; exact absurd h (by simp)
    | some y =>
      rw [he] at h
      obtain ⟨o, s1, b1⟩ := y
      have hp := hq p List.mem_cons_self b s o s1 ⟨n, b1, he⟩
      have e1 := hp.1
      subst e1
      cases o with
      | exc e =>
        simp only [Option.some.injEq, Prod.mk.injEq] at h
        obtain ⟨rfl, rfl, _⟩ := h
        refine ⟨rfl, ?_⟩
        intro e' h'
        simp only [Option.some.injEq] at h'
        subst h'
        exact hp.2 _ rfl
      | val v =>
        simp only at h
        cases ht : c.truthy v with
        | true => rw [ht, if_pos rfl] at h; exact ih (fun q hq' => hq q (List.mem_cons_of_mem _ hq')) _ _ _ h
        | false =>
          rw [ht] at h
          simp only [Bool.false_eq_true, if_false, Option.some.injEq, Prod.mk.injEq] at h
          obtain ⟨rfl, rfl, _⟩ := h
          refine ⟨rfl, ?_⟩
          intro e' h'
          simp only [Option.some.injEq] at h'
          subst h'
          exact hk i

theorem postLoop_quiet (c : Code σ V E O) (n : Nat) (f : Fn) (old : O) (args r : V)
    (ps : List (Option (O → V → V → Prog σ V E))) (hq : ∀ p, some p ∈ ps → Quiet c (p old args r)) (i : Nat) (b : Busy)
    (s : σ) (x : Option (Exc E)) (s' : σ) (b' : Busy)
    (h : postLoop c.truthy (run c n) f old args r i ps b s = some (x, s', b')) :
    s' = s ∧ ∀ e, x = some e → e.contract = true := by
  induction ps generalizing i b s with
  | nil =>
    simp only [postLoop, Option.some.injEq, Prod.mk.injEq] at h
    obtain ⟨rfl, rfl, _⟩ := h
    exact ⟨rfl, by simp⟩
  | cons p ps ih =>
    have hq' : ∀ p, some p ∈ ps → Quiet c (p old args r) := fun q h' => hq q (List.mem_cons_of_mem _ h')
    cases p with
    | none => simp only [postLoop] at h; exact ih hq' _ _ _ h
    | some p =>
      simp only [postLoop] at h
      cases he : run c n b s (p old args r) with
      | none => rw [he] at h; exact absurd h (by simp)
      | some y =>
        rw [he] at h
        obtain ⟨o, s1, b1⟩ := y
        have hp := hq p List.mem_cons_self b s o s1 ⟨n, b1, he⟩
        have e1 := hp.1
        subst e1
        cases o with
        | exc e =>
          simp only [Option.some.injEq, Prod.mk.injEq] at h
          obtain ⟨rfl, rfl, _⟩ := h
          refine ⟨rfl, ?_⟩
          intro e' h'
          simp only [Option.some.injEq] at h'
          subst h'
          exact hp.2 _ rfl
        | val v =>
          simp only at h
          cases ht : c.truthy v with
          | true => rw [ht, if_pos rfl] at h; exact ih hq' _ _ _ h
          | false =>
            rw [ht] at h
            simp only [Bool.false_eq_true, if_false, Option.some.injEq, Prod.mk.injEq] at h
            obtain ⟨rfl, rfl, _⟩ := h
            refine ⟨rfl, ?_⟩
            intro e' h'
            simp only [Option.some.injEq] at h'
            subst h'
            rfl

theorem wrapper_transparent (c : Code σ V E O) (hd : Decent c) (n : Nat)
    (ih : ∀ b s p o s' b', Honest p → run c n b s p = some (o, s', b') → (∀ e, o = .exc e → e.contract = false) →
      Runs c none s p o s') (f : Fn) (cs : Conds σ V E O) (hc : c.conds f = some cs) (a : V) (b : Busy) (s : σ)
    (o : Out V E) (s' : σ) (b' : Busy) (h : wrapper c.truthy (run c n) (c.body f a) f cs a b s = some (o, s', b'))
    (ho : ∀ e, o = .exc e → e.contract = false) : Runs c none s (c.body f a) o s' := by
  cases b with
  | none => exact ih _ _ _ _ _ _ (hd.honest f a) h ho
  | some l =>
    cases hl : l.contains f with
    | true => simp only [wrapper, hl, if_true] at h; exact ih _ _ _ _ _ _ (hd.honest f a) h ho
    | false =>
      rw [wrapper_eq (run_keeps c n) _ _ _ _ _ hl] at h
      simp only [before] at h
      cases hb : cs.bind a with
      | none =>
        rw [hb] at h
        simp only [Option.some.injEq, Prod.mk.injEq] at h
        obtain ⟨rfl, rfl, _⟩ := h
        rw [hd.fits f cs a hc hb]
        exact ⟨1, none, rfl⟩
      | some args =>
        rw [hb] at h
        simp only [Option.getD_some] at h
        cases hu : unknownMutable cs with
        | true =>
          rw [hu] at h
          simp only [if_true, Option.some.injEq, Prod.mk.injEq] at h
          obtain ⟨rfl, rfl, _⟩ := h
          exact absurd (ho _ rfl) (by simp [Exc.contract])
        | false =>
          rw [hu] at h
          simp only [Bool.false_eq_true, if_false, preLoop_eq] at h
          cases hp : loop c.truthy (run c n) (Exc.pre f) 0 (cs.pre.map (fun p => p args)) (some (f :: l)) s with
          | none => rw [hp] at h; exact absurd h (by simp)
          | some y =>
            rw [hp] at h
            obtain ⟨x, t, b1⟩ := y
            have hq := loop_quiet c n (Exc.pre f) (fun _ => rfl) _ (by
              intro p hp'
              simp only [List.mem_map] at hp'
              obtain ⟨q, hq, rfl⟩ := hp'
              exact hd.pre f cs hc q hq args) _ _ _ _ _ _ hp
            have e1 := hq.1
            subst e1
            cases x with
            | some e =>
              simp only [Option.some.injEq, Prod.mk.injEq] at h
              obtain ⟨rfl, rfl, _⟩ := h
              exact absurd ((ho _ rfl).symm.trans (hq.2 _ rfl)) (by simp)
            | none =>
              simp only at h
              cases hbody : run c n (some l) t (c.body f a) with
              | none => rw [hbody] at h; exact absurd h (by simp)
              | some z =>
                rw [hbody] at h
                obtain ⟨o2, u, b2⟩ := z
                cases o2 with
                | exc e =>
                  simp only [Option.some.injEq, Prod.mk.injEq] at h
                  obtain ⟨rfl, rfl, _⟩ := h
                  exact ih _ _ _ _ _ _ (hd.honest f a) hbody ho
                | val r =>
                  simp only at h
                  cases hpo : postLoop c.truthy (run c n) f (cs.snap t args) args r 0 cs.post (some (f :: l)) u with
                  | none => rw [hpo] at h; exact absurd h (by simp)
                  | some q =>
                    rw [hpo] at h
                    obtain ⟨x, s3, b3⟩ := q
                    have hq := postLoop_quiet c n f _ args r cs.post (fun p hp' => hd.post f cs hc p hp' _ args r)
                      _ _ _ _ _ _ hpo
                    have e1 := hq.1
                    subst e1
                    cases x with
                    | some e =>
                      simp only [Option.some.injEq, Prod.mk.injEq] at h
                      obtain ⟨rfl, rfl, _⟩ := h
                      exact absurd ((ho _ rfl).symm.trans (hq.2 _ rfl)) (by simp)
                    | none =>
                      simp only [Option.some.injEq, Prod.mk.injEq] at h
                      obtain ⟨rfl, rfl, _⟩ := h
                      exact ih _ _ _ _ _ _ (hd.honest f a) hbody (by simp)

/-- **C40.** Enforcement only adds failures of contracts: in a decent program a run under enforcement that
does not end with one ends exactly as it does without enforcement, in the same state. -/
theorem enforcement_transparent (c : Code σ V E O) (hd : Decent c) (b : Busy) (s : σ) (p : Prog σ V E) (hp : Honest p)
    (o : Out V E) (s' : σ) (h : Runs c b s p o s') (ho : ∀ e, o = .exc e → e.contract = false) :
    Runs c none s p o s' := by
  obtain ⟨n, b', h⟩ := h
  induction n generalizing b s p o s' b' with
  | zero => exact absurd h (by simp [run])
  | succ n ih =>
    cases hp with
    | ret v =>
      simp only [run, Option.some.injEq, Prod.mk.injEq] at h
      obtain ⟨rfl, rfl, _⟩ := h
      exact ⟨1, none, rfl⟩
    | raise e =>
      simp only [run, Option.some.injEq, Prod.mk.injEq] at h
      obtain ⟨rfl, rfl, _⟩ := h
      exact ⟨1, none, rfl⟩
    | get k hk =>
      obtain ⟨m, b1, hm⟩ := ih _ _ _ (hk s) _ _ ho _ h
      exact ⟨m + 1, b1, hm⟩
    | put s1 k hk =>
      obtain ⟨m, b1, hm⟩ := ih _ _ _ hk _ _ ho _ h
      exact ⟨m + 1, b1, hm⟩
    | call w f a k hk pass =>
      rw [run] at h
      cases hc : callFn c (run c n) w f a b s with
      | none => rw [hc] at h; exact absurd h (by simp)
      | some y =>
        rw [hc] at h
        obtain ⟨o1, s1, b1⟩ := y
        have ho1 : ∀ e, o1 = .exc e → e.contract = false := by
          rintro e rfl
          cases hce : e.contract with
          | false => rfl
          | true =>
            simp only [pass e hce] at h
            cases n with
            | zero => exact absurd h (by simp [run])
            | succ n =>
              simp only [run, Option.some.injEq, Prod.mk.injEq] at h
              exact absurd (hce.symm.trans (ho e h.1.symm)) (by simp)
        have hbody : Runs c none s (c.body f a) o1 s1 := by
          unfold callFn at hc
          cases w with
          | false => exact ih _ _ _ (hd.honest f a) _ _ ho1 _ hc
          | true =>
            cases hcs : c.conds f with
            | none => rw [hcs] at hc; exact ih _ _ _ (hd.honest f a) _ _ ho1 _ hc
            | some cs =>
              rw [hcs] at hc
              exact wrapper_transparent c hd n (fun b s p o s' b' hp h ho => ih b s p hp o s' ho b' h) f cs hcs a b s o1
                s1 b1 hc ho1
        obtain ⟨m1, h1⟩ := (runs_iff ..).mp hbody
        obtain ⟨m2, h2⟩ := (runs_iff ..).mp (ih _ _ _ (hk o1) _ _ ho _ h)
        rw [runs_iff]
        refine ⟨max m1 m2 + 1, ?_⟩
        have e : callFn c (run c (max m1 m2)) w f a none s = some (o1, s1, none) := by
          have := run_mono c (Nat.le_max_left m1 m2) _ _ _ _ h1
          unfold callFn
          cases w with
          | false => exact this
          | true =>
            cases c.conds f with
            | none => exact this
            | some cs => exact this
        rw [run, e]
        exact run_mono c (Nat.le_max_right m1 m2) _ _ _ _ h2

end

/-! ### Concrete programs -/

/-- The conditions of function 0 below. -/
def halfConds : Conds Nat Int Unit Int where
  bind := some
  params := [['x']]
  mutableArgs := none
  snap := fun _ a => a
  pre := [fun a => look 1 0 (fun _ => decide (0 ≤ a))]
  post := [some (fun old _ r => look 1 0 (fun _ => decide (r ≤ old)))]

/-- A name in `post[...]` that is no parameter. -/
def oddConds : Conds Nat Int Unit Int := { halfConds with mutableArgs := some [['y']], pre := [], post := [] }

/-- Function 0 halves a number: precondition `x ≥ 0`, postcondition "result at most the old argument".
Function 1 asks in its precondition whether it is itself nonzero on the argument before.  Function 2
passes its argument minus ten to function 0. -/
def demo : Code Nat Int Unit Int where
  truthy := fun v => v != 0
  body := fun f a =>
    if f = 0 then .ret (a / 2)
    else if f = 1 then .put 7 (.ret (if a = 5 then 0 else a))
    else justCall 0 (a - 10)
  conds := fun f =>
    if f = 0 then some halfConds
    else if f = 1 then some
      { bind := some, params := [['x']], mutableArgs := some [['x']], snap := fun _ a => a
        pre := [fun a => justCall 1 (a - 1)], post := [] }
    else none

example : run demo 9 (some []) 0 (justCall 0 9) = some (.val 4, 0, some []) := by decide +kernel
example : run demo 9 (some []) 0 (justCall 0 (-1)) = some (.exc (.pre 0 0), 0, some []) := by decide +kernel
-- the failure of a function called further down comes through
example : run demo 9 (some []) 0 (justCall 2 3) = some (.exc (.pre 0 0), 0, some []) := by decide +kernel
-- the call inside the own precondition is not guarded, so that it ends
example : run demo 9 (some []) 0 (justCall 1 3) = some (.val 3, 7, some []) := by decide +kernel
example : run demo 9 (some []) 0 (justCall 1 6) = some (.exc (.pre 1 0), 7, some []) := by decide +kernel
-- without enforcement nothing fails
example : run demo 9 none 0 (justCall 0 (-1)) = some (.val (-1), 0, none) := by decide +kernel

/-- `blame` applies to function 0 ... -/
example : Runs demo (some []) 0 (justCall 0 (-1)) (.exc (.pre 0 0)) 0 :=
  (blame demo _ 1 0 rfl rfl [] 0 0 (-1) (-1) _ _ [fun a _ => decide (0 ≤ a)] [fun old _ r _ => decide (r ≤ old)] rfl
    (by simp) rfl rfl rfl rfl).mpr (Or.inl ⟨0, ⟨⟨_, rfl, rfl⟩, by simp⟩, rfl, rfl⟩)

/-- ... and `guarded_call` to function 1. -/
example : ∃ i, FirstFalse demo (some [1]) 0 [justCall 1 5] i 7 := by
  have h : Runs demo (some []) 0 (justCall 1 6) (.exc (.pre 1 0)) 7 := ⟨9, some [], by decide +kernel⟩
  rw [guarded_call demo _ 1 rfl [] 0 1 6 _ 7 rfl (by simp)] at h
  rcases h with ⟨h, _⟩ | ⟨args, ha, ⟨h, _⟩ | ⟨_, h⟩⟩
  · exact absurd h (by simp)
  · exact absurd h (by decide)
  · simp only [Option.some.injEq] at ha
    subst ha
    exact ⟨0, _, 0, rfl, rfl, 0, ⟨9, some [1], by decide +kernel⟩, rfl⟩

/-- A program that meets the conditions of `enforcement_transparent`. -/
def tidy : Code Nat Int Unit Int := { demo with conds := fun f => if f = 0 then demo.conds 0 else none }

theorem look_quiet {σ V E O : Type} (c : Code σ V E O) (yes no : V) (P : σ → Bool) :
    Quiet c (look yes no P : Prog σ V E) := by
  intro b s o s' h
  rw [look_runs] at h
  obtain ⟨rfl, rfl⟩ := h
  exact ⟨rfl, by simp⟩

theorem justCall_honest {σ V E : Type} (f : Fn) (a : V) : Honest (justCall f a : Prog σ V E) := by
  refine Honest.call _ _ _ _ (fun o => ?_) (fun e _ => rfl)
  cases o with
  | val v => exact .ret v
  | exc e => exact .raise e

theorem tidy_decent : Decent tidy := by
  have hcs : ∀ f cs, tidy.conds f = some cs → f = 0 ∧ demo.conds 0 = some cs := by
    intro f cs h
    by_cases h0 : f = 0
    · subst h0; exact ⟨rfl, h⟩
    · simp only [tidy, if_neg h0, reduceCtorEq] at h
  refine ⟨?_, ?_, ?_, ?_⟩
  · intro f a
    by_cases h0 : f = 0
    · subst h0; exact .ret _
    · by_cases h1 : f = 1
      · subst h1; exact .put _ _ (.ret _)
      · have : tidy.body f a = justCall 0 (a - 10) := by simp only [tidy, demo, if_neg h0, if_neg h1]
        rw [this]
        exact justCall_honest _ _
  · intro f cs a h hb
    obtain ⟨rfl, h⟩ := hcs f cs h
    have e : halfConds = cs := Option.some.inj h
    subst e
    exact absurd hb (by simp [halfConds])
  · intro f cs h p hp args
    obtain ⟨rfl, h⟩ := hcs f cs h
    have e : halfConds = cs := Option.some.inj h
    subst e
    simp only [halfConds, List.mem_singleton] at hp
    subst hp
    exact look_quiet _ _ _ _
  · intro f cs h p hp old args r
    obtain ⟨rfl, h⟩ := hcs f cs h
    have e : halfConds = cs := Option.some.inj h
    subst e
    simp only [halfConds, List.mem_singleton, Option.some.injEq] at hp
    subst hp
    exact look_quiet _ _ _ _

example : Runs tidy none 0 (justCall 2 30) (.val 10) 0 :=
  enforcement_transparent tidy tidy_decent (some []) 0 _ (justCall_honest _ _) _ _ ⟨9, some [], by decide +kernel⟩ (by simp)

/-- A name in `post[...]` that is no parameter makes every call fail, as a failure of the postcondition,
before the function is called. -/
theorem unknown_mutable_argument_blames_postcondition :
    run { demo with conds := fun _ => some oddConds } 9 (some []) 0 (justCall 1 3)
      = some (.exc (.mutableArgs 1), 0, some []) := by
  decide +kernel

/-! ### Which calls are guarded (C74) -/

/-- **C74.** A call is guarded with conditions `c` exactly when the caller is not one of the internal
files, the function is not hidden by its name or by `NoEnforce`, it is not a class, and `c` are the
conditions found for it. -/
theorem guarded_iff {C : Type} (any : C → Bool) (caller : Caller) (t : Target C) (c : C) :
    traceCall any caller t = .enforce c ↔
      wants caller = true ∧ ¬ ">".toList <:+ t.name.getD [] ∧ ¬ "_crosshair_wrapper".toList <:+ t.name.getD [] ∧
      t.noEnforce = false ∧ (t.isType = true → t.special = true) ∧ findConds any t = some c := by
  unfold traceCall
  generalize ">".toList = g
  generalize "_crosshair_wrapper".toList = u
  generalize t.name.getD [] = nm
  cases hw : wants caller with
  | false => simp
  | true =>
    simp only [Bool.not_true, Bool.false_eq_true, if_false, Bool.or_eq_true, List.isSuffixOf_iff_suffix, true_and]
    by_cases h1 : g <:+ nm
    · simp [h1]
    · by_cases h2 : u <:+ nm
      · simp [h2]
      · simp only [h1, h2, or_self, if_false, not_false_eq_true, true_and]
        cases hn : t.noEnforce with
        | true => simp
        | false =>
          simp only [Bool.false_eq_true, if_false, true_and]
          cases hi : t.isType with
          | true =>
            cases hs : t.special with
            | false => simp
            | true =>
              simp only [Bool.not_true, Bool.and_false, Bool.false_eq_true, if_false, imp_self, true_and]
              cases findConds any t <;> simp
          | false =>
            simp only [Bool.false_and, Bool.false_eq_true, if_false, false_imp_iff, true_and]
            cases findConds any t <;> simp

/-- **C74.** Where the conditions of a call come from: a plain function's own; for a method those of the
class it is called on, if that is a class with conditions for the name, and otherwise those of the type
of the object.  Conditions without content do not count. -/
theorem conditions_found {C : Type} (any : C → Bool) (t : Target C) (c : C) :
    findConds any t = some c ↔ any c = true ∧
      ((t.bound = false ∧ t.onFn = some c) ∨
       (t.bound = true ∧ t.boundToClass = true ∧ t.onClass = some c) ∨
       (t.bound = true ∧ (t.boundToClass = true → ∀ d, t.onClass = some d → any d = false) ∧ t.onType = some c)) := by
  unfold findConds
  rw [Option.filter_eq_some_iff, and_comm]
  unfold lookUp
  cases hb : t.bound with
  | false => simp
  | true =>
    cases hcl : t.boundToClass with
    | false => simp
    | true =>
      simp only [Bool.not_true, Bool.false_eq_true, Bool.true_eq_false, if_false, if_true, true_and, false_and, false_or, true_imp_iff]
      cases hc : t.onClass with
      | none => simp
      | some d =>
        simp only [Option.some.injEq, forall_eq']
        cases ha : any d with
        | true =>
          simp only [if_true, Option.some.injEq, Bool.true_eq_false, false_and, or_false]
        | false =>
          simp only [Bool.false_eq_true, if_false, true_and]
          constructor
          · rintro ⟨h1, h2⟩; exact ⟨h1, Or.inr h2⟩
          · rintro ⟨h1, rfl | h2⟩
            · rw [ha] at h1; exact absurd h1 (by simp)
            · exact ⟨h1, h2⟩

/-- **C74.** Code in a user's own file is guarded, whatever the file is called, as long as it does not end
like one of the listed files. -/
theorem user_code_wanted (caller : Caller) (hn : caller.name ≠ "_crosshair_wrapper".toList)
    (hf : ∀ x ∈ quietSuffixes, ¬ x <:+ caller.file) : wants caller = true := by
  unfold wants
  have e : quietSuffixes.any (fun x => x.isSuffixOf caller.file) = false := by
    rw [List.any_eq_false]
    intro x hx
    rw [List.isSuffixOf_iff_suffix]
    exact hf x hx
  have e2 : (caller.name == "_crosshair_wrapper".toList) = false := by
    simpa only [beq_eq_false_iff_ne] using hn
  simp only [e, e2, Bool.false_eq_true, if_false, ite_self]

/-- ... but the list is of file names: calls from a user's own `copy.py`, `enum.py` or `inspect.py` are
never guarded. -/
theorem user_file_named_copy :
    wants ⟨"main".toList, "/home/me/project/copy.py".toList⟩ = false ∧
    wants ⟨"main".toList, "/home/me/project/enum.py".toList⟩ = false ∧
    wants ⟨"main".toList, "/home/me/project/mycopy.py".toList⟩ = true := by
  decide +kernel

/-- Lambdas, and whatever else has a name ending in `>`, are never guarded. -/
theorem lambda_not_guarded {C : Type} (any : C → Bool) (caller : Caller) (t : Target C)
    (h : t.name = some "<lambda>".toList) : traceCall any caller t = .asIs := by
  unfold traceCall
  have e : ">".toList.isSuffixOf (t.name.getD []) = true := by rw [h]; decide +kernel
  simp only [e, Bool.true_or, if_true, ite_self]

/-- **C74.** The cache of callers does not change the answer. -/
theorem cache_sound {K : Type} [DecidableEq K] (code : K → Caller) (cache : List (K × Bool))
    (h : ∀ e ∈ cache, e.2 = wants (code e.1)) (k : K) :
    (cachedWants code cache k).1 = wants (code k) ∧ ∀ e ∈ (cachedWants code cache k).2, e.2 = wants (code e.1) := by
  unfold cachedWants
  cases hl : cache.lookup k with
  | none =>
    refine ⟨rfl, ?_⟩
    intro e he
    simp only [List.mem_cons] at he
    rcases he with rfl | he
    · rfl
    · exact h e he
  | some v =>
    refine ⟨?_, h⟩
    have : (k, v) ∈ cache := by
      clear h
      induction cache with
      | nil => simp at hl
      | cons e es ih =>
        obtain ⟨k', v'⟩ := e
        simp only [List.lookup_cons] at hl
        by_cases hk : k = k'
        · subst hk
          simp only [beq_self_eq_true, if_true, Option.some.injEq] at hl
          subst hl
          exact List.mem_cons_self
        · have : (k == k') = false := by simpa using hk
          rw [this] at hl
          exact List.mem_cons_of_mem _ (ih hl)
    exact h _ this

example : (cachedWants (fun k : Nat => (⟨"f".toList, if k = 0 then "a.py".toList else "/re.py".toList⟩ : Caller))
    [(0, true)] 1) = (false, [(1, false), (0, true)]) := by decide +kernel

/-- **C74.** Calling a class under enforcement constructs what Python would, if its metaclass does not
define `__call__`. -/
theorem construct_agrees {V R E : Type} (c : Class V R E) (a : V) (h : c.metaCall = none) :
    manualConstruct c a = pyConstruct c a := by
  unfold manualConstruct pyConstruct
  rw [h]
  cases c.new a with
  | exc e => rfl
  | val r =>
    simp only
    cases c.isInstance r with
    | false => rfl
    | true => cases c.init r a <;> rfl

example : manualConstruct (⟨fun a => .val a, fun r => r != 3, fun _ a => if a = 4 then some (.user ()) else none, none⟩ :
    Class Nat Nat Unit) 4 = .exc (.user ()) := by decide +kernel

/-- A metaclass's own `__call__` is bypassed: a class whose metaclass hands out one shared object gives
a new one. -/
theorem metaclass_call_bypassed :
    ∃ (c : Class Nat Nat Unit) (a : Nat), manualConstruct c a = .val 1 ∧ pyConstruct c a = .val 0 :=
  ⟨⟨fun _ => .val 1, fun _ => true, fun _ _ => none, some (fun _ => .val 0)⟩, 0, rfl, rfl⟩

example : traceCall (fun n : Nat => n != 0) ⟨"main".toList, "/home/me/a.py".toList⟩
    ⟨some "step".toList, false, false, false, true, true, none, some 0, some 5⟩ = .enforce 5 := by decide +kernel

end Verif.Enforce
