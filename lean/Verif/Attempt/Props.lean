import Verif.Attempt.Spec
namespace Verif.Attempt

theorem isA_iff (e : Exc) (cs : List Cls) : e.isA cs = true ↔ ∃ c ∈ e.classes, c ∈ cs := by
  simp [Exc.isA]

/-- An exception whose text blames a symbolic value is only suspected if it is a `TypeError`. -/
theorem suspected_typeError (e : Exc) (h : suspected e = true) : .typeError ∈ e.classes := by
  unfold suspected at h
  cases ht : e.isA [.typeError] with
  | false => rw [ht] at h; exact absurd h (by simp)
  | true =>
    rw [isA_iff] at ht
    obtain ⟨c, hc, h1⟩ := ht
    simp only [List.mem_singleton] at h1
    subst h1
    exact hc

/-- **C41.** Every exception out of the function under analysis has exactly the effect its meaning says.
(`bodyReport = none`: the failure can be reported.) -/
theorem body_exception (p : Path) (e : Exc) (hpy : e.Python) (hs : p.setup = none) (hp : preLoop p.raises p.pres = none)
    (hb : p.body = .exc e) (hr : p.bodyReport = none) :
    analyze p = match meaning p.raises e with
      | .ignored => some {}
      | .expected => some { status := some .confirmed }
      | .unknown => some { status := some .unknown }
      | .failure => some { status := some .refuted, messages := [.execErr] }
      | .crash => none := by
  unfold analyze attempt bodyPart
  simp only [hs, hp, hb]
  unfold filter meaning
  by_cases h1 : .postconditionFailed ∈ e.classes ∨ .ignoreAttempt ∈ e.classes
  · have : e.isA [.postconditionFailed, .ignoreAttempt] = true := by
      rw [isA_iff]
      rcases h1 with h | h
      · exact ⟨_, h, by simp⟩
      · exact ⟨_, h, by simp⟩
    simp only [this, if_true, if_pos h1, settle]
  · have n1 : e.isA [.postconditionFailed, .ignoreAttempt] = false := by
      rw [← Bool.not_eq_true, isA_iff]
      rintro ⟨c, hc, h⟩
      simp only [List.mem_cons, List.not_mem_nil, or_false] at h
      rcases h with rfl | rfl
      · exact h1 (Or.inl hc)
      · exact h1 (Or.inr hc)
    simp only [n1, Bool.false_eq_true, if_false, if_neg h1]
    by_cases h2 : ∃ c ∈ e.classes, c ∈ p.raises
    · simp only [(isA_iff e p.raises).mpr h2, if_true, if_pos h2, settle]
    · have n2 : e.isA p.raises = false := by rw [← Bool.not_eq_true, isA_iff]; exact h2
      simp only [n2, Bool.false_eq_true, if_false, if_neg h2]
      cases h3 : suspected e with
      | true =>
        simp only [or_true, if_true]
        decide
      | false =>
        simp only [Bool.false_eq_true, or_false, if_false]
        by_cases h4 : .unexploredPath ∈ e.classes
        · have hc := hpy.control .unexploredPath (by simp) h4
          have np : .preconditionFailed ∉ e.classes := fun h => absurd (hc.2 .preconditionFailed (by simp) h) (by decide)
          have n4 : e.isA [.exception, .preconditionFailed] = false := by
            rw [← Bool.not_eq_true, isA_iff]
            rintro ⟨c, hc', h⟩
            simp only [List.mem_cons, List.not_mem_nil, or_false] at h
            rcases h with rfl | rfl
            · exact hc.1 hc'
            · exact np hc'
          have nd : e.isA [.notDeterministic] = false := by
            rw [← Bool.not_eq_true, isA_iff]
            rintro ⟨c, hc', h⟩
            simp only [List.mem_singleton] at h
            subst h
            exact hc.1 (hpy.notDeterministic hc')
          have hu : e.isA [.unexploredPath] = true := by rw [isA_iff]; exact ⟨_, h4, by simp⟩
          simp only [n4, Bool.false_eq_true, if_false, if_pos h4, settle, nd, hu, if_true]
        · have nu : e.isA [.unexploredPath] = false := by
            rw [← Bool.not_eq_true, isA_iff]
            rintro ⟨c, hc', h⟩
            simp only [List.mem_singleton] at h
            subst h
            exact h4 hc'
          have ni : e.isA [.ignoreAttempt] = false := by
            rw [← Bool.not_eq_true, isA_iff]
            rintro ⟨c, hc', h⟩
            simp only [List.mem_singleton] at h
            subst h
            exact h1 (Or.inr hc')
          simp only [if_neg h4]
          by_cases h5 : .notDeterministic ∈ e.classes
          · have hx := hpy.notDeterministic h5
            have a1 : e.isA [.exception, .preconditionFailed] = true := by rw [isA_iff]; exact ⟨_, hx, by simp⟩
            have a2 : e.isA [.z3Exception, .notDeterministic] = true := by rw [isA_iff]; exact ⟨_, h5, by simp⟩
            have a3 : e.isA [.notDeterministic] = true := by rw [isA_iff]; exact ⟨_, h5, by simp⟩
            simp only [a1, a2, a3, if_true, settle, h5, not_true_eq_false, and_false, if_false, hx, true_or]
          · have nd : e.isA [.notDeterministic] = false := by
              rw [← Bool.not_eq_true, isA_iff]
              rintro ⟨c, hc', h⟩
              simp only [List.mem_singleton] at h
              subst h
              exact h5 hc'
            by_cases h6 : .z3Exception ∈ e.classes
            · have a2 : e.isA [.z3Exception, .notDeterministic] = true := by rw [isA_iff]; exact ⟨_, h6, by simp⟩
              simp only [a2, if_true, h5, h6, not_false_eq_true, and_self, if_true, ite_self, settle, nd, nu, ni,
                Bool.false_eq_true, if_false]
            · have n6 : e.isA [.z3Exception, .notDeterministic] = false := by
                rw [← Bool.not_eq_true, isA_iff]
                rintro ⟨c, hc', h⟩
                simp only [List.mem_cons, List.not_mem_nil, or_false] at h
                rcases h with rfl | rfl
                · exact h6 hc'
                · exact h5 hc'
              simp only [n6, h6, false_and, Bool.false_eq_true, if_false]
              by_cases h7 : .exception ∈ e.classes ∨ .preconditionFailed ∈ e.classes
              · have a1 : e.isA [.exception, .preconditionFailed] = true := by
                  rw [isA_iff]
                  rcases h7 with h | h
                  · exact ⟨_, h, by simp⟩
                  · exact ⟨_, h, by simp⟩
                simp only [a1, if_true, if_pos h7, hr, report, settle]
              · have n7 : e.isA [.exception, .preconditionFailed] = false := by
                  rw [← Bool.not_eq_true, isA_iff]
                  rintro ⟨c, hc', h⟩
                  simp only [List.mem_cons, List.not_mem_nil, or_false] at h
                  rcases h with rfl | rfl
                  · exact h7 (Or.inl hc')
                  · exact h7 (Or.inr hc')
                simp only [n7, Bool.false_eq_true, if_false, if_neg h7, settle, nd, nu, ni]

/-! ### What the filter makes of an exception -/

theorem filter_confirmed (raises : List Cls) (e : Exc) (a : Analysis) (h : filter raises e = .ignore a) :
    (a = { status := some .confirmed } ∧ meaning raises e = .expected) ∨ (a = {} ∧ meaning raises e = .ignored) := by
  unfold filter at h
  unfold meaning
  by_cases h1 : .postconditionFailed ∈ e.classes ∨ .ignoreAttempt ∈ e.classes
  · have : e.isA [.postconditionFailed, .ignoreAttempt] = true := by
      rw [isA_iff]
      rcases h1 with h | h
      · exact ⟨_, h, by simp⟩
      · exact ⟨_, h, by simp⟩
    simp only [this, if_true, Filtered.ignore.injEq] at h
    exact Or.inr ⟨h.symm, if_pos h1⟩
  · have n1 : e.isA [.postconditionFailed, .ignoreAttempt] = false := by
      rw [← Bool.not_eq_true, isA_iff]
      rintro ⟨c, hc, h⟩
      simp only [List.mem_cons, List.not_mem_nil, or_false] at h
      rcases h with rfl | rfl
      · exact h1 (Or.inl hc)
      · exact h1 (Or.inr hc)
    simp only [n1, Bool.false_eq_true, if_false] at h
    by_cases h2 : ∃ c ∈ e.classes, c ∈ raises
    · simp only [(isA_iff e raises).mpr h2, if_true, Filtered.ignore.injEq] at h
      exact Or.inl ⟨h.symm, by rw [if_neg h1, if_pos h2]⟩
    · have n2 : e.isA raises = false := by rw [← Bool.not_eq_true, isA_iff]; exact h2
      simp only [n2, Bool.false_eq_true, if_false] at h
      split at h
      · exact absurd h (by simp)
      · split at h
        · split at h <;> exact absurd h (by simp)
        · exact absurd h (by simp)

theorem filter_expected (raises : List Cls) (e : Exc) (h : meaning raises e = .expected) :
    filter raises e = .ignore { status := some .confirmed } := by
  unfold meaning at h
  unfold filter
  by_cases h1 : .postconditionFailed ∈ e.classes ∨ .ignoreAttempt ∈ e.classes
  · rw [if_pos h1] at h; exact absurd h (by simp)
  · have n1 : e.isA [.postconditionFailed, .ignoreAttempt] = false := by
      rw [← Bool.not_eq_true, isA_iff]
      rintro ⟨c, hc, h⟩
      simp only [List.mem_cons, List.not_mem_nil, or_false] at h
      rcases h with rfl | rfl
      · exact h1 (Or.inl hc)
      · exact h1 (Or.inr hc)
    rw [if_neg h1] at h
    by_cases h2 : ∃ c ∈ e.classes, c ∈ raises
    · simp only [n1, Bool.false_eq_true, if_false, (isA_iff e raises).mpr h2, if_true]
    · rw [if_neg h2] at h
      exfalso
      revert h
      repeat' split
      all_goals simp

theorem filter_user (raises : List Cls) (e e' : Exc) :
    filter raises e = .user e' → e' = e ∧ meaning raises e = .failure ∨ .unexploredPath ∈ e.classes := by
  intro h
  unfold filter at h
  split at h
  · exact absurd h (by simp)
  · rename_i h1
    split at h
    · exact absurd h (by simp)
    · rename_i h2
      split at h
      · exact absurd h (by simp)
      · rename_i h3
        split at h
        · rename_i h4
          split at h
          · exact absurd h (by simp)
          · rename_i h5
            simp only [Filtered.user.injEq] at h
            subst h
            by_cases hu : .unexploredPath ∈ e.classes
            · exact Or.inr hu
            · refine Or.inl ⟨rfl, ?_⟩
              rw [isA_iff] at h1 h2 h4 h5
              unfold meaning
              have n1 : ¬ (.postconditionFailed ∈ e.classes ∨ .ignoreAttempt ∈ e.classes) := by
                rintro (h | h)
                · exact h1 ⟨_, h, by simp⟩
                · exact h1 ⟨_, h, by simp⟩
              have n3 : ¬ (.unexploredPath ∈ e.classes ∨ suspected e = true) := by
                rintro (h | h)
                · exact hu h
                · exact h3 h
              have n5 : ¬ (.z3Exception ∈ e.classes ∧ .notDeterministic ∉ e.classes) := fun h =>
                h5 ⟨_, h.1, by simp⟩
              have a4 : .exception ∈ e.classes ∨ .preconditionFailed ∈ e.classes := by
                obtain ⟨c, hc, h⟩ := h4
                simp only [List.mem_cons, List.not_mem_nil, or_false] at h
                rcases h with rfl | rfl
                · exact Or.inl hc
                · exact Or.inr hc
              rw [if_neg n1, if_neg h2, if_neg n3, if_neg n5, if_pos a4]
        · exact absurd h (by simp)

theorem filter_failure (raises : List Cls) (e : Exc) (h : meaning raises e = .failure)
    (hd : .notDeterministic ∉ e.classes) : filter raises e = .user e := by
  unfold meaning at h
  split at h
  · exact absurd h (by simp)
  · rename_i h1
    split at h
    · exact absurd h (by simp)
    · rename_i h2
      split at h
      · exact absurd h (by simp)
      · rename_i h3
        split at h
        · exact absurd h (by simp)
        · rename_i h4
          split at h
          · rename_i h5
            have n1 : e.isA [.postconditionFailed, .ignoreAttempt] = false := by
              rw [← Bool.not_eq_true, isA_iff]
              rintro ⟨c, hc, h⟩
              simp only [List.mem_cons, List.not_mem_nil, or_false] at h
              rcases h with rfl | rfl
              · exact h1 (Or.inl hc)
              · exact h1 (Or.inr hc)
            have n2 : e.isA raises = false := by rw [← Bool.not_eq_true, isA_iff]; exact h2
            have n3 : suspected e = false := by
              rw [← Bool.not_eq_true]; exact fun h => h3 (Or.inr h)
            have a1 : e.isA [.exception, .preconditionFailed] = true := by
              rw [isA_iff]
              rcases h5 with h | h
              · exact ⟨_, h, by simp⟩
              · exact ⟨_, h, by simp⟩
            have n6 : e.isA [.z3Exception, .notDeterministic] = false := by
              rw [← Bool.not_eq_true, isA_iff]
              rintro ⟨c, hc', h⟩
              simp only [List.mem_cons, List.not_mem_nil, or_false] at h
              rcases h with rfl | rfl
              · exact h4 ⟨hc', hd⟩
              · exact hd hc'
            unfold filter
            simp only [n1, n2, n3, a1, n6, Bool.false_eq_true, if_false, if_true]
          · exact absurd h (by simp)

/-! ### The loops -/

theorem met_cons (q : Nat × Option (Eval Bool)) (ps : List (Nat × Option (Eval Bool))) :
    Met (q :: ps) ↔ (q.2 = none ∨ q.2 = some (.val true)) ∧ Met ps := by
  simp only [Met, List.forall_mem_cons]

theorem preLoop_none (raises : List Cls) (ps : List (Nat × Option (Eval Bool))) :
    preLoop raises ps = none ↔ Met ps := by
  induction ps with
  | nil => simp [preLoop, Met]
  | cons q ps ih =>
    rw [met_cons]
    obtain ⟨line, o⟩ := q
    match o with
    | none => simp [preLoop, ih]
    | some (.val true) => simp [preLoop, ih]
    | some (.val false) => simp [preLoop]
    | some (.exc e) =>
      simp only [preLoop, reduceCtorEq, Option.some.injEq, or_self, false_and, iff_false]
      cases filter raises e <;> simp

/-- What an unmet precondition leads to. -/
def preResult (raises : List Cls) (line : Nat) (o : Eval Bool) : Result :=
  match o with
  | .val _ => .done { failPre := some (line, none) }
  | .exc e => match filter raises e with
    | .ignore a => .done a
    | .user e => .done { failPre := some (line, some e) }
    | .reraise e => .raised e

theorem preLoop_some (raises : List Cls) (ps : List (Nat × Option (Eval Bool))) (r : Result)
    (h : preLoop raises ps = some r) :
    ∃ line o, FirstUnmet ps line o ∧ r = preResult raises line o := by
  induction ps with
  | nil => simp [preLoop] at h
  | cons q ps ih =>
    obtain ⟨line, o⟩ := q
    have next : preLoop raises ps = some r → (o = none ∨ o = some (.val true)) → ∃ line' o', FirstUnmet ((line, o) :: ps) line' o' ∧
        r = preResult raises line' o' := by
      intro h ho
      obtain ⟨l', o', ⟨b, a, rfl, hm, hne⟩, hr⟩ := ih h
      exact ⟨l', o', ⟨(line, o) :: b, a, rfl, (met_cons _ _).mpr ⟨ho, hm⟩, hne⟩, hr⟩
    match o, h with
    | none, h => exact next (by simpa [preLoop] using h) (Or.inl rfl)
    | some (.val true), h => exact next (by simpa [preLoop] using h) (Or.inr rfl)
    | some (.val false), h =>
      simp only [preLoop, Bool.false_eq_true, if_false, Option.some.injEq] at h
      exact ⟨line, .val false, ⟨[], ps, rfl, by simp [Met], by simp⟩, h.symm⟩
    | some (.exc e), h =>
      refine ⟨line, .exc e, ⟨[], ps, rfl, by simp [Met], by simp⟩, ?_⟩
      simp only [preLoop] at h
      cases hf : filter raises e with
      | ignore a => rw [hf] at h; simp only [Option.some.injEq] at h; simp only [preResult, hf]; exact h.symm
      | user e => rw [hf] at h; simp only [Option.some.injEq] at h; simp only [preResult, hf]; exact h.symm
      | reraise e => rw [hf] at h; simp only [Option.some.injEq] at h; simp only [preResult, hf]; exact h.symm

theorem preLoop_first (raises : List Cls) (ps : List (Nat × Option (Eval Bool))) (line : Nat) (o : Eval Bool)
    (h : FirstUnmet ps line o) : preLoop raises ps = some (preResult raises line o) := by
  obtain ⟨b, a, rfl, hm, hne⟩ := h
  induction b with
  | nil =>
    match o, hne with
    | .val true, hne => exact absurd rfl hne
    | .val false, _ => rfl
    | .exc e, _ =>
      simp only [List.nil_append, preLoop, preResult]
      cases filter raises e <;> rfl
  | cons q b ih =>
    obtain ⟨hq, hm'⟩ := (met_cons _ _).mp hm
    obtain ⟨l', o'⟩ := q
    simp only at hq
    rcases hq with rfl | rfl
    · simp only [List.cons_append, preLoop]; exact ih hm'
    · simp only [List.cons_append, preLoop, if_true]; exact ih hm'

theorem argLoop_none (rep : Option Exc) (as : List (Bool × Eval Bool)) : argLoop rep as = none ↔ Unchanged as := by
  induction as with
  | nil => simp [argLoop, Unchanged]
  | cons a as ih =>
    have e : Unchanged (a :: as) ↔ (a.1 = true ∨ a.2 = .val false) ∧ Unchanged as := by
      simp only [Unchanged, List.forall_mem_cons]
    rw [e]
    obtain ⟨m, cmp⟩ := a
    match m, cmp with
    | true, _ => simp [argLoop, ih]
    | false, .val false => simp [argLoop, ih]
    | false, .val true => simp [argLoop]
    | false, .exc _ => simp [argLoop]

theorem argLoop_some (rep : Option Exc) (as : List (Bool × Eval Bool)) (r : Result) (h : argLoop rep as = some r) :
    (Changed as ∧ r = report rep .postErr) ∨ ∃ e, r = .raised e := by
  induction as with
  | nil => simp [argLoop] at h
  | cons a as ih =>
    obtain ⟨m, cmp⟩ := a
    have next : argLoop rep as = some r → (m = true ∨ cmp = .val false) →
        (Changed ((m, cmp) :: as) ∧ r = report rep .postErr) ∨ ∃ e, r = .raised e := by
      intro h hm
      rcases ih h with ⟨⟨b, c, rfl, hu⟩, hr⟩ | h
      · refine Or.inl ⟨⟨(m, cmp) :: b, c, rfl, ?_⟩, hr⟩
        simp only [Unchanged, List.forall_mem_cons]
        exact ⟨hm, hu⟩
      · exact Or.inr h
    match m, cmp, h with
    | true, _, h => exact next (by simpa [argLoop] using h) (Or.inl rfl)
    | false, .val false, h => exact next (by simpa [argLoop] using h) (Or.inr rfl)
    | false, .val true, h =>
      simp only [argLoop, Bool.false_eq_true, if_false, Option.some.injEq] at h
      exact Or.inl ⟨⟨[], as, rfl, by simp [Unchanged]⟩, h.symm⟩
    | false, .exc e, h =>
      simp only [argLoop, Bool.false_eq_true, if_false, Option.some.injEq] at h
      exact Or.inr ⟨e, h.symm⟩

theorem argLoop_changed (rep : Option Exc) (as : List (Bool × Eval Bool)) (h : Changed as) :
    argLoop rep as = some (report rep .postErr) := by
  obtain ⟨b, c, rfl, hu⟩ := h
  induction b with
  | nil => rfl
  | cons a b ih =>
    simp only [Unchanged, List.forall_mem_cons] at hu
    obtain ⟨ha, hu⟩ := hu
    obtain ⟨m, cmp⟩ := a
    cases m with
    | true => simp only [List.cons_append, argLoop, if_true]; exact ih hu
    | false =>
      simp only [Bool.false_eq_true, false_or] at ha
      subst ha
      simp only [List.cons_append, argLoop, Bool.false_eq_true, if_false]
      exact ih hu

/-! ### Verdicts of a path -/

theorem settle_confirmed (r : Result) (a : Analysis) (h : settle r = some a) (hs : a.status = some .confirmed) :
    r = .done a := by
  cases r with
  | done b => simp only [settle, Option.some.injEq] at h; rw [h]
  | raised e =>
    simp only [settle] at h
    exfalso
    split at h
    · simp only [Option.some.injEq] at h; subst h; exact absurd hs (by simp)
    · split at h
      · simp only [Option.some.injEq] at h; subst h; exact absurd hs (by simp)
      · split at h
        · simp only [Option.some.injEq] at h; subst h; exact absurd hs (by simp)
        · exact absurd h (by simp)

theorem report_not_confirmed (r : Option Exc) (m : Msg) (a : Analysis) (h : report r m = .done a) :
    a.status ≠ some .confirmed ∧ a.messages = [m] := by
  unfold report at h
  cases r with
  | some e => exact absurd h (by simp)
  | none =>
    simp only [Result.done.injEq] at h
    subst h
    exact ⟨by simp, rfl⟩

/-- **C41.** When a path counts as confirmed: the postcondition is true after a call that changed no
argument it must not change; or the function raised an exception that its contract allows; or, as the
code has it, a precondition or the postcondition raised such an exception. -/
theorem confirmed_iff (p : Path) :
    (∃ a, analyze p = some a ∧ a.status = some .confirmed) ↔
      p.setup = none ∧
      ((∃ line e, FirstUnmet p.pres line (.exc e) ∧ Allowed p e) ∨
       (Met p.pres ∧
        ((∃ e, p.body = .exc e ∧ Allowed p e) ∨
         (p.body = .val () ∧ Unchanged p.args ∧ (p.post = .val true ∨ ∃ e, p.post = .exc e ∧ Allowed p e))))) := by
  constructor
  · rintro ⟨a, ha, hs⟩
    have h := settle_confirmed _ _ ha hs
    unfold attempt at h
    cases h0 : p.setup with
    | some e => rw [h0] at h; exact absurd h (by simp)
    | none =>
      refine ⟨rfl, ?_⟩
      rw [h0] at h
      simp only at h
      cases hp : preLoop p.raises p.pres with
      | some r =>
        rw [hp] at h
        simp only at h
        obtain ⟨line, o, hf, hr⟩ := preLoop_some _ _ _ hp
        subst h
        cases o with
        | val b => simp only [preResult, Result.done.injEq] at hr; subst hr; exact absurd hs (by simp)
        | exc e =>
          refine Or.inl ⟨line, e, hf, ?_⟩
          cases hfe : filter p.raises e with
          | reraise e' => simp only [preResult, hfe] at hr; exact absurd hr (by simp)
          | user e' => simp only [preResult, hfe, Result.done.injEq] at hr; subst hr; exact absurd hs (by simp)
          | ignore b =>
            simp only [preResult, hfe, Result.done.injEq] at hr
            subst hr
            rcases filter_confirmed _ _ _ hfe with ⟨_, hm⟩ | ⟨rfl, _⟩
            · exact hm
            · exact absurd hs (by simp)
      | none =>
        rw [hp] at h
        simp only at h
        refine Or.inr ⟨(preLoop_none _ _).mp hp, ?_⟩
        unfold bodyPart at h
        cases hb : p.body with
        | exc e =>
          rw [hb] at h
          simp only at h
          refine Or.inl ⟨e, rfl, ?_⟩
          cases hfe : filter p.raises e with
          | reraise e' => rw [hfe] at h; exact absurd h (by simp)
          | user e' => rw [hfe] at h; exact absurd hs (report_not_confirmed _ _ _ h).1
          | ignore b =>
            rw [hfe] at h
            simp only [Result.done.injEq] at h
            subst h
            rcases filter_confirmed _ _ _ hfe with ⟨_, hm⟩ | ⟨rfl, _⟩
            · exact hm
            · exact absurd hs (by simp)
        | val u =>
          rw [hb] at h
          simp only at h
          refine Or.inr ⟨rfl, ?_⟩
          cases hag : argLoop p.argReport p.args with
          | some r =>
            rw [hag] at h
            simp only at h
            subst h
            rcases argLoop_some _ _ _ hag with ⟨_, hr⟩ | ⟨e, hr⟩
            · exact absurd hs (report_not_confirmed _ _ _ hr.symm).1
            · exact absurd hr (by simp)
          | none =>
            rw [hag] at h
            simp only at h
            refine ⟨(argLoop_none _ _).mp hag, ?_⟩
            unfold postPart at h
            match hpo : p.post with
            | .val true => exact Or.inl rfl
            | .val false => rw [hpo] at h; exact absurd hs (report_not_confirmed _ _ _ h).1
            | .exc e =>
              rw [hpo] at h
              simp only at h
              refine Or.inr ⟨e, rfl, ?_⟩
              cases hfe : filter p.raises e with
              | reraise e' => rw [hfe] at h; exact absurd h (by simp)
              | user e' => rw [hfe] at h; exact absurd hs (report_not_confirmed _ _ _ h).1
              | ignore b =>
                rw [hfe] at h
                simp only [Result.done.injEq] at h
                subst h
                rcases filter_confirmed _ _ _ hfe with ⟨_, hm⟩ | ⟨rfl, _⟩
                · exact hm
                · exact absurd hs (by simp)
  · rintro ⟨h0, ⟨line, e, hf, hal⟩ | ⟨hm, h⟩⟩
    · refine ⟨{ status := some .confirmed }, ?_, rfl⟩
      unfold analyze attempt
      simp only [h0, preLoop_first _ _ _ _ hf, preResult, filter_expected _ _ hal, settle]
    · refine ⟨{ status := some .confirmed }, ?_, rfl⟩
      unfold analyze attempt bodyPart
      simp only [h0, (preLoop_none _ _).mpr hm]
      rcases h with ⟨e, hb, hal⟩ | ⟨hb, hu, hpo⟩
      · simp only [hb, filter_expected _ _ hal, settle]
      · simp only [hb, (argLoop_none _ _).mpr hu]
        unfold postPart
        rcases hpo with hpo | ⟨e, hpo, hal⟩
        · simp only [hpo, settle]
        · simp only [hpo, filter_expected _ _ hal, settle]

/-- **C41.** When a path counts as a counterexample, and with which message: the function raised an error
after its preconditions were met; or it returned and changed an argument it must not change; or the
postcondition raised an error; or the postcondition is false.  Otherwise it is the report that the
program is not deterministic. -/
theorem refuted_means (p : Path) (hpy : ∀ e, p.body = .exc e ∨ p.post = .exc e → e.Python) (a : Analysis)
    (h : analyze p = some a) (hs : a.status = some .refuted) :
    (∃ e, attempt p = .raised e ∧ .notDeterministic ∈ e.classes ∧ a.messages = [.execErr]) ∨
    (p.setup = none ∧ Met p.pres ∧
      ((∃ e, p.body = .exc e ∧ UserError p e ∧ a.messages = [.execErr]) ∨
       (p.body = .val () ∧
        ((Changed p.args ∧ a.messages = [.postErr]) ∨
         (Unchanged p.args ∧
          ((∃ e, p.post = .exc e ∧ UserError p e ∧ a.messages = [.postErr]) ∨
           (p.post = .val false ∧ a.messages = [.postFail]))))))) := by
  have userError : ∀ e e', e.Python → filter p.raises e = .user e' → UserError p e := by
    intro e e' hpy hf
    rcases filter_user _ _ _ hf with ⟨_, hm⟩ | hu
    · refine ⟨hm, ?_⟩
      intro hd
      unfold filter at hf
      have : e.isA [.z3Exception, .notDeterministic] = true := by rw [isA_iff]; exact ⟨_, hd, by simp⟩
      revert hf
      simp only [this, if_true]
      repeat' split
      all_goals simp
    · exfalso
      have hc := hpy.control .unexploredPath (by simp) hu
      have n4 : e.isA [.exception, .preconditionFailed] = false := by
        rw [← Bool.not_eq_true, isA_iff]
        rintro ⟨c, hc', h⟩
        simp only [List.mem_cons, List.not_mem_nil, or_false] at h
        rcases h with rfl | rfl
        · exact hc.1 hc'
        · exact absurd (hc.2 _ (by simp) hc') (by decide)
      unfold filter at hf
      revert hf
      simp only [n4, Bool.false_eq_true, if_false]
      repeat' split
      all_goals simp
  have notConf : ∀ e b, filter p.raises e = .ignore b → b.status ≠ some .refuted := by
    intro e b hf
    rcases filter_confirmed _ _ _ hf with ⟨rfl, _⟩ | ⟨rfl, _⟩ <;> simp
  unfold analyze at h
  cases hat : attempt p with
  | raised e =>
    rw [hat] at h
    simp only [settle] at h
    split at h
    · rename_i hd
      rw [isA_iff] at hd
      obtain ⟨c, hc, h1⟩ := hd
      simp only [List.mem_singleton] at h1
      subst h1
      simp only [Option.some.injEq] at h
      subst h
      exact Or.inl ⟨e, rfl, hc, rfl⟩
    · exfalso
      split at h
      · simp only [Option.some.injEq] at h; subst h; exact absurd hs (by simp)
      · split at h
        · simp only [Option.some.injEq] at h; subst h; exact absurd hs (by simp)
        · exact absurd h (by simp)
  | done b =>
    rw [hat] at h
    simp only [settle, Option.some.injEq] at h
    subst h
    right
    unfold attempt at hat
    cases h0 : p.setup with
    | some e => rw [h0] at hat; exact absurd hat (by simp)
    | none =>
      refine ⟨rfl, ?_⟩
      rw [h0] at hat
      simp only at hat
      cases hp : preLoop p.raises p.pres with
      | some r =>
        exfalso
        rw [hp] at hat
        simp only at hat
        obtain ⟨line, o, hf, hr⟩ := preLoop_some _ _ _ hp
        subst hat
        cases o with
        | val v => simp only [preResult, Result.done.injEq] at hr; subst hr; exact absurd hs (by simp)
        | exc e =>
          cases hfe : filter p.raises e with
          | reraise e' => simp only [preResult, hfe] at hr; exact absurd hr (by simp)
          | user e' => simp only [preResult, hfe, Result.done.injEq] at hr; subst hr; exact absurd hs (by simp)
          | ignore b => simp only [preResult, hfe, Result.done.injEq] at hr; subst hr; exact notConf _ _ hfe hs
      | none =>
        rw [hp] at hat
        simp only at hat
        refine ⟨(preLoop_none _ _).mp hp, ?_⟩
        unfold bodyPart at hat
        cases hb : p.body with
        | exc e =>
          rw [hb] at hat
          simp only at hat
          cases hfe : filter p.raises e with
          | reraise e' => rw [hfe] at hat; exact absurd hat (by simp)
          | user e' =>
            rw [hfe] at hat
            exact Or.inl ⟨e, rfl, userError _ _ (hpy e (Or.inl hb)) hfe, (report_not_confirmed _ _ _ hat).2⟩
          | ignore c =>
            rw [hfe] at hat
            simp only [Result.done.injEq] at hat
            subst hat
            exact absurd hs (notConf _ _ hfe)
        | val u =>
          rw [hb] at hat
          simp only at hat
          refine Or.inr ⟨rfl, ?_⟩
          cases hag : argLoop p.argReport p.args with
          | some r =>
            rw [hag] at hat
            simp only at hat
            subst hat
            rcases argLoop_some _ _ _ hag with ⟨hc, hr⟩ | ⟨e, hr⟩
            · exact Or.inl ⟨hc, (report_not_confirmed _ _ _ hr.symm).2⟩
            · exact absurd hr (by simp)
          | none =>
            rw [hag] at hat
            simp only at hat
            refine Or.inr ⟨(argLoop_none _ _).mp hag, ?_⟩
            unfold postPart at hat
            match hpo : p.post with
            | .val true =>
              rw [hpo] at hat
              simp only [Result.done.injEq] at hat
              subst hat
              exact absurd hs (by simp)
            | .val false => rw [hpo] at hat; exact Or.inr ⟨rfl, (report_not_confirmed _ _ _ hat).2⟩
            | .exc e =>
              rw [hpo] at hat
              simp only at hat
              cases hfe : filter p.raises e with
              | reraise e' => rw [hfe] at hat; exact absurd hat (by simp)
              | user e' =>
                rw [hfe] at hat
                exact Or.inl ⟨e, rfl, userError _ _ (hpy e (Or.inr hpo)) hfe, (report_not_confirmed _ _ _ hat).2⟩
              | ignore c =>
                rw [hfe] at hat
                simp only [Result.done.injEq] at hat
                subst hat
                exact absurd hs (notConf _ _ hfe)

/-- **C41.** Failures are reported, each with its message, unless reporting itself raises. -/
theorem failures_reported (p : Path) (h0 : p.setup = none) (hm : Met p.pres) :
    (∀ e, p.body = .exc e → UserError p e → p.bodyReport = none →
      analyze p = some { status := some .refuted, messages := [.execErr] }) ∧
    (p.body = .val () → Changed p.args → p.argReport = none →
      analyze p = some { status := some .refuted, messages := [.postErr] }) ∧
    (∀ e, p.body = .val () → Unchanged p.args → p.post = .exc e → UserError p e → p.postErrReport = none →
      analyze p = some { status := some .refuted, messages := [.postErr] }) ∧
    (p.body = .val () → Unchanged p.args → p.post = .val false → p.postFailReport = none →
      analyze p = some { status := some .refuted, messages := [.postFail] }) := by
  have start : analyze p = settle (bodyPart p) := by
    unfold analyze attempt
    simp only [h0, (preLoop_none _ _).mpr hm]
  refine ⟨?_, ?_, ?_, ?_⟩
  · intro e hb hu hr
    rw [start]
    unfold bodyPart
    simp only [hb, filter_failure _ _ hu.1 hu.2, hr, report, settle]
  · intro hb hc hr
    rw [start]
    unfold bodyPart
    simp only [hb, argLoop_changed _ _ hc, hr, report, settle]
  · intro e hb hc hp hu hr
    rw [start]
    unfold bodyPart
    simp only [hb, (argLoop_none _ _).mpr hc]
    unfold postPart
    simp only [hp, filter_failure _ _ hu.1 hu.2, hr, report, settle]
  · intro hb hc hp hr
    rw [start]
    unfold bodyPart
    simp only [hb, (argLoop_none _ _).mpr hc]
    unfold postPart
    simp only [hp, hr, report, settle]

/-- **C41.** A path whose preconditions are not met gives no verdict and no message, only the place. -/
theorem unmet_precondition (p : Path) (line : Nat) (o : Eval Bool) (h0 : p.setup = none)
    (h : FirstUnmet p.pres line o) :
    (o = .val false → analyze p = some { failPre := some (line, none) }) ∧
    (∀ e, o = .exc e → UserError p e → analyze p = some { failPre := some (line, some e) }) := by
  have start := preLoop_first p.raises p.pres line o h
  constructor
  · rintro rfl
    unfold analyze attempt
    simp only [h0, start, preResult, settle]
  · rintro e rfl hu
    unfold analyze attempt
    simp only [h0, start, preResult, filter_failure _ _ hu.1 hu.2, settle]

/-- **C41.** An exception that the contract allows never makes a failure, wherever it comes from. -/
theorem expected_never_failure (p : Path) (e : Exc) (hal : Allowed p e) (h0 : p.setup = none)
    (h : (∃ line, FirstUnmet p.pres line (.exc e)) ∨ (Met p.pres ∧ p.body = .exc e) ∨
      (Met p.pres ∧ p.body = .val () ∧ Unchanged p.args ∧ p.post = .exc e)) :
    analyze p = some { status := some .confirmed } := by
  unfold analyze attempt
  simp only [h0]
  rcases h with ⟨line, hf⟩ | ⟨hm, hb⟩ | ⟨hm, hb, hu, hp⟩
  · simp only [preLoop_first _ _ _ _ hf, preResult, filter_expected _ _ hal, settle]
  · simp only [(preLoop_none _ _).mpr hm]
    unfold bodyPart
    simp only [hb, filter_expected _ _ hal, settle]
  · simp only [(preLoop_none _ _).mpr hm]
    unfold bodyPart
    simp only [hb, (argLoop_none _ _).mpr hu]
    unfold postPart
    simp only [hp, filter_expected _ _ hal, settle]

/-! ### Concrete paths -/

/-- A `ValueError`. -/
def valueError : Exc := ⟨[.other 0, .exception], "bad".toList⟩

/-- A quiet path: one precondition, met, and a true postcondition. -/
def quiet : Path where
  raises := [.other 0]
  setup := none
  pres := [(3, some (.val true)), (4, none)]
  body := .val ()
  bodyReport := none
  args := [(true, .val true), (false, .val false)]
  argReport := none
  post := .val true
  postErrReport := none
  postFailReport := none

example : analyze quiet = some { status := some .confirmed } := by decide +kernel
example : analyze { quiet with body := .exc valueError } = some { status := some .confirmed } := by decide +kernel
example : analyze { quiet with body := .exc valueError, raises := [] }
    = some { status := some .refuted, messages := [.execErr] } := by decide +kernel
example : analyze { quiet with args := [(false, .val true)] } = some { status := some .refuted, messages := [.postErr] } := by
  decide +kernel
example : analyze { quiet with pres := [(3, some (.val false))] } = some { failPre := some (3, none) } := by decide +kernel
example : analyze { quiet with body := .exc ⟨[.typeError, .exception], "unsupported operand SymbolicInt".toList⟩ }
    = some { status := some .unknown } := by decide +kernel
example : valueError.Python := ⟨by decide, by decide, by decide⟩
example : UserError { quiet with raises := [] } valueError := ⟨by decide +kernel, by decide⟩
example : Allowed quiet valueError := by unfold Allowed; decide +kernel

/-- The exceptions a contract allows for the function are allowed for its postcondition as well: a
postcondition that raises one counts as confirmed, although it was not true. -/
theorem raising_postcondition_confirms :
    analyze { quiet with post := .exc valueError } = some { status := some .confirmed } := by decide +kernel

/-- ... and for its preconditions: arguments on which a precondition raises count as a confirmed path. -/
theorem raising_precondition_confirms :
    analyze { quiet with pres := [(3, some (.exc valueError))] } = some { status := some .confirmed } := by decide +kernel

/-- With `raises: Exception` even CrossHair's own report of nondeterminism counts as confirmed. -/
theorem allowed_exception_hides_nondeterminism :
    analyze { quiet with raises := [.exception], body := .exc ⟨[.notDeterministic, .exception], []⟩ }
      = some { status := some .confirmed } ∧
    analyze { quiet with body := .exc ⟨[.notDeterministic, .exception], []⟩ }
      = some { status := some .refuted, messages := [.execErr] } := by decide +kernel

/-- An exception while an argument is compared with its original ends the whole analysis. -/
theorem comparison_exception_escapes :
    analyze { quiet with args := [(false, .exc valueError)] } = none ∧ attempt { quiet with args := [(false, .exc valueError)] }
      = .raised valueError := by decide +kernel

end Verif.Attempt
