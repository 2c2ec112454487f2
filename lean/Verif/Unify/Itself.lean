import Verif.Unify.Lemmas

/-! A type is accepted for itself. -/
namespace Verif.Unify

variable {H : Hier}

theorem unify_plain (n : Nat) {v r : Ty} (b : Bindings) (hv : v.all Ty.notVar = true ∧ v.all Ty.notUnion = true ∧ v.all Ty.notTuple = true)
    (hr : r.all Ty.notVar = true ∧ r.all Ty.notUnion = true ∧ r.all Ty.notTuple = true) (hva : v.isAny = false) (hra : r.isAny = false) :
    unify H (n + 4) v r b = classes H n (origin H v) v r b := by
  rw [unify, get_closed hv.1, get_closed hr.1, hva, hra]
  obtain ⟨hv1, hv2, hv3⟩ := hv
  obtain ⟨hr1, hr2, hr3⟩ := hr
  have h1 := all_self hv1
  have h2 := all_self hv2
  have h3 := all_self hv3
  have h4 := all_self hr1
  have h5 := all_self hr2
  have h6 := all_self hr3
  cases v <;> simp only [Ty.notVar, Ty.notUnion, Ty.notTuple, Ty.isAny, Bool.false_eq_true, Bool.true_eq_false, reduceCtorEq] at h1 h2 h3 hva <;>
    cases r <;> simp only [Ty.notVar, Ty.notUnion, Ty.notTuple, Ty.isAny, Bool.false_eq_true, Bool.true_eq_false, reduceCtorEq] at h4 h5 h6 hra <;>
    rfl

mutual
theorem itself (hH : H.Ok) : ∀ (t : Ty), t.all (Ty.proper H) = true → t.all Ty.notVar = true → t.all Ty.notUnion = true →
    t.all Ty.notTuple = true → ∃ N, ∀ n, N ≤ n → ∀ b, unify H n t t b = .ok true b
  | .any, _, _, _, _ => ⟨1, fun n hn b => by
      obtain ⟨n, rfl⟩ : ∃ m, n = m + 1 := ⟨n - 1, by omega⟩
      rw [unify]; simp [get, Ty.isAny]⟩
  | .var x, _, h, _, _ => by simp [Ty.all, Ty.notVar] at h
  | .tuple _, _, _, _, h => by simp [Ty.all, Ty.notTuple] at h
  | .tupleVar _, _, _, _, h => by simp [Ty.all, Ty.notTuple] at h
  | .tupleRaw, _, _, _, h => by simp [Ty.all, Ty.notTuple] at h
  | .union _, _, _, h, _ => by simp [Ty.all, Ty.notUnion] at h
  | .cls c args, hp, h1, h2, h3 => by
    have hpl : ∀ n b, unify H (n + 4) (.cls c args) (.cls c args) b = classes H n c (.cls c args) (.cls c args) b :=
      fun n b => unify_plain n b ⟨h1, h2, h3⟩ ⟨h1, h2, h3⟩ rfl rfl
    rw [Ty.all, Bool.and_eq_true] at hp h1 h2 h3
    obtain ⟨N, ih⟩ := itselfAll hH args hp.2 h1.2 h2.2 h3.2
    refine ⟨N + 8, fun n hn b => ?_⟩
    obtain ⟨n, rfl⟩ : ∃ m, n = m + 7 := ⟨n - 7, by omega⟩
    rw [hpl (n + 3) b, classes]
    simp only [origin, hH.refl, if_true]
    by_cases hc : H.sub c H.callableC = true
    · simp only [hc, if_true]
      have ha : args = [] := by
        have := hp.1
        simp only [Ty.proper, hc] at this
        cases args with
        | nil => rfl
        | cons => simp at this
      subst ha
      simp only [callArgs]
      rw [unify]
      simp [get, Ty.isAny]
    · simp only [hc, Bool.false_eq_true, if_false, pairing]
      rw [arguments]
      simp only [ne_eq, not_true, if_false]
      exact ih (n + 1) (by omega) b
  | .callable (some args) r, hp, h1, h2, h3 => by
    have hpl : ∀ n b, unify H (n + 4) (.callable (some args) r) (.callable (some args) r) b =
        classes H n H.callableC (.callable (some args) r) (.callable (some args) r) b :=
      fun n b => unify_plain n b ⟨h1, h2, h3⟩ ⟨h1, h2, h3⟩ rfl rfl
    rw [Ty.all, Bool.and_eq_true, Bool.and_eq_true] at hp h1 h2 h3
    obtain ⟨N, ih⟩ := itselfAll hH args hp.2.1 h1.2.1 h2.2.1 h3.2.1
    obtain ⟨N', ih'⟩ := itself hH r hp.2.2 h1.2.2 h2.2.2 h3.2.2
    refine ⟨N + N' + 8, fun n hn b => ?_⟩
    obtain ⟨n, rfl⟩ : ∃ m, n = m + 5 := ⟨n - 5, by omega⟩
    rw [hpl (n + 1) b, classes]
    simp only [origin, hH.refl, if_true, callArgs]
    rw [ih' n (by omega) b]
    simp only [ne_eq, not_true, if_false]
    exact ih n (by omega) b
  | .callable none r, hp, h1, h2, h3 => by
    have hpl : ∀ n b, unify H (n + 4) (.callable none r) (.callable none r) b =
        classes H n H.callableC (.callable none r) (.callable none r) b :=
      fun n b => unify_plain n b ⟨h1, h2, h3⟩ ⟨h1, h2, h3⟩ rfl rfl
    rw [Ty.all, Bool.and_eq_true] at hp h1 h2 h3
    obtain ⟨N', ih'⟩ := itself hH r hp.2 h1.2 h2.2 h3.2
    refine ⟨N' + 8, fun n hn b => ?_⟩
    obtain ⟨n, rfl⟩ : ∃ m, n = m + 5 := ⟨n - 5, by omega⟩
    rw [hpl (n + 1) b, classes]
    simp only [origin, hH.refl, if_true, callArgs]
    rw [ih' n (by omega) b]
theorem itselfAll (hH : H.Ok) : ∀ (ts : List Ty), allAll (Ty.proper H) ts = true → allAll Ty.notVar ts = true → allAll Ty.notUnion ts = true →
    allAll Ty.notTuple ts = true → ∃ N, ∀ n, N ≤ n → ∀ b, unifyAll H n ts ts b = .ok true b
  | [], _, _, _, _ => ⟨1, fun n hn b => by
      obtain ⟨n, rfl⟩ : ∃ m, n = m + 1 := ⟨n - 1, by omega⟩
      rw [unifyAll]; simp⟩
  | t :: ts, hp, h1, h2, h3 => by
    rw [allAll, Bool.and_eq_true] at hp h1 h2 h3
    obtain ⟨N, ih⟩ := itself hH t hp.1 h1.1 h2.1 h3.1
    obtain ⟨N', ih'⟩ := itselfAll hH ts hp.2 h1.2 h2.2 h3.2
    refine ⟨N + N' + 1, fun n hn b => ?_⟩
    obtain ⟨n, rfl⟩ : ∃ m, n = m + 1 := ⟨n - 1, by omega⟩
    rw [unifyAll, ih n (by omega) b]
    exact ih' n (by omega) b
end

end Verif.Unify
