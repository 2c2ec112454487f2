import Verif.Clock.Spec
import Mathlib.Tactic.Linarith

/-! Helper lemmas about the clocks. -/
namespace Verif.Clock

theorem run_append : ∀ (as bs : List Call) (e : Earliest),
    run e (as ++ bs) = (run e as).bind fun e' => run e' bs
  | [], _, _ => rfl
  | a :: as, bs, e => by
    simp only [List.cons_append, run]
    cases step e a with
    | none => rfl
    | some e' => exact run_append as bs e'

theorem get_set_same (e : Earliest) (k : Kind) (v : Rat) : (e.set k v).get k = v := by cases k <;> rfl

theorem get_set_ne (e : Earliest) {k k' : Kind} (h : k' ≠ k) (v : Rat) : (e.set k' v).get k = e.get k := by
  cases k <;> cases k' <;> simp_all [Earliest.set, Earliest.get]

theorem secs_eq (e : Earliest) (k : Kind) (v : Rat) :
    step e (.secs k v) = if e.get k ≤ v ∧ v < huge then some (e.set k v) else none := by
  unfold step gteLast
  by_cases h1 : e.get k ≤ v <;> by_cases h2 : v < huge <;> simp [h1, h2]

theorem nanos_eq (e : Earliest) (k : Kind) (n : Int) :
    step e (.nanos k n) = step e (.secs k ((n : Rat) / 1000000000)) := rfl

theorem step_get {e e' : Earliest} {c : Call} (h : step e c = some e') (k : Kind) :
    match c.reading k with
    | some v => e.get k ≤ v ∧ v < huge ∧ e'.get k = v
    | none => e'.get k = e.get k + slept k [c] := by
  cases c with
  | secs k' v =>
    rw [secs_eq] at h
    split at h
    · rename_i hb
      cases h
      by_cases hk : k' = k
      · subst hk
        simp [Call.reading, hb, get_set_same]
      · simp [Call.reading, hk, get_set_ne e hk, slept]
    · cases h
  | nanos k' v =>
    rw [nanos_eq, secs_eq] at h
    split at h
    · rename_i hb
      cases h
      by_cases hk : k' = k
      · subst hk
        simp [Call.reading, hb, get_set_same]
      · simp [Call.reading, hk, get_set_ne e hk, slept]
    · cases h
  | time v =>
    simp only [step] at h
    split at h
    · cases h; simp [Call.reading, slept]
    · cases h
  | timeNs v =>
    simp only [step] at h
    split at h
    · cases h; simp [Call.reading, slept]
    · cases h
  | sleep d =>
    simp only [step] at h
    cases h
    cases k <;> simp [Call.reading, slept, Earliest.get]

theorem slept_cons (k : Kind) (c : Call) (cs : List Call) : slept k (c :: cs) = slept k [c] + slept k cs := by
  cases c <;> simp [slept]

theorem slept_reading {k : Kind} {c : Call} {v : Rat} (h : c.reading k = some v) : slept k [c] = 0 := by
  cases c <;> simp_all [Call.reading, slept]

theorem run_get : ∀ (cs : List Call) {e e' : Earliest}, run e cs = some e' → SleepsForward cs → ∀ k,
    e.get k + slept k cs ≤ e'.get k
  | [], e, e', h, _, k => by
    cases h
    simp [slept]
  | c :: cs, e, e', h, hf, k => by
    simp only [run] at h
    cases hs : step e c with
    | none => rw [hs] at h; cases h
    | some e1 =>
      rw [hs] at h
      have ih := run_get cs h (fun d hd => hf d (by simp [hd])) k
      have h1 := step_get hs k
      rw [slept_cons]
      cases hr : c.reading k with
      | none => rw [hr] at h1; simp only at h1; linarith
      | some v =>
        rw [hr] at h1
        simp only at h1
        have := slept_reading hr
        linarith

theorem clock_mono {cs : List Call} {clock : Kind → Nat → Rat} (h : Real cs clock) (k : Kind) (i : Nat) :
    0 ≤ clock k i := by
  induction i with
  | zero => exact h.start k
  | succ i ih => exact le_trans ih (h.forward k i)

theorem real_run {all : List Call} {clock : Kind → Nat → Rat} (h : Real all clock) :
    ∀ (cs : List Call) (i : Nat) (e : Earliest), all.drop i = cs → (∀ k, e.get k ≤ clock k i) →
      ∃ e', run e cs = some e'
  | [], _, e, _, _ => ⟨e, rfl⟩
  | c :: cs, i, e, hd, he => by
    have hi : all[i]? = some c := by
      have : (all.drop i)[0]? = some c := by rw [hd]; rfl
      simpa using this
    have hd' : all.drop (i + 1) = cs := by
      have := congrArg List.tail hd
      simpa using this
    have hstep : ∃ e1, step e c = some e1 ∧ ∀ k, e1.get k ≤ clock k (i + 1) := by
      cases c with
      | secs k v =>
        have hv := h.reading k i _ v hi (by simp [Call.reading])
        have hle := he k
        have hsm := h.small k i
        refine ⟨e.set k v, ?_, ?_⟩
        · rw [secs_eq, if_pos ⟨by rw [hv]; exact hle, by rw [hv]; exact hsm⟩]
        · intro k'
          by_cases hk : k = k'
          · subst hk; rw [get_set_same, hv]; exact h.forward k i
          · rw [get_set_ne e hk]; exact le_trans (he k') (h.forward k' i)
      | nanos k n =>
        have hv := h.reading k i _ ((n : Rat) / 1000000000) hi (by simp [Call.reading])
        have hle := he k
        have hsm := h.small k i
        refine ⟨e.set k ((n : Rat) / 1000000000), ?_, ?_⟩
        · rw [nanos_eq, secs_eq, if_pos ⟨by rw [hv]; exact hle, by rw [hv]; exact hsm⟩]
        · intro k'
          by_cases hk : k = k'
          · subst hk; rw [get_set_same, hv]; exact h.forward k i
          · rw [get_set_ne e hk]; exact le_trans (he k') (h.forward k' i)
      | time v =>
        exact ⟨e, by simp [step, h.wall i v hi], fun k => le_trans (he k) (h.forward k i)⟩
      | timeNs n =>
        exact ⟨e, by simp [step, h.wallNs i n hi], fun k => le_trans (he k) (h.forward k i)⟩
      | sleep d =>
        refine ⟨_, rfl, ?_⟩
        intro k
        cases k with
        | monotonic =>
          have h1 := h.sleeping i d hi
          have h2 := he .monotonic
          simp only [Earliest.get] at h2 ⊢
          linarith
        | processTime =>
          have h2 := he .processTime
          have h3 := h.forward .processTime i
          simp only [Earliest.get] at h2 ⊢
          linarith
    obtain ⟨e1, h1, h2⟩ := hstep
    obtain ⟨e', h3⟩ := real_run h cs (i + 1) e1 hd' h2
    exact ⟨e', by simp only [run, h1, h3]⟩

end Verif.Clock
