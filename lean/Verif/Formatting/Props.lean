import Verif.Formatting.Model
/-
What formatting does to objects of a program's own classes, and what it gives.
-/
namespace Verif.Formatting

variable (copyable : Nat → Bool) (m : Method)

/-- The method does not change the object and returns a text or raises. -/
def Quiet (m : Method) (h : Heap) (o spec : Nat) : Prop := (m o (h o) spec).1 = h o ∧ ∀ v, (m o (h o) spec).2 ≠ .other v

theorem put_same (h : Heap) (o : Nat) : put h o (h o) = h := by
  funext p
  unfold put
  by_cases e : p = o
  · rw [if_pos e, e]
  · rw [if_neg e]

theorem put_eq_iff (h : Heap) (o s : Nat) : put h o s = h ↔ s = h o := by
  constructor
  · intro e
    have := congrFun e o
    simpa [put] using this
  · rintro rfl
    exact put_same h o

/-- `format` does what Python's does, exactly if the object cannot be copied or its method does not change it, and the method does not
return an object that is no text. -/
theorem format_iff (h : Heap) (o spec : Nat) : format copyable m h o spec = pyFormat m h o spec ↔
    (copyable o = true → (m o (h o) spec).1 = h o) ∧ ∀ v, (m o (h o) spec).2 ≠ .other v := by
  unfold format pyFormat onCopy
  rw [Prod.mk.injEq]
  constructor
  · rintro ⟨h1, h2⟩
    refine ⟨fun hc => ?_, fun v hv => ?_⟩
    · rw [if_pos hc] at h1
      exact (put_eq_iff h o _).mp h1.symm
    · simp only [hv, checked] at h2
      cases h2
  · rintro ⟨h1, h2⟩
    refine ⟨?_, ?_⟩
    · cases hc : copyable o with
      | false => rfl
      | true =>
        simp only [if_true]
        exact ((put_eq_iff h o _).mpr (h1 hc)).symm
    · cases hr : (m o (h o) spec).2 with
      | text t => rfl
      | raises e => rfl
      | other v => exact absurd hr (h2 v)

/-- Templates do what Python's do, if the methods of the objects do not change them and return texts or raise. -/
theorem strFormat_partial (h : Heap) : ∀ l : List (Nat × Nat), (∀ o spec, (o, spec) ∈ l → Quiet m h o spec) →
    strFormat copyable m h l = pyTemplate m h l
  | [], _ => rfl
  | (o, spec) :: l, hq => by
    have h0 := hq o spec List.mem_cons_self
    have ih := strFormat_partial h l fun o s hs => hq o s (List.mem_cons_of_mem _ hs)
    have hf : format copyable m h o spec = pyFormat m h o spec := (format_iff copyable m h o spec).mpr ⟨fun _ => h0.1, h0.2⟩
    have hh : put h o (m o (h o) spec).1 = h := (put_eq_iff h o _).mpr h0.1
    simp only [strFormat, pyTemplate, inTurn, hf, pyFormat, hh]
    unfold pyTemplate pyFormat at ih
    cases hr : (m o (h o) spec).2 with
    | text t => simp only [checked, ih]; rfl
    | raises e => rfl
    | other v => exact absurd hr (h0.2 v)

/-- A method that only looks: object 1 in state 5 gives the text 5 and raises for the specification 9. -/
def quiet : Method := fun _ s spec => (s, if spec = 9 then .raises 1 else .text s)

example : (strFormat (fun _ => true) quiet (fun o => o + 4) [(1, 0), (2, 0), (1, 0)]).2 = .ok [5, 6, 5] ∧
    (pyTemplate quiet (fun o => o + 4) [(1, 0), (2, 0), (1, 0)]).2 = .ok [5, 6, 5] ∧ Quiet quiet (fun o => o + 4) 1 0 :=
  ⟨rfl, rfl, rfl, by intro v h; cases h⟩

theorem percentRun_spec : ∀ (l : List (Nat × Nat)) (hs : Heaps) (h : Heap), (∀ o, hs (copyable o) o = h o) →
    (percentRun copyable m hs l).2 = (pyTemplate m h l).2 ∧
    (∀ o, (percentRun copyable m hs l).1 (copyable o) o = (pyTemplate m h l).1 o) ∧
    (∀ o, (percentRun copyable m hs l).1 (!copyable o) o = hs (!copyable o) o)
  | [], hs, h, hi => ⟨rfl, hi, fun _ => rfl⟩
  | (o, spec) :: l, hs, h, hi => by
    have hi' : ∀ p, (fun b q => if b = copyable o ∧ q = o then (m o (h o) spec).1 else hs b q : Heaps) (copyable p) p
        = put h o (m o (h o) spec).1 p := by
      intro p
      unfold put
      by_cases e : p = o
      · subst e; simp
      · simp [e, hi]
    have hn : ∀ p, (fun b q => if b = copyable o ∧ q = o then (m o (h o) spec).1 else hs b q : Heaps) (!copyable p) p = hs (!copyable p) p := by
      intro p
      by_cases e : p = o
      · subst e; simp
      · simp [e]
    obtain ⟨i1, i2, i3⟩ := percentRun_spec l (fun b q => if b = copyable o ∧ q = o then (m o (h o) spec).1 else hs b q)
      (put h o (m o (h o) spec).1) hi'
    simp only [percentRun, pyTemplate, inTurn, pyFormat, hi o]
    unfold pyTemplate pyFormat at i1 i2
    cases hr : (m o (h o) spec).2 with
    | raises e => exact ⟨rfl, hi', hn⟩
    | other v => exact ⟨rfl, hi', hn⟩
    | text t =>
      simp only [checked]
      cases hp : percentRun copyable m (fun b q => if b = copyable o ∧ q = o then (m o (h o) spec).1 else hs b q) l with
      | mk a r =>
        cases hq : inTurn (fun h o spec => (put h o (m o (h o) spec).1, checked (m o (h o) spec).2)) (put h o (m o (h o) spec).1) l with
        | mk a' r' =>
          rw [hp, hq] at i1 i2
          rw [hp] at i3
          simp only at i1 i2 i3
          subst i1
          have hq' : inTurn (pyFormat m) (put h o (m o (h o) spec).1) l = (a', r) := hq
          simp only [hq']
          cases r with
          | ok ts => exact ⟨rfl, i2, fun p => (i3 p).trans (hn p)⟩
          | error e => exact ⟨rfl, i2, fun p => (i3 p).trans (hn p)⟩

/-- What `%` gives is what Python's gives, for all methods, whatever they do to the objects meanwhile; objects that can be copied stay as they are, and
others end as in Python. -/
theorem percent_texts (h : Heap) (l : List (Nat × Nat)) : (percent copyable m h l).2 = (pyTemplate m h l).2 ∧
    ∀ o, (percent copyable m h l).1 o = if copyable o then h o else (pyTemplate m h l).1 o := by
  obtain ⟨i1, i2, i3⟩ := percentRun_spec copyable m l (fun _ => h) h fun _ => rfl
  refine ⟨i1, fun o => ?_⟩
  have h2 := i2 o
  have h3 := i3 o
  cases hc : copyable o with
  | false => rw [hc] at h2; exact h2
  | true => rw [hc] at h3; exact h3

/-- A method that counts how often it was called. -/
def counting : Method := fun _ s _ => (s + 1, .text (s + 1))

example : (percent (fun _ => true) counting (fun _ => 0) [(1, 0), (1, 0)]).2 = .ok [1, 2] ∧
    (percent (fun _ => true) counting (fun _ => 0) [(1, 0), (1, 0)]).1 1 = 0 := ⟨rfl, rfl⟩

theorem strFormat_heap (hc : ∀ o, copyable o = true) : ∀ (l : List (Nat × Nat)) (h : Heap), (strFormat copyable m h l).1 = h
  | [], h => rfl
  | (o, spec) :: l, h => by
    have ih := strFormat_heap hc l h
    simp only [strFormat, format, onCopy, hc o, if_true]
    cases (m o (h o) spec).2 with
    | text t =>
      simp only
      cases hs : strFormat copyable m h l with
      | mk h' r => rw [hs] at ih; cases r <;> exact ih
    | other v =>
      simp only
      cases hs : strFormat copyable m h l with
      | mk h' r => rw [hs] at ih; cases r <;> exact ih
    | raises e => rfl

/-- Disagreement: whatever its method does, an object that can be copied is not changed by formatting: by `format`, by templates, or by `%`. Python
calls the method on the object. -/
theorem changes_are_lost (hc : ∀ o, copyable o = true) (h : Heap) (o spec : Nat) (l : List (Nat × Nat)) :
    (format copyable m h o spec).1 = h ∧ (strFormat copyable m h l).1 = h ∧ (percent copyable m h l).1 = h ∧
    (pyFormat m h o spec).1 o = (m o (h o) spec).1 := by
  refine ⟨?_, strFormat_heap copyable m hc l h, ?_, ?_⟩
  · simp [format, onCopy, hc]
  · funext p
    rw [(percent_texts copyable m h l).2 p, if_pos (hc p)]
  · simp [pyFormat, put]

example : (format (fun _ => true) counting (fun _ => 0) 1 0).1 1 = 0 ∧ (pyFormat counting (fun _ => 0) 1 0).1 1 = 1 := ⟨rfl, rfl⟩

/-- Disagreement: so a template with the same object twice gives another text than Python's, while `%` gives the same. -/
theorem template_text_differs : (strFormat (fun _ => true) counting (fun _ => 0) [(1, 0), (1, 0)]).2 = .ok [1, 1] ∧
    (pyTemplate counting (fun _ => 0) [(1, 0), (1, 0)]).2 = .ok [1, 2] ∧
    (percent (fun _ => true) counting (fun _ => 0) [(1, 0), (1, 0)]).2 = .ok [1, 2] := ⟨rfl, rfl, rfl⟩

/-- Disagreement: `format` returns what the method returned, whatever that is, where Python raises a `TypeError`. -/
theorem returns_other (h : Heap) (o spec v : Nat) (hv : (m o (h o) spec).2 = .other v) :
    (format copyable m h o spec).2 = .object v ∧ (pyFormat m h o spec).2 = .typeError := by
  simp [format, pyFormat, checked, hv]

example : (format (fun _ => true) (fun _ s _ => (s, .other 3)) (fun _ => 0) 1 0).2 = .object 3 :=
  (returns_other (fun _ => true) (fun _ s _ => (s, .other 3)) (fun _ => 0) 1 0 3 rfl).1

end Verif.Formatting
