import Verif.Differential.Model
import Mathlib.Tactic.Linarith
/-
Properties of the comparison of symbolic with concrete runs of single operations.
-/
namespace Verif.Differential

/-! ### C204: values that can be compared -/

mutual
theorem isOpaque_of (d : Nat) : ∀ v, Comparable v → isOpaque d v = false
  | .none, _ => by simp [isOpaque]
  | .atom .., _ => by simp [isOpaque]
  | .cls b _, h => by simp only [Comparable] at h; simp [isOpaque, h]
  | .function _, h => by simp [Comparable] at h
  | .handle _, h => by simp [Comparable] at h
  | .list l, h => by simp only [Comparable] at h; simp [isOpaque, anyOpaque_of (d + 1) l h]
  | .set l, h => by simp only [Comparable] at h; simp [isOpaque, anyOpaque_of (d + 1) l h]
  | .frozenset l, h => by simp only [Comparable] at h; simp [isOpaque, anyOpaque_of (d + 1) l h]
  | .tuple l, h => by simp only [Comparable] at h; simp [isOpaque, anyOpaque_of (d + 1) l h]
  | .dict l, h => by simp only [Comparable] at h; simp [isOpaque, anyValue_of (d + 1) l h]
theorem anyOpaque_of (d : Nat) : ∀ l, ComparableAll l → anyOpaque d l = false
  | [], _ => by simp [anyOpaque]
  | v :: rest, h => by
    simp only [ComparableAll] at h
    simp [anyOpaque, isOpaque_of d v h.1, anyOpaque_of d rest h.2]
theorem anyValue_of (d : Nat) : ∀ l, ComparableItems l → anyValue d l = false
  | [], _ => by simp [anyValue]
  | (k, v) :: rest, h => by
    simp only [ComparableItems] at h
    simp [anyValue, isOpaque_of d v h.2.1, anyValue_of d rest h.2.2]
end

mutual
/-- Whether the keys of dictionaries are comparable, at any depth. -/
def KeysComparable : Val → Prop
  | .list l | .set l | .frozenset l | .tuple l => KeysComparableAll l
  | .dict d => KeysComparableItems d
  | _ => True
def KeysComparableAll : List Val → Prop
  | [] => True
  | v :: rest => KeysComparable v ∧ KeysComparableAll rest
def KeysComparableItems : List (Val × Val) → Prop
  | [] => True
  | (k, v) :: rest => Comparable k ∧ KeysComparable v ∧ KeysComparableItems rest
end

mutual
theorem of_isOpaque (d : Nat) : ∀ v, depth v + d ≤ 3 → KeysComparable v → isOpaque d v = false → Comparable v
  | .none, _, _, _ => by simp [Comparable]
  | .atom .., _, _, _ => by simp [Comparable]
  | .cls b _, _, _, h => by simpa [Comparable, isOpaque] using h
  | .function _, _, _, h => by simp [isOpaque] at h
  | .handle _, _, _, h => by simp [isOpaque] at h
  | .list l, hd, hk, h => by
    simp only [depth] at hd; simp only [KeysComparable] at hk
    have hlt : d < 3 := by omega
    simp only [isOpaque, hlt, if_true] at h
    simp only [Comparable]; exact of_anyOpaque (d + 1) l (by omega) hk h
  | .set l, hd, hk, h => by
    simp only [depth] at hd; simp only [KeysComparable] at hk
    have hlt : d < 3 := by omega
    simp only [isOpaque, hlt, if_true] at h
    simp only [Comparable]; exact of_anyOpaque (d + 1) l (by omega) hk h
  | .frozenset l, hd, hk, h => by
    simp only [depth] at hd; simp only [KeysComparable] at hk
    have hlt : d < 3 := by omega
    simp only [isOpaque, hlt, if_true] at h
    simp only [Comparable]; exact of_anyOpaque (d + 1) l (by omega) hk h
  | .tuple l, hd, hk, h => by
    simp only [depth] at hd; simp only [KeysComparable] at hk
    have hlt : d < 3 := by omega
    simp only [isOpaque, hlt, if_true] at h
    simp only [Comparable]; exact of_anyOpaque (d + 1) l (by omega) hk h
  | .dict l, hd, hk, h => by
    simp only [depth] at hd; simp only [KeysComparable] at hk
    have hlt : d < 3 := by omega
    simp only [isOpaque, hlt, if_true] at h
    simp only [Comparable]; exact of_anyValue (d + 1) l (by omega) hk h
theorem of_anyOpaque (d : Nat) : ∀ l, depthAll l + d ≤ 3 → KeysComparableAll l → anyOpaque d l = false → ComparableAll l
  | [], _, _, _ => by simp [ComparableAll]
  | v :: rest, hd, hk, h => by
    simp only [depthAll] at hd
    simp only [KeysComparableAll] at hk
    simp only [anyOpaque, Bool.or_eq_false_iff] at h
    simp only [ComparableAll]
    exact ⟨of_isOpaque d v (by omega) hk.1 h.1, of_anyOpaque d rest (by omega) hk.2 h.2⟩
theorem of_anyValue (d : Nat) : ∀ l, depthItems l + d ≤ 3 → KeysComparableItems l → anyValue d l = false → ComparableItems l
  | [], _, _, _ => by simp [ComparableItems]
  | (k, v) :: rest, hd, hk, h => by
    simp only [depthItems] at hd
    simp only [KeysComparableItems] at hk
    simp only [anyValue, Bool.or_eq_false_iff] at h
    simp only [ComparableItems]
    exact ⟨hk.1, of_isOpaque d v (by omega) hk.2.1 h.1, of_anyValue d rest (by omega) hk.2.2 h.2⟩
end

/-- A result that can be compared is never skipped; one that is not skipped can be compared.  The second part is partial: for results
nested at most three deep (see `deep_function`), whose dictionaries have comparable keys (see `key_function`). -/
theorem comparable_partial (v : Val) :
    (Comparable v → isOpaque 0 v = false) ∧ (depth v ≤ 3 → KeysComparable v → isOpaque 0 v = false → Comparable v) :=
  ⟨isOpaque_of 0 v, fun h => of_isOpaque 0 v (by omega)⟩

example : isOpaque 0 (.list [.tuple [.atom 1 5], .dict [(.atom 0 1, .list [.function 3])]]) = true ∧
    isOpaque 0 (.list [.tuple [.atom 1 5], .dict [(.atom 0 1, .list [.cls true 3])]]) = false := by decide

/-- Disagreement: a function four containers deep is overlooked. -/
theorem deep_function : ∃ v, isOpaque 0 v = false ∧ ¬ Comparable v :=
  ⟨.list [.list [.list [.list [.function 0]]]], by decide, by simp [Comparable, ComparableAll]⟩

/-- Disagreement: so is one that is the key of a dictionary. -/
theorem key_function : ∃ v, depth v = 1 ∧ isOpaque 0 v = false ∧ ¬ Comparable v :=
  ⟨.dict [(.function 0, .none)], by decide, by decide, by simp [Comparable, ComparableItems]⟩

/-! ### C205: the type of the symbolic stand-in -/

mutual
theorem Ty.same_eq : ∀ a b : Ty, Ty.same a b = true → a = b
  | .atom a, b, h => by cases b <;> simp [Ty.same] at h ⊢; exact h
  | .noneType, b, h => by cases b <;> simp [Ty.same] at h ⊢
  | .int, b, h => by cases b <;> simp [Ty.same] at h ⊢
  | .metaclass, b, h => by cases b <;> simp [Ty.same] at h ⊢
  | .functionType, b, h => by cases b <;> simp [Ty.same] at h ⊢
  | .handleType, b, h => by cases b <;> simp [Ty.same] at h ⊢
  | .list a, b, h => by cases b <;> simp [Ty.same] at h ⊢; exact Ty.same_eq _ _ h
  | .set a, b, h => by cases b <;> simp [Ty.same] at h ⊢; exact Ty.same_eq _ _ h
  | .frozenset a, b, h => by cases b <;> simp [Ty.same] at h ⊢; exact Ty.same_eq _ _ h
  | .tuple a, b, h => by cases b <;> simp [Ty.same] at h ⊢; exact Ty.sameAll_eq _ _ h
  | .union a, b, h => by cases b <;> simp [Ty.same] at h ⊢; exact Ty.sameAll_eq _ _ h
  | .dict a c, b, h => by
    cases b <;> simp [Ty.same] at h ⊢
    exact ⟨Ty.same_eq _ _ h.1, Ty.same_eq _ _ h.2⟩
theorem Ty.sameAll_eq : ∀ a b : List Ty, Ty.sameAll a b = true → a = b
  | [], b, h => by cases b <;> simp [Ty.sameAll] at h ⊢
  | a :: as, b, h => by
    cases b <;> simp [Ty.sameAll] at h ⊢
    exact ⟨Ty.same_eq _ _ h.1, Ty.sameAll_eq _ _ h.2⟩
end

theorem mem_dedup (ts : List Ty) : ∀ seen t, t ∈ ts → t ∈ seen ∨ t ∈ dedup seen ts := by
  induction ts with
  | nil => intro seen t h; cases h
  | cons a ts ih =>
    intro seen t h
    simp only [dedup]
    by_cases ha : seen.any (Ty.same a) = true
    · rw [if_pos ha]
      rcases List.mem_cons.mp h with rfl | h
      · obtain ⟨b, hb, he⟩ := List.any_eq_true.mp ha
        rw [Ty.same_eq _ _ he]
        exact Or.inl hb
      · exact ih seen t h
    · rw [if_neg ha]
      rcases List.mem_cons.mp h with rfl | h
      · exact Or.inr (by simp)
      · rcases ih (seen ++ [a]) t h with h | h
        · rcases List.mem_append.mp h with h | h
          · exact Or.inl h
          · rw [List.mem_singleton] at h; subst h; exact Or.inr (by simp)
        · exact Or.inr (by simp [h])

theorem hasTypeAny_of (ts : List Ty) (t : Ty) (ht : t ∈ ts) (v : Val) (h : HasType t v) : HasTypeAny ts v := by
  induction ts with
  | nil => cases ht
  | cons a ts ih =>
    simp only [HasTypeAny]
    rcases List.mem_cons.mp ht with rfl | ht
    · exact Or.inl h
    · exact Or.inr (ih ht)

theorem hasType_union (ts : List Ty) (t : Ty) (ht : t ∈ ts) (v : Val) (h : HasType t v) : HasType (unionOf ts) v := by
  have hm := (mem_dedup ts [] t ht).resolve_left (by simp)
  unfold unionOf
  split
  · rename_i u hu
    rw [hu, List.mem_singleton] at hm
    rw [← hm]; exact h
  · simp only [HasType]
    exact hasTypeAny_of _ t hm v h

mutual
theorem hasType_proxy : ∀ v, HasType (proxyType v) v
  | .none => by simp [proxyType, HasType]
  | .atom t n => by simp [proxyType, HasType]
  | .cls b n => by simp [proxyType, HasType]
  | .function n => by simp [proxyType, HasType]
  | .handle n => by simp [proxyType, HasType]
  | .list l => by
    have := hasTypes_proxy l
    simp only [proxyType]
    cases l with
    | nil => simp [HasType]
    | cons a l =>
      simp only [List.isEmpty_cons, Bool.false_eq_true, if_false, HasType]
      exact ⟨_, rfl, fun x hx => hasType_union _ _ (this.1 x hx).1 x (this.1 x hx).2⟩
  | .set l => by
    have := hasTypes_proxy l
    simp only [proxyType]
    cases l with
    | nil => simp [HasType]
    | cons a l =>
      simp only [List.isEmpty_cons, Bool.false_eq_true, if_false, HasType]
      exact ⟨_, rfl, fun x hx => hasType_union _ _ (this.1 x hx).1 x (this.1 x hx).2⟩
  | .frozenset l => by
    have := hasTypes_proxy l
    simp only [proxyType]
    cases l with
    | nil => simp [HasType]
    | cons a l =>
      simp only [List.isEmpty_cons, Bool.false_eq_true, if_false, HasType]
      exact ⟨_, rfl, fun x hx => hasType_union _ _ (this.1 x hx).1 x (this.1 x hx).2⟩
  | .tuple l => by
    have := hasTypes_proxy l
    simp only [proxyType]
    cases l with
    | nil => simp [HasType, HasTypes]
    | cons a l =>
      simp only [List.isEmpty_cons, Bool.false_eq_true, if_false, HasType]
      exact ⟨_, rfl, this.2⟩
  | .dict d => by
    have := hasTypes_items d
    simp only [proxyType]
    cases d with
    | nil => simp [HasType]
    | cons a d =>
      simp only [List.isEmpty_cons, Bool.false_eq_true, if_false, HasType]
      refine ⟨_, rfl, fun x hx => ?_⟩
      obtain ⟨h1, h2, h3, h4⟩ := this x hx
      exact ⟨hasType_union _ _ h1 _ h2, hasType_union _ _ h3 _ h4⟩
theorem hasTypes_proxy : ∀ l, (∀ x ∈ l, proxyType x ∈ proxyTypes l ∧ HasType (proxyType x) x) ∧ HasTypes (proxyTypes l) l
  | [] => ⟨by simp, by simp [proxyTypes, HasTypes]⟩
  | v :: rest => by
    have h1 := hasType_proxy v
    have h2 := hasTypes_proxy rest
    constructor
    · intro x hx
      rcases List.mem_cons.mp hx with rfl | hx
      · exact ⟨by simp [proxyTypes], h1⟩
      · exact ⟨by simp [proxyTypes, (h2.1 x hx).1], (h2.1 x hx).2⟩
    · simp only [proxyTypes, HasTypes]
      exact ⟨v, rest, rfl, h1, h2.2⟩
theorem hasTypes_items : ∀ d, ∀ x ∈ d, proxyType x.1 ∈ keyTypes d ∧ HasType (proxyType x.1) x.1 ∧
    proxyType x.2 ∈ valueTypes d ∧ HasType (proxyType x.2) x.2
  | [] => by simp
  | (k, v) :: rest => by
    have h1 := hasType_proxy k
    have h2 := hasType_proxy v
    have h3 := hasTypes_items rest
    intro x hx
    rcases List.mem_cons.mp hx with rfl | hx
    · exact ⟨by simp [keyTypes], h1, by simp [valueTypes], h2⟩
    · obtain ⟨a, b, c, d⟩ := h3 x hx
      exact ⟨by simp [keyTypes, a], b, by simp [valueTypes, c], d⟩
end

/-- Every input is a value of the type from which its symbolic stand-in is made, however it is nested. -/
theorem standin_type (v : Val) : HasType (proxyType v) v := hasType_proxy v

example : proxyType (.list [.atom 0 1, .tuple [], .atom 0 2, .dict [(.atom 1 0, .set [])]]) =
    .list (.union [.atom 0, .tuple [], .dict (.atom 1) (.set .int)]) := by rfl

/-! ### C206: what a run is summarized as -/

/-- A run is detached from the tree exactly once if asked to, and not otherwise; its result is what the call returns, realized (an
iterator as its values), or else the exception raised by the first of these steps that fails; an exception comes out only if
realizing an exception fails. -/
theorem summary {V : Type} (r : Run V) (detach : Bool) :
    (summarize r detach).2.length = (if detach then 1 else 0) ∧
    (∀ x, (summarize r detach).1 = .ok (.ok x) ↔
      ∃ v w, r.call = .ok v ∧ r.realize v = .ok w ∧ if r.isIterator w then r.values w = .ok x else w = x) ∧
    (∀ e, (summarize r detach).1 = .ok (.error e) ↔
      ∃ e', r.realizeExc e' = .ok e ∧ (r.call = .error e' ∨ ∃ v, r.call = .ok v ∧ (r.realize v = .error e' ∨
        ∃ w, r.realize v = .ok w ∧ r.isIterator w = true ∧ r.values w = .error e'))) ∧
    ∀ e, (summarize r detach).1 = .error e → ∃ e', r.realizeExc e' = .error e := by
  unfold summarize handle
  cases hc : r.call with
  | error e =>
    simp only
    cases hr : r.realizeExc e with
    | error e' =>
      refine ⟨by cases detach <;> simp, by simp, ?_, by simp; exact ⟨e, hr⟩⟩
      intro x
      simp [hr]
    | ok e' =>
      refine ⟨by cases detach <;> simp, by simp, ?_, by simp⟩
      intro x
      simp [hr]
  | ok v =>
    simp only
    cases hv : r.realize v with
    | error e =>
      simp only
      cases hr : r.realizeExc e with
      | error e' =>
        refine ⟨by cases detach <;> simp, by simp [hv], ?_, by simp; exact ⟨e, hr⟩⟩
        intro x
        simp [hv, hr]
      | ok e' =>
        refine ⟨by cases detach <;> simp, by simp [hv], ?_, by simp⟩
        intro x
        simp [hv, hr]
    | ok w =>
      simp only
      by_cases hi : r.isIterator w = true
      · simp only [hi, if_true]
        cases hx : r.values w with
        | error e =>
          simp only
          cases hr : r.realizeExc e with
          | error e' =>
            refine ⟨by cases detach <;> simp, by simp [hv, hi, hx], ?_, by simp; exact ⟨e, hr⟩⟩
            intro x
            simp [hv, hi, hx, hr]
          | ok e' =>
            refine ⟨by cases detach <;> simp, by simp [hv, hi, hx], ?_, by simp⟩
            intro x
            simp [hv, hi, hx, hr]
        | ok x =>
          refine ⟨by cases detach <;> simp, ?_, ?_, by simp⟩
          · intro y; simp [hv, hi, hx]
          · intro y; simp [hv, hi, hx]
      · simp only [hi, Bool.false_eq_true, if_false]
        refine ⟨by cases detach <;> simp, ?_, ?_, by simp⟩
        · intro y; simp [hv, hi]
        · intro y; simp [hv, hi]

example : summarize (V := Nat) ⟨.ok 5, fun v => .ok (v + 1), fun _ => true, fun _ => .error 7, fun e => .ok (e + 10)⟩ true =
    (.ok (.error 17), [.normally]) := rfl

/-- One argument that cannot be realized afterwards does not affect the others. -/
theorem arguments_apart {V : Type} (realize : V → Except Exc V) (args : List V) (i : Nat) (a : V) (h : args[i]? = some a) :
    (∀ v, realize a = .ok v → (realizeArgs realize args)[i]? = some (some v)) ∧
    (∀ e, realize a = .error e → (realizeArgs realize args)[i]? = some none) := by
  unfold realizeArgs
  rw [List.getElem?_map, h]
  constructor
  · intro v hv; simp [hv]
  · intro e he; simp [he]

example : realizeArgs (fun n : Nat => if n = 2 then .error 0 else .ok (n + 1)) [1, 2, 3] = [some 2, none, some 4] := rfl

/-! ### C207: what the comparison reports -/

open scoped Classical in
/-- What the loop does from given counts. -/
def Reported {R : Type} (same : R → R → Bool) (c u : Nat) (trials : List (Trial R)) : Prop :=
  ((runDifferential same c u trials).divergence = none ↔ ∀ t ∈ trials, ¬ t.Diverges same) ∧
  (∀ x s, (runDifferential same c u trials).divergence = some (x, s) →
    ∃ old t new, trials = old ++ t :: new ∧ (∀ x ∈ old, ¬ x.Diverges same) ∧ t.Diverges same ∧ t.first = x ∧ t.symbolic = .result s) ∧
  ∃ seen rest, trials = seen ++ rest ∧ ((runDifferential same c u trials).divergence = none → rest = []) ∧
    (∀ x ∈ seen.dropLast, ¬ x.Diverges same) ∧
    ((runDifferential same c u trials).divergence ≠ none → ∃ t, seen.getLast? = some t ∧ t.Diverges same) ∧
    (runDifferential same c u trials).checked = c + (seen.countP fun t => decide (t.Checkable same)) ∧
    (runDifferential same c u trials).unsupported = u + (seen.countP fun t => decide (t.symbolic = .unsupported))

set_option linter.unnecessarySeqFocus false in
open scoped Classical in
/-- The comparison of an operation reports the first input on which the symbolic run differs from the concrete run, among the inputs
that can be compared; it reports none exactly if there is none; it counts the inputs compared, and separately those that the engine
does not support, up to there. -/
theorem differential {R : Type} (same : R → R → Bool) (trials : List (Trial R)) :
    ((runDifferential same 0 0 trials).divergence = none ↔ ∀ t ∈ trials, ¬ t.Diverges same) ∧
    (∀ c s, (runDifferential same 0 0 trials).divergence = some (c, s) →
      ∃ old t new, trials = old ++ t :: new ∧ (∀ x ∈ old, ¬ x.Diverges same) ∧ t.Diverges same ∧ t.first = c ∧ t.symbolic = .result s) ∧
    ∃ seen rest, trials = seen ++ rest ∧ ((runDifferential same 0 0 trials).divergence = none → rest = []) ∧
      (∀ x ∈ seen.dropLast, ¬ x.Diverges same) ∧
      ((runDifferential same 0 0 trials).divergence ≠ none → ∃ t, seen.getLast? = some t ∧ t.Diverges same) ∧
      (runDifferential same 0 0 trials).checked = seen.countP (fun t => decide (t.Checkable same)) ∧
      (runDifferential same 0 0 trials).unsupported = seen.countP (fun t => decide (t.symbolic = .unsupported)) := by
  classical
  have key : ∀ (trials : List (Trial R)) (c u : Nat), Reported same c u trials := by
    intro trials
    induction trials with
    | nil =>
      intro c u
      exact ⟨by simp [runDifferential], by simp [runDifferential], [], [], rfl, fun _ => rfl, by simp, by simp [runDifferential], by simp [runDifferential],
        by simp [runDifferential]⟩
    | cons t trials ih =>
      intro c u
      -- going on without a divergence at `t`
      have go : ∀ c' u', runDifferential same c u (t :: trials) = runDifferential same c' u' trials → ¬ t.Diverges same →
          c' = c + (if t.Checkable same then 1 else 0) → u' = u + (if t.symbolic = .unsupported then 1 else 0) →
          Reported same c u (t :: trials) := by
        intro c' u' he hn hc hu
        obtain ⟨h1, h2, seen, rest, h3, h4, h5, h8, h6, h7⟩ := ih c' u'
        unfold Reported
        rw [he]
        refine ⟨?_, ?_, t :: seen, rest, by rw [h3]; rfl, h4, ?_, ?_, ?_, ?_⟩
        · rw [h1]
          constructor
          · intro h x hx
            rcases List.mem_cons.mp hx with rfl | hx
            · exact hn
            · exact h x hx
          · intro h x hx; exact h x (by simp [hx])
        · intro x s hx
          obtain ⟨old, t', new, g1, g2, g3⟩ := h2 x s hx
          refine ⟨t :: old, t', new, by rw [g1]; rfl, ?_, g3⟩
          intro y hy
          rcases List.mem_cons.mp hy with rfl | hy
          · exact hn
          · exact g2 y hy
        · intro x hx
          cases seen with
          | nil => simp at hx
          | cons a seen =>
            rw [List.dropLast_cons_of_ne_nil (by simp)] at hx
            rcases List.mem_cons.mp hx with rfl | hx
            · exact hn
            · exact h5 x hx
        · intro h
          obtain ⟨x, hx, hx2⟩ := h8 h
          refine ⟨x, ?_, hx2⟩
          cases seen with
          | nil => simp at hx
          | cons a seen => rw [List.getLast?_cons_cons]; exact hx
        · rw [h6, hc, List.countP_cons]
          split <;> simp_all <;> omega
        · rw [h7, hu, List.countP_cons]
          split <;> simp_all <;> omega
      cases hs : t.symbolic with
      | unpinned =>
        have hck : ¬ t.Checkable same := by rintro ⟨⟨r, hr⟩, _⟩; rw [hs] at hr; cases hr
        refine go c u (by simp only [runDifferential, hs]) (fun h => hck h.1) (by simp [hck]) (by simp [hs])
      | unsupported =>
        have hck : ¬ t.Checkable same := by rintro ⟨⟨r, hr⟩, _⟩; rw [hs] at hr; cases hr
        refine go c (u + 1) (by simp only [runDifferential, hs]) (fun h => hck h.1) (by simp [hck]) (by simp [hs])
      | result r =>
        cases hf : same t.first t.second with
        | false =>
          have hck : ¬ t.Checkable same := by rintro ⟨_, h, _⟩; rw [hf] at h; cases h
          refine go c u (by simp only [runDifferential, hs, hf, if_true]) (fun h => hck h.1) (by simp [hck]) (by simp [hs])
        | true =>
          cases ho : t.opaqueResult with
          | true =>
            have hck : ¬ t.Checkable same := by rintro ⟨_, _, h⟩; rw [ho] at h; cases h
            refine go c u (by simp only [runDifferential, hs, hf, ho, if_true, Bool.true_eq_false, if_false]) (fun h => hck h.1)
              (by simp [hck]) (by simp [hs])
          | false =>
            have hck : t.Checkable same := ⟨⟨r, hs⟩, hf, ho⟩
            cases hd : same t.first r with
            | true =>
              have hn : ¬ t.Diverges same := by
                rintro ⟨_, r', h1, h2⟩
                rw [hs] at h1; cases h1; rw [hd] at h2; cases h2
              refine go (c + 1) u (by simp only [runDifferential, hs, hf, ho, hd, Bool.true_eq_false, Bool.false_eq_true, if_false]) hn
                (by simp [hck]) (by simp [hs])
            | false =>
              have hdv : t.Diverges same := ⟨hck, r, hs, hd⟩
              have he : runDifferential same c u (t :: trials) = ⟨c + 1, some (t.first, r), u⟩ := by
                simp only [runDifferential, hs, hf, ho, hd, Bool.true_eq_false, Bool.false_eq_true, if_false, if_true]
              unfold Reported
              rw [he]
              refine ⟨?_, ?_, [t], trials, rfl, by simp, by simp, fun _ => ⟨t, rfl, hdv⟩, ?_, ?_⟩
              · constructor
                · intro h; cases h
                · intro h; exact absurd hdv (h t (by simp))
              · intro x s hx
                simp only [Option.some.injEq, Prod.mk.injEq] at hx
                exact ⟨[], t, trials, rfl, by simp, hdv, hx.1, by rw [hs, hx.2]⟩
              · simp [hck]
              · simp [hs]
  obtain ⟨h1, h2, seen, rest, h3, h4, h5, h8, h6, h7⟩ := key trials 0 0
  exact ⟨h1, h2, seen, rest, h3, h4, h5, h8, by simpa using h6, by simpa using h7⟩

/-- The attempts at pinning: a result is that of the first attempt that is not ignored, within the limit and before the tree is
exhausted. -/
theorem pinned_result {R : Type} (n : Nat) (attempts : List (Attempt R)) (r : R) :
    runPinned n attempts = .result r ↔
      ∃ k, k < n ∧ attempts[k]? = some (.done r false) ∧ ∀ i < k, attempts[i]? = some (.ignored false) := by
  induction n generalizing attempts with
  | zero => simp [runPinned]
  | succ n ih =>
    cases attempts with
    | nil => simp [runPinned]
    | cons a rest =>
      have other : ∀ (hne : ∀ b, a ≠ .ignored b) , (∃ k, k < n + 1 ∧ (a :: rest)[k]? = some (.done r false) ∧
          ∀ i < k, (a :: rest)[i]? = some (.ignored false)) ↔ a = .done r false := by
        intro hne
        constructor
        · rintro ⟨k, hk, h1, h2⟩
          cases k with
          | zero => simpa using h1
          | succ k => exact absurd (by simpa using h2 0 (by omega)) (hne false)
        · intro h; exact ⟨0, by omega, by simp [h], by simp⟩
      cases a with
      | done r' intolerant =>
        rw [other (by simp)]
        cases intolerant <;> simp [runPinned]
      | unsupported => rw [other (by simp)]; simp [runPinned]
      | failed => rw [other (by simp)]; simp [runPinned]
      | ignored exhausted =>
        cases exhausted with
        | true =>
          simp only [runPinned, if_true, reduceCtorEq, false_iff]
          rintro ⟨k, hk, h1, h2⟩
          cases k with
          | zero => simp at h1
          | succ k => have := h2 0 (by omega); simp at this
        | false =>
          simp only [runPinned, Bool.false_eq_true, if_false]
          rw [ih]
          constructor
          · rintro ⟨k, hk, h1, h2⟩
            refine ⟨k + 1, by omega, by simpa using h1, ?_⟩
            intro i hi
            cases i with
            | zero => rfl
            | succ i => simpa using h2 i (by omega)
          · rintro ⟨k, hk, h1, h2⟩
            cases k with
            | zero => simp at h1
            | succ k =>
              exact ⟨k, by omega, by simpa using h1, fun i hi => by simpa using h2 (i + 1) (by omega)⟩

example : runPinned 3 [.ignored false, .done 5 false, .failed] = .result 5 ∧ runPinned 1 [.ignored false, .done 5 false] = .unpinned ∧
    (runDifferential (fun a b : Nat => a == b) 0 0 [⟨.unpinned, 1, 1, false⟩, ⟨.result 4, 5, 6, false⟩, ⟨.unsupported, 1, 1, false⟩,
      ⟨.result 4, 5, 5, true⟩, ⟨.result 4, 4, 4, false⟩, ⟨.result 4, 5, 5, false⟩, ⟨.result 9, 8, 8, false⟩]) = ⟨2, some (5, 4), 1⟩ := by
  decide

end Verif.Differential
