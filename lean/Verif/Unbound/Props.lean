import Verif.Unbound.Model
/-
When wrapped methods of built-in classes do what Python's do.
-/
namespace Verif.Unbound

variable {R : Type} (sub : Nat → Nat → Bool) (c : Nat) (method : Nat → List Value → Res R) (bound : Nat → List Arg → Res R)

theorem values_realize : ∀ l : List Arg, values (l.map realize) = values l
  | [] => rfl
  | a :: l => by
    simp only [List.map_cons, values, values_realize l]
    cases a <;> rfl

/-- There is a symbolic value in a tuple. -/
def hidden (args : List Arg) : Bool := anyHolds (args.map realize)

theorem hidden_of_no_sym : ∀ l : List Arg, l.any Arg.isSym = false → hidden l = anyHolds l
  | [], _ => rfl
  | a :: l, h => by
    rw [List.any_cons, Bool.or_eq_false_iff] at h
    have ih := hidden_of_no_sym l h.2
    simp only [hidden] at ih
    simp only [hidden, List.map_cons, anyHolds, ih]
    cases a with
    | sym v => cases h.1
    | plain v => rfl
    | tup l => rfl

/-- A method for which the arguments are realized does what Python's does, unless symbolic values are in tuples. -/
theorem realized_args (r : Receiver) (args : List Arg) (h : hidden args = false) :
    withRealizedArgs sub c method r args = python sub c method r.toSelf (values args) := by
  unfold hidden at h
  simp only [withRealizedArgs, native, python, h, values_realize]
  simp

example : withRealizedArgs (· == ·) 3 (fun v l => .result (v + l.length)) ⟨⟨3, 4⟩, true⟩ [.sym 1, .tup [.plain 2]] = .result 6 := rfl

/-- A method with a check for symbolic objects does what Python's does, for objects that are not symbolic, with arguments that are not, and for
symbolic objects of all classes but proper subclasses. -/
theorem checked_self_partial (refl : sub c c = true) (hb : ∀ v l, bound v l = method v (values l)) (r : Receiver) (args : List Arg)
    (h : r.symbolic = true → sub r.cls c = true → r.cls = c) (ha : r.symbolic = false → anyHolds args = false) :
    withCheckedSelf sub c method bound r args = python sub c method r.toSelf (values args) := by
  unfold withCheckedSelf native python
  cases hs : r.symbolic with
  | false => simp [ha hs]
  | true =>
    by_cases hc : r.cls = c
    · simp [hc, refl, hb]
    · have : sub r.cls c = false := by
        cases hq : sub r.cls c with
        | false => rfl
        | true => exact absurd (h hs hq) hc
      simp [hc, this]

example : withCheckedSelf (fun a b => a == b || (a == 2 && b == 1)) 1 (fun v _ => .result v) (fun v _ => .result v) ⟨⟨1, 4⟩, true⟩ [] = .result 4 ∧
    withCheckedSelf (fun a b => a == b || (a == 2 && b == 1)) 1 (fun v _ => .result v) (fun v _ => .result v) ⟨⟨3, 4⟩, true⟩ [] = .typeError := ⟨rfl, rfl⟩

/-- Disagreement: for a symbolic object of a proper subclass, like a `bool` for methods of `int` (`int.bit_length(b)`), there is always a
`TypeError`. -/
theorem disagreement_subclass (r : Receiver) (args : List Arg) (hs : r.symbolic = true) (hc : r.cls ≠ c) (hsub : sub r.cls c = true) :
    withCheckedSelf sub c method bound r args = .typeError ∧ python sub c method r.toSelf (values args) = method r.val (values args) := by
  simp [withCheckedSelf, native, python, hs, hc, hsub]

example : withCheckedSelf (fun a b => a == b || (a == 2 && b == 1)) 1 (fun v _ => .result v) (fun v _ => .result v) ⟨⟨2, 1⟩, true⟩ [] = .typeError ∧
    python (fun a b => a == b || (a == 2 && b == 1)) 1 (fun v _ => .result v) ⟨2, 1⟩ [] = Res.result 1 :=
  disagreement_subclass _ 1 _ _ ⟨⟨2, 1⟩, true⟩ [] rfl (by decide) rfl

/-- Methods of texts and ranges do what Python's do, exactly when: the object is symbolic; or it is of the class and some argument is itself symbolic, or
there are no symbolic values in tuples, or Python's raises a `TypeError`; or it is of another class and no argument is itself symbolic, or the method on
`None` raises a `TypeError`. (Symbolic objects have no proper subclasses here.) -/
theorem symbolic_self (refl : sub c c = true) (hb : ∀ v l, bound v l = method v (values l)) (onNone : List Arg → Res R) (r : Receiver) (args : List Arg)
    (h : r.symbolic = true → sub r.cls c = true → r.cls = c) :
    withSymbolicSelf sub c method bound onNone r args = python sub c method r.toSelf (values args) ↔
      if sub r.cls c then
        r.symbolic = true ∨ args.any Arg.isSym = true ∨ hidden args = false ∨ method r.val (values args) = .typeError
      else args.any Arg.isSym = false ∨ onNone args = .typeError := by
  unfold withSymbolicSelf native python
  cases hsub : sub r.cls c with
  | true =>
    cases hs : r.symbolic with
    | true => simp [h hs hsub, hb]
    | false =>
      cases ha : args.any Arg.isSym with
      | true => simp [hb]
      | false =>
        simp only [values_realize]
        cases hh : hidden args with
        | false => unfold hidden at hh; simp [hh]
        | true => unfold hidden at hh; simp [hh, eq_comm]
  | false =>
    have hc : r.cls ≠ c := fun e => by rw [e, refl] at hsub; cases hsub
    cases ha : args.any Arg.isSym with
    | true => simp [hc]
    | false => simp [hc]

/-- Disagreement: if a text that is not symbolic is asked whether it ends with one of the texts in a tuple, and one of these is symbolic, there is a
`TypeError`. -/
theorem disagreement_tuple (onNone : List Arg → Res R) (r : Receiver) (l : List Arg) (hs : r.symbolic = false) (hsub : sub r.cls c = true)
    (v : Nat) (hv : Arg.sym v ∈ l) :
    withSymbolicSelf sub c method bound onNone r [.tup l] = .typeError ∧
    python sub c method r.toSelf (values [.tup l]) = method r.val [.tup (values l)] := by
  have hh : anyHolds l = true := by
    clear hs hsub
    induction l with
    | nil => cases hv
    | cons a l ih =>
      rcases List.mem_cons.mp hv with e | e
      · subst e; simp [anyHolds, holds]
      · simp [anyHolds, ih e]
  constructor
  · simp [withSymbolicSelf, native, hs, hsub, Arg.isSym, realize, anyHolds, holds, hh]
  · simp [python, hsub, values, value]

example : withSymbolicSelf (· == ·) 3 (fun v l => .result (v + l.length)) (fun v l => .result (v + l.length)) (fun _ => .raises 7)
    ⟨⟨3, 4⟩, false⟩ [.tup [.plain 1, .sym 2]] = .typeError :=
  (disagreement_tuple _ 3 _ _ _ ⟨⟨3, 4⟩, false⟩ [.plain 1, .sym 2] rfl rfl 2 (by simp)).1

/-- Disagreement: for an object of another class, if some argument is symbolic, what happens is what the symbolic method does with `None`. -/
theorem disagreement_none (onNone : List Arg → Res R) (r : Receiver) (args : List Arg) (hc : r.cls ≠ c) (hsub : sub r.cls c = false)
    (ha : args.any Arg.isSym = true) :
    withSymbolicSelf sub c method bound onNone r args = onNone args ∧ python sub c method r.toSelf (values args) = .typeError := by
  simp [withSymbolicSelf, python, hc, hsub, ha]

example : withSymbolicSelf (· == ·) 3 (fun v l => .result (v + l.length)) (fun v l => .result (v + l.length)) (fun _ => .raises 7)
    ⟨⟨1, 4⟩, false⟩ [.sym 2] = .raises 7 := (disagreement_none _ 3 _ _ _ ⟨⟨1, 4⟩, false⟩ [.sym 2] (by decide) rfl rfl).1

end Verif.Unbound
