/-
Types for a small part of Python's type system: classes, type variables, and `TypedDict`s, whose fields are required or not; and the values of these
types. (Other types are in `Verif.Unify`.)
-/
namespace Verif.TypedDicts

/-- Types. Classes, type variables and names of fields are numbers. -/
inductive Ty
  | con (c : Nat) | var (n : Nat) | td (req opt : List (Nat × Ty))

/-- Values: instances of classes, and dictionaries by the names of their fields. -/
inductive Val
  | inst (c : Nat) | dict (fields : List (Nat × Val))

/-- `issubclass` for classes that are not `TypedDict`s; `object`, and `dict`, which all dictionaries are instances of. -/
structure Hier where
  sub : Nat → Nat → Bool
  object : Nat
  dict : Nat

/-- `x` is a value of type `t` and has no fields that the type does not speak of, at any depth: a value that was made for this type. -/
inductive Made (H : Hier) : Val → Ty → Prop
  | inst (c d : Nat) : H.sub c d = true → Made H (.inst c) (.con d)
  | dict (f : List (Nat × Val)) (req opt : List (Nat × Ty)) :
    (∀ k t, (k, t) ∈ req → f.lookup k ≠ none) →
    (∀ k t x, (k, t) ∈ req → f.lookup k = some x → Made H x t) →
    (∀ k t x, (k, t) ∈ opt → f.lookup k = some x → Made H x t) →
    (∀ k x, f.lookup k = some x → (∃ t, (k, t) ∈ req) ∨ ∃ t, (k, t) ∈ opt) →
    Made H (.dict f) (.td req opt)

/-- `x` can be used as a value of type `t`: the required fields are there, and those fields that the type speaks of have their types. -/
inductive Usable (H : Hier) : Val → Ty → Prop
  | inst (c d : Nat) : H.sub c d = true → Usable H (.inst c) (.con d)
  | dictClass (f : List (Nat × Val)) (d : Nat) : H.sub H.dict d = true → Usable H (.dict f) (.con d)
  | dict (f : List (Nat × Val)) (req opt : List (Nat × Ty)) :
    (∀ k t, (k, t) ∈ req → f.lookup k ≠ none) →
    (∀ k t x, (k, t) ∈ req → f.lookup k = some x → Usable H x t) →
    (∀ k t x, (k, t) ∈ opt → f.lookup k = some x → Usable H x t) →
    Usable H (.dict f) (.td req opt)

/-- A type without type variables in which no field is both required and not, at any depth. -/
inductive Plain : Ty → Prop
  | con (c : Nat) : Plain (.con c)
  | td (req opt : List (Nat × Ty)) :
    (∀ k t, (k, t) ∈ req → Plain t) → (∀ k t, (k, t) ∈ opt → Plain t) →
    (∀ k t u, (k, t) ∈ req → (k, u) ∉ opt) → Plain (.td req opt)

mutual
/-- A type with type variables replaced. -/
def subst (σ : Nat → Ty) : Ty → Ty
  | .con c => .con c
  | .var n => σ n
  | .td req opt => .td (substAll σ req) (substAll σ opt)
@[inherit_doc subst] def substAll (σ : Nat → Ty) : List (Nat × Ty) → List (Nat × Ty)
  | [] => []
  | (k, t) :: fs => (k, subst σ t) :: substAll σ fs
end

end Verif.TypedDicts
