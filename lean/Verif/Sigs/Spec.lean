import Verif.Sigs.Model

/-! Specification: which calls a signature accepts, as in Python's reference (and `Signature.bind`). A call has a number of positional arguments, and
names of keyword arguments. -/
namespace Verif.Sigs

/-- The parameters that positional arguments go to. -/
def positional (s : List Param) : List Param := posOnly s ++ s.filter (·.kind = .posKw)

/-- A call is accepted: there are not too many positional arguments; no parameter is missing; and every keyword argument has a parameter that
is not taken by a positional argument, or goes to `**kwargs`. -/
structure Accepts (s : List Param) (n : Nat) (kws : List Nat) : Prop where
  few : n ≤ (positional s).length ∨ ∃ p ∈ s, p.kind = .varPos
  posOnly : ∀ p ∈ (positional s).drop n, p.kind = .posOnly → p.dflt = true
  posKw : ∀ p ∈ (positional s).drop n, p.kind = .posKw → p.dflt = true ∨ p.name ∈ kws
  kwOnly : ∀ p ∈ s, p.kind = .kwOnly → p.dflt = true ∨ p.name ∈ kws
  keywords : ∀ k ∈ kws, (∃ p ∈ s, p.kind = .kwOnly ∧ p.name = k) ∨ (∃ p ∈ (positional s).drop n, p.kind = .posKw ∧ p.name = k) ∨
    ((∃ p ∈ s, p.kind = .varKw) ∧ ∀ p ∈ (positional s).take n, p.kind = .posKw → p.name ≠ k)

instance (s : List Param) (n : Nat) (kws : List Nat) : Decidable (Accepts s n kws) :=
  decidable_of_iff
    ((n ≤ (positional s).length ∨ ∃ p ∈ s, p.kind = .varPos) ∧ (∀ p ∈ (positional s).drop n, p.kind = .posOnly → p.dflt = true) ∧
      (∀ p ∈ (positional s).drop n, p.kind = .posKw → p.dflt = true ∨ p.name ∈ kws) ∧
      (∀ p ∈ s, p.kind = .kwOnly → p.dflt = true ∨ p.name ∈ kws) ∧
      (∀ k ∈ kws, (∃ p ∈ s, p.kind = .kwOnly ∧ p.name = k) ∨ (∃ p ∈ (positional s).drop n, p.kind = .posKw ∧ p.name = k) ∨
        ((∃ p ∈ s, p.kind = .varKw) ∧ ∀ p ∈ (positional s).take n, p.kind = .posKw → p.name ≠ k)))
    ⟨fun ⟨a, b, c, d, e⟩ => ⟨a, b, c, d, e⟩, fun ⟨a, b, c, d, e⟩ => ⟨a, b, c, d, e⟩⟩

/-- The call gives by keyword all that may be given by keyword. -/
def KeywordStyle (s : List Param) (n : Nat) : Prop := n ≤ (posOnly s).length ∨ ∀ p ∈ s, p.kind ≠ .posKw

/-- The names of parameters are all different, as Python demands. -/
def Distinct (s : List Param) : Prop := (s.map (·.name)).Nodup

/-- The same name means the same kind of parameter in both signatures, and the same place if it is positional-only. -/
structure NoClash (s1 s2 : List Param) : Prop where
  kind : ∀ p ∈ s1, ∀ q ∈ s2, p.name = q.name → p.kind = q.kind ∨ (p ∈ keyed s1 ∧ q ∈ keyed s2)
  place : ∀ (i j : Nat) (p q : Param), (posOnly s1)[i]? = some p → (posOnly s2)[j]? = some q → p.name = q.name → i = j

/-- The signature of `__new__(cls, *args, **kwargs)`, say. -/
def catchAll (first args kwargs : Nat) : List Param := [⟨first, .posKw, false, 0⟩, ⟨args, .varPos, false, 0⟩, ⟨kwargs, .varKw, false, 0⟩]

/-- The parameters of an ordinary method: the object, and parameters that may be given by keyword. -/
structure Ordinary (s : List Param) : Prop where
  keyed : ∀ p ∈ s, p.kind = .posKw ∨ p.kind = .kwOnly
  distinct : Distinct s

end Verif.Sigs
