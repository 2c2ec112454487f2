/-
What dictionaries and sets of Python do with keys of any kind: keys have an identity, an equality that need not be reflexive (NaN), and a
hash that may fail (a tuple that holds a list). Stated without the model.
-/
import Mathlib.Data.List.Basic

namespace Verif.Keys

/-- The objects used as keys. Equality of `K` is identity (`is`). -/
structure World (K : Type) where
  /-- `a == b`. -/
  eq : K → K → Bool
  /-- `hash(a)`, `none` if it raises `TypeError`. -/
  hash : K → Option Int
  /-- The type of the object has a method `__hash__`. -/
  typeHash : K → Bool

variable {K V : Type}

/-- What Python asks of `__eq__` and `__hash__`: equality is symmetric and transitive, and objects that are equal have the same hash. -/
structure Lawful (w : World K) : Prop where
  symm : ∀ a b, w.eq a b = true → w.eq b a = true
  trans : ∀ a b c, w.eq a b = true → w.eq b c = true → w.eq a c = true
  hash : ∀ a b, w.eq a b = true → w.hash a ≠ none → w.hash b ≠ none → w.hash a = w.hash b

/-- A lookup of `k` in a hash table finds the key `k'`. -/
def Finds (w : World K) (k' k : K) : Prop := k' = k ∨ (w.hash k' = w.hash k ∧ w.eq k' k = true)

/-- The items of a dictionary of Python, in order: the keys are hashable, and none finds another. -/
structure IsDict (w : World K) (d : List (K × V)) : Prop where
  distinct : d.Pairwise fun e f => ¬ Finds w e.1 f.1
  hashable : ∀ e ∈ d, w.hash e.1 ≠ none

inductive Err where
  | type
  | key
deriving DecidableEq

inductive Op (K V : Type) where
  | get (k : K)
  | set (k : K) (v : V)
  | del (k : K)

def Op.key : Op K V → K
  | .get k => k
  | .set k _ => k
  | .del k => k

/-- One operation on a dictionary of Python: what it gives, and the items afterwards. -/
def PyStep (w : World K) (d : List (K × V)) (o : Op K V) (obs : Except Err (Option V)) (d' : List (K × V)) : Prop :=
  (w.hash o.key = none ∧ obs = .error .type ∧ d' = d) ∨
  (w.hash o.key ≠ none ∧ match o with
    | .get k => d' = d ∧ ((∃ e ∈ d, Finds w e.1 k ∧ obs = .ok (some e.2)) ∨ ((∀ e ∈ d, ¬ Finds w e.1 k) ∧ obs = .error .key))
    | .set k v => obs = .ok none ∧
        ((∃ l k' v' r, d = l ++ (k', v') :: r ∧ Finds w k' k ∧ d' = l ++ (k', v) :: r) ∨ ((∀ e ∈ d, ¬ Finds w e.1 k) ∧ d' = d ++ [(k, v)]))
    | .del k => (∃ l k' v' r, d = l ++ (k', v') :: r ∧ Finds w k' k ∧ d' = l ++ r ∧ obs = .ok none) ∨
        ((∀ e ∈ d, ¬ Finds w e.1 k) ∧ obs = .error .key ∧ d' = d))

inductive PyRuns (w : World K) : List (K × V) → List (Op K V) → List (Except Err (Option V)) → List (K × V) → Prop where
  | nil (d) : PyRuns w d [] [] d
  | cons {d d' d'' o os r rs} : PyStep w d o r d' → PyRuns w d' os rs d'' → PyRuns w d (o :: os) (r :: rs) d''

/-- `a == b` for dictionaries of Python; values are compared by identity first. -/
def PyEq (w : World K) (veq : V → V → Bool) (a b : List (K × V)) : Prop :=
  a.length = b.length ∧ ∀ e ∈ a, ∃ f ∈ b, Finds w f.1 e.1 ∧ (e.2 = f.2 ∨ veq e.2 f.2 = true)

/-- The elements that the set of Python made from `seq` has: no two are the same, and each of `seq` is there. -/
def IsSetOf (w : World K) (seq items : List K) : Prop :=
  items.Sublist seq ∧ items.Pairwise (fun a b => ¬ Finds w a b) ∧ ∀ x ∈ seq, ∃ y ∈ items, Finds w y x

end Verif.Keys
