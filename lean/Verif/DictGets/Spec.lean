/-
Python's `dict.get`.
-/
namespace Verif.DictGets

/-- An object used as a key: its identity, its hash (`none`: it has none), and whether it is an `int`, `float` or `str`. -/
structure Key where
  id : Nat
  hash : Option Nat
  plain : Bool
  deriving DecidableEq

/-- What a call does: it raises `TypeError` or returns a value. -/
inductive Result (V : Type)
  | typeError | value (v : V)
  deriving DecidableEq

/-- A key of the dictionary is found for another key: the hashes are the same, and they are one object or `==` holds. -/
def Found (eq : Key → Key → Bool) (k key : Key) : Prop := k.hash = key.hash ∧ (k.id = key.id ∨ eq k key = true)

/-- What `dict.get(d, key, default)` may do, for the entries of `d`; the order of the search is left open. The default is not accepted as a keyword. -/
inductive PyGet {V : Type} (eq : Key → Key → Bool) (entries : List (Key × V)) (key : Key) (default : V) : (keyword : Bool) → Result V → Prop
  | keyword : PyGet eq entries key default true .typeError
  | unhashable : key.hash = none → PyGet eq entries key default false .typeError
  | found (k : Key) (v : V) : key.hash ≠ none → (k, v) ∈ entries → Found eq k key → PyGet eq entries key default false (.value v)
  | missing : key.hash ≠ none → (∀ k v, (k, v) ∈ entries → ¬ Found eq k key) → PyGet eq entries key default false (.value default)

end Verif.DictGets
