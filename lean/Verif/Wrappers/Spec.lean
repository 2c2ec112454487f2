/-
What Python's documentation says about `itertools`, `functools.lru_cache`, `functools.partial` and augmented assignment.
-/
namespace Verif.Wrappers

/-! ### Functions given as arguments -/

/-- An argument that is meant to be a function: left out, `None`, or a function. -/
inductive Arg (F : Type) where
  | absent
  | pyNone
  | fn (f : F)

/-- Exceptions: a call of something that is not callable, or one from the user's code. -/
inductive Err (E : Type) where
  | notCallable
  | user (e : E)
deriving DecidableEq

/-! ### Groups of equal neighbours -/

/-- Groups of neighbours: together they are the items, none is empty, all items of a group have its key, and neighbouring groups
have different keys. -/
def Groups {A K : Type} (key : A → K) (xs : List A) (groups : List (K × List A)) : Prop :=
  (groups.map Prod.snd).flatten = xs ∧ (∀ g ∈ groups, g.2 ≠ [] ∧ ∀ x ∈ g.2, key x = g.1) ∧
    ∀ i k l k' l', groups[i]? = some (k, l) → groups[i + 1]? = some (k', l') → k ≠ k'

/-- Running totals: the first is the start, each further one is made of the one before and the next item. -/
def Totals {A : Type} (f : A → A → A) (start : A) (xs totals : List A) : Prop :=
  totals.length = xs.length + 1 ∧ totals[0]? = some start ∧
    ∀ i t x, totals[i]? = some t → xs[i]? = some x → totals[i + 1]? = some (f t x)

/-! ### Augmented assignment -/

/-- Objects are places; `env` says which object a variable refers to. -/
structure PyState (Var Heap : Type) where
  env : Var → Nat
  heap : Heap

/-- Statements: `x = y`, and `x op= …`, where the operation gives the place of the result (the same one if it works in place). -/
inductive Stmt (Var Heap : Type) where
  | copy (x y : Var)
  | inplace (x : Var) (op : Nat → Heap → Nat × Heap)

/-- Python's meaning of a statement: only the variable on the left refers to the result. -/
def pyStep {Var Heap : Type} [DecidableEq Var] (st : PyState Var Heap) : Stmt Var Heap → PyState Var Heap
  | .copy x y => { st with env := fun v => if v = x then st.env y else st.env v }
  | .inplace x op => { env := fun v => if v = x then (op (st.env x) st.heap).1 else st.env v, heap := (op (st.env x) st.heap).2 }

/-! ### Keywords -/

/-- Keywords of a call: each at most once; those of the second list replace those of the first. -/
def overlay {K V : Type} [DecidableEq K] (a b : List (K × V)) (k : K) : Option V :=
  match b.lookup k with
  | some v => some v
  | none => a.lookup k

end Verif.Wrappers
