import Verif.Types.Model

/-! Specification: what users know of classes. -/
namespace Verif.Types

/-- `t` is `base`, or a direct subclass of a class that is below `base`. -/
inductive Below (children : Nat → List Nat) (base : Nat) : Nat → Prop where
  | refl : Below children base base
  | step {s t : Nat} : Below children base s → t ∈ children s → Below children base t

/-- No class is its own subclass: there is a rank that falls from class to subclass. -/
def Acyclic (children : Nat → List Nat) : Prop := ∃ rank : Nat → Nat, ∀ c, ∀ d ∈ children c, rank d < rank c

/-- The repository after types were asked for in some order. -/
def repoAfter (w : World) (history : List Nat) : Repo := history.foldl (getType w) {}

/-- What the solver may believe: an interpretation in which all that it was told is true. -/
def Believes (i : Interp) (r : Repo) : Prop := ∀ f ∈ r.facts, i.holds f

/-- How likely each type is when `choose` takes the forks one by one, each `true` with its probability. -/
def chances : List (Nat × ℚ) → List ℚ
  | [] => []
  | (_, p) :: l => p :: (chances l).map ((1 - p) * ·)

/-- What may be asked of a symbolic type. -/
inductive Question where
  | subclassOf (other : Nat)
  | superclassOf (other : Nat)
  | realize

/-- An answer of Python's `issubclass`. -/
def Maybe.answer : Maybe → Ans Bool
  | .yes => .ok true
  | .no => .ok false
  | .exception => .typeError

/-- What Python answers for the class `t`. -/
def Question.truth (w : World) (t : Nat) : Question → Ans Bool
  | .subclassOf other => (w.issub t other).answer
  | .superclassOf other => (w.issub other t).answer
  | .realize => .ok true

/-- Asking raises `TypeError` only if Python's `issubclass` does, or if a class cannot be compared with one that has a subclass. -/
def Excused (w : World) (t : Nat) (q : Question) : Prop := ∃ other c, q = .subclassOf other ∧ w.issub t c = .yes ∧ w.issub other c = .exception

/-- Ask one question. -/
noncomputable def ask {i : Interp} (w : World) (below : Nat → List Nat) (s : Sym i) : Question → Ans Bool × Sym i
  | .subclassOf other => isSubclassOf w below s other
  | .superclassOf other => isSuperclassOf w below s other
  | .realize =>
    match realize w below s with
    | (.ok _, s) => (.ok true, s)
    | (.typeError, s) => (.typeError, s)
    | (.ignored, s) => (.ignored, s)
    | (.unsupported, s) => (.unsupported, s)

/-- Ask questions, one after the other. -/
noncomputable def askAll {i : Interp} (w : World) (below : Nat → List Nat) : Sym i → List Question → List (Question × Ans Bool) × Sym i
  | s, [] => ([], s)
  | s, q :: qs =>
    let (a, s) := ask w below s q
    let (l, s) := askAll w below s qs
    ((q, a) :: l, s)

end Verif.Types
