import Verif.Contract.Model
/-
Specification: what the classes along a line of inheritance say about one method.
-/
namespace Verif.Contract

/-- What a class body says about a name: nothing, something that cannot carry conditions, or a
function with these declared conditions. -/
inductive Says (γ : Type) where
  | nothing
  | hides
  | declares (own : Conds γ)

/-- What the class body of `d` says about `n`. -/
def says {γ : Type} (d : Decl γ) (n : Name) : Says γ :=
  match d.dict.lookup n with
  | none | some .noneValue => .nothing
  | some (.value parsed) =>
      match compositeFn parsed none with
      | none => .hides
      | some own => .declares own

/-- One class on the line: the conditions it declares for the method, if any, and the invariants that
are taken for it. -/
structure Level (γ : Type) where
  own : Option (Conds γ)
  inv : List γ

/-- The postconditions that a class on the line declares. -/
def Level.post {γ : Type} (l : Level γ) : List γ := (l.own.map Conds.post).getD []

/-- The preconditions that a class on the line declares. -/
def Level.pre {γ : Type} (l : Level γ) : List γ := (l.own.map Conds.pre).getD []

/-- The class is an ordinary one: not from the `typing` module, and looked at by at least one parser
(the parser for registered contracts looks at every class, condition_parser.py 1208-1211). -/
def Ordinary {γ : Type} (d : Decl γ) : Prop := d.typing = false ∧ ∃ p ∈ d.parsers, p.1 = true

/-- `b` is the leftmost base that has conditions for `n`. -/
def Leftmost {γ : Type} (n : Name) (bases : List (Cls γ)) (b : Cls γ) : Prop :=
  ∃ before after, bases = before ++ b :: after ∧ (∀ x ∈ before, methodConds x n = none) ∧
    methodConds b n ≠ none

/-- `Line n c levels`: the classes from which `c` draws the conditions of its method `n`, from the most
basic one to `c` itself. -/
inductive Line {γ : Type} (n : Name) : Cls γ → List (Level γ) → Prop where
  /-- The first class to declare the method. -/
  | root {d : Decl γ} {bases : List (Cls γ)} {own : Conds γ} :
      Ordinary d → (∀ b ∈ bases, methodConds b n = none) → says d n = .declares own →
      Line n (.mk d bases) [⟨some own, (classConds (.mk d bases)).inv⟩]
  /-- A class that overrides the method. -/
  | override {d : Decl γ} {bases : List (Cls γ)} {b : Cls γ} {own : Conds γ} {ls : List (Level γ)} :
      Ordinary d → Leftmost n bases b → Line n b ls → says d n = .declares own →
      Line n (.mk d bases) (ls ++ [⟨some own, (classConds (.mk d bases)).inv⟩])
  /-- A class that does not mention the method. -/
  | inherit {d : Decl γ} {bases : List (Cls γ)} {b : Cls γ} {ls : List (Level γ)} :
      Ordinary d → Leftmost n bases b → Line n b ls → says d n = .nothing →
      Line n (.mk d bases) (ls ++ [⟨none, (classConds (.mk d bases)).inv⟩])
  /-- The constructor of a class with invariants, when it has no conditions of its own. -/
  | constructor {d : Decl γ} {bases : List (Cls γ)} :
      Ordinary d → n = "__init__".toList → (classConds (.mk d bases)).inv ≠ [] →
      (says d n = .hides ∨ (says d n = .nothing ∧ ∀ b ∈ bases, methodConds b n = none)) →
      Line n (.mk d bases) [⟨none, (classConds (.mk d bases)).inv⟩]

/-- The invariants of a class on the line that the method `n` may assume on entry. -/
def onEntry {γ : Type} (n : Name) (l : Level γ) : List γ := if (invPlaces n).1 then l.inv else []

/-- The invariants of a class on the line that the method `n` must establish on exit. -/
def onExit {γ : Type} (n : Name) (l : Level γ) : List γ := if (invPlaces n).2 then l.inv else []

/-- Every class in the tree is an ordinary one. -/
inductive AllOrdinary {γ : Type} : Cls γ → Prop where
  | mk {d : Decl γ} {bases : List (Cls γ)} :
      Ordinary d → (∀ b ∈ bases, AllOrdinary b) → AllOrdinary (.mk d bases)

end Verif.Contract
