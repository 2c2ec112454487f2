/-
The arguments of a call, enumerations, typed dictionaries and immutable values, stated without reference to CrossHair's code.
-/
namespace Verif.Inputs

/-- Names, as characters. -/
abbrev Name := List Char

/-- Kinds of parameters. -/
inductive Kind where
  | positionalOnly | positionalOrKeyword | varPositional | keywordOnly | varKeyword
deriving DecidableEq, Repr

/-- A parameter with its annotation, if any. -/
structure Param (T : Type) where
  name : Name
  kind : Kind
  ann : Option T
deriving DecidableEq, Repr

/-- What a value may be: of the type of the annotation (of any type, if there is none), a list of such, or a dictionary from
strings to such. -/
inductive Shape (T : Type) where
  | one (t : Option T)
  | list (t : Option T)
  | dict (t : Option T)
deriving DecidableEq, Repr

/-- The shape of the argument for a parameter: `*args` collects a list, `**kwargs` a dictionary. -/
inductive ShapeOf {T : Type} (p : Param T) : Shape T → Prop where
  | args : p.kind = .varPositional → ShapeOf p (.list p.ann)
  | kwargs : p.kind = .varKeyword → ShapeOf p (.dict p.ann)
  | other : p.kind ≠ .varPositional → p.kind ≠ .varKeyword → ShapeOf p (.one p.ann)

/-- Python values, as far as it matters for being immutable: numbers, texts and the like; symbolic values, which tell themselves;
lists, dictionaries and sets; instances of ordinary classes, whose attributes can be set; tuples and frozen sets; and
instances of classes with a hash of their own, computed from some parts. -/
inductive Obj where
  | atom
  | symbolic (immutable : Bool)
  | container
  | instance
  | tuple (parts : List Obj)
  | hashed (parts : List Obj)

/-- Whether nothing in a value can change. A class that defines a hash is believed that the parts it uses are all that matters. -/
inductive Immutable : Obj → Prop where
  | atom : Immutable .atom
  | symbolic : Immutable (.symbolic true)
  | tuple {parts : List Obj} : (∀ p ∈ parts, Immutable p) → Immutable (.tuple parts)
  | hashed {parts : List Obj} : (∀ p ∈ parts, Immutable p) → Immutable (.hashed parts)

end Verif.Inputs
