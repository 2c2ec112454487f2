/-
What the files of tests that `crosshair cover --example_output_format=pytest` writes should be. Stated without the model.
-/
import Mathlib.Data.Nat.Digits.Defs
import Mathlib.Data.List.Infix

namespace Verif.Cover

/-- Text, as characters. -/
abbrev Str := List Char

/-- A name that an example refers to: the module and the qualified name in it. -/
structure Ref where
  mod : Str
  qual : Str
deriving DecidableEq

/-- An exception that an example raised: the name of its class, the module of the class, and the text of the pattern for the message. -/
structure Exc where
  name : Str
  mod : Str
  pattern : Option Str
deriving DecidableEq

/-- An example that was found: the texts of the arguments and the result, the exception, and the names used in the texts. -/
structure Path where
  args : Str
  result : Str
  exc : Option Exc
  refs : List Ref

/-- A function with the examples chosen for it. -/
structure Fn where
  ref : Ref
  paths : List Path

/-- An import statement at the top of a file. -/
inductive Import where
  /-- `import pytest` -/
  | pytest
  /-- `from mod import name` -/
  | fromMod (mod name : Str)
deriving DecidableEq

/-- The first part of a dotted name: what has to be bound for the name to be found. -/
def root (q : Str) : Str := q.takeWhile (· ≠ '.')

def builtinsName : Str := ['b', 'u', 'i', 'l', 't', 'i', 'n', 's']

/-- The module from which a name is bound after import statements: the last one wins. -/
def bound : List Import → Str → Option Str
  | [], _ => none
  | .pytest :: is, n => bound is n
  | .fromMod m x :: is, n => match bound is n with
    | some r => some r
    | none => if x = n then some m else none

/-- In a file with these imports, the first part of the name is that of the module. -/
def Resolves (is : List Import) (r : Ref) : Prop :=
  if r.mod = builtinsName then bound is (root r.qual) = none else bound is (root r.qual) = some r.mod

/-- The decimal digits of a number, as characters. -/
def decimal (n : Nat) : Str := ((Nat.digits 10 n).map fun d => Char.ofNat (48 + d)).reverse

/-- A test, before it is written as text. -/
inductive Body where
  /-- `assert fn(args) == result` -/
  | equal (fn args result : Str)
  /-- `with pytest.raises(exc): fn(args)` -/
  | raises (exc fn args : Str)
  /-- `with pytest.raises(exc, match=pattern): fn(args)` -/
  | raisesMatch (exc pattern fn args : Str)
deriving DecidableEq

structure Test where
  name : Str
  body : Body
deriving DecidableEq

/-- What a call does: it returns a value, given by its text, or raises an exception, given by the names of its class and their bases, and
its message. -/
inductive Outcome where
  | ret (value : Str)
  | raised (classes : List Str) (message : Str)

/-- A test passes, for what calls do (`run fn args`), and what patterns match messages. -/
def Passes (run : Str → Str → Outcome) (fits : Str → Str → Prop) : Body → Prop
  | .equal fn args result => run fn args = .ret result
  | .raises exc fn args => ∃ cs m, run fn args = .raised cs m ∧ exc ∈ cs
  | .raisesMatch exc pattern fn args => ∃ cs m, run fn args = .raised cs m ∧ exc ∈ cs ∧ fits pattern m

/-- A call of the function does what the example says. -/
def AsFound (run : Str → Str → Outcome) (fits : Str → Str → Prop) (fn : Ref) (p : Path) : Prop :=
  match p.exc with
  | none => run fn.qual p.args = .ret p.result
  | some e => ∃ cs m, run fn.qual p.args = .raised cs m ∧ e.name ∈ cs ∧ ∀ pat, e.pattern = some pat → fits pat m

/-- What `crosshair cover` examines: modules with their functions and classes, functions, and classes with their methods. -/
inductive Member (F : Type) where
  | fn (f : F)
  | cls (methods : List F)

inductive Entity (F : Type) where
  | mod (members : List (Member F))
  | member (m : Member F)

/-- The functions of a member, and of an entity. -/
def Member.fns {F : Type} : Member F → List F
  | .fn f => [f]
  | .cls ms => ms

def Entity.fns {F : Type} : Entity F → List F
  | .mod ms => ms.flatMap Member.fns
  | .member m => m.fns

end Verif.Cover
