import Verif.Opts.Spec
/-
What is to be checked in a module, a class or a function, stated without reference to CrossHair's code.
-/
namespace Verif.Analyze

/-- Names, as characters. -/
abbrev Name := List Char

/-- The roles of a condition. -/
inductive Role where
  | pre | post | inv
deriving DecidableEq, Repr

/-- A condition: its role, its expression (a number), whether it could be compiled, and the message about its syntax. -/
structure Cond where
  role : Role
  expr : Nat
  compiled : Bool := true
  err : Option Nat := none
deriving DecidableEq, Repr

/-- A condition either compiles or has a message. -/
def Cond.Sound (c : Cond) : Prop := c.compiled = true ∨ c.err ≠ none

/-- Values of options. -/
inductive Val where
  | flag (b : Bool)
  | kinds (l : List Opts.Kind)
  | num (n : Nat)
deriving DecidableEq, Repr

/-- Whether a message is about this contract: about one of its conditions, or about the contract as a whole. -/
def Faulty (pre post : List Cond) (messages : List Nat) (m : Nat) : Prop :=
  (∃ x, (x ∈ pre ∨ x ∈ post) ∧ x.err = some m) ∨ m ∈ messages

/-- Whether there is nothing wrong with the contract. -/
def Wellformed (pre post : List Cond) (messages : List Nat) : Prop := ∀ m, ¬ Faulty pre post messages m

/-- The options in force: those given win over those in the code, which win over the defaults. -/
def InForce (defaults : Opts.Field → Val) (inCode given : Opts.Field → Option Val) (o : Opts.Field → Val) : Prop :=
  ∀ f, Opts.lastSet [some (defaults f), inCode f, given f] = some (o f)

/-- How a function is found in a class. -/
inductive Slot where
  | function | static | classMethod | property | other
deriving DecidableEq, Repr

/-- Whether calling the function needs an instance. -/
def Slot.NeedsInstance : Slot → Prop
  | .static | .classMethod => False
  | _ => True

/-- Whether an order of names is the alphabetical one. -/
def Alphabetical (names : List Name) : Prop := names.Pairwise (fun a b => a < b)

end Verif.Analyze
