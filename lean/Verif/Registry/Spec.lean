/-
What a user of registered contracts relies on, function by function: no objects, no lists that can change, no table of all functions.
-/
namespace Verif.Registry

/-- A signature: the parameters (a name, and whether an argument must be given), and whether the result is annotated. -/
structure Sig where
  params : List (Nat × Bool)
  annotated : Bool
deriving DecidableEq, Repr

/-- The parameters that need an argument. -/
def Sig.Needs (s : Sig) (n : Nat) : Prop := (n, true) ∈ s.params
/-- All parameters. -/
def Sig.Has (s : Sig) (n : Nat) : Prop := ∃ b, (n, b) ∈ s.params

/-- What is known of a function. A module is a number; `modName` below gives its name. -/
structure Fn where
  /-- a bound method -/
  bound : Bool := false
  /-- a weak reference -/
  weak : Bool := false
  /-- `__init__`, `__init_subclass__` or `__new__` -/
  special : Bool := false
  /-- the module `inspect.getmodule` finds -/
  module_ : Option Nat := none
  /-- for a method bound to a class (a class method): for each class in the order of resolution, whether its own dictionary has the
  name, and the name of its module -/
  classes : Option (List (Bool × Nat)) := none
  /-- for a method written in C: the name of the module of its class -/
  descriptor : Option Nat := none
  /-- the signature Python gives -/
  ref : Option Sig := none
  /-- the signatures in the stubs -/
  stubs : List Sig := []
deriving DecidableEq, Repr

/-- The functions, the names of the modules, and the signatures of the conditions. -/
structure World where
  fn : Nat → Fn
  modName : Nat → Nat
  cond : Nat → List (Nat × Bool)

/-- A contract, as the user sees it. -/
structure View where
  pre : Option Nat
  post : Option Nat
  skipBody : Bool
  sigs : List Sig
deriving DecidableEq, Repr

/-- A condition asks only for names that are given. -/
def Asks (needs : List (Nat × Bool)) (given : Nat → Prop) : Prop := ∀ n, (n, true) ∈ needs → given n

/-- The names a postcondition may use besides the parameters. -/
def resultName : Nat := 1000000
def oldName : Nat := 1000001

/-- The contract fits the function: every signature of it (and the one Python gives) asks for nothing that Python's one does not have,
and the conditions ask for nothing that the signature does not have. -/
def Fits (w : World) (f : Nat) (c : View) : Prop :=
  ∀ s, (s ∈ c.sigs ∨ (w.fn f).ref = some s) →
    (∀ r, (w.fn f).ref = some r → ∀ n, s.Needs n → r.Has n) ∧
    (∀ p, c.pre = some p → Asks (w.cond p) s.Has) ∧
    (∀ p, c.post = some p → Asks (w.cond p) fun n => s.Has n ∨ n = resultName ∨ n = oldName)

/-- The signatures that a registration means: those given; if none is given and Python's one says nothing about the result, those in
the stubs. Nothing if there is no signature at all. -/
def meant (w : World) (f : Nat) (given : List Sig) : Option (List Sig) :=
  if given ≠ [] then some given
  else match (w.fn f).ref with
    | some r => if r.annotated then some [] else some (w.fn f).stubs
    | none => if (w.fn f).stubs ≠ [] then some (w.fn f).stubs else none

/-- What happens, seen from one function. -/
inductive Event where
  /-- a contract is registered -/
  | register (f : Nat) (pre post : Option Nat) (sigs : List Sig) (skipBody : Bool)
  /-- modules are registered -/
  | modules (ms : List Nat)
  /-- the contract of a function is asked for (this happens whenever it is called) -/
  | lookup (f : Nat)
  /-- all registrations are dropped -/
  | clear
deriving DecidableEq, Repr

/-- The modules registered after the last clear. -/
def registered : List Event → List Nat
  | [] => []
  | .modules ms :: before => ms ++ registered before
  | .clear :: _ => []
  | _ :: before => registered before

/-- The function belongs to one of the modules: a class method to that of the first class that defines it; any other function to its
own module, or to that of its class. -/
def Belongs (w : World) (f : Nat) (ms : List Nat) : Prop :=
  let named (name : Nat) : Prop := ∃ m ∈ ms, w.modName m = name
  match (w.fn f).classes.bind fun cs => cs.find? (·.1) with
  | some c => named c.2
  | none => (∃ m ∈ ms, (w.fn f).module_ = some m) ∨ ∃ name, (w.fn f).descriptor = some name ∧ named name

/-- Two contracts differ at most in their signatures. -/
def View.Alike (a b : View) : Prop := a.pre = b.pre ∧ a.post = b.post ∧ a.skipBody = b.skipBody

/-- Whether registering the contract is accepted if `old` is what the function has. -/
def Accepted (w : World) (f : Nat) (old : Option View) (c : View) : Prop := Fits w f c ∧ ∀ o, old = some o → o.Alike c

/-- What the function has afterwards. -/
def joined (old : Option View) (c : View) : View :=
  match old with
  | some o => { o with sigs := o.sigs ++ c.sigs }
  | none => c

/-- `Holds w f events v`: after the events (the last one first), function `f` has contract `v` (or none). Only what concerns `f`
matters. -/
inductive Holds (w : World) (f : Nat) : List Event → Option View → Prop where
  | start : Holds w f [] none
  | clear {es} : Holds w f (.clear :: es) none
  | modules {es ms v} : Holds w f es v → Holds w f (.modules ms :: es) v
  | otherRegister {es g pre post sigs skip v} : g ≠ f → Holds w f es v → Holds w f (.register g pre post sigs skip :: es) v
  | otherLookup {es g v} : g ≠ f → Holds w f es v → Holds w f (.lookup g :: es) v
  | accepted {es pre post given sigs skip v} : Holds w f es v → (w.fn f).bound = false → meant w f given = some sigs →
      Accepted w f v ⟨pre, post, skip, sigs⟩ →
      Holds w f (.register f pre post given skip :: es) (some (joined v ⟨pre, post, skip, sigs⟩))
  | refused {es pre post given skip v} : Holds w f es v →
      ((w.fn f).bound = true ∨ ∀ sigs, meant w f given = some sigs → ¬Accepted w f v ⟨pre, post, skip, sigs⟩) →
      Holds w f (.register f pre post given skip :: es) v
  | found {es v} : Holds w f es (some v) → Holds w f (.lookup f :: es) (some v)
  | automatic {es sigs} : Holds w f es none → (w.fn f).weak = false → (w.fn f).special = false → Belongs w f (registered es) →
      meant w f [] = some sigs → Fits w f ⟨none, none, true, sigs⟩ →
      Holds w f (.lookup f :: es) (some ⟨none, none, true, sigs⟩)
  | missing {es} : Holds w f es none →
      ((w.fn f).weak = true ∨ (w.fn f).special = true ∨ ¬Belongs w f (registered es) ∨
        ∀ sigs, meant w f [] = some sigs → ¬Fits w f ⟨none, none, true, sigs⟩) →
      Holds w f (.lookup f :: es) none

end Verif.Registry
