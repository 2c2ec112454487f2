import Verif.Unify.Model

/-! Which values a type has. -/
namespace Verif.Unify

/-- A value: an object with the items that it holds for each type parameter of its class, a tuple, or a function, with
the numbers of arguments that it accepts and what it returned in some calls. -/
inductive Val where
  | obj (c : Nat) (parts : List (List Val))
  | tup (items : List Val)
  | fn (accepts : Nat → Bool) (calls : List (List Val × Val))

def Val.cls (H : Hier) : Val → Nat
  | .obj c _ => c
  | .tup _ => H.tupleC
  | .fn _ _ => H.functionC

/-- What the value holds for each type parameter. -/
def Val.parts : Val → List (List Val)
  | .obj _ ps => ps
  | .tup items => [items]
  | .fn _ _ => []

/-- What type variables stand for. -/
abbrev Env := Nat → Bool → Val → Prop

mutual
/-- The values of a type.  `Any` has every value (`favour = true`) or none (`favour = false`): in the type expected
and the type given, respectively, as is most favourable; and the other way round for the arguments of callables.
Nothing is known about what calling an object of some class gives. -/
def mem (H : Hier) (ρ : Env) (favour : Bool) : Ty → Val → Prop
  | .any, _ => favour = true
  | .var x, v => ρ x favour v
  | .cls c args, v => H.sub (v.cls H) c = true ∧ memParts H ρ favour args v.parts
  | .tuple ts, .tup items => memItems H ρ favour ts items
  | .tuple _, _ => False
  | .tupleVar t, .tup items => ∀ x ∈ items, mem H ρ favour t x
  | .tupleVar _, _ => False
  | .tupleRaw, .tup _ => True
  | .tupleRaw, _ => False
  | .callable _ _, .obj c _ => H.sub c H.callableC = true
  | .callable _ _, .tup _ => False
  | .callable (some args) r, .fn accepts calls =>
    accepts args.length = true ∧ ∀ call ∈ calls, memItems H ρ (!favour) args call.1 → mem H ρ favour r call.2
  | .callable none r, .fn accepts calls =>
    favour = true ∨ ((∀ n, accepts n = true) ∧ ∀ call ∈ calls, mem H ρ favour r call.2)
  | .union ts, v => memUnion H ρ favour ts v
def memParts (H : Hier) (ρ : Env) (favour : Bool) : List Ty → List (List Val) → Prop
  | t :: ts, p :: ps => (∀ x ∈ p, mem H ρ favour t x) ∧ memParts H ρ favour ts ps
  | _, _ => True
def memItems (H : Hier) (ρ : Env) (favour : Bool) : List Ty → List Val → Prop
  | [], [] => True
  | t :: ts, x :: xs => mem H ρ favour t x ∧ memItems H ρ favour ts xs
  | _, _ => False
def memUnion (H : Hier) (ρ : Env) (favour : Bool) : List Ty → Val → Prop
  | [], _ => False
  | t :: ts, v => mem H ρ favour t v ∨ memUnion H ρ favour ts v
end

/-- Every value of the type given is a value of the type expected. -/
def Accepts (H : Hier) (ρ : Env) (value recv : Ty) : Prop := ∀ v, mem H ρ false value v → mem H ρ true recv v

mutual
/-- A condition on a type and all types in it. -/
def Ty.all (p : Ty → Bool) : Ty → Bool
  | .cls c args => p (.cls c args) && allAll p args
  | .tuple ts => p (.tuple ts) && allAll p ts
  | .tupleVar t => p (.tupleVar t) && t.all p
  | .callable (some args) r => p (.callable (some args) r) && (allAll p args && r.all p)
  | .callable none r => p (.callable none r) && r.all p
  | .union ts => p (.union ts) && allAll p ts
  | .any => p .any
  | .var x => p (.var x)
  | .tupleRaw => p .tupleRaw
def allAll (p : Ty → Bool) : List Ty → Bool
  | [] => true
  | t :: ts => t.all p && allAll p ts
end

/-- No type variables. -/
def Ty.notVar : Ty → Bool
  | .var _ => false
  | _ => true

/-- Not a tuple type without fixed length. -/
def Ty.notLong : Ty → Bool
  | .tupleVar _ => false
  | .tupleRaw => false
  | _ => true

mutual
/-- A condition on the types that are, as part of an expected type, expected (`pos = true`), or given to it
(`pos = false`): the arguments of callables are given to the type expected. -/
def Ty.side (p : Ty → Bool) (pos : Bool) : Ty → Bool
  | .cls c args => (!pos || p (.cls c args)) && sideAll p pos args
  | .tuple ts => (!pos || p (.tuple ts)) && sideAll p pos ts
  | .tupleVar t => (!pos || p (.tupleVar t)) && t.side p pos
  | .callable (some args) r => (!pos || p (.callable (some args) r)) && (sideAll p (!pos) args && r.side p pos)
  | .callable none r => (!pos || p (.callable none r)) && r.side p pos
  | .union ts => (!pos || p (.union ts)) && sideAll p pos ts
  | .any => !pos || p .any
  | .var x => !pos || p (.var x)
  | .tupleRaw => !pos || p .tupleRaw
def sideAll (p : Ty → Bool) (pos : Bool) : List Ty → Bool
  | [] => true
  | t :: ts => t.side p pos && sideAll p pos ts
end

def Ty.notUnion : Ty → Bool
  | .union _ => false
  | _ => true

def Ty.notTuple : Ty → Bool
  | .tuple _ => false
  | .tupleVar _ => false
  | .tupleRaw => false
  | _ => true

/-- The classes that occur in types have as many arguments as they have parameters, or none; the classes of tuples
and functions have their own notation. -/
def Ty.proper (H : Hier) : Ty → Bool
  | .cls c args => (args.isEmpty || args.length == H.params c) && !H.sub c H.tupleC && !(H.sub c H.callableC && (H.sub H.functionC c || !args.isEmpty))
  | _ => true

/-- What is needed of the classes. -/
structure Hier.Ok (H : Hier) : Prop where
  refl : ∀ c, H.sub c c = true
  trans : ∀ c d e, H.sub c d = true → H.sub d e = true → H.sub c e = true
  top : ∀ c, H.sub c H.objectC = true
  tupleSequence : H.sub H.tupleC H.sequenceC = true
  sequenceTuple : H.sub H.sequenceC H.tupleC = false
  sequenceCallable : H.sub H.sequenceC H.callableC = false
  sequenceParams : H.params H.sequenceC = 1
  objectTuple : H.sub H.objectC H.tupleC = false
  objectCallable : H.sub H.objectC H.callableC = false
  callableTuple : H.sub H.callableC H.tupleC = false
  tupleParams : ∀ c, H.sub H.tupleC c = true → H.params c ≤ 1
  tupleCallable : H.sub H.tupleC H.callableC = false
  functionCallable : H.sub H.functionC H.callableC = true

end Verif.Unify
