import Mathlib.Data.Rat.Defs
import Mathlib.Data.List.Nodup
/-
What it means for a value to belong to an annotation, and for the parts of the inputs to be free, without reference to how values are
made.
-/
namespace Verif.Proxies

abbrev Name := List Char

/-- Floating point values; which rationals are representable plays no role here. -/
inductive Fl where
  | nan
  | inf (negative : Bool)
  | fin (q : ℚ)
deriving DecidableEq

/-- Python values. An instance of a class is known by its class and the arguments of its constructor, a function by the values that
its calls return (the last one for ever), a typed dictionary by its keys and values. -/
inductive Val where
  | none
  | bool (b : Bool)
  | int (i : Int)
  | float (f : Fl)
  | complex (re im : Fl)
  | str (s : List Char)
  | bytes (bs : List Nat)
  | member (enum index : Nat)
  | slice (start stop step : Option Int)
  | range (start stop step : Int)
  | tuple (vs : List Val)
  | list (vs : List Val)
  | dict (keys vs : List Val)
  | record (keys : List Name) (vs : List Val)
  | fn (returns : List Val)
  | obj (cls : Nat) (args : List Val)
  | stream (binary : Bool)

/-- The argument of `IO[...]`: the class `str`, the class `bytes`, or the text `"bytes"`. -/
inductive IOArg where
  | str
  | bytes
  | text
deriving DecidableEq

/-- Annotations. An alias stands for what it means after its parameters are replaced. -/
inductive Ann where
  | none
  | bool
  | int
  | float
  | complex
  | str
  | bytes
  | slice
  | range
  | enum (e : Nat)
  | union (ts : List Ann)
  | final (t : Ann)
  | newType (t : Ann)
  | typeAlias (t : Ann)
  /-- A type variable with a bound, without one, and with constraints. -/
  | varBound (t : Ann)
  | varFree
  | varConstrained
  | any
  | noReturn
  /-- `Tuple[t1, ..., tn]`; the empty list is `Tuple[()]`. -/
  | tuple (ts : List Ann)
  /-- `Tuple[t, ...]` -/
  | tupleOf (t : Ann)
  /-- `Tuple` -/
  | bareTuple
  | list (t : Ann)
  | sequence (t : Ann)
  | dict (k v : Ann)
  /-- A typed dictionary: its keys, which of them are required, and the types of the values. -/
  | record (keys : List (Name × Bool)) (ts : List Ann)
  | callable (t : Ann)
  | cls (c : Nat)
  | io (arg : IOArg)

/-- How calling a class ends: an instance, a broken pre- or postcondition, another exception. -/
inductive Built where
  | instance
  | refused
  | raised
deriving DecidableEq

/-- The program under analysis. -/
structure World where
  /-- The number of members of an enumeration. -/
  members : Nat → Nat
  /-- The annotations of the parameters of the constructor. -/
  params : Nat → List Ann
  /-- What the constructor does. -/
  build : Nat → List Val → Built
  /-- The classes that are not abstract among a class and those derived from it. -/
  below : Nat → List Nat
  /-- The annotations of the types that an `object` may have. -/
  known : List Ann
  /-- Equality of keys. -/
  same : Val → Val → Bool
  /-- Python 3.11 or newer. -/
  py311 : Bool

/-- Abstract classes cannot be instantiated. -/
def World.Lawful (W : World) : Prop := ∀ c args, W.build c args = .instance → c ∈ W.below c

/-- No two keys are equal. -/
def World.Different (W : World) (ks : List Val) : Prop := ks.Pairwise fun a b => W.same a b = false

mutual
/-- The value belongs to the annotation. -/
inductive Has (W : World) : Val → Ann → Prop
  | none : Has W .none .none
  | bool (b : Bool) : Has W (.bool b) .bool
  | int (i : Int) : Has W (.int i) .int
  | float (f : Fl) : Has W (.float f) .float
  | complex (a b : Fl) : Has W (.complex a b) .complex
  | str (s : List Char) : Has W (.str s) .str
  | bytes (bs : List Nat) (h : ∀ b ∈ bs, b < 256) : Has W (.bytes bs) .bytes
  | slice (a b c : Option Int) : Has W (.slice a b c) .slice
  | range (a b c : Int) (h : c ≠ 0) : Has W (.range a b c) .range
  | enum (e i : Nat) (h : i < W.members e) : Has W (.member e i) (.enum e)
  | union (v : Val) (t : Ann) (ts : List Ann) (ht : t ∈ ts) (h : Has W v t) : Has W v (.union ts)
  | final (v : Val) (t : Ann) (h : Has W v t) : Has W v (.final t)
  | newType (v : Val) (t : Ann) (h : Has W v t) : Has W v (.newType t)
  | typeAlias (v : Val) (t : Ann) (h : Has W v t) : Has W v (.typeAlias t)
  | varBound (v : Val) (t : Ann) (h : Has W v t) : Has W v (.varBound t)
  | varFree (v : Val) (h : Has W v .any) : Has W v .varFree
  | any (v : Val) (t : Ann) (ht : t ∈ W.known) (h : Has W v t) : Has W v .any
  | tuple (vs : List Val) (ts : List Ann) (h : HasAll W vs ts) : Has W (.tuple vs) (.tuple ts)
  | tupleOf (vs : List Val) (t : Ann) (n : Nat) (h : HasAll W vs (List.replicate n t)) : Has W (.tuple vs) (.tupleOf t)
  | bareTuple (vs : List Val) (n : Nat) (h : HasAll W vs (List.replicate n .any)) : Has W (.tuple vs) .bareTuple
  | list (vs : List Val) (t : Ann) (n : Nat) (h : HasAll W vs (List.replicate n t)) : Has W (.list vs) (.list t)
  | sequenceTuple (vs : List Val) (t : Ann) (n : Nat) (h : HasAll W vs (List.replicate n t)) : Has W (.tuple vs) (.sequence t)
  | sequenceList (vs : List Val) (t : Ann) (n : Nat) (h : HasAll W vs (List.replicate n t)) : Has W (.list vs) (.sequence t)
  | dict (ks vs : List Val) (k v : Ann) (n : Nat) (hk : HasAll W ks (List.replicate n k)) (hv : HasAll W vs (List.replicate n v))
      (hd : W.Different ks) : Has W (.dict ks vs) (.dict k v)
  | record (keys : List (Name × Bool)) (ts : List Ann) (present : List Name) (vs : List Val)
      (h : HasFields W keys ts present vs) : Has W (.record present vs) (.record keys ts)
  | callable (vs : List Val) (t : Ann) (n : Nat) (h : HasAll W vs (List.replicate (n + 1) t)) : Has W (.fn vs) (.callable t)
  | cls (c d : Nat) (args : List Val) (hc : c ∈ W.below d) (h : HasAll W args (W.params c)) (hb : W.build c args = .instance) :
      Has W (.obj c args) (.cls d)
  | ioBytes : Has W (.stream true) (.io .bytes)
  | ioStr : Has W (.stream false) (.io .str)
  | ioText : Has W (.stream true) (.io .text)
/-- Each value belongs to its annotation. -/
inductive HasAll (W : World) : List Val → List Ann → Prop
  | nil : HasAll W [] []
  | cons (v : Val) (t : Ann) (vs : List Val) (ts : List Ann) (h : Has W v t) (hs : HasAll W vs ts) : HasAll W (v :: vs) (t :: ts)
/-- The entries of a typed dictionary: each key has a value of its type, or is absent and not required. -/
inductive HasFields (W : World) : List (Name × Bool) → List Ann → List Name → List Val → Prop
  | empty : HasFields W [] [] [] []
  | present (k : Name) (required : Bool) (t : Ann) (v : Val) (keys : List (Name × Bool)) (ts : List Ann) (ks : List Name)
      (vs : List Val) (h : Has W v t) (hs : HasFields W keys ts ks vs) :
      HasFields W ((k, required) :: keys) (t :: ts) (k :: ks) (v :: vs)
  | absent (k : Name) (t : Ann) (keys : List (Name × Bool)) (ts : List Ann) (ks : List Name) (vs : List Val)
      (hs : HasFields W keys ts ks vs) : HasFields W ((k, false) :: keys) (t :: ts) ks vs
end

mutual
/-- The annotation has no part for which made values may fall outside it: no `IO[bytes]` and, on Python 3.11 or newer, no
`Tuple[()]`. -/
def Ann.sound (py311 : Bool) : Ann → Bool
  | .union ts => soundAll py311 ts
  | .final t | .newType t | .typeAlias t | .varBound t | .tupleOf t | .list t | .sequence t | .callable t => t.sound py311
  | .tuple ts => (! py311 || ! ts.isEmpty) && soundAll py311 ts
  | .dict k v => k.sound py311 && v.sound py311
  | .record _ ts => soundAll py311 ts
  | .io a => a == .str
  | _ => true
def soundAll (py311 : Bool) : List Ann → Bool
  | [] => true
  | t :: ts => t.sound py311 && soundAll py311 ts
end

/-- A class, possibly behind other names. -/
def Ann.classLike : Ann → Bool
  | .cls _ => true
  | .newType t | .typeAlias t | .varBound t => t.classLike
  | _ => false

mutual
/-- The annotation has no part of which some values are never made: no `Sequence`, no `IO[bytes]`, and no class as the type of an entry of a
typed dictionary. -/
def Ann.whole : Ann → Bool
  | .union ts | .tuple ts => wholeAll ts
  | .final t | .newType t | .typeAlias t | .varBound t | .tupleOf t | .list t | .callable t => t.whole
  | .sequence _ => false
  | .dict k v => k.whole && v.whole
  | .record keys ts => keys.length == ts.length && ts.all (! ·.classLike) && wholeAll ts
  | .io a => a == .str
  | _ => true
def wholeAll : List Ann → Bool
  | [] => true
  | t :: ts => t.whole && wholeAll ts
end

/-! ### Variables of the solver -/

/-- Sorts of variables of the solver. -/
inductive Sort' where
  | int
  | bool
  | real
  | array
deriving DecidableEq

/-- A variable of the solver: its name and its sort. -/
abbrev Var := Name × Sort'

/-- The variables can take any values independently of each other. -/
def Free (vars : List Var) : Prop :=
  ∀ values : List Int, values.length = vars.length → ∃ I : Var → Int, vars.map I = values

/-- What is made for an annotation in one path, as far as variables are concerned: the number of characters, bytes or digits that were
asked for, the branch taken in a union, the items of a tuple, the entries of a typed dictionary. Instances of classes are left out: the
arguments of their constructors are named like arguments of functions. -/
inductive Thing where
  | none
  | bool
  | int
  | float
  | complex
  | fraction
  | range
  | slice (start stop step : Bool)
  | str (chars : Nat)
  | bytes (n : Nat)
  | stringIO (chars : Nat) (newline : Option Nat)
  | decimal (digits : Nat)
  | timedelta
  | date
  | time
  | datetime
  | list
  | dict
  | set
  | heapDict
  | union (forks : Nat) (t : Thing)
  | tuple (ts : List Thing)
  | record (keys : List Name) (ts : List Thing)

mutual
/-- No key of a typed dictionary begins with another key of the same dictionary. -/
def Thing.KeysApart : Thing → Prop
  | .union _ t => t.KeysApart
  | .tuple ts => Things.KeysApart ts
  | .record keys ts => (keys.Pairwise fun a b => ¬ a <+: b ∧ ¬ b <+: a) ∧ Things.KeysApart ts
  | _ => True
def Things.KeysApart : List Thing → Prop
  | [] => True
  | t :: ts => t.KeysApart ∧ Things.KeysApart ts
end

end Verif.Proxies
