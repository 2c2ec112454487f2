import Verif.Lazy.Spec
/-
Model of `SymbolicCallable` and of the copies of `SymbolicObject` in /repo/crosshair/libimpl/builtinslib.py (2867-3010).
-/
namespace Verif.Lazy

inductive Err | assertionError | indexError
deriving DecidableEq, Repr

/-- A `SymbolicCallable` (2974-2977). -/
structure Fn (V : Type) where
  values : List V
  idx : Nat
deriving DecidableEq, Repr

/-- `__init__` (2956-2977); for a symbolic list, too, the assertion fails if it is certainly empty. -/
def Fn.make {V : Type} (values : List V) : Except Err (Fn V) :=
  if values.length > 0 then .ok ⟨values, 0⟩ else .error .assertionError

/-- `__call__` (2994-3000). -/
def Fn.call {V : Type} (f : Fn V) : Except Err (V × Fn V) :=
  if f.idx ≥ f.values.length then
    match f.values.getLast? with
    | some v => .ok (v, f)
    | none => .error .indexError
  else
    match f.values[f.idx]? with
    | some v => .ok (v, { f with idx := f.idx + 1 })
    | none => .error .indexError

/-- The results of `n` calls. -/
def Fn.results {V : Type} (f : Fn V) : Nat → Except Err (List V)
  | 0 => .ok []
  | n + 1 =>
    match f.call with
    | .error e => .error e
    | .ok (v, f') =>
      match f'.results n with
      | .error e => .error e
      | .ok l => .ok (v :: l)

/-- `__copy__` (2979-2980). -/
def Fn.copy {V : Type} (f : Fn V) : Except Err (Fn V) := Fn.make (f.values.drop f.idx)

/-- `__eq__` with another `SymbolicCallable` (2982-2986). -/
def Fn.eq {V : Type} [DecidableEq V] (f g : Fn V) : Bool := f.values.drop f.idx == g.values.drop f.idx

/-- `__repr__` (3005-3010); `atomic` tells instances of `ATOMIC_IMMUTABLE_TYPES` (util.py 467-479), and a value in an f-string is shown by `str`. -/
def Fn.repr {V : Type} (atomic : V → Bool) (str repr : V → String) (f : Fn V) : Shown :=
  match f.values with
  | [v] => if atomic v then .constant (str v) else .popping [repr v]
  | l => .popping (l.map repr)

/-! ### Objects of unknown type -/

/-- A `SymbolicObject`: the object behind it (a place in memory) if its type has been decided (objectproxy.py `_wrapped`). -/
structure Proxy where
  inner : Option Nat
deriving DecidableEq, Repr

/-- What a name refers to: the `SymbolicObject`, or an object in memory. -/
inductive Handle
  | proxy
  | plain (ref : Nat)
deriving DecidableEq, Repr

/-- Memory: objects are lists of integers here. -/
structure World where
  proxy : Proxy
  memory : List (List Int)
deriving DecidableEq, Repr

/-- `_wrapped`: make the object behind the proxy at the first use, with contents `init` (2888-2898). -/
def World.materialize (w : World) (init : List Int) : World × Nat :=
  match w.proxy.inner with
  | some r => (w, r)
  | none => (⟨⟨some w.memory.length⟩, w.memory ++ [init]⟩, w.memory.length)

/-- `__deepcopy__` (2903-2917). -/
def World.deepcopy (w : World) : World × Handle :=
  match w.proxy.inner with
  | none => (w, .proxy)
  | some r => ({ w with memory := w.memory ++ [(w.memory[r]?).getD []] }, .plain w.memory.length)

/-- The program changes the object through the proxy: `x.append(v)`. -/
def World.append (w : World) (init : List Int) (v : Int) : World :=
  let (w, r) := w.materialize init
  { w with memory := w.memory.modify r (· ++ [v]) }

/-- The contents of what a name refers to. -/
def World.contents (w : World) (init : List Int) : Handle → List Int
  | .proxy => let (w, r) := w.materialize init; (w.memory[r]?).getD []
  | .plain r => (w.memory[r]?).getD []

end Verif.Lazy
