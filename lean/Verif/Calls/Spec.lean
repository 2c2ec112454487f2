/-
What CPython does at a call instruction, and what it calls. (Nothing here is about CrossHair.)
-/
namespace Verif.Calls

/-- Versions of Python with the same layout: 3.8 to 3.10, 3.11 and 3.12, 3.13, and 3.14 on. -/
inductive Version
  | py310 | py311 | py313 | py314
deriving DecidableEq, Repr

inductive Opcode
  | callFunction | callFunctionKw | callFunctionEx | callMethod | call | callKw
deriving DecidableEq, Repr

/-- The stack of values of the interpreter, its top first; `none` is a null pointer. -/
abbrev Stack (α : Type) := List (Option α)

/-- A call: what is called, the single arguments, other values that belong to the call (the names of keyword arguments, the tuple of a
starred argument), and the dictionary of a doubly starred argument. -/
structure Call (α : Type) where
  fn : α
  args : List α
  extra : List α
  kwargs : Option α
deriving DecidableEq, Repr

/-- `n` arguments from the top of the stack, and the stack below them. -/
def popArgs {α : Type} : Nat → Stack α → Option (List α × Stack α)
  | 0, st => some ([], st)
  | n + 1, some a :: st => (popArgs n st).map fun (as, r) => (as ++ [a], r)
  | _ + 1, _ => none

/-- What is below the arguments: a function; or, a null pointer and a function, or a method and the object; or, a function and the object
or a null pointer. -/
def plain {α : Type} (extra : List α) : List α × Stack α → Option (Call α)
  | (as, some f :: _) => some ⟨f, as, extra, none⟩
  | _ => none

def methodFirst {α : Type} : List α × Stack α → Option (Call α)
  | (as, some f :: none :: _) => some ⟨f, as, [], none⟩
  | (as, some self :: some m :: _) => some ⟨m, self :: as, [], none⟩
  | _ => none

def selfFirst {α : Type} (extra : List α) : List α × Stack α → Option (Call α)
  | (as, none :: some f :: _) => some ⟨f, as, extra, none⟩
  | (as, some self :: some f :: _) => some ⟨f, self :: as, extra, none⟩
  | _ => none

/-- The call that an instruction with argument `n` performs. -/
def interp {α : Type} (v : Version) (op : Opcode) (n : Nat) (st : Stack α) : Option (Call α) :=
  match v, op, st with
  | .py310, .callFunction, st => (popArgs n st).bind (plain [])
  | .py310, .callFunctionKw, some names :: st => (popArgs n st).bind (plain [names])
  | .py310, .callMethod, st => (popArgs n st).bind methodFirst
  | .py311, .call, st => (popArgs n st).bind methodFirst
  | .py313, .call, st => (popArgs n st).bind (selfFirst [])
  | .py314, .call, st => (popArgs n st).bind (selfFirst [])
  | .py313, .callKw, some names :: st => (popArgs n st).bind (selfFirst [names])
  | .py314, .callKw, some names :: st => (popArgs n st).bind (selfFirst [names])
  | .py310, .callFunctionEx, x :: y :: st => starred (n % 2 = 1) x y st
  | .py311, .callFunctionEx, x :: y :: st => starred (n % 2 = 1) x y st
  | .py313, .callFunctionEx, x :: y :: z :: st =>
    if n % 2 = 1 then
      match x, y, z, st with
      | some kw, some tup, none, some f :: _ => some ⟨f, [], [tup], some kw⟩
      | _, _, _, _ => none
    else
      match x, y, z with
      | some tup, none, some f => some ⟨f, [], [tup], none⟩
      | _, _, _ => none
  | .py314, .callFunctionEx, kw :: some tup :: none :: some f :: _ => some ⟨f, [], [tup], kw⟩
  | _, _, _ => none
where
  starred (has : Bool) (x y : Option α) (st : Stack α) : Option (Call α) :=
    if has then
      match x, y, st with
      | some kw, some tup, some f :: _ => some ⟨f, [], [tup], some kw⟩
      | _, _, _ => none
    else
      match x, y with
      | some tup, some f => some ⟨f, [], [tup], none⟩
      | _, _ => none

/-! ### Objects that are called -/

/-- Functions written in Python, classes, methods of built-in classes, functions of modules or class methods that are built in, methods
bound to an object, built-in methods bound to an object, other objects, modules, and `None`. -/
inductive Obj
  | func (n : Nat)
  | cls (n : Nat)
  | descr (n : Nat)
  | native (owner : Obj) (name : String) (n : Nat)
  | method (self fn : Obj)
  | bound (self : Obj) (name : String) (d : Nat)
  | inst (n : Nat)
  | module (n : Nat)
  | none
deriving DecidableEq, Repr

/-- The classes of objects, the attributes of classes (with those of their bases), and the attributes of objects. -/
structure World where
  cls : Obj → Nat
  attr : Nat → String → Option Obj
  dict : Nat → String → Option Obj

/-- What is executed when an object is called, and with which arguments. Simplification: the `__call__` of a class is a function or a
built-in method. -/
def perform (W : World) : Obj → List Obj → Option (Obj × List Obj)
  | .func f, as => some (.func f, as)
  | .cls c, as => some (.cls c, as)
  | .descr d, as => some (.descr d, as)
  | .native o nm n, as => some (.native o nm n, as)
  | .method self fn, as => perform W fn (self :: as)
  | .bound self _ d, as => some (.descr d, self :: as)
  | .inst i, as =>
    match W.attr (W.cls (.inst i)) "__call__" with
    | some (.func f) => some (.func f, .inst i :: as)
    | some (.descr d) => some (.descr d, .inst i :: as)
    | _ => none
  | .module _, _ => none
  | .none, _ => none

end Verif.Calls
