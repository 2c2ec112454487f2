/-!
# Deep copies

Models copyext.py and the functions of the standard library's copy.py that it calls.  Objects live in a heap; an
address, which is a number, is the identity of an object.  An object has a kind, which holds everything about it that is not a
reference, and references to other objects.  Memory is not freed, so an address is never used again; that the memo
keeps its keys alive is modelled to the extent that it is checked.
-/
namespace Verif.Copy

inductive Kind where
  /-- an object of a type that is copied as it is: numbers, strings, functions, classes -/
  | atom (v : Nat)
  /-- a symbolic value, with the value it has when realized -/
  | sym (v : Nat)
  /-- an object that cannot be taken apart, such as a lock or generator: `__reduce_ex__` raises `TypeError` -/
  | locked (v : Nat)
  | tuple
  | list
  /-- a dict; its references are value and key of the first item, value and key of the second, and so on, which is
  the order in which they are copied -/
  | dict
  /-- an instance of a class without special methods, with the names of its attributes -/
  | inst (cls : Nat) (names : List Nat)
  /-- a set -/
  | set
  /-- a bound method; its reference is the object it is bound to -/
  | method (fn : Nat)
  deriving DecidableEq, Repr

structure Obj where
  kind : Kind
  kids : List Nat
  deriving DecidableEq, Repr

/-- copyext.py:31-34 `CopyMode`, and `std` for the standard library's `deepcopy`. -/
inductive Mode where
  | regular
  | bestEffort
  | realize
  | std
  deriving DecidableEq, Repr

/-- The heap, the memo, and the objects that the memo keeps alive. -/
structure St where
  heap : List Obj
  memo : List (Nat × Nat)
  kept : List Nat
  deriving DecidableEq, Repr

inductive Res (α : Type) where
  | ok (v : α) (s : St)
  | typeError (s : St)
  /-- `CrossHairInternal`; also a dangling reference, which Python does not have -/
  | internal
  /-- the model has run out of steps -/
  | outOfFuel
  deriving DecidableEq, Repr

def St.keep (s : St) (a : Nat) : St := { s with kept := a :: s.kept }

def St.memoize (s : St) (a c : Nat) : St := { s with memo := (a, c) :: s.memo }

/-- Make a new object; its address is the length of the heap before. -/
def St.alloc (s : St) (o : Obj) : St := { s with heap := s.heap ++ [o] }

/-- Append a reference to an object. -/
def St.append (s : St) (y c : Nat) : St :=
  { s with heap := s.heap.modify y (fun o => { o with kids := o.kids ++ [c] }) }

mutual
/-- copyext.py:56-100 `deepcopyext`, and copy.py `deepcopy` for mode `std`.  Overrides for mapping proxies and views of
dicts are left out. -/
def copy (mode : Mode) : Nat → Nat → St → Res Nat
  | 0, _, _ => .outOfFuel
  | n + 1, a, s =>
    match s.memo.lookup a with
    | some c => if mode = .std ∨ a ∈ s.kept then .ok c s else .internal
    | none =>
      match construct mode n a (if mode = .std then s else s.keep a) with
      | .ok c s' =>
        if mode = .std then .ok c (if c = a then s' else (s'.memoize a c).keep a)
        else .ok c (s'.memoize a c)
      | .typeError s' =>
        if mode = .regular ∨ mode = .std then .typeError s' else .ok a (s'.memoize a a)
      | .internal => .internal
      | .outOfFuel => .outOfFuel
/-- copyext.py:116-155 `_deepconstruct`; a symbolic value is realized first in mode `realize` (copyext.py:71-76), and
copied by its `__deepcopy__` otherwise. -/
def construct (mode : Mode) : Nat → Nat → St → Res Nat
  | 0, _, _ => .outOfFuel
  | n + 1, a, s =>
    match s.heap[a]? with
    | none => .internal
    | some o =>
      match o.kind with
      | .atom _ => .ok a s
      | .sym v =>
        if mode = .realize then .ok s.heap.length ((s.alloc ⟨.atom v, []⟩).keep s.heap.length)
        else .ok s.heap.length (s.alloc ⟨.sym v, []⟩)
      | .locked _ => .typeError s
      | .tuple =>  -- copy.py `_deepcopy_tuple`
        match copyAll mode n o.kids s with
        | .ok ys s' =>
          match s'.memo.lookup a with
          | some c => .ok c s'
          | none => if ys = o.kids then .ok a s' else .ok s'.heap.length (s'.alloc ⟨.tuple, ys⟩)
        | .typeError s' => .typeError s'
        | .internal => .internal
        | .outOfFuel => .outOfFuel
      | .set =>  -- copy.py `_reconstruct`, with the list of the items as argument of the constructor
        match copyAll mode n o.kids s with
        | .ok ys s' => .ok s'.heap.length ((s'.alloc ⟨.set, ys⟩).memoize a s'.heap.length)
        | .typeError s' => .typeError s'
        | .internal => .internal
        | .outOfFuel => .outOfFuel
      | .method fn =>  -- copy.py `_deepcopy_method`, which uses the standard library's `deepcopy`
        match copyAll .std n o.kids s with
        | .ok ys s' => .ok s'.heap.length (s'.alloc ⟨.method fn, ys⟩)
        | .typeError s' => .typeError s'
        | .internal => .internal
        | .outOfFuel => .outOfFuel
      | kind =>  -- copy.py `_deepcopy_list`, `_deepcopy_dict`, and `_reconstruct` with state
        match fill mode n s.heap.length o.kids ((s.alloc ⟨kind, []⟩).memoize a s.heap.length) with
        | .ok _ s' => .ok s.heap.length s'
        | .typeError s' => .typeError s'
        | .internal => .internal
        | .outOfFuel => .outOfFuel
/-- Copies of the objects in a list. -/
def copyAll (mode : Mode) : Nat → List Nat → St → Res (List Nat)
  | 0, _, _ => .outOfFuel
  | _ + 1, [], s => .ok [] s
  | n + 1, x :: xs, s =>
    match copy mode n x s with
    | .ok c s' =>
      match copyAll mode n xs s' with
      | .ok cs s'' => .ok (c :: cs) s''
      | .typeError s'' => .typeError s''
      | .internal => .internal
      | .outOfFuel => .outOfFuel
    | .typeError s' => .typeError s'
    | .internal => .internal
    | .outOfFuel => .outOfFuel
/-- Copies of the objects in a list are appended to object `y` one by one.  (The state of an instance is copied in
full before any attribute is set; nobody looks at the instance meanwhile.) -/
def fill (mode : Mode) : Nat → Nat → List Nat → St → Res Unit
  | 0, _, _, _ => .outOfFuel
  | _ + 1, _, [], s => .ok () s
  | n + 1, y, x :: xs, s =>
    match copy mode n x s with
    | .ok c s' => fill mode n y xs (s'.append y c)
    | .typeError s' => .typeError s'
    | .internal => .internal
    | .outOfFuel => .outOfFuel
end

/-- core.py:291-293 `deep_realize`, and `deepcopyext` with an empty memo: copy the object at `root`. -/
def deepcopy (mode : Mode) (n : Nat) (heap : List Obj) (root : Nat) : Res Nat :=
  copy mode n root { heap := heap, memo := [], kept := [] }

/-! ## Looking at and changing objects -/

/-- Follow references: the object reached from `a`. -/
def resolve (heap : List Obj) (a : Nat) : List Nat → Option Nat
  | [] => some a
  | i :: path =>
    match heap[a]? with
    | none => none
    | some o =>
      match o.kids[i]? with
      | none => none
      | some b => resolve heap b path

/-- What is seen at the end of a path: the kind of the object and the number of its references. -/
def see (heap : List Obj) (a : Nat) (path : List Nat) : Option (Kind × Nat) :=
  match resolve heap a path with
  | none => none
  | some b => (heap[b]?).map (fun o => (o.kind, o.kids.length))

/-- Objects that can be changed. -/
def Kind.mutable : Kind → Bool
  | .list => true
  | .dict => true
  | .inst _ _ => true
  | .set => true
  | _ => false

/-- What is stored by a change: an object reached by a path, or a new atom. -/
inductive Source where
  | path (p : List Nat)
  | new (v : Nat)
  deriving DecidableEq, Repr

/-- The references of what is stored, and the heap with the new atoms. -/
def sources (root : Nat) : List Source → List Obj → List Nat × List Obj
  | [], heap => ([], heap)
  | .path p :: rest, heap =>
    match resolve heap root p with
    | none => sources root rest heap
    | some b => let r := sources root rest heap; (b :: r.1, r.2)
  | .new v :: rest, heap =>
    let r := sources root rest (heap ++ [⟨.atom v, []⟩])
    (heap.length :: r.1, r.2)

/-- Change the object reached by a path from `root`: replace its references. -/
def write (root : Nat) (path : List Nat) (src : List Source) (heap : List Obj) : List Obj :=
  match resolve heap root path with
  | none => heap
  | some b =>
    match heap[b]? with
    | none => heap
    | some o =>
      if o.kind.mutable then
        let r := sources root src heap
        r.2.modify b (fun o => { o with kids := r.1 })
      else heap

/-- A change of the first or second of two objects. -/
structure Change where
  first : Bool
  path : List Nat
  src : List Source
  deriving DecidableEq, Repr

/-- A sequence of changes of two objects, in any order. -/
def history (r r' : Nat) : List Change → List Obj → List Obj
  | [], heap => heap
  | w :: rest, heap => history r r' rest (write (if w.first then r else r') w.path w.src heap)

end Verif.Copy
