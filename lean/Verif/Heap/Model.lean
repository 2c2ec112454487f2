/-
Model of the heaps of /repo/crosshair/statespace.py (789, 1120-1174): objects inside symbolic containers are
references of the solver, and become Python objects when they are looked up.

A path is seen under one interpretation of the solver's constants, so a reference is a number, and
`smt_fork(curref == ref)` is their equality.  An object is an address with contents that may change;
`copy.deepcopy` makes an object with the same contents at a new address (objects inside of objects are
part of the contents).  `unify` of dynamic_typing.py is a parameter.
-/
namespace Verif.Heap

variable {T V : Type}

/-- An item of a heap (789): reference, type, object. -/
structure Entry (T : Type) where
  ref : Nat
  typ : T
  addr : Nat
deriving DecidableEq, Repr

/-- Memory: contents of objects, and the next address that is free. -/
structure Mem (V : Type) where
  get : Nat → V
  next : Nat

/-- Assign new contents. -/
def Mem.set (m : Mem V) (a : Nat) (v : V) : Mem V := ⟨fun b => if b = a then v else m.get b, m.next⟩

/-- A new object. -/
def Mem.alloc (m : Mem V) (v : V) : Nat × Mem V := (m.next, ⟨fun b => if b = m.next then v else m.get b, m.next + 1⟩)

/-- `copy.deepcopy`. -/
def Mem.copy (m : Mem V) (a : Nat) : Nat × Mem V := m.alloc (m.get a)

/-- The heaps (789) and the memory. -/
structure World (T V : Type) where
  heaps : List (List (Entry T))
  mem : Mem V

/-- Copies of all entries, one after the other. -/
def copyHeap (m : Mem V) : List (Entry T) → List (Entry T) × Mem V
  | [] => ([], m)
  | e :: es =>
    let (a, m) := m.copy e.addr
    let (es, m) := copyHeap m es
    (⟨e.ref, e.typ, a⟩ :: es, m)

/-- `current_snapshot` (1120-1121). -/
def World.currentSnapshot (w : World T V) : Int := w.heaps.length - 1

/-- `checkpoint` (1123-1126). -/
def World.checkpoint (w : World T V) : World T V :=
  let (h, m) := copyHeap w.mem (w.heaps.getLast?.getD [])
  ⟨w.heaps ++ [h], m⟩

/-- The loop of `add_value_to_heaps` over all heaps but the last (1130-1131). -/
def addCopies (m : Mem V) (ref : Nat) (typ : T) (value : Nat) : List (List (Entry T)) → List (List (Entry T)) × Mem V
  | [] => ([], m)
  | h :: hs =>
    let (a, m) := m.copy value
    let (hs, m) := addCopies m ref typ value hs
    ((h ++ [⟨ref, typ, a⟩]) :: hs, m)

/-- `add_value_to_heaps` (1128-1132). -/
def World.addValue (w : World T V) (ref : Nat) (typ : T) (value : Nat) : World T V :=
  let (hs, m) := addCopies w.mem ref typ value w.heaps.dropLast
  ⟨hs ++ [w.heaps.getLast?.getD [] ++ [⟨ref, typ, value⟩]], m⟩

/-- `self.heaps[snapshot]`, with Python's negative indices.  (Snapshots are -1 or were `current_snapshot`
once; an index out of range, which would be an `IndexError`, is here an empty heap.) -/
def World.heapAt (w : World T V) (snapshot : Int) : List (Entry T) :=
  let i := if snapshot < 0 then snapshot + w.heaps.length else snapshot
  if 0 ≤ i then w.heaps[i.toNat]?.getD [] else []

/-- The loop of `find_key_in_heap` (1143-1162). -/
def search (unify : T → T → Bool) (ref : Nat) (typ : T) : List (Entry T) → Option Nat
  | [] => none
  | e :: es => if unify e.typ typ = true then if e.ref = ref then some e.addr else search unify ref typ es
    else search unify ref typ es

/-- `find_key_in_heap` (1134-1174): the object, and the new heaps; `v` is the contents of the object that
`proxy_generator` makes if it is needed. -/
def World.find (unify : T → T → Bool) (w : World T V) (ref : Nat) (typ : T) (snapshot : Int) (v : V) :
    Nat × World T V :=
  match search unify ref typ (w.heapAt snapshot) with
  | some a => (a, w)
  | none =>
    let (a, m) := w.mem.alloc v
    (a, World.addValue ⟨w.heaps, m⟩ ref typ a)

/-- The heaps at the beginning of a path (789). -/
def World.start (m : Mem V) : World T V := ⟨[[]], m⟩

/-- `snapshot` of a symbolic value that was just made (builtinslib.py:269). -/
def headSnapshot : Int := -1

/-- `snapshot` of a copy of a symbolic value (`SymbolicValue.__deepcopy__`, builtinslib.py:280-284). -/
def copySnapshot (w : World T V) : Int := w.currentSnapshot

end Verif.Heap
