/-
Model of the dictionaries and sets of /repo/crosshair/simplestructs.py that look for keys without hashing, for keys of any kind. The area
Maps models them for keys with a lawful equality; here identity, equality and hashing are apart.
-/
import Verif.Keys.Spec

namespace Verif.Keys

variable {K V : Type} [DecidableEq K]

/-! ### `SimpleDict` -/

/-- The loop of `SimpleDict.__getitem__` (168-172). -/
def find (w : World K) : List (K × V) → K → Option V
  | [], _ => none
  | (k, v) :: d, key => if k = key ∨ w.eq k key = true then some v else find w d key

/-- `SimpleDict.__getitem__` (165-175); `is_hashable` is util.py 80-81. -/
def getItem (w : World K) (d : List (K × V)) (key : K) : Except Err V :=
  if ¬ w.typeHash key = true then .error .type
  else match find w d key with
    | some v => .ok v
    | none => .error .key

/-- The loop of `SimpleDict.__setitem__` (180-184). -/
def put (w : World K) : List (K × V) → K → V → List (K × V)
  | [], key, value => [(key, value)]
  | (k, v) :: d, key, value => if w.eq k key = true then (k, value) :: d else (k, v) :: put w d key value

/-- `SimpleDict.__setitem__` (177-184). -/
def setItem (w : World K) (d : List (K × V)) (key : K) (value : V) : Except Err (List (K × V)) :=
  if ¬ w.typeHash key = true then .error .type else .ok (put w d key value)

/-- The loop of `SimpleDict.__delitem__` (189-193). -/
def remove (w : World K) : List (K × V) → K → Option (List (K × V))
  | [], _ => none
  | (k, v) :: d, key => if w.eq k key = true then some d else (remove w d key).map ((k, v) :: ·)

/-- `SimpleDict.__delitem__` (186-193). -/
def delItem (w : World K) (d : List (K × V)) (key : K) : Except Err (List (K × V)) :=
  if ¬ w.typeHash key = true then .error .type
  else match remove w d key with
    | some d' => .ok d'
    | none => .error .key

/-- One operation: what it gives, and the contents afterwards. -/
def step (w : World K) (d : List (K × V)) : Op K V → Except Err (Option V) × List (K × V)
  | .get k => match getItem w d k with
    | .ok v => (.ok (some v), d)
    | .error e => (.error e, d)
  | .set k v => match setItem w d k v with
    | .ok d' => (.ok none, d')
    | .error e => (.error e, d)
  | .del k => match delItem w d k with
    | .ok d' => (.ok none, d')
    | .error e => (.error e, d)

def run (w : World K) (d : List (K × V)) : List (Op K V) → List (Except Err (Option V)) × List (K × V)
  | [] => ([], d)
  | o :: os => let (r, d') := step w d o; let (rs, d'') := run w d' os; (r :: rs, d'')

/-! ### `MapBase.__eq__` -/

/-- The inner loop of `MapBase.__eq__` (72-80): `none` if no key is found. `!=` is taken to be the opposite of `==`. -/
def searchEq (w : World K) (veq : V → V → Bool) (k : K) (v : V) : List (K × V) → Bool
  | [] => false
  | (k', v') :: b => if ¬ w.eq k' k = true then searchEq w veq k v b else veq v v'

/-- `MapBase.__eq__` (64-82) for two mappings. -/
def mapEq (w : World K) (veq : V → V → Bool) (a b : List (K × V)) : Bool :=
  if a.length ≠ b.length then false else a.all fun e => searchEq w veq e.1 e.2 b

/-! ### `ShellMutableMap` over a mapping, for hashable keys -/

/-- `ShellMutableMap.__init__` (226-229): `none` among the mutations is `_DELETED`. -/
structure Shell (K V : Type) where
  muts : List (K × Option V)
  inner : List (K × V)
  len : Int

/-- `ShellMutableMap.__getitem__` (237-244), over a `SimpleDict`. -/
def Shell.get (w : World K) (s : Shell K V) (k : K) : Option V :=
  match find w s.muts k with
  | some none => none
  | none => find w s.inner k
  | some (some v) => some v

/-- `ShellMutableMap.__setitem__` (296-299). -/
def Shell.set (w : World K) (s : Shell K V) (k : K) (v : V) : Shell K V :=
  ⟨put w s.muts k (some v), s.inner, if (s.get w k).isNone then s.len + 1 else s.len⟩

/-- `ShellMutableMap.__delitem__` (301-309); `none` is the `KeyError`. -/
def Shell.del (w : World K) (s : Shell K V) (k : K) : Option (Shell K V) :=
  match find w s.muts k with
  | some none => none
  | none => if (find w s.inner k).isNone then none else some ⟨put w s.muts k none, s.inner, s.len - 1⟩
  | some (some _) => some ⟨put w s.muts k none, s.inner, s.len - 1⟩

/-! ### `LinearSet` -/

/-- The loop of `LinearSet.__contains__` (997-1000). -/
def anyEq (w : World K) (x : K) : List K → Bool
  | [] => false
  | item :: items => if w.eq x item = true then true else anyEq w x items

/-- `LinearSet.__contains__` (994-1000). -/
def contains (w : World K) (items : List K) (x : K) : Except Err Bool :=
  if ¬ w.typeHash x = true then .error .type else .ok (anyEq w x items)

/-- `item in accepted` for a list: identity or equality, `PySequence_Contains`. -/
def inList (w : World K) (x : K) (l : List K) : Bool := l.any fun y => decide (y = x) || w.eq y x

/-- The loop of `LinearSet.check_unique_and_create` (987-991). -/
def uniqueFrom (w : World K) (accepted : List K) : List K → Except Err (List K)
  | [] => .ok accepted
  | item :: seq =>
    if ¬ w.typeHash item = true then .error .type
    else if inList w item accepted then uniqueFrom w accepted seq else uniqueFrom w (accepted ++ [item]) seq

/-- `LinearSet.check_unique_and_create` (982-992). -/
def checkUnique (w : World K) (seq : List K) : Except Err (List K) := uniqueFrom w [] seq

end Verif.Keys
