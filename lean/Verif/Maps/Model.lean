import Verif.Maps.Spec
/-
Model of the dictionaries of /repo/crosshair/simplestructs.py: `SimpleDict` (134-218), `ShellMutableMap`
(225-339) and `MapBase` (63-123).  The methods inherited from `collections.abc.MutableMapping` (`get`,
`__contains__`, `setdefault`, `update`, `clear`, `items`) are modelled after CPython's
Lib/_collections_abc.py.

Keys are hashable (the `TypeError` checks are left out).
-/
namespace Verif.Maps

variable {K V W : Type} [DecidableEq K]

/-! ### `SimpleDict`: a list of items -/

/-- `SimpleDict.__getitem__` (simplestructs.py:165-175). -/
def sdGet : List (K × V) → K → Option V
  | [], _ => none
  | (k, v) :: d, key => if k = key then some v else sdGet d key

/-- `SimpleDict.__setitem__` (177-184). -/
def sdSet : List (K × V) → K → V → List (K × V)
  | [], key, value => [(key, value)]
  | (k, v) :: d, key, value => if k = key then (k, value) :: d else (k, v) :: sdSet d key value

/-- `SimpleDict.__delitem__` (186-193); `none` is the `KeyError`. -/
def sdDel : List (K × V) → K → Option (List (K × V))
  | [], _ => none
  | (k, v) :: d, key => if k = key then some d else (sdDel d key).map ((k, v) :: ·)

/-- `SimpleDict.__iter__` and `__reversed__` (195-199). -/
def sdKeys (d : List (K × V)) : List K := d.map (·.1)

/-- `SimpleDict.popitem` (211-215). -/
def sdPopitem (d : List (K × V)) : Option ((K × V) × List (K × V)) := d.getLast?.map fun e => (e, d.dropLast)

/-- `MapBase.__eq__` (64-82): for each item the other mapping is searched for the key. -/
def mapEq [DecidableEq V] (a b : List (K × V)) : Bool :=
  if a.length ≠ b.length then false
  else a.all fun e => ((b.find? fun f => decide (f.1 = e.1)).map fun f => decide (e.2 = f.2)).getD false

/-! ### `ShellMutableMap` -/

/-- `ShellMutableMap.__init__` (226-229): `none` among the mutations is `_DELETED`. -/
structure Shell (K V : Type) where
  muts : List (K × Option V)
  inner : List (K × V)
  len : Int
deriving DecidableEq, Repr

/-- `ShellMutableMap(inner)` (226-229). -/
def Shell.new (inner : List (K × V)) : Shell K V := { muts := [], inner := inner, len := inner.length }

/-- `__getitem__` (237-244); `none` is the `KeyError`.  `__contains__` and `get` come from it. -/
def Shell.get (s : Shell K V) (k : K) : Option V :=
  match sdGet s.muts k with
  | some none => none
  | none => sdGet s.inner k
  | some (some v) => some v

/-- `_reversed` (251-266). -/
def Shell.reversed (s : Shell K V) : List K :=
  let deleted := (s.muts.filter fun e => e.2.isNone).map (·.1)
  ((s.muts.reverse.filter fun e => e.2.isSome).map (·.1)) ++
    (sdKeys s.inner.reverse).filter fun k => !deleted.contains k

/-- `__iter__` (268-276). -/
def Shell.iter (s : Shell K V) : List K :=
  let suppress := sdKeys s.muts
  (sdKeys s.inner).filter (fun k => !suppress.contains k) ++ ((s.muts.filter fun e => e.2.isSome).map (·.1))

/-- `items()`: each key iterated with what `__getitem__` gives. -/
def Shell.items (s : Shell K V) : List (K × V) := s.iter.filterMap fun k => (s.get k).map fun v => (k, v)

/-- `__eq__` (278-288), against a mapping with the given items. -/
def Shell.eq [DecidableEq V] (s : Shell K V) (other : List (K × V)) : Bool :=
  if s.muts.length = 0 then mapEq s.inner other
  else if s.len ≠ other.length then false
  else other.all fun e => decide (s.get e.1 = some e.2)

/-- `__setitem__` (296-299). -/
def Shell.set (s : Shell K V) (k : K) (v : V) : Shell K V :=
  { s with
    len := if (s.get k).isNone then s.len + 1 else s.len
    muts := sdSet s.muts k (some v) }

/-- `__delitem__` (301-309); `none` is the `KeyError`. -/
def Shell.del (s : Shell K V) (k : K) : Option (Shell K V) :=
  match sdGet s.muts k with
  | some none => none
  | none =>
    if (sdGet s.inner k).isNone then none
    else some { s with muts := sdSet s.muts k none, len := s.len - 1 }
  | some (some _) => some { s with muts := sdSet s.muts k none, len := s.len - 1 }

/-- `pop` (314-328): the value, or `none` for the `KeyError`. -/
def Shell.pop (s : Shell K V) (k : K) (dflt : Option V) : Option V × Shell K V :=
  if s.len > 0 then
    match s.get k with
    | some v => (some v, (s.del k).getD s)
    | none => (dflt, s)
  else (dflt, s)

/-- `popitem` (330-335): the first key of `_reversed`. -/
def Shell.popitem (s : Shell K V) : Option ((K × V) × Shell K V) :=
  match s.reversed with
  | [] => none
  | k :: _ => (s.get k).bind fun v => (s.del k).map fun s' => ((k, v), s')

/-- `copy` (337-340): the length is that of the wrapped mapping. -/
def Shell.copy (s : Shell K V) : Shell K V := { Shell.new s.inner with muts := s.muts }

/-- `MutableMapping.update` with items. -/
def Shell.update (s : Shell K V) (l : List (K × V)) : Shell K V := l.foldl (fun s e => s.set e.1 e.2) s

/-- `MutableMapping.clear`: `popitem` until it fails; `fuel` bounds the loop. -/
def Shell.clearLoop : Nat → Shell K V → Shell K V
  | 0, s => s
  | fuel + 1, s => match s.popitem with
    | none => s
    | some (_, s') => Shell.clearLoop fuel s'

/-- `MapBase.__or__`, which is also `__ror__` (109-116). -/
def Shell.or (s : Shell K V) (l : List (K × V)) : Shell K V := s.copy.update l

/-- One operation. -/
def Shell.step [DecidableEq V] (s : Shell K V) : Op K V → Obs K V × Shell K V
  | .get k => (((s.get k).map Obs.value).getD .keyError, s)
  | .contains k => (.bool (s.get k).isSome, s)
  | .set k v => (.done, s.set k v)
  | .del k => ((s.del k).map fun s' => (Obs.done, s')).getD (.keyError, s)
  | .len => (.num s.len, s)
  | .truth => (.bool (decide (s.len > 0)), s)
  | .keys => (.keys s.iter, s)
  | .items => (.items s.items, s)
  | .pop k d => (((s.pop k d).1.map Obs.value).getD .keyError, (s.pop k d).2)
  | .popitem => (s.popitem.map fun r => (Obs.item r.1.1 r.1.2, r.2)).getD (.keyError, s)
  | .setdefault k v => ((s.get k).map fun w => (Obs.value w, s)).getD (.value v, s.set k v)
  | .update l => (.done, s.update l)
  | .clear => (.done, Shell.clearLoop (s.iter.length + 1) s)
  | .eq l => (.bool (s.eq l), s)

/-- A sequence of operations. -/
def Shell.history [DecidableEq V] (s : Shell K V) : List (Op K V) → List (Obs K V)
  | [] => []
  | op :: ops => (s.step op).1 :: (s.step op).2.history ops

/-! ### `SymbolicDict` -/

/-- What `SymbolicDict.__iter__` (libimpl/builtinslib.py:1920-1955) has assumed about the solver's array
when it has yielded exactly these keys: each key is stored over an array that lacks it, and what is left
is the empty array.  (Paths on which that is impossible are abandoned with `IgnoreAttempt`.)  The array is
a map to possibly missing values. -/
def Unrolled : PyMap K V → List K → Prop
  | m, [] => m = fun _ => none
  | m, k :: ks => ∃ v rem, m = PyMap.set rem k v ∧ rem k = none ∧ Unrolled rem ks

end Verif.Maps
