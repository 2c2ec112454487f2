import Verif.DefaultDicts.Spec
/-
`PureDefaultDict` (crosshair/libimpl/collectionslib.py 174-212), a `collections.abc.MutableMapping`: methods that it does not define are those of
`Mapping` and `MutableMapping` in CPython's Lib/_collections_abc.py. The dictionary inside it is Python's.
-/
namespace Verif.DefaultDicts

variable {K V : Type} [DecidableEq K]

/-- `__getitem__` (186-190) with `__missing__` (207-212); `none` is a `KeyError`. -/
def getitem (d : Dict K V) (k : K) : Dict K V × Option V :=
  match find d.entries k with
  | some v => (d, some v)
  | none => match d.factory with
    | none => (d, none)
    | some f => ({ d with entries := assign d.entries k (f d.calls), calls := d.calls + 1 }, some (f d.calls))

/-- `__delitem__` (195-196); `false` is a `KeyError`. -/
def delitem (d : Dict K V) (k : K) : Dict K V × Bool :=
  match find d.entries k with
  | some _ => ({ d with entries := remove d.entries k }, true)
  | none => (d, false)

/-- `Mapping.__contains__`: `try: self[key] except KeyError: return False else: return True`. -/
def contains (d : Dict K V) (k : K) : Dict K V × Res K V :=
  match getitem d k with
  | (d', some _) => (d', .bool true)
  | (d', none) => (d', .bool false)

/-- `Mapping.get`: `try: return self[key] except KeyError: return default`. -/
def get (d : Dict K V) (k : K) (v : V) : Dict K V × Res K V :=
  match getitem d k with
  | (d', some w) => (d', .value w)
  | (d', none) => (d', .value v)

/-- `MutableMapping.pop`: `self[key]`, or the default if there is a `KeyError`; then `del self[key]`. -/
def pop (d : Dict K V) (k : K) (v : Option V) : Dict K V × Res K V :=
  match getitem d k with
  | (d', some w) => ((delitem d' k).1, .value w)
  | (d', none) => match v with
    | some v => (d', .value v)
    | none => (d', .keyError)

/-- `MutableMapping.setdefault`: `try: return self[key] except KeyError: self[key] = default`. -/
def setdefault (d : Dict K V) (k : K) (v : V) : Dict K V × Res K V :=
  match getitem d k with
  | (d', some w) => (d', .value w)
  | (d', none) => ({ d' with entries := assign d'.entries k v }, .value v)

/-- `MutableMapping.popitem`: the first key. -/
def popitem (d : Dict K V) : Dict K V × Res K V :=
  match d.entries with
  | [] => (d, .keyError)
  | (k, _) :: _ => match getitem d k with
    | (d', some w) => ((delitem d' k).1, .pair k w)
    | (d', none) => (d', .keyError)

/-- The operations on a `PureDefaultDict`. -/
def step (d : Dict K V) : Op K V → Dict K V × Res K V
  | .item k => match getitem d k with
    | (d', some v) => (d', .value v)
    | (d', none) => (d', .keyError)
  | .set k v => ({ d with entries := assign d.entries k v }, .none)
  | .del k => match delitem d k with
    | (d', true) => (d', .none)
    | (d', false) => (d', .keyError)
  | .contains k => contains d k
  | .get k v => get d k v
  | .pop k => pop d k none
  | .popDefault k v => pop d k (some v)
  | .setdefault k v => setdefault d k v
  | .popitem => popitem d
  | .len => (d, .number d.entries.length)

end Verif.DefaultDicts
