/-
Python's `collections.defaultdict`: only `d[k]` calls the factory.
-/
namespace Verif.DefaultDicts

variable {K V : Type} [DecidableEq K]

/-- A dictionary with a factory: the entries in the order they were made, the factory (which may give another value with each call), and how often
it was called. -/
structure Dict (K V : Type) where
  entries : List (K × V)
  factory : Option (Nat → V)
  calls : Nat

/-- Operations: `d[k]`, `d[k] = v`, `del d[k]`, `k in d`, `d.get(k, v)`, `d.pop(k)`, `d.pop(k, v)`, `d.setdefault(k, v)`, `d.popitem()`, `len(d)`. -/
inductive Op (K V : Type)
  | item (k : K) | set (k : K) (v : V) | del (k : K) | contains (k : K) | get (k : K) (v : V) | pop (k : K) | popDefault (k : K) (v : V)
  | setdefault (k : K) (v : V) | popitem | len

/-- What an operation gives. -/
inductive Res (K V : Type)
  | value (v : V) | bool (b : Bool) | pair (k : K) (v : V) | number (n : Nat) | none | keyError
deriving DecidableEq

/-- The value for a key. -/
def find (l : List (K × V)) (k : K) : Option V := (l.find? fun p => decide (p.1 = k)).map Prod.snd

/-- Entries with a key replaced, or added at the end. -/
def assign : List (K × V) → K → V → List (K × V)
  | [], k, v => [(k, v)]
  | (j, w) :: l, k, v => if j = k then (j, v) :: l else (j, w) :: assign l k v

/-- Entries without a key. -/
def remove (l : List (K × V)) (k : K) : List (K × V) := l.filter fun p => decide (p.1 ≠ k)

/-- Python's operations. -/
def python (d : Dict K V) : Op K V → Dict K V × Res K V
  | .item k => match find d.entries k with
    | some v => (d, .value v)
    | .none => match d.factory with
      | .none => (d, .keyError)
      | some f => ({ d with entries := assign d.entries k (f d.calls), calls := d.calls + 1 }, .value (f d.calls))
  | .set k v => ({ d with entries := assign d.entries k v }, .none)
  | .del k => match find d.entries k with
    | some _ => ({ d with entries := remove d.entries k }, .none)
    | .none => (d, .keyError)
  | .contains k => (d, .bool (find d.entries k).isSome)
  | .get k v => (d, .value ((find d.entries k).getD v))
  | .pop k => match find d.entries k with
    | some v => ({ d with entries := remove d.entries k }, .value v)
    | .none => (d, .keyError)
  | .popDefault k v => match find d.entries k with
    | some w => ({ d with entries := remove d.entries k }, .value w)
    | .none => (d, .value v)
  | .setdefault k v => match find d.entries k with
    | some w => (d, .value w)
    | .none => ({ d with entries := assign d.entries k v }, .value v)
  | .popitem => match d.entries.getLast? with
    | some (k, v) => ({ d with entries := remove d.entries k }, .pair k v)
    | .none => (d, .keyError)
  | .len => (d, .number d.entries.length)

/-- Several operations: what each gives, and the dictionary at the end. -/
def runAll (step : Dict K V → Op K V → Dict K V × Res K V) : Dict K V → List (Op K V) → Dict K V × List (Res K V)
  | d, [] => (d, [])
  | d, op :: ops => ((runAll step (step d op).1 ops).1, (step d op).2 :: (runAll step (step d op).1 ops).2)

end Verif.DefaultDicts
