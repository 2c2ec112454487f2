/-
What a Python dict does, stated without reference to CrossHair.

Keys are compared with an equality that is an equivalence (Lean's `=`); keys unequal to themselves, such
as NaN, are not covered.
-/
namespace Verif.Maps

variable {K V : Type}

/-- A finite map, seen from outside. -/
abbrev PyMap (K V : Type) := K → Option V

/-- `m[k] = v`. -/
def PyMap.set [DecidableEq K] (m : PyMap K V) (k : K) (v : V) : PyMap K V :=
  fun x => if x = k then some v else m x

/-- `del m[k]`. -/
def PyMap.erase [DecidableEq K] (m : PyMap K V) (k : K) : PyMap K V := fun x => if x = k then none else m x

/-- `l` lists the keys of `m`, each once. -/
def KeysOf (m : PyMap K V) (l : List K) : Prop := l.Nodup ∧ ∀ k, k ∈ l ↔ ∃ v, m k = some v

/-- `l` lists the items of `m`, each once. -/
def ItemsOf (m : PyMap K V) (l : List (K × V)) : Prop :=
  (l.map (·.1)).Nodup ∧ ∀ k v, (k, v) ∈ l ↔ m k = some v

/-- Operations on a dict. -/
inductive Op (K V : Type) where
  | get (k : K)                        -- `d[k]`
  | contains (k : K)                   -- `k in d`
  | set (k : K) (v : V)                -- `d[k] = v`
  | del (k : K)                        -- `del d[k]`
  | len                                -- `len(d)`
  | truth                              -- `bool(d)`
  | keys                               -- `list(d)`
  | items                              -- `list(d.items())`
  | pop (k : K) (dflt : Option V)      -- `d.pop(k)` or `d.pop(k, dflt)`
  | popitem                            -- `d.popitem()`
  | setdefault (k : K) (v : V)         -- `d.setdefault(k, v)`
  | update (l : List (K × V))          -- `d.update(l)`
  | clear                              -- `d.clear()`
  | eq (l : List (K × V))              -- `d == dict(l)`

/-- What an operation shows. -/
inductive Obs (K V : Type) where
  | value (v : V)
  | item (k : K) (v : V)
  | bool (b : Bool)
  | num (n : Int)
  | keys (l : List K)
  | items (l : List (K × V))
  | done
  | keyError
deriving DecidableEq, Repr

/-- One operation on a dict with contents `m`: what may be seen, and the contents afterwards.  The order
in which keys are listed is left open. -/
def MapStep [DecidableEq K] (m : PyMap K V) : Op K V → Obs K V → PyMap K V → Prop
  | .get k, o, m' => m' = m ∧ o = ((m k).map Obs.value).getD .keyError
  | .contains k, o, m' => m' = m ∧ ∃ b, o = .bool b ∧ (b = true ↔ ∃ v, m k = some v)
  | .set k v, o, m' => m' = m.set k v ∧ o = .done
  | .del k, o, m' => if m k = none then m' = m ∧ o = .keyError else m' = m.erase k ∧ o = .done
  | .len, o, m' => m' = m ∧ ∃ l, KeysOf m l ∧ o = .num l.length
  | .truth, o, m' => m' = m ∧ ∃ b, o = .bool b ∧ (b = true ↔ ∃ k v, m k = some v)
  | .keys, o, m' => m' = m ∧ ∃ l, KeysOf m l ∧ o = .keys l
  | .items, o, m' => m' = m ∧ ∃ l, ItemsOf m l ∧ o = .items l
  | .pop k d, o, m' =>
    (∃ v, m k = some v ∧ m' = m.erase k ∧ o = .value v) ∨
    (m k = none ∧ m' = m ∧ o = (d.map Obs.value).getD .keyError)
  | .popitem, o, m' =>
    (∃ k v, m k = some v ∧ m' = m.erase k ∧ o = .item k v) ∨ ((∀ k, m k = none) ∧ m' = m ∧ o = .keyError)
  | .setdefault k v, o, m' =>
    (∃ w, m k = some w ∧ m' = m ∧ o = .value w) ∨ (m k = none ∧ m' = m.set k v ∧ o = .value v)
  | .update l, o, m' => m' = l.foldl (fun m e => m.set e.1 e.2) m ∧ o = .done
  | .clear, o, m' => (m' = fun _ => none) ∧ o = .done
  | .eq l, o, m' => m' = m ∧ ∃ b, o = .bool b ∧ (b = true ↔ ∀ k v, m k = some v ↔ (k, v) ∈ l)

/-- Observations `os` are what a dict with contents `m` shows under `ops`. -/
inductive MapRuns [DecidableEq K] : PyMap K V → List (Op K V) → List (Obs K V) → Prop
  | nil (m) : MapRuns m [] []
  | cons {m m' op ops o os} : MapStep m op o m' → MapRuns m' ops os → MapRuns m (op :: ops) (o :: os)

/-- Arguments given as dicts have distinct keys. -/
def Op.Valid : Op K V → Prop
  | .eq l => (l.map (·.1)).Nodup
  | _ => True

end Verif.Maps
