import Verif.DictGets.Spec
/-
`_dict_get` (crosshair/libimpl/builtinslib.py 5230-5242) and the lookup of `SimpleDict` (crosshair/simplestructs.py 165-175).
-/
namespace Verif.DictGets

/-- The loop of `SimpleDict.__getitem__` (simplestructs.py 168-175). -/
def search {V : Type} (eq : Key → Key → Bool) (key : Key) (default : V) : List (Key × V) → V
  | [] => default
  | (k, v) :: rest => if k.id = key.id ∨ eq k key = true then v else search eq key default rest

/-- `SimpleDict.get`, from `collections.abc.Mapping`: lookup with a default (simplestructs.py 165-175). -/
def simpleGet {V : Type} (eq : Key → Key → Bool) (contents : List (Key × V)) (key : Key) (default : V) : Result V :=
  if key.hash = none then .typeError else .value (search eq key default contents)

/-- `_dict_get` (builtinslib.py 5230-5242). `items` is what the method `items` of the dictionary gives; `native` is what Python's `dict.get` does with the same arguments, by position. The default has a name, so that it may be given as a keyword too. -/
def get {V : Type} (eq : Key → Key → Bool) (items : List (Key × V)) (key : Key) (default : V) (_keyword : Bool) (native : Result V) : Result V :=
  if key.plain then native else simpleGet eq items key default

end Verif.DictGets
