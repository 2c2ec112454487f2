/-! Signatures of constructors: `intersect_signatures` of crosshair/dynamic_typing.py and `get_constructor_signature` of crosshair/core.py. -/
namespace Verif.Sigs

/-- The kinds of parameters of Python's `inspect.Parameter`, in their order. -/
inductive Kind where
  | posOnly
  | posKw
  | varPos
  | kwOnly
  | varKw
deriving DecidableEq

/-- The rank of a kind. -/
def Kind.rank : Kind → Nat
  | .posOnly => 0
  | .posKw => 1
  | .varPos => 2
  | .kwOnly => 3
  | .varKw => 4

/-- A parameter: names and annotations are numbers; of the default it matters whether there is one. -/
structure Param where
  name : Nat
  kind : Kind
  dflt : Bool := false
  ann : Nat := 0
deriving DecidableEq

/-- The checks of Python's `inspect.Signature` (`ValueError` if they fail): kinds in order, and no positional parameter without a default behind
one with a default. `top` is the rank of the last kind, `seen` is whether there was a default. -/
def checkOrder : Nat → Bool → List Param → Bool
  | _, _, [] => true
  | top, seen, p :: ps =>
    if p.kind.rank < top then false
    else if p.kind.rank ≤ 1 then
      if p.dflt then checkOrder p.kind.rank true ps else if seen then false else checkOrder p.kind.rank seen ps
    else checkOrder p.kind.rank seen ps

/-- Python's `inspect.Signature(parameters)`; `none` is `ValueError`. -/
def mkSig (ps : List Param) : Option (List Param) := if checkOrder 0 false ps then some ps else none

/-- dynamic_typing.py:264-282 `isolate_var_params`: parameters of the kind positional-only. -/
def posOnly (s : List Param) : List Param := s.filter (·.kind = .posOnly)

/-- dynamic_typing.py:264-282 `isolate_var_params`: parameters that may be given by keyword. -/
def keyed (s : List Param) : List Param := s.filter fun p => p.kind = .posKw ∨ p.kind = .kwOnly

/-- dynamic_typing.py:264-282 `isolate_var_params`: the parameter `*args`. -/
def varPos (s : List Param) : Option Param := s.find? (·.kind = .varPos)

/-- dynamic_typing.py:264-282 `isolate_var_params`: the parameter `**kwargs`. -/
def varKw (s : List Param) : Option Param := s.find? (·.kind = .varKw)

/-- dynamic_typing.py:303-304 `is_squishy`. -/
def squishy (s : List Param) : Bool := (varPos s).isSome || (varKw s).isSome

/-- `out_params[name] = param` for a dictionary: a key that is there keeps its place. -/
def put : List Param → Param → List Param
  | [], p => [p]
  | q :: qs, p => if q.name = p.name then p :: qs else q :: put qs p

/-- dynamic_typing.py:306-316 what is put for positional-only parameters. `unify` is what `unify` answers for two annotations. -/
def zipPos (unify : Nat → Nat → Bool) (sq1 sq2 : Bool) : List Param → List Param → List Param
  | [], l2 => if sq1 then l2 else []
  | p1 :: l1, [] => if sq2 then p1 :: l1 else []
  | p1 :: l1, p2 :: l2 => (if unify p1.ann p2.ann then p1 else p2) :: zipPos unify sq1 sq2 l1 l2

/-- dynamic_typing.py:317-322 the names of keyword parameters, from both signatures in turn. -/
def interleave : List Nat → List Nat → List Nat
  | [], l2 => l2
  | l1, [] => l1
  | a :: l1, b :: l2 => a :: b :: interleave l1 l2

/-- dynamic_typing.py:323-334 what is put for a name, if anything. -/
def keyParam (unify : Nat → Nat → Bool) (s1 s2 : List Param) (k : Nat) : Option Param :=
  match (keyed s1).find? (·.name = k), (keyed s2).find? (·.name = k) with
  | some p1, none => if squishy s2 then some { p1 with kind := .kwOnly } else none
  | none, some p2 => if squishy s1 then some { p2 with kind := .kwOnly } else none
  | some p1, some p2 => if unify p1.ann p2.ann then some { p1 with kind := .kwOnly } else some { p2 with kind := .kwOnly }
  | none, none => none

/-- dynamic_typing.py:335-338 `*args` and `**kwargs` are kept if both have them. -/
def varParams (s1 s2 : List Param) : List Param :=
  (match varPos s1, varPos s2 with
    | some p, some _ => [p]
    | _, _ => []) ++
  (match varKw s1, varKw s2 with
    | some p, some _ => [p]
    | _, _ => [])

/-- dynamic_typing.py:285-346 `intersect_signatures`, without annotations of returned values. -/
def intersect (unify : Nat → Nat → Bool) (s1 s2 : List Param) : Option (List Param) :=
  mkSig ((zipPos unify (squishy s1) (squishy s2) (posOnly s1) (posOnly s2) ++
    (interleave ((keyed s1).map (·.name)) ((keyed s2).map (·.name))).filterMap (keyParam unify s1 s2) ++ varParams s1 s2).foldl put [])

/-- core.py:457-487 `get_constructor_signature`: `new` and `init` are the signatures of `__new__` and `__init__`, unless they are those of `object`
(or cannot be found). Classes with a `__signature__` are left out. -/
def constructorSig (unify : Nat → Nat → Bool) (new init : Option (List Param)) : Option (List Param) :=
  match new, init with
  | none, none => some []
  | some s, none => mkSig s.tail
  | none, some s => mkSig s.tail
  | some s1, some s2 => (intersect unify s1 s2).bind fun s => mkSig s.tail

end Verif.Sigs
