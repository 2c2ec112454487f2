import Verif.TypedDicts.Spec
/-
`unify` for `TypedDict`s (crosshair/dynamic_typing.py 69-87 and 129-152), and what happens to the bindings of type variables.
-/
namespace Verif.TypedDicts

/-- A `ChainMap`: its maps; writes go to the first one. -/
abbrev Maps := List (List (Nat × Ty))

/-- What `unify` does: true, with the `ChainMap` that was given as it is then, false, or an exception. -/
inductive Res
  | yes (b : Maps) | no | error

/-- `bindings.get(typ, typ)` (97-98). -/
def get (b : Maps) : Ty → Ty
  | .var n => (b.findSome? fun m => m.lookup n).getD (.var n)
  | t => t

/-- `bindings[recv_type] = value_type` (124). -/
def setVar (b : Maps) (n : Nat) (t : Ty) : Maps :=
  match b with
  | [] => [[(n, t)]]
  | m :: ms => ((n, t) :: m) :: ms

/-- `value_types.pop(key, None)`: what remains. -/
def drop (k : Nat) (fs : List (Nat × Ty)) : List (Nat × Ty) := fs.filter fun p => p.1 != k

/-- What the loop of `unify_dicts` does: it goes through, with the fields of the value's type that are left, or ends. -/
inductive Loop
  | through (rest : List (Nat × Ty)) (b : Maps) | no | error

/-- The loop of `unify_dicts` (78-83). -/
def loop (u : Ty → Ty → Maps → Res) : List (Nat × Ty) → List (Nat × Ty) → Maps → Loop
  | vs, [], b => .through vs b
  | vs, (k, t) :: rs, b =>
    match vs.lookup k with
    | none => .no
    | some vt => match u vt t b with
      | .yes b' => loop u (drop k vs) rs b'
      | .no => .no
      | .error => .error

/-- `unify_dicts` (69-87): what was written in the map of the child (`writes`) is put in front. Maps that were put in front of those of the child
meanwhile stay with the child. -/
def unifyDicts (u : Ty → Ty → Maps → Res) (vs rs : List (Nat × Ty)) (b : Maps) : Res :=
  match loop u vs rs ([] :: b) with
  | .through [] b' => .yes ((b'.drop (b'.length - 1 - b.length)).headD [] :: b)
  | .through (_ :: _) _ => .no
  | .no => .no
  | .error => .error

/-- `__required_keys__` is there and not empty. -/
def hasRequired : Ty → Bool
  | .td (_ :: _) _ => true
  | _ => false

/-- `filtered_dict(fields, common_keys)` (138-139, 149-151). -/
def common (fs gs : List (Nat × Ty)) : List (Nat × Ty) := fs.filter fun p => gs.any fun q => p.1 == q.1

/-- `unify` (90-214) for classes, type variables and `TypedDict`s; the number bounds the depth. A class that is no `TypedDict` has no
`__annotations__` (`AttributeError`); `issubclass(…, typed_dict)` is a `TypeError`; a `TypedDict` is a subclass of what `dict` is a subclass of. -/
def unify (H : Hier) : Nat → Ty → Ty → Maps → Res
  | 0, _, _, _ => .no
  | n + 1, v, r, b =>
    match get b r with
    | .var x => .yes (setVar b x (get b v))
    | .con d =>
      match get b v with
      | .con c => if H.sub c d then .yes b else .no
      | .var _ => if H.sub H.object d then .yes b else .no
      | .td vr vo => if hasRequired (.td vr vo) then .no else if H.sub H.dict d then .yes b else .no
    | .td rr ro =>
      match get b v with
      | .td vr vo =>
        if hasRequired (.td rr ro) then
          match unifyDicts (unify H n) vr rr b with
          | .yes b' => unifyDicts (unify H n) (common vo ro) (common ro vo) b'
          | .no => .no
          | .error => .error
        else if hasRequired (.td vr vo) then .no
        else .error
      | _ => .error

end Verif.TypedDicts
