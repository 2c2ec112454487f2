import Verif.Reflected.Spec
/-
The methods of CrossHair's symbolic values (crosshair/libimpl/builtinslib.py, crosshair/simplestructs.py) when the other operand is a foreign object,
which is not an instance of `Number`, `str`, `Sequence`, `Mapping`, `Set`, of the kinds of bytes, or of `type`.
-/
namespace Verif.Reflected

/-- What is inside of a `ShellMutableSet`: a symbolic set, or any of the other kinds, which it has after changes or when made from items. -/
inductive SetInner
  | symbolic | other
  deriving DecidableEq, Repr

/-- What is inside of a `ShellMutableMap`: a symbolic dictionary, or a `SimpleDict`. -/
inductive MapInner
  | symbolic | simple
  deriving DecidableEq, Repr

/-- Kinds of symbolic values. `simpleDict` are dictionaries whose keys are not numbers (`make_dictionary`, 4662-4677). -/
inductive Kind
  | number | text | list | tuple | bytes | range | frozenset | set (inner : SetInner) | simpleDict | dict (inner : MapInner) (mutated : Bool)
  | type | callable
  deriving DecidableEq, Repr

/-- `object.__ne__`: the opposite of `__eq__`. -/
def invert : Reply → Reply
  | .value v => .value (if v = 0 then 1 else 0)
  | r => r

/-- `__eq__`: numbers 1028-1029 (`numeric_binop_internal` finds no entry, 562-563), text 3926-3927, lists 2669-2671, tuples 3022-3024, bytes
4068-4070, ranges 2595-2597, frozen sets 2036-2039, sets (simplestructs.py 1110-1111; the other kinds have `collections.abc.Set.__eq__`), `SimpleDict`
(simplestructs.py 63-66), dictionaries (simplestructs.py 277-281; 1873-1874), types 392-397, callables 2982-2986. -/
def eqReply : Kind → Reply
  | .number => .notImplemented
  | .text => .notImplemented
  | .list => .value 0
  | .tuple => .value 0
  | .bytes => .value 0
  | .range => .value 0
  | .frozenset => .value 0
  | .set .symbolic => .value 0
  | .set .other => .notImplemented
  | .simpleDict => .notImplemented
  | .dict .symbolic false => .value 0
  | .dict .simple false => .notImplemented
  | .dict _ true => .value 0
  | .type => .value 0
  | .callable => .value 0

/-- `__ne__`: of numbers (1031-1032) and types (399-404) their own; sets ask what is inside (simplestructs.py 1113-1114); others are `object.__ne__`. -/
def neReply : Kind → Reply
  | .number => .notImplemented
  | .type => .value 1
  | k => invert (eqReply k)

/-- `__lt__`, `__le__`, `__gt__`, `__ge__`: numbers 1016-1026, text 3349-3350, lists 2674-2692, tuples 3027-3045, bytes 4162-4163, frozen sets
2137-2143, sets (simplestructs.py 1104-1120; `collections.abc.Set`), types 290-300; ranges, dictionaries and callables have none. -/
def orderReply : Kind → Reply
  | .number => .notImplemented
  | .text => .raises 0
  | .list => .raises 0
  | .tuple => .raises 0
  | .bytes => .raises 0
  | .range => .notImplemented
  | .frozenset => .raises 0
  | .set .symbolic => .raises 0
  | .set .other => .notImplemented
  | .simpleDict => .notImplemented
  | .dict _ _ => .notImplemented
  | .type => .raises 0
  | .callable => .notImplemented

/-- `__add__` and `__radd__`: numbers 1034-1038, text 3965-3973 (3962-3963), lists (simplestructs.py 764-776), tuples 2403-2411, bytes
4313-4320 (4448-4455, 4567-4570; `__radd__` 4190-4197 is given by `raddReply`), frozen sets and types 302-303; the others have none. -/
def addReply : Kind → Reply
  | .number => .notImplemented
  | .text => .raises 0
  | .list => .raises 0
  | .tuple => .notImplemented
  | .bytes => .raises 0
  | .range => .notImplemented
  | .frozenset => .raises 0
  | .set _ => .notImplemented
  | .simpleDict => .notImplemented
  | .dict _ _ => .notImplemented
  | .type => .raises 0
  | .callable => .notImplemented

/-- `__radd__`. -/
def raddReply : Kind → Reply
  | .text => .raises 0
  | .list => .raises 0
  | _ => .notImplemented

/-- The method for an operation with the symbolic value on the left. -/
def own (k : Kind) : Op → Reply
  | .cmp .eq => eqReply k
  | .cmp .ne => neReply k
  | .cmp _ => orderReply k
  | .add => addReply k

/-- The method for an operation with the symbolic value on the right. -/
def mirrored (k : Kind) : Op → Reply
  | .cmp .eq => eqReply k
  | .cmp .ne => neReply k
  | .cmp _ => orderReply k
  | .add => raddReply k

/-- The interpreter: the method of the left operand, then that of the right one, then `False`, `True` or `TypeError`. -/
def interpret (op : Op) (left right : Reply) : Res :=
  match left with
  | .value v => .value v
  | .raises e => .raises e
  | .notImplemented => match right with
    | .value v => .value v
    | .raises e => .raises e
    | .notImplemented => match op with
      | .cmp .eq => .value 0
      | .cmp .ne => .value 1
      | _ => .raises 0

/-- `a op f` for a symbolic value `a`. -/
def symLeft (k : Kind) (op : Op) (f : Foreign) : Res := interpret op (own k op) (f.mirrored op)

/-- `f op a`. -/
def symRight (k : Kind) (op : Op) (f : Foreign) : Res := interpret op (f.own op) (mirrored k op)

end Verif.Reflected
