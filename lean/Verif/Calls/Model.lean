import Verif.Calls.Spec
/-
Model of how calls are found on the stack of the interpreter and replaced: `crosshair_tracers_read_call_stack_info`,
`crosshair_tracers_normalize_call_target_impl` and `CTracer_call_trace_op_fast` in /repo/crosshair/_tracers.c, and
`TracingModule.trace_op` in /repo/crosshair/tracers.py.
-/
namespace Verif.Calls

/-- `crosshair_tracers_stack_read_at` (_tracers.c 1035-1044, 1086-1101), counted from the top, from 1; `none` for the `ValueError`. -/
def readAt {α : Type} (st : Stack α) (k : Nat) : Option α := (st[k - 1]?).join

/-- `crosshair_tracers_stack_write_at` (1056-1068, 1113-1130). -/
def writeAt {α : Type} (st : Stack α) (k : Nat) (v : α) : Stack α := st.set (k - 1) (some v)

/-- `CallStackInfo` (1189-1195); a `target` that is `None` stands for `NULL_POINTER`. -/
structure Info (α : Type) where
  fnIdx : Nat
  target : Option α
  kwargsIdx : Option Nat
deriving DecidableEq, Repr

/-- `crosshair_tracers_read_call_stack_info` (1197-1338); `byte` is the argument of the instruction as far as it is in the code unit of
the instruction (1218). The outer result is an error, the inner one the lack of information. `BUILD_TUPLE_UNPACK_WITH_CALL` (3.8) is left
out. -/
def callInfo {α : Type} (v : Version) (op : Opcode) (byte : Nat) (st : Stack α) : Except Unit (Option (Info α)) :=
  match op with
  | .call =>
    match v with
    | .py313 | .py314 =>
      let k := byte + 2
      match readAt st k with
      | some t => .ok (some ⟨k, some t, none⟩)
      | none => .error ()
    | .py311 =>
      let k := byte + 1
      match readAt st (k + 1) with
      | some t => .ok (some ⟨k + 1, some t, none⟩)
      | none =>
        match readAt st k with
        | some t => .ok (some ⟨k, some t, none⟩)
        | none => .error ()
    | .py310 => .ok none
  | .callKw =>
    if v = .py313 ∨ v = .py314 then
      let k := byte + 3
      match readAt st k with
      | some t => .ok (some ⟨k, some t, none⟩)
      | none => .error ()
    else .ok none
  | .callFunction => if v = .py310 then .ok (some ⟨byte + 1, readAt st (byte + 1), none⟩) else .ok none
  | .callFunctionKw => if v = .py310 then .ok (some ⟨byte + 2, readAt st (byte + 2), none⟩) else .ok none
  | .callFunctionEx =>
    let has := byte % 2
    let kw := if has = 1 then some 1 else none
    match v with
    | .py314 => .ok (some ⟨4, readAt st 4, some 1⟩)
    | .py313 => .ok (some ⟨has + 3, readAt st (has + 3), kw⟩)
    | _ => .ok (some ⟨has + 2, readAt st (has + 2), kw⟩)
  | .callMethod =>
    if v = .py310 then
      let k := byte + 2
      match readAt st k with
      | some t => .ok (some ⟨k, some t, none⟩)
      | none =>
        match readAt st (k - 1) with
        | some t => .ok (some ⟨k - 1, some t, none⟩)
        | none => .error ()
    else .ok none

/-- `trace_op` (tracers.py 144-192, _tracers.c 1590-1712): the keywords are renamed by `K`, and the target is replaced by what `H` says,
which is called for `NULL_POINTER`, too, but never replaces it. -/
def traceOp {α : Type} (H : α → Except Unit (Option α)) (K : α → Except Unit α) (v : Version) (op : Opcode) (byte : Nat) (st : Stack α) :
    Except Unit (Stack α) := do
  match ← callInfo v op byte st with
  | none => pure st
  | some info =>
    let st ←
      match info.kwargsIdx with
      | none => pure st
      | some k =>
        match readAt st k with
        | none => pure st
        | some kw => do
          let kw ← K kw
          pure (writeAt st k kw)
    match info.target with
    | none => pure st
    | some t =>
      match ← H t with
      | none => pure st
      | some r => pure (writeAt st info.fnIdx r)

/-- A key of the dictionary of keyword arguments. -/
inductive Key
  | str (s : String)
  | sym (s : String)
  | other
deriving DecidableEq, Repr

/-- Assignment to a key of a dictionary, with insertion order. -/
def put {β : Type} : List (String × β) → String → β → List (String × β)
  | [], k, v => [(k, v)]
  | (k', v') :: r, k, v => if k' = k then (k', v) :: r else (k', v') :: put r k v

/-- The loop over the keyword arguments (tracers.py 165-178); a symbolic key is made concrete. -/
def fixKwargs {β : Type} : List (Key × β) → List (String × β) → Except Unit (List (String × β))
  | [], acc => .ok acc
  | (.str s, v) :: r, acc => fixKwargs r (put acc s v)
  | (.sym s, v) :: r, acc => fixKwargs r (put acc s v)
  | (.other, _) :: _, _ => .error ()

/-! ### The function behind the object -/

/-- `_SELFLESS_CALLABLE_TYPES` (tracers.py 122-128). -/
def Obj.selfless : Obj → Bool
  | .func _ | .cls _ | .descr _ => true
  | _ => false

/-- `_NORMAL_CALLABLE_TYPES` (tracers.py 110-121). -/
def Obj.normal : Obj → Bool
  | .func _ | .cls _ | .descr _ | .native .. | .method .. | .bound .. => true
  | _ => false

/-- `PyObject_GenericGetAttr` of an object of a class: its own attribute, or the attribute of the class, bound to it. Simplification: no
data descriptors, which would be first. -/
def generic (W : World) (i : Nat) (name : String) : Option Obj :=
  match W.dict i name with
  | some o => some o
  | none =>
    match W.attr (W.cls (.inst i)) name with
    | some (.func f) => some (.method (.inst i) (.func f))
    | some (.descr d) => some (.bound (.inst i) name d)
    | o => o

/-- The attribute `__self__`. -/
def selfOf (W : World) : Obj → Option Obj
  | .method s _ => some s
  | .bound s _ _ => some s
  | .native o _ _ => some o
  | .inst i => generic W i "__self__"
  | _ => none

/-- The attribute `__func__`. -/
def funcOf (W : World) : Obj → Option Obj
  | .method _ f => some f
  | .inst i => generic W i "__func__"
  | _ => none

/-- The attribute `__call__` of objects of other types. -/
def callOf (W : World) : Obj → Option Obj
  | .inst i => generic W i "__call__"
  | _ => none

/-- The attribute `__name__`. -/
def nameOf : Obj → Option String
  | .native _ nm _ => some nm
  | .bound _ nm _ => some nm
  | _ => none

/-- `None` means that there is no object. -/
def present : Option Obj → Option Obj
  | some .none => none
  | o => o

/-- `crosshair_tracers_normalize_call_target_impl` (1382-1507): the function, and the object it is bound to. -/
def normalize (W : World) (o : Obj) : Except Unit (Obj × Option Obj) :=
  let self0 := present (if o.selfless then none else selfOf W o)
  let (o1, self1) :=
    match self0 with
    | some s => (o, some s)
    | none =>
      if o.normal then (o, none)
      else
        match callOf W o with
        | some c => (c, present (selfOf W c))
        | none => (o, none)
  match self1 with
  | none => .ok (o1, none)
  | some s =>
    match funcOf W o1 with
    | some f => .ok (f, some s)
    | none =>
      match nameOf o1 with
      | none => .error ()
      | some nm =>
        match W.attr (W.cls s) nm with
        | none => .ok (o1, none)
        | some .none => .ok (o1, none)
        | some t => .ok (t, some s)

/-- The rest of `trace_op` (tracers.py 180-192, _tracers.c 1637-1706): `ov` is `trace_call`, and gives functions written in Python, which
become methods when they are bound; `untracable` are the instances of `Untracable`. -/
def replace (W : World) (ov : Obj → Option Nat) (untracable : Obj → Bool) (o : Obj) : Except Unit (Option Obj) :=
  match normalize W o with
  | .error e => .error e
  | .ok (t, binding) =>
    if untracable t then .ok none
    else
      match ov t with
      | none => .ok none
      | some g =>
        match binding with
        | none => .ok (some (.func g))
        | some s => .ok (some (.method s (.func g)))

end Verif.Calls
