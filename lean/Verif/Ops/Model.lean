/-
Model of /repo/crosshair/opcode_intercept.py: subscripts with symbolic keys, slices of lists, f-strings, comprehensions, `not` and
`is`; and of `smt_fanout` of /repo/crosshair/statespace.py:1181-1232.

Everything is seen under one interpretation of the solver's variables: a symbolic boolean is the truth value that it has there, and a
fork takes the side that agrees.
-/
namespace Verif.Ops

/-! ### `smt_fanout` -/

/-- `attempt` (statespace.py:1215-1230); the first number bounds the recursion. -/
def attempt {α : Type} (exprs : List Bool) (results : List α) : Nat → Nat → Nat → Option α
  | 0, _, _ => none
  | fuel + 1, start, stop =>
    if stop - start = 1 then results[start]?
    else
      let mid := (start + stop) / 2
      if ((exprs.take mid).drop start).any id then attempt exprs results fuel start mid
      else attempt exprs results fuel mid stop

/-- `smt_fanout` with `none_of_the_above_weight` (1181-1232): `some none` is `NONE_OF_THE_ABOVE`. -/
def fanout {α : Type} (options : List (Bool × α)) : Option (Option α) :=
  let exprs := options.map (·.1) ++ [!(options.map (·.1)).any id]
  let results := options.map (fun o => some o.2) ++ [none]
  attempt exprs results exprs.length 0 exprs.length

/-! ### Subscripts -/

/-- A Python object: its identity, its type and its value. -/
structure Obj where
  id : Nat
  ty : Nat
  val : Nat
deriving DecidableEq, Repr

/-- What `key == cur_key` returns: a symbolic boolean, `False`, or `True`. -/
inductive Cmp where
  | sym (b : Bool)
  | no
  | yes
deriving DecidableEq, Repr

/-- What a subscript gives: an object, a symbolic of a type with a value, an `IndexError` or `KeyError`, or `CrossHairInternal`. -/
inductive Res where
  | obj (o : Obj)
  | fresh (ty val : Nat)
  | missing
  | internal
deriving DecidableEq, Repr

/-- `values_by_type[pytype].append(...)`: a `defaultdict(list)` with its order. -/
def addTo {α β : Type} [DecidableEq α] (a : α) (b : β) : List (α × List β) → List (α × List β)
  | [] => [(a, [b])]
  | (a', bs) :: l => if a = a' then (a', bs ++ [b]) :: l else (a', bs) :: addTo a b l

/-- The loop over the entries (opcode_intercept.py:121-140): values that a symbolic can stand for, by type, and other objects with the
keys that lead to them.  `promote` is `_smt_promote_literal` of the symbolic type chosen for a type, by values. -/
def classify {K : Type} (promote : Nat → Nat → Option Nat) :
    List (K × Obj) → List (Nat × List (K × Nat)) → List (Obj × List K) → List (Nat × List (K × Nat)) × List (Obj × List K)
  | [], byType, byId => (byType, byId)
  | (k, o) :: es, byType, byId =>
    match promote o.ty o.val with
    | some w => classify promote es (addTo o.ty (k, w) byType) byId
    | none => classify promote es byType (addTo o k byId)

/-- `conds_and_values` (150-168); `none` is the internal error. -/
def conds {K : Type} (cmp : K → Cmp) : List (K × Nat) → Option (List (Bool × Nat))
  | [] => some []
  | (k, w) :: l => match cmp k with
    | .sym b => (conds cmp l).map ((b, w) :: ·)
    | .no => conds cmp l
    | .yes => none

/-- The chain of `If` (177-179): the last value is the default. -/
def chain (last : Nat) : List (Bool × Nat) → Nat
  | [] => last
  | (b, w) :: l => if b then w else chain last l

/-- The option for one type (169-180). -/
def typeOption (ty : Nat) (cv : List (Bool × Nat)) : List (Bool × Res) :=
  match cv.getLast? with
  | none => []
  | some last => [(cv.any (·.1), .fresh ty (chain last.2 cv.dropLast))]

/-- All of them. -/
def typeOptions {K : Type} (cmp : K → Cmp) : List (Nat × List (K × Nat)) → Option (List (Bool × Res))
  | [] => some []
  | (ty, pairs) :: l => (conds cmp pairs).bind fun cv => (typeOptions cmp l).map (typeOption ty cv ++ ·)

/-- Whether `any([key == k for k in keys_for_value])` is symbolic or concrete, and its value (185-186). -/
def anyMatch {K : Type} (cmp : K → Cmp) (ks : List K) : Cmp :=
  if ks.any fun k => cmp k == .yes then .yes
  else if ks.all fun k => cmp k == .no then .no
  else .sym (ks.any fun k => cmp k == .sym true)

/-- The loop over other objects and the choice (182-201). -/
def idLoop {K : Type} (cmp : K → Cmp) : List (Obj × List K) → List (Bool × Res) → Res
  | [], options =>
    if options.isEmpty then .missing
    else match fanout options with
      | some (some r) => r
      | some none => .missing
      | none => .internal
  | (o, ks) :: l, options =>
    match anyMatch cmp ks with
    | .sym b => idLoop cmp l (options ++ [(b, .obj o)])
    | .yes => .obj o
    | .no => idLoop cmp l options

/-- `MultiSubscriptableContainer.__getitem__` (107-201), given the pairs of keys and values. -/
def getitem {K : Type} (promote : Nat → Nat → Option Nat) (cmp : K → Cmp) (entries : List (K × Obj)) : Res :=
  let (byType, byId) := classify promote entries [] []
  match typeOptions cmp byType with
  | none => .internal
  | some options => idLoop cmp byId options

/-- `enumerate` from `i`. -/
def numbered (i : Int) : List Obj → List (Int × Obj)
  | [] => []
  | o :: l => (i, o) :: numbered (i + 1) l

/-- `reachable_sequence_pairs` (78-98); what the solver says of `key < 0` and `key >= 0` is given. -/
def pairs (canNeg canNonneg : Bool) (container : List Obj) : List (Int × Obj) :=
  (if !canNeg || canNonneg then numbered 0 container else []) ++
  (if canNeg then numbered (-container.length) container else [])

/-- Symbolic numbers used as keys: integers, and floats that are or are not whole. -/
inductive Num where
  | int (n : Int)
  | float (n : Int)
  | frac
deriving DecidableEq, Repr

/-- `key == i` for such a key and an `int`. -/
def Num.cmp : Num → Int → Cmp
  | .int n, i => .sym (n == i)
  | .float n, i => .sym (n == i)
  | .frac, _ => .sym false

/-- `container[key]` for a list or tuple. -/
def subscriptSeq (promote : Nat → Nat → Option Nat) (canNeg canNonneg : Bool) (key : Num) (container : List Obj) : Res :=
  getitem promote key.cmp (pairs canNeg canNonneg container)

/-! ### Slices -/

/-- `SliceView` over a list of the program (266-274, 290-297; simplestructs.py:617-663): the list is kept by reference. -/
structure View where
  ref : Nat
  start : Nat
  stop : Nat
deriving DecidableEq, Repr

/-- The lists of the program. -/
abbrev Lists := Nat → List Nat

/-- `list(view)`; the bounds are within the list as it was. -/
def View.read (h : Lists) (v : View) : List Nat := ((h v.ref).take v.stop).drop v.start

/-! ### f-strings -/

/-- Strings. -/
abbrev Text := List Nat

/-- An item on the stack: a string, symbolic or not. -/
structure Str where
  symbolic : Bool
  text : Text
deriving DecidableEq, Repr

/-- The opcode BUILD_STRING of CPython: it requires strings that are not symbolic; `none` is a crash.  The top of the stack is the head. -/
def opBuildString (arg : Nat) (s : List Str) : Option (List Str) :=
  if s.length < arg then none
  else if (s.take arg).any (·.symbolic) then none
  else some (⟨false, ((s.take arg).reverse.map (·.text)).flatten⟩ :: s.drop arg)

/-- `BuildStringInterceptor.trace_op`, the opcode, and `post_op` (421-436); `frame_op_arg` (63-64) reads one byte. -/
def buildString (arg : Nat) (s : List Str) : Option (List Str) :=
  let count := arg % 256
  let real := ((s.take count).reverse.map (·.text)).flatten
  let sym := (s.take count).any (·.symbolic)
  match opBuildString arg (List.replicate count ⟨false, []⟩ ++ s.drop count) with
  | none => none
  | some s' => some (⟨sym, real⟩ :: s'.drop 1)

/-- An object that is formatted: what `str`, `repr`, `ascii` and `format` give. -/
structure Fmt where
  symbolicStr : Bool
  str : Text
  repr : Text
  ascii : Text
  format : Text → Option Text

/-- What FORMAT_VALUE does: a result, an exception of `format`, or `SystemError` for a format specification that is no string. -/
inductive FmtRes where
  | ok (t : Text)
  | raised
  | systemError
deriving DecidableEq, Repr

/-- The top of the stack, as FORMAT_VALUE finds it: the value and, if bit 2 of the flags is set, the specification above it. -/
structure FmtStack where
  value : Fmt
  spec : Text

/-- `FormatValueInterceptor` around FORMAT_VALUE (445-464, with 325-339).  `fmtStr` is `str.__format__`, which the opcode uses after a conversion. -/
def formatValue (flags : Nat) (s : FmtStack) : FmtRes :=
  -- `value_idx` (449): only 4 itself looks below the specification
  if flags = 4 then
    match s.value.format s.spec with
    | some t => .ok t
    | none => .raised
  else if flags % 8 < 4 then
    -- there is no specification: the wrapper's method that the opcode calls stashes the text
    if (flags = 0 ∨ flags = 1) ∧ s.value.symbolicStr then .ok s.value.str
    else if flags = 0 then
      match s.value.format [] with
      | some t => .ok t
      | none => .raised
    else if flags = 1 then .ok s.value.str
    else .ok s.value.repr
  else
    -- the wrapper was put in the place of the specification
    .systemError

/-! ### Comprehensions -/

/-- A key or item: its value, and whether its type is one of those that hash natively. -/
structure Key where
  val : Nat
  concrete : Bool
deriving DecidableEq, Repr

/-- Items on the stack. -/
inductive Item where
  | key (k : Key)
  | val (v : Nat)
  | map (native : Bool) (entries : List (Nat × Nat))
  | set (native : Bool) (items : List Nat)
  | dummy
deriving DecidableEq, Repr

/-- Setting an entry: an existing key keeps its place, a new one is the last (`SimpleDict.__setitem__`, simplestructs.py:177-184, and that
of `dict`). -/
def setEntry (k v : Nat) : List (Nat × Nat) → List (Nat × Nat)
  | [] => [(k, v)]
  | (k', v') :: l => if k' = k then (k', v) :: l else (k', v') :: setEntry k v l

/-- MAP_ADD of CPython: the value is on top, the key below it, and the dictionary at `i` from the top after those are popped. -/
def opMapAdd (i : Nat) (s : List Item) : Option (List Item) :=
  match s with
  | .val v :: .key k :: rest => match rest[i - 1]? with
    | some (.map true es) => if i = 0 then none else some (rest.set (i - 1) (.map true (setEntry k.val v es)))
    | _ => none
  | .val _ :: .dummy :: rest => match rest[i - 1]? with
    -- the fake assignment: hashing the key does the real one
    | some (.map true _) => if i = 0 then none else some rest
    | _ => none
  | _ => none

/-- `MapAddInterceptor` around it (472-509). -/
def mapAdd (i : Nat) (s : List Item) : Option (List Item) :=
  match s with
  | .val v :: .key k :: _ => match s[i + 1]? with
    | some (.map native es) =>
      if native && k.concrete then opMapAdd i s
      else
        let new := Item.map false (setEntry k.val v es)
        -- the stack with `{}`, the fake key and the value 1; afterwards the dictionary at `dict_offset + 2` is replaced
        (opMapAdd i (((s.set (i + 1) (.map true [])).set 1 .dummy).set 0 (.val 1))).map fun s' => s'.set (i - 1) new
    | _ => none
  | _ => none

/-- Adding to a set. -/
def addItem (x : Nat) (l : List Nat) : List Nat := if l.contains x then l else l ++ [x]

/-- SET_ADD of CPython. -/
def opSetAdd (i : Nat) (s : List Item) : Option (List Item) :=
  match s with
  | .key k :: rest => match rest[i - 1]? with
    | some (.set true xs) => if i = 0 then none else some (rest.set (i - 1) (.set true (addItem k.val xs)))
    | _ => none
  | _ => none

/-- `SetAddInterceptor` around it (574-604). -/
def setAdd (i : Nat) (s : List Item) : Option (List Item) :=
  match s with
  | .key k :: _ => match s[i]? with
    | some (.set native xs) =>
      if native && k.concrete then opSetAdd i s
      else
        let new := Item.set false (addItem k.val xs)
        (opSetAdd i ((s.set i (.set true [])).set 0 (.key ⟨1, true⟩))).map fun s' => s'.set (i - 1) new
    | _ => none
  | _ => none

/-! ### `not` and `is` -/

/-- Operands: a symbolic boolean (with its value), a boolean, or another object with its identity and truth. -/
inductive Operand where
  | sym (b : Bool)
  | bool (b : Bool)
  | other (id : Nat) (truth : Bool)
deriving DecidableEq, Repr

/-- `NotInterceptor` around UNARY_NOT (545-566, with 342-359): the result, as an operand. -/
def notOp : Operand → Operand
  | .sym b => .sym (!b)
  | .bool b => .bool (!b)
  | .other _ t => .bool (!t)

/-- Realization of a symbolic boolean (`__ch_realize__`). -/
def Operand.realize : Operand → Operand
  | .sym b => .bool b
  | o => o

/-- Whether something is a `bool` or `SymbolicBool`. -/
def Operand.isBool : Operand → Bool
  | .sym _ => true
  | .bool _ => true
  | .other _ _ => false

/-- IS_OP on objects that are not symbolic: booleans are the two objects that there are.  A symbolic boolean is an object of its own. -/
def opIs : Operand → Operand → Bool
  | .bool a, .bool b => a == b
  | .other a _, .other b _ => a == b
  | _, _ => false

/-- `IdentityInterceptor` around IS_OP (614-620). -/
def isOp (arg1 arg2 : Operand) : Bool :=
  let a := match arg1 with
    | .sym _ => if arg2.isBool then arg1.realize else arg1
    | _ => arg1
  let b := match arg2 with
    | .sym _ => if arg1.isBool then arg2.realize else arg2
    | _ => arg2
  opIs a b

end Verif.Ops
