import Verif.Ints.Model
import Verif.Numeric.Python
/-
Model of the way CrossHair combines symbolic numbers with each other and with native numbers.

Sources: /repo/crosshair/libimpl/builtinslib.py (lines 510-1110 and 1280-1760) and
/repo/crosshair/libimpl/mathlib.py.

A symbolic number is represented by the value it has under one interpretation of the solver's
variables.  A fork on a condition is an `if`: the search explores both sides, and a given value
goes to exactly one.  Complex numbers, fractions and decimals as operands are not modelled.
-/
namespace Verif.Numeric

/-- Operands.  `realF` is a `RealBasedSymbolicFloat`, a real of the solver (here: rational);
`precise` a `PreciseIeeeSymbolicFloat`; `finF` and `nonFin` are the wrappers `FiniteFloat` and
`NonFiniteFloat` (builtinslib.py:516-526) that native floats are put into. -/
inductive Val where
  | symBool (b : Bool)
  | symInt (n : Int)
  | realF (q : ℚ)
  | precise (f : Fl)
  | pyBool (b : Bool)
  | pyInt (n : Int)
  | pyFloat (f : Fl)
  | finF (q : ℚ)
  | nonFin (f : Fl)
  deriving DecidableEq

/-- Classes of operands. -/
inductive Cls where
  | symBool | symInt | realF | precise | pyBool | pyInt | pyFloat | finF | nonFin
  deriving DecidableEq

def Val.cls : Val → Cls
  | .symBool _ => .symBool
  | .symInt _ => .symInt
  | .realF _ => .realF
  | .precise _ => .precise
  | .pyBool _ => .pyBool
  | .pyInt _ => .pyInt
  | .pyFloat _ => .pyFloat
  | .finF _ => .finF
  | .nonFin _ => .nonFin

/-- Types that handlers are registered for. -/
inductive Ty where
  | real | number | integral | float | int | bool | complex
  | symBool | symInt | symFloat | realF | numberAble | kinded | finF | nonFin
  deriving DecidableEq

/-- `issubclass` between the classes of operands and the registered types: the bases in
builtinslib.py:516-526, 1006, 1117, 1154, 1222, 1529, 1566, 1672 and Python's numeric tower
(builtinslib.py:490-507). -/
def issub : Cls → Ty → Bool
  | .symBool, t => t ∈ [.symBool, .numberAble, .integral, .real, .number]
  | .symInt, t => t ∈ [.symInt, .numberAble, .integral, .real, .number]
  | .realF, t => t ∈ [.realF, .symFloat, .numberAble, .real, .number]
  | .precise, t => t ∈ [.symFloat, .numberAble, .real, .number]
  | .pyBool, t => t ∈ [.bool, .int, .integral, .real, .number]
  | .pyInt, t => t ∈ [.int, .integral, .real, .number]
  | .pyFloat, t => t ∈ [.float, .real, .number]
  | .finF, t => t ∈ [.finF, .kinded]
  | .nonFin, t => t ∈ [.nonFin, .kinded]

/-- Promotions, in the order of their definition in `setup_binops` (builtinslib.py:718-756,
895-898). -/
inductive Promo where
  /-- `(a: Real, b: float)`: wraps the float (718-721). -/
  | wrap
  /-- `(a: SymbolicBool, b: Number)` (726-728). -/
  | boolToInt
  /-- `(a: SymbolicInt, b: Union[float, FiniteFloat, SymbolicFloat, complex])` (733-735). -/
  | intToFloat
  /-- `(a: int, b: Union[float, FiniteFloat, SymbolicFloat, complex])` (740-741). -/
  | nativeToFloat
  /-- `(a: bool, b: Union[SymbolicInt, SymbolicFloat])` (746-747). -/
  | nativeBool
  /-- `(a: SymbolicInt, b: Number)` for `/` (895-896). -/
  | divToFloat
  deriving DecidableEq

/-- Handlers, in the order of their definition in `setup_binops` (builtinslib.py:752-998). -/
inductive Bin where
  /-- `(a: SymbolicNumberAble, b: complex)` (752-755). -/
  | complex
  /-- `(a: SymbolicFloat, b: KindedFloat)`, comparisons (760-764). -/
  | floatKindCmp
  /-- `(a: SymbolicFloat, b: KindedFloat)`, arithmetic (768-772). -/
  | floatKind
  /-- `(a: KindedFloat, b: SymbolicFloat)`, arithmetic (776-780). -/
  | kindFloat
  /-- `(a: SymbolicFloat, b: SymbolicFloat)`, arithmetic (784-787). -/
  | floats
  /-- `(a: SymbolicFloat, b: SymbolicFloat)`, comparisons (791-793). -/
  | floatsCmp
  /-- `(a: Union[FiniteFloat, RealBasedSymbolicFloat], b: NonFiniteFloat)` (797-798). -/
  | nonFinRight
  /-- `(a: NonFiniteFloat, b: Union[FiniteFloat, RealBasedSymbolicFloat])` (802-803). -/
  | nonFinLeft
  /-- `(a: SymbolicInt, b: SymbolicInt)`, arithmetic (815-817). -/
  | ints
  /-- `(a: SymbolicInt, b: SymbolicInt)`, comparisons (821-823). -/
  | intsCmp
  /-- `(a: SymbolicInt, b: int)`, arithmetic (827-829). -/
  | intNative
  /-- `(a: int, b: SymbolicInt)`, arithmetic (833-835). -/
  | nativeInt
  /-- `(a: SymbolicInt, b: int)`, comparisons (839-841). -/
  | intNativeCmp
  /-- `(a: Integral, b: Integral)`, `|` and `^` (845-848). -/
  | orXor
  /-- `(a: Integral, b: Integral)`, shifts (852-859). -/
  | shift
  /-- `(a: Integral, b: Integral)`, `&` (863-886). -/
  | and
  /-- `(a: Integral, b: Integral)`, `/` (890-891). -/
  | divIndex
  /-- `%` of floats (954-959). -/
  | floatMod
  /-- `//` of floats (963-977). -/
  | floatFloordiv
  /-- `(a: SymbolicBool, b: SymbolicBool)` (980-986). -/
  | bools
  /-- `(a: SymbolicBool, b: bool)` (988-992). -/
  | boolNative
  /-- `(a: bool, b: SymbolicBool)` (994-998). -/
  | nativeBool
  deriving DecidableEq

/-- What an entry of `_BIN_OPS_SEARCH_ORDER` calls. -/
inductive Fn where
  | forward (p : Promo)
  | backward (p : Promo)
  | bin (h : Bin)
  | flipped (h : Bin)
  deriving DecidableEq

structure Entry where
  op : Op
  a : Ty
  b : Ty
  fn : Fn
  deriving DecidableEq

/-- `_FLIPPED_OPS` (builtinslib.py:604-609). -/
def flip : Op → Op
  | .ge => .le
  | .gt => .lt
  | .le => .ge
  | .lt => .gt
  | o => o

/-- `setup_promotion` (builtinslib.py:584-601).  The set of operators is a list here; its order
makes no difference to which entry is found. -/
def setupPromotion (p : Promo) (as bs : List Ty) (ops : List Op) : List Entry :=
  as.flatMap fun a => bs.flatMap fun b => ops.flatMap fun op =>
    [⟨op, a, b, .forward p⟩, ⟨op, b, a, .backward p⟩]

/-- `setup_binop` (builtinslib.py:612-628). -/
def setupBinop (h : Bin) (as bs : List Ty) (ops : List Op) : List Entry :=
  as.flatMap fun a => bs.flatMap fun b => ops.flatMap fun op =>
    if op ∈ [.ge, .gt, .le, .lt] then [⟨op, a, b, .bin h⟩, ⟨flip op, b, a, .flipped h⟩]
    else [⟨op, a, b, .bin h⟩]

/-- `_COMPARISON_OPS` (builtinslib.py:631-638). -/
def cmpOps : List Op := [.eq, .ne, .ge, .gt, .le, .lt]

/-- `_ARITHMETIC_OPS` (builtinslib.py:639-647). -/
def arithOps : List Op := [.add, .sub, .mul, .truediv, .floordiv, .mod, .pow]

/-- `_BITWISE_OPS` (builtinslib.py:648-654). -/
def bitOps : List Op := [.and, .or, .xor, .rshift, .lshift]

/-- The entries that `setup_binops` makes (builtinslib.py:713-998), in order. -/
def searchOrder : List Entry :=
  setupPromotion .wrap [.real] [.float] (arithOps ++ cmpOps) ++
  setupPromotion .boolToInt [.symBool] [.number] (arithOps ++ cmpOps ++ bitOps) ++
  setupPromotion .intToFloat [.symInt] [.float, .finF, .symFloat, .complex] (arithOps ++ cmpOps) ++
  setupPromotion .nativeToFloat [.int] [.float, .finF, .symFloat, .complex] (arithOps ++ cmpOps) ++
  setupPromotion .nativeBool [.bool] [.symInt, .symFloat] (arithOps ++ cmpOps) ++
  setupBinop .complex [.numberAble] [.complex] (arithOps ++ cmpOps ++ bitOps) ++
  setupBinop .floatKindCmp [.symFloat] [.kinded] cmpOps ++
  setupBinop .floatKind [.symFloat] [.kinded] arithOps ++
  setupBinop .kindFloat [.kinded] [.symFloat] arithOps ++
  setupBinop .floats [.symFloat] [.symFloat] arithOps ++
  setupBinop .floatsCmp [.symFloat] [.symFloat] cmpOps ++
  setupBinop .nonFinRight [.finF, .realF] [.nonFin] (arithOps ++ cmpOps) ++
  setupBinop .nonFinLeft [.nonFin] [.finF, .realF] (arithOps ++ cmpOps) ++
  setupBinop .ints [.symInt] [.symInt] arithOps ++
  setupBinop .intsCmp [.symInt] [.symInt] cmpOps ++
  setupBinop .intNative [.symInt] [.int] arithOps ++
  setupBinop .nativeInt [.int] [.symInt] arithOps ++
  setupBinop .intNativeCmp [.symInt] [.int] cmpOps ++
  setupBinop .orXor [.integral] [.integral] [.or, .xor] ++
  setupBinop .shift [.integral] [.integral] [.lshift, .rshift] ++
  setupBinop .and [.integral] [.integral] [.and] ++
  setupBinop .divIndex [.integral] [.integral] [.truediv] ++
  setupPromotion .divToFloat [.symInt] [.number] [.truediv] ++
  setupBinop .floatMod [.nonFin, .finF, .realF] [.nonFin, .finF, .realF] [.mod] ++
  setupBinop .floatFloordiv [.nonFin, .finF, .realF] [.nonFin, .finF, .realF] [.floordiv] ++
  setupBinop .bools [.symBool] [.symBool] [.eq, .ne, .and, .or, .xor] ++
  setupBinop .boolNative [.symBool] [.bool] [.and, .or, .xor] ++
  setupBinop .nativeBool [.bool] [.symBool] [.and, .or, .xor]

/-- The search of `numeric_binop_internal` (builtinslib.py:548-563): the last entry that matches.
The cache `_BIN_OPS` is left out: it holds what the search finds. -/
def lookup (op : Op) (a b : Cls) : Option Fn :=
  (searchOrder.reverse.find? fun e => e.op = op && issub a e.a && issub b e.b).map Entry.fn

/-- What the handlers depend on. -/
structure Env where
  /-- `ModelingDirector.choose(float)` (builtinslib.py:455-459): symbolic floats of this path are
  real-based. -/
  real : Bool
  /-- The number that `z3.RealVal` makes of a native float (builtinslib.py:1685-1688): it reads
  the printed float. -/
  lit : ℚ → ℚ
  /-- Rounding of an exact result to a float. -/
  rnd : ℚ → Fl
  /-- The solver's power of reals. -/
  rpow : ℚ → ℚ → ℚ

/-- CPython's `float(n)` of a native integer: the nearest float, ties to even, and an error if it
is too large. -/
def floatOfInt (n : Int) : Except Err ℚ :=
  let m := n.natAbs
  let u := 2 ^ (Nat.log2 m + 1 - 53)
  let q := m / u
  let r := m % u
  let q' := if 2 * r < u then q else if u < 2 * r then q + 1 else q + q % 2
  let v := q' * u
  if v ≥ 2 ^ 1024 then .error .overflow
  else .ok (if n < 0 then -(v : ℚ) else (v : ℚ))

def b2i (b : Bool) : Int := if b then 1 else 0

/-- `SymbolicInt.__float__` (builtinslib.py:1289-1302). -/
def symIntFloat (E : Env) (n : Int) : Val :=
  if E.real then .realF n else .precise (E.rnd n)

/-- The promotions (see `Promo` for the lines). -/
def promote (E : Env) : Promo → Val → Val → Except Err (Val × Val)
  | .wrap, a, .pyFloat (.fin q) => .ok (a, .finF q)
  | .wrap, a, .pyFloat f => .ok (a, .nonFin f)
  | .boolToInt, .symBool b, y => .ok (.symInt (b2i b), y)
  | .intToFloat, .symInt n, y => .ok (symIntFloat E n, y)
  | .nativeToFloat, .pyInt n, y => do
      let q ← floatOfInt n
      .ok (.pyFloat (.fin q), y)
  | .nativeToFloat, .pyBool b, y => .ok (.pyFloat (.fin (b2i b)), y)
  | .nativeBool, .pyBool b, y => .ok (.pyInt (b2i b), y)
  | .divToFloat, .symInt n, y => .ok (symIntFloat E n, y)
  | _, _, _ => .error .internal

/-- `apply_smt` on integers, arithmetic (builtinslib.py:666-706).  The solver's power of integers
is made an integer by `ToInt`, which rounds down. -/
def smtInt (op : Op) (x y : Int) : Except Err Int :=
  match op with
  | .add => .ok (x + y)
  | .sub => .ok (x - y)
  | .mul => .ok (x * y)
  | .floordiv =>
      if y = 0 then .error .zeroDivision
      else if y ≥ 0 then
        if x ≥ 0 then .ok (x / y) else .ok (-((y - x - 1) / y))
      else
        if x ≥ 0 then .ok (-((x - y - 1) / -y)) else .ok (-x / -y)
  | .mod =>
      if y = 0 then .error .zeroDivision
      else if y ≥ 0 ∨ x % y = 0 then .ok (x % y)
      else .ok (x % y + y)
  | .pow =>
      if x = 0 ∧ y < 0 then .error .zeroDivision
      else .ok ⌊(x : ℚ) ^ y⌋
  | _ => .error .internal

/-- `apply_smt` on integers, comparisons (builtinslib.py:666-706). -/
def smtIntCmp (op : Op) (x y : Int) : Bool :=
  match op with
  | .eq => decide (x = y)
  | .ne => decide (x ≠ y)
  | .ge => decide (x ≥ y)
  | .gt => decide (x > y)
  | .le => decide (x ≤ y)
  | .lt => decide (x < y)
  | _ => false

/-- `apply_smt` on reals, arithmetic (builtinslib.py:666-706); `//` and `%` have handlers of their
own. -/
def smtReal (E : Env) (op : Op) (x y : ℚ) : Except Err ℚ :=
  match op with
  | .add => .ok (x + y)
  | .sub => .ok (x - y)
  | .mul => .ok (x * y)
  | .truediv => if y = 0 then .error .zeroDivision else .ok (x / y)
  | .pow => if x = 0 ∧ y < 0 then .error .zeroDivision else .ok (E.rpow x y)
  | _ => .error .internal

/-- `apply_smt` on reals, comparisons (builtinslib.py:666-706). -/
def smtRealCmp (op : Op) (x y : ℚ) : Bool :=
  match op with
  | .eq => decide (x = y)
  | .ne => decide (x ≠ y)
  | .ge => decide (x ≥ y)
  | .gt => decide (x > y)
  | .le => decide (x ≤ y)
  | .lt => decide (x < y)
  | _ => false

/-- The integer nearest to `q`, ties to even. -/
def nearest (q : ℚ) : Int :=
  let f := ⌊q⌋
  if q - f < 1 / 2 then f else if 1 / 2 < q - f then f + 1 else if f % 2 = 0 then f else f + 1

/-- SMT-LIB's `fp.rem`, to which z3's `%` on floats compiles: the remainder of the quotient rounded
to the nearest integer. -/
def fpRem (E : Env) : Fl → Fl → Fl
  | .fin a, .fin b => if b = 0 then .nan else E.rnd (a - b * nearest (a / b))
  | .fin a, .inf _ => .fin a
  | _, _ => .nan

/-- `apply_smt` on IEEE floats, arithmetic (builtinslib.py:666-706).  `+ - * /` are the solver's
IEEE operations, which Python's are, too. -/
def smtFp (E : Env) (op : Op) (x y : Fl) : Except Err Fl :=
  match op with
  | .add => .ok (Py.fadd E.rnd x y)
  | .sub => .ok (Py.fsub E.rnd x y)
  | .mul => .ok (Py.fmul E.rnd x y)
  | .truediv => Py.fdiv E.rnd x y
  | .mod =>
      if y = .fin 0 then .error .zeroDivision
      else if Py.fcmp .ge y (.fin 0) ∨ fpRem E x y = .fin 0 then .ok (fpRem E x y)
      else .ok (Py.fadd E.rnd (fpRem E x y) y)
  | .pow =>
      if Py.fcmp .eq x (.fin 0) ∧ Py.fcmp .lt y (.fin 0) then .error .zeroDivision
      else .error .unknownSat
  | _ => .error .internal

/-- The solver's term for an operand that is a float, in the sort that the path uses: a symbolic
float, or a wrapped native one through `_smt_promote_literal` (builtinslib.py:1579-1582,
1685-1688).  `inl` is a real, `inr` an IEEE float. -/
def floatTerm (E : Env) : Val → Option (ℚ ⊕ Fl)
  | .realF q => if E.real then some (.inl q) else none
  | .precise f => if E.real then none else some (.inr f)
  | .finF q => some (if E.real then .inl (E.lit q) else .inr (.fin q))
  | .nonFin f => if E.real then none else some (.inr f)
  | _ => none

/-- Arithmetic of symbolic floats (builtinslib.py:768-787). -/
def floatArith (E : Env) (op : Op) (a b : Val) : Except Err Val :=
  match floatTerm E a, floatTerm E b with
  | some (.inl x), some (.inl y) => (smtReal E op x y).map .realF
  | some (.inr x), some (.inr y) => (smtFp E op x y).map .precise
  | _, _ => .error .internal

/-- Comparisons of symbolic floats (builtinslib.py:760-764, 791-793). -/
def floatCmp (E : Env) (op : Op) (a b : Val) : Except Err Val :=
  match floatTerm E a, floatTerm E b with
  | some (.inl x), some (.inl y) => .ok (.symBool (smtRealCmp op x y))
  | some (.inr x), some (.inr y) => .ok (.symBool (Py.fcmp op x y))
  | _, _ => .error .internal

/-- `get_finite_comparable` (builtinslib.py:526-538). -/
def finiteComparable : Val → Option Int
  | .finF q => some (if q > 0 then 1 else if q < 0 then -1 else 0)
  | .realF q => some (if q > 0 then 1 else if q < 0 then -1 else 0)
  | _ => none

/-- The interpreter's operation on two native floats, one of them not finite
(`op(b.get_finite_comparable(a), b.val)`, builtinslib.py:797-803). -/
def nativeNF (E : Env) (op : Op) (x y : Fl) : Except Err Val :=
  if op.isCmp then .ok (.pyBool (Py.fcmp op x y))
  else if op = .pow then .ok (.pyFloat (Py.fpowNF x y))
  else (Py.farith E.rnd op x y).map .pyFloat

/-- `_float_divmod` (builtinslib.py:901-952).  The quotient and the remainder of finite numbers
are new variables of the solver, constrained to what is computed here (see `divmod_constraints` in
Props). -/
def floatDivmod (E : Env) (a b : Val) : Except Err (Val × Val) :=
  let term : Val → ℚ := fun v => match v with
    | .finF q => E.lit q
    | .realF q => q
    | _ => 0
  let isNF : Val → Option Fl := fun v => match v with
    | .nonFin f => some f
    | _ => none
  if isNF b = none ∧ term b = 0 then .error .zeroDivision
  else match isNF a with
  | some _ => .ok (.pyFloat .nan, .pyFloat .nan)
  | none =>
    match isNF b with
    | some .nan => .ok (.pyFloat .nan, .pyFloat .nan)
    | some bf =>
        let positiveA := decide (term a ≥ 0)
        let positiveB := decide (bf = .inf false)
        if xor positiveA positiveB then
          if term a = 0 then .ok (.pyFloat (.fin 0), .pyFloat (.fin 0))
          else .ok (.pyFloat (.fin (-1)), .pyFloat bf)
        else .ok (.pyFloat (.fin 0), match a with
          | .finF q => .pyFloat (.fin q)
          | v => v)
    | none => .ok (.symInt ⌊term a / term b⌋, .realF (term a - term b * ⌊term a / term b⌋))

/-- The integer that an operand of a kind of integer has. -/
def intVal : Val → Option Int
  | .symBool b => some (b2i b)
  | .symInt n => some n
  | .pyBool b => some (b2i b)
  | .pyInt n => some n
  | _ => none

/-- `__index__` (builtinslib.py:1195-1197, 1307-1314): a symbolic truth value becomes a symbolic
integer, everything else native. -/
def index : Val → Option Val
  | .symBool b => some (.symInt (b2i b))
  | .symInt n => some (.pyInt n)
  | .pyBool b => some (.pyInt (b2i b))
  | .pyInt n => some (.pyInt n)
  | _ => none

/-- `realize` of an integer. -/
def realize : Val → Val
  | .symBool b => .pyBool b
  | .symInt n => .pyInt n
  | v => v

def Val.isSym : Val → Bool
  | .symBool _ | .symInt _ | .realF _ | .precise _ => true
  | _ => false

/-- The interpreter's operation on two native integers. -/
def nativeInt (E : Env) (op : Op) (a b : Val) : Except Err Val :=
  match intVal a, intVal b with
  | some x, some y => do
      match ← Py.iarith E.rnd op x y with
      | .int n => .ok (.pyInt n)
      | .flt f => .ok (.pyFloat f)
  | _, _ => .error .internal

/-- The operators of truth values that the solver has. -/
def boolOp : Op → Bool → Bool → Except Err Bool
  | .eq, x, y => .ok (x == y)
  | .ne, x, y => .ok (x != y)
  | .and, x, y => .ok (x && y)
  | .or, x, y => .ok (x || y)
  | .xor, x, y => .ok (xor x y)
  | _, _, _ => .error .internal

/-- `&` of integers, once `a` is the symbolic one if possible (builtinslib.py:869-884). -/
def andPair (E : Env) (a b : Val) : Except Err Val :=
  match intVal a, intVal b with
  | some x, some y =>
      if y = 0 then .ok (.pyInt 0)
      else if a.cls = .symInt ∧ y > 0 ∧ (y + 1).land y = 0 then
        if x ≥ 0 then .ok (.symInt (x % (y + 1)))
        else .ok (.symInt (y - ((-x - 1) % (y + 1))))
      else nativeInt E .and (realize a) (realize b)
  | _, _ => .error .internal

/-- `&` of integers (builtinslib.py:863-884). -/
def andInts (E : Env) (a b : Val) : Except Err Val :=
  if b.cls = .symInt then andPair E b a else andPair E a b

/-- Shifts (builtinslib.py:852-859); `oper` is the interpreter's operator. -/
def shiftInts (oper : Op → Val → Val → Except Err Val) (op : Op) (a b : Val) : Except Err Val :=
  match intVal b with
  | some y =>
      if y < 0 then .error .valueError
      else if op = .lshift then oper .mul a (.pyInt (2 ^ y.toNat))
      else oper .floordiv a (.pyInt (2 ^ y.toNat))
  | none => .error .internal

/-- The handlers (see `Bin` for the lines); `oper` is the interpreter's operator. -/
def handle (E : Env) (oper : Op → Val → Val → Except Err Val) (h : Bin) (op : Op) (a b : Val) :
    Except Err Val :=
  match h with
  | .complex => .error .internal
  | .floatKindCmp => floatCmp E op a b
  | .floatKind => floatArith E op a b
  | .kindFloat => floatArith E op a b
  | .floats => floatArith E op a b
  | .floatsCmp => floatCmp E op a b
  | .nonFinRight =>
      match finiteComparable a, b with
      | some s, .nonFin f => nativeNF E op (.fin s) f
      | _, _ => .error .internal
  | .nonFinLeft =>
      match a, finiteComparable b with
      | .nonFin f, some s => nativeNF E op f (.fin s)
      | _, _ => .error .internal
  | .ints | .intNative | .nativeInt =>
      match intVal a, intVal b with
      | some x, some y => (smtInt op x y).map .symInt
      | _, _ => .error .internal
  | .intsCmp | .intNativeCmp =>
      match intVal a, intVal b with
      | some x, some y => .ok (.symBool (smtIntCmp op x y))
      | _, _ => .error .internal
  | .orXor | .divIndex =>
      match index a, index b with
      | some x, some y => oper op x y
      | _, _ => .error .internal
  | .shift => shiftInts oper op a b
  | .and => andInts E a b
  | .floatMod => (floatDivmod E a b).map Prod.snd
  | .floatFloordiv => do
      match ← (floatDivmod E a b).map Prod.fst with
      | .symInt n => .ok (symIntFloat E n)
      | v => .ok v
  | .bools | .boolNative | .nativeBool =>
      match a, b with
      | .symBool x, .symBool y => (boolOp op x y).map .symBool
      | .symBool x, .pyBool y => (boolOp op x y).map .symBool
      | .pyBool x, .symBool y => (boolOp op x y).map .symBool
      | _, _ => .error .internal

/-- `PreciseIeeeSymbolicFloat.__floordiv__` after the division (builtinslib.py:1634-1642). -/
def preciseFloor (E : Env) : Val → Except Err Val
  | .precise (.fin q) => .ok (.precise (E.rnd ⌊q⌋))
  | .precise f => .ok (.precise f)
  | _ => .error .internal

def Val.isIntable : Val → Bool
  | .symBool _ | .symInt _ => true
  | _ => false

def Val.isPrecise : Val → Bool
  | .precise _ => true
  | _ => false

/-- The interpreter's operator, given `numeric_binop`: the method of the left operand if it is
symbolic, else the reflected method of the right one, else native arithmetic.  The methods are in
builtinslib.py:1016-1104; `PreciseIeeeSymbolicFloat` has its own `//` and `**`
(builtinslib.py:1634-1651), and `SymbolicIntable.__rmul__` is `__mul__` (builtinslib.py:1131-1138),
which exchanges the operands. `**` of precise floats, which computes with realized numbers, is
left out. -/
def dispatch (E : Env) (binop : Op → Val → Val → Except Err Val) (op : Op) (a b : Val) :
    Except Err Val :=
  if a.isSym then
    if a.isPrecise ∧ op = .floordiv then do
      let r ← binop .truediv a b
      preciseFloor E r
    else binop op a b
  else if b.isSym then
    if op.isCmp then binop (flip op) b a
    else if op = .mul ∧ b.isIntable then binop op b a
    else if b.isPrecise ∧ op = .floordiv then do
      let r ← binop .truediv a b
      preciseFloor E r
    else binop op a b
  else nativeInt E op a b

/-- `numeric_binop` (builtinslib.py:541-568), with the calls that promotions and handlers make in
turn, up to the given depth; `look` is the search for the handler. -/
def binopWith (look : Op → Cls → Cls → Option Fn) (E : Env) : Nat → Op → Val → Val → Except Err Val
  | 0, _, _, _ => .error .fuel
  | n + 1, op, a, b =>
    match look op a.cls b.cls with
    | none => .error .notImplemented
    | some (.forward p) => do
        let r ← promote E p a b
        binopWith look E n op r.1 r.2
    | some (.backward p) => do
        let r ← promote E p b a
        binopWith look E n op r.2 r.1
    | some (.bin h) => handle E (dispatch E (binopWith look E n)) h op a b
    | some (.flipped h) => handle E (dispatch E (binopWith look E n)) h (flip op) b a

/-- `numeric_binop` with its search. -/
def binop : Env → Nat → Op → Val → Val → Except Err Val := binopWith lookup

/-- An expression `a op b` in the program under test.  Six nested calls are enough. -/
def oper (E : Env) (op : Op) (a b : Val) : Except Err Val := dispatch E (binop E 6) op a b

/-! Functions of one real-based float -/

/-- `RealBasedSymbolicFloat.__floor__` (builtinslib.py:1722-1724). -/
def floor (q : ℚ) : Int := ⌊q⌋

/-- `RealBasedSymbolicFloat.__ceil__` (builtinslib.py:1726-1729). -/
def ceil (q : ℚ) : Int := if q = ⌊q⌋ then ⌊q⌋ else ⌊q⌋ + 1

/-- `RealBasedSymbolicFloat.__int__` and `__trunc__` (builtinslib.py:1690-1693, 1731-1734). -/
def trunc (q : ℚ) : Int := if q ≥ 0 then ⌊q⌋ else -⌊-q⌋

/-- `RealBasedSymbolicFloat.__round__` without digits (builtinslib.py:1701-1720). -/
def round (q : ℚ) : Int :=
  if q ≠ ⌊q⌋ + 1 / 2 then ⌊q + 1 / 2⌋ else if ⌊q⌋ % 2 = 0 then ⌊q⌋ else ⌊q⌋ + 1

/-- `RealBasedSymbolicFloat.__round__` with digits (builtinslib.py:1695-1700).  The factor is a
native integer; a negative number of digits, which makes it a float, is not modelled. -/
def roundDigits (E : Env) (q : ℚ) (d : Nat) : Except Err Val := do
  match ← oper E .mul (.realF q) (.pyInt (10 ^ d)) with
  | .realF x => oper E .truediv (.symInt (round x)) (.pyInt (10 ^ d))
  | _ => .error .internal

/-- `RealBasedSymbolicFloat.is_integer` (builtinslib.py:1755-1757). -/
def isInteger (q : ℚ) : Bool := decide (q.den = 1)

/-- `__neg__` and `__abs__` (builtinslib.py:1010-1014). -/
def neg (q : ℚ) : ℚ := -q
def abs (q : ℚ) : ℚ := if q < 0 then -q else q

/-! mathlib.py -/

/-- `_is_positive` (mathlib.py:22-33). -/
def isPositive : Val → Bool
  | .symBool b => decide (b2i b ≥ 0)
  | .symInt n => decide (n ≥ 0)
  | .realF q => decide (q ≥ 0)
  | .precise (.inf true) => false
  | .precise (.fin q) => !decide (q < 0)
  | .precise _ => true
  | .pyBool _ => true
  | .pyInt n => decide (n ≥ 0)
  | .pyFloat (.fin q) => decide (q ≥ 0)
  | .pyFloat (.inf s) => !s
  | .pyFloat .nan => true
  | .finF q => decide (q ≥ 0)
  | .nonFin _ => true

/-- Unary minus. -/
def negate : Val → Val
  | .symBool b => .symInt (-(b2i b))
  | .symInt n => .symInt (-n)
  | .realF q => .realF (-q)
  | .precise f => .precise (Py.fneg f)
  | .pyBool b => .pyInt (-(b2i b))
  | .pyInt n => .pyInt (-n)
  | .pyFloat f => .pyFloat (Py.fneg f)
  | v => v

/-- `_copysign` on numbers (mathlib.py:35-51). -/
def copysign (x y : Val) : Val :=
  if xor (isPositive x) (isPositive y) then negate x else x

/-- `_isfinite` (mathlib.py:69-76). -/
def isfinite : Val → Bool
  | .symBool _ | .symInt _ | .realF _ => true
  | .precise f => !(decide (f = .nan) || (match f with | .inf _ => true | _ => false))
  | .pyFloat (.fin _) => true
  | .pyFloat _ => false
  | _ => true

/-- `_isnan` (mathlib.py:79-86). -/
def isnan : Val → Bool
  | .precise f => decide (f = .nan)
  | .pyFloat f => decide (f = .nan)
  | _ => false

/-- `_isinf` (mathlib.py:89-96). -/
def isinf : Val → Bool
  | .precise (.inf _) => true
  | .pyFloat (.inf _) => true
  | _ => false

/-- `make_float` (builtinslib.py:4680-4700): the representation of an argument of type `float`,
given how the path forks.  `val` is the interpretation of the new variable. -/
def makeFloat (E : Env) (isFin isNan negInf : Bool) (val : ℚ) (fp : Fl) : Val :=
  if E.real then
    if isFin then .realF val
    else if isNan then .pyFloat .nan
    else if negInf then .pyFloat (.inf true)
    else .pyFloat (.inf false)
  else .precise fp

end Verif.Numeric
