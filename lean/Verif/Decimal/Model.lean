/-
Model of the decimal arithmetic of /repo/crosshair/libimpl/decimallib.py: contexts and signals, comparisons, rounding to a context, addition,
multiplication, division, integer division and remainders, rescaling and quantizing, square roots, and exact conversions.

Coefficients are strings of digits in the code, and lists of digits here (most significant first). `_raise_error_in_ctx` (199-219) sets a
flag and raises an exception if it is trapped: here a computation gives the signals that it raises, in their order, and the value that it has
if none is trapped (`outcome` combines them with the traps). Operands are decimals already (`_convert_other` is not modelled), and the
exponents are not limited by the machine.
-/
namespace Verif.Decimal

/-- A string of decimal digits. -/
abbrev Digits := List Nat

/-- `int(...)` of a string of digits. -/
def toInt (ds : Digits) : Nat := ds.foldl (fun a d => a * 10 + d) 0

/-- `str(n)` for a natural number; the first argument limits the number of digits. -/
def strAux : Nat → Nat → Digits
  | 0, n => [n]
  | fuel + 1, n => if n < 10 then [n] else strAux fuel (n / 10) ++ [n % 10]

/-- `str(n)` for a natural number. -/
def str (n : Nat) : Digits := strAux n n

/-- Rounding modes (63-70). -/
inductive Mode where
  | down | up | halfUp | halfDown | halfEven | ceiling | floor | r05up
  deriving DecidableEq, Repr

/-- Signals (164-174), without `FloatOperation`. -/
inductive Sig where
  | clamped | divisionByZero | inexact | overflow | rounded | underflow | invalidOperation | subnormal
  deriving DecidableEq, Repr

/-- The settings of a context that matter for values (3694-3754). -/
structure Ctx where
  prec : Nat
  rounding : Mode
  emin : Int
  emax : Int
  clamp : Bool
  deriving Repr

/-- `Context.Etiny` (3934-3936). -/
def Ctx.etiny (c : Ctx) : Int := c.emin - c.prec + 1
/-- `Context.Etop` (3938-3940). -/
def Ctx.etop (c : Ctx) : Int := c.emax - c.prec + 1

/-- `Decimal` (229-236): sign, coefficient and exponent; infinities; NaNs with their payload, signaling or not. -/
inductive Dec where
  | fin (sign : Bool) (int : Digits) (exp : Int)
  | inf (sign : Bool)
  | nan (sign : Bool) (payload : Digits) (signaling : Bool)
  deriving DecidableEq, Repr

/-- Signals raised, in order, and the value if none of them is trapped. -/
abbrev Out (α : Type) := List Sig × α

/-- With the traps (199-219): the first signal that is trapped is raised as an exception. -/
def outcome {α : Type} (traps : Sig → Bool) (o : Out α) : Except Sig α :=
  match o.1.find? traps with
  | some s => .error s
  | none => .ok o.2

/-- `_NaN`. -/
def Dec.NaN : Dec := .nan false [] false

/-- `not self` (551-557). -/
def isZero : Dec → Bool
  | .fin _ int _ => int == [0]
  | _ => false

/-- `_sign`. -/
def signOf : Dec → Bool
  | .fin s _ _ => s
  | .inf s => s
  | .nan s _ _ => s

/-- `_isinfinity` (474-486), as a truth value. -/
def isInf : Dec → Bool
  | .inf _ => true
  | _ => false

/-- `adjusted` (2724-2730). -/
def adjusted : Dec → Int
  | .fin _ int exp => exp + int.length - 1
  | _ => 0

/-- `.lstrip("0")`. -/
def lstrip : Digits → Digits
  | 0 :: ds => lstrip ds
  | ds => ds

/-- `_fix_nan` (1415-1425). -/
def fixNan (c : Ctx) (sign : Bool) (payload : Digits) (signaling : Bool) : Dec :=
  let maxLen := c.prec - (if c.clamp then 1 else 0)
  if payload.length > maxLen then .nan sign (lstrip (payload.drop (payload.length - maxLen))) signaling
  else .nan sign payload signaling

/-- `handle_InvalidOperation` (109-113): for signaling NaNs, the quiet NaN with the payload. -/
def quiet (c : Ctx) : Dec → Dec
  | .nan s p _ => fixNan c s p false
  | _ => .NaN

/-- `_check_nans` (488-516) for two operands: `none` if neither is a NaN. -/
def checkNans (c : Ctx) (a b : Dec) : Option (Out Dec) :=
  match a, b with
  | .nan s p true, _ => some ([.invalidOperation], quiet c (.nan s p true))
  | _, .nan s p true => some ([.invalidOperation], quiet c (.nan s p true))
  | .nan s p false, _ => some ([], fixNan c s p false)
  | _, .nan s p false => some ([], fixNan c s p false)
  | _, _ => none

/-- `_check_nans` for one operand. -/
def checkNan (c : Ctx) (a : Dec) : Option (Out Dec) := checkNans c a (.inf false)

/-- Padding with zeros: `s + "0" * n`. -/
def pad (ds : Digits) (n : Int) : Digits := ds ++ List.replicate n.toNat 0

/-- `<` on strings of digits. -/
def strLt : Digits → Digits → Bool
  | [], [] => false
  | [], _ :: _ => true
  | _ :: _, [] => false
  | a :: as, b :: bs => if a < b then true else if b < a then false else strLt as bs

/-- `(-1) ** sign`. -/
def minusOne (sign : Bool) : Int := if sign then -1 else 1

/-- `_isinfinity` (474-486). -/
def infinity : Dec → Int
  | .inf s => minusOne s
  | _ => 0

/-- `_cmp` for finite numbers (575-605). -/
def cmpFin (s1 : Bool) (i1 : Digits) (e1 : Int) (s2 : Bool) (i2 : Digits) (e2 : Int) : Int :=
  if i1 == [0] then
    if i2 == [0] then 0 else -(minusOne s2)
  else if i2 == [0] then minusOne s1
  else if !s2 && s1 then -1
  else if !s1 && s2 then 1
  else
    let a1 := e1 + i1.length - 1
    let a2 := e2 + i2.length - 1
    if a1 = a2 then
      let p1 := pad i1 (e1 - e2)
      let p2 := pad i2 (e2 - e1)
      if p1 = p2 then 0
      else if strLt p1 p2 then -(minusOne s1)
      else minusOne s1
    else if a1 > a2 then minusOne s1
    else -(minusOne s1)

/-- `_cmp` (559-605). -/
def cmp (a b : Dec) : Int :=
  match a, b with
  | .fin s1 i1 e1, .fin s2 i2 e2 => cmpFin s1 i1 e1 s2 i2 e2
  | a, b => if infinity a = infinity b then 0 else if infinity a < infinity b then -1 else 1

/-- `_compare_check_nans` (518-549): whether an operand is a NaN. -/
def compareCheckNans (a b : Dec) : Bool :=
  match a, b with
  | .nan .., _ => true
  | _, .nan .. => true
  | _, _ => false

/-- `__eq__` (624-630). -/
def eq (c : Ctx) (a b : Dec) : Out Bool :=
  match checkNans c a b with
  | some (sigs, _) => (sigs, false)
  | none => ([], cmp a b == 0)

/-- `__lt__` (632-639). -/
def lt (a b : Dec) : Out Bool := if compareCheckNans a b then ([.invalidOperation], false) else ([], cmp a b < 0)
/-- `__le__` (641-648). -/
def le (a b : Dec) : Out Bool := if compareCheckNans a b then ([.invalidOperation], false) else ([], cmp a b ≤ 0)
/-- `__gt__` (650-657). -/
def gt (a b : Dec) : Out Bool := if compareCheckNans a b then ([.invalidOperation], false) else ([], cmp a b > 0)
/-- `__ge__` (659-666). -/
def ge (a b : Dec) : Out Bool := if compareCheckNans a b then ([.invalidOperation], false) else ([], cmp a b ≥ 0)

/-! ### Rounding -/

/-- `_all_zeros(s, prec)`. -/
def allZeros (ds : Digits) (prec : Nat) : Bool := (ds.drop prec).all (· == 0)

/-- `_exact_half(s, prec)`: a five and zeros. -/
def exactHalf (ds : Digits) (prec : Nat) : Bool :=
  match ds.drop prec with
  | 5 :: rest => rest.all (· == 0)
  | _ => false

/-- `_round_down` (1527-1532). -/
def roundDown (ds : Digits) (prec : Nat) : Int := if allZeros ds prec then 0 else -1
/-- `_round_half_up` (1538-1545). -/
def roundHalfUp (ds : Digits) (prec : Nat) : Int :=
  if ds.getD prec 0 ≥ 5 then 1 else if allZeros ds prec then 0 else -1
/-- `_round_half_down` (1547-1552). -/
def roundHalfDown (ds : Digits) (prec : Nat) : Int := if exactHalf ds prec then -1 else roundHalfUp ds prec
/-- `_round_half_even` (1554-1561). -/
def roundHalfEven (ds : Digits) (prec : Nat) : Int :=
  if exactHalf ds prec && (prec == 0 || ds.getD (prec - 1) 0 % 2 == 0) then -1 else roundHalfUp ds prec
/-- `_round_05up` (1577-1582). -/
def round05up (ds : Digits) (prec : Nat) : Int :=
  if prec ≠ 0 && ds.getD (prec - 1) 0 ≠ 0 && ds.getD (prec - 1) 0 ≠ 5 then roundDown ds prec else -(roundDown ds prec)

/-- `_pick_rounding_function` (1584-1593) and the functions above, with `_round_up` (1534-1536), `_round_ceiling` (1563-1568) and
`_round_floor` (1570-1575): 1 to increase the digits that are kept, 0 if nothing is lost, else -1. -/
def roundBy (m : Mode) (sign : Bool) (ds : Digits) (prec : Nat) : Int :=
  match m with
  | .down => roundDown ds prec
  | .up => -(roundDown ds prec)
  | .halfUp => roundHalfUp ds prec
  | .halfDown => roundHalfDown ds prec
  | .halfEven => roundHalfEven ds prec
  | .ceiling => if sign then roundDown ds prec else -(roundDown ds prec)
  | .floor => if !sign then roundDown ds prec else -(roundDown ds prec)
  | .r05up => round05up ds prec

/-- `s or "0"`. -/
def orZero (ds : Digits) : Digits := if ds.isEmpty then [0] else ds

/-- `handle_Overflow` (136-150). -/
def handleOverflow (c : Ctx) (sign : Bool) : Dec :=
  let largest := Dec.fin sign (List.replicate c.prec 9) (c.emax - c.prec + 1)
  match c.rounding with
  | .halfUp | .halfEven | .halfDown | .up => .inf sign
  | .ceiling => if sign then largest else .inf sign
  | .floor => if sign then .inf sign else largest
  | .down | .r05up => largest

/-- The end of the part of `_fix` that rounds (1475-1501): `changed` is what the rounding function gives, `coeff` the digits that are kept
and `eMin` is `exp_min`. -/
def fixFinish (c : Ctx) (sign : Bool) (changed : Int) (coeff : Digits) (eMin : Int) (isSubnormal : Bool) : Out Dec :=
  let bumped := str (toInt coeff + 1)
  let carry := changed > 0 && bumped.length > c.prec
  let coeff := if changed > 0 then (if carry then bumped.dropLast else bumped) else coeff
  let eMin := if carry then eMin + 1 else eMin
  let over := eMin > c.etop
  let ans := if over then handleOverflow c sign else .fin sign coeff eMin
  ((if over then [.overflow] else []) ++ (if changed ≠ 0 && isSubnormal then [.underflow] else []) ++
    (if isSubnormal then [.subnormal] else []) ++ (if changed ≠ 0 then [.inexact] else []) ++ [.rounded] ++
    (if isZero ans then [.clamped] else []), ans)

/-- What is kept of the digits, and what the rounding function gives, in `_fix` (1466-1474) and in `_rescale` (2449-2455), for a new
exponent that is larger. -/
def cut (m : Mode) (sign : Bool) (int : Digits) (exp newExp : Int) : Int × Digits :=
  let digits := int.length + exp - newExp
  let int' := if digits < 0 then [1] else int
  let digits := digits.toNat
  (roundBy m sign int' digits, orZero (int'.take digits))

/-- The part of `_fix` that rounds (1466-1501); `eMin` is `exp_min`. -/
def fixRound (c : Ctx) (sign : Bool) (int : Digits) (exp eMin : Int) (isSubnormal : Bool) : Out Dec :=
  fixFinish c sign (cut c.rounding sign int exp eMin).1 (cut c.rounding sign int exp eMin).2 eMin isSubnormal

/-- `_fix` for finite numbers (1443-1515). -/
def fixFin (c : Ctx) (sign : Bool) (int : Digits) (exp : Int) : Out Dec :=
  if int == [0] then
    let expMax := if c.clamp then c.etop else c.emax
    let newExp := min (max exp c.etiny) expMax
    if newExp ≠ exp then ([.clamped], .fin sign [0] newExp) else ([], .fin sign int exp)
  else
    let eMin := int.length + exp - c.prec
    if eMin > c.etop then ([.overflow, .inexact, .rounded], handleOverflow c sign)
    else
      let isSubnormal := decide (eMin < c.etiny)
      let eMin := if isSubnormal then c.etiny else eMin
      if exp < eMin then fixRound c sign int exp eMin isSubnormal
      else
        let sub := if isSubnormal then [Sig.subnormal] else []
        if c.clamp && exp > c.etop then (sub ++ [.clamped], .fin sign (pad int (exp - c.etop)) c.etop)
        else (sub, .fin sign int exp)

/-- `_fix` (1427-1515). -/
def fix (c : Ctx) : Dec → Out Dec
  | .nan s p g => ([], fixNan c s p g)
  | .inf s => ([], .inf s)
  | .fin s i e => fixFin c s i e

/-- `_rescale` for finite numbers (2437-2457). -/
def rescale (m : Mode) (sign : Bool) (int : Digits) (exp newExp : Int) : Dec :=
  if int == [0] then .fin sign [0] newExp
  else if exp ≥ newExp then .fin sign (pad int (exp - newExp)) newExp
  else
    let r := cut m sign int exp newExp
    .fin sign (if r.1 = 1 then str (toInt r.2 + 1) else r.2) newExp

/-! ### Signs -/

/-- `copy_abs` (2839-2841). -/
def copyAbs : Dec → Dec
  | .fin _ i e => .fin false i e
  | .inf _ => .inf false
  | .nan _ p g => .nan false p g
/-- `copy_negate` (2843-2848). -/
def copyNegate : Dec → Dec
  | .fin s i e => .fin (!s) i e
  | .inf s => .inf (!s)
  | .nan s p g => .nan (!s) p g

/-- `__neg__` (838-859). -/
def neg (c : Ctx) (a : Dec) : Out Dec :=
  match checkNan c a with
  | some o => o
  | none => if isZero a && c.rounding ≠ .floor then fix c (copyAbs a) else fix c (copyNegate a)
/-- `__pos__` (861-881). -/
def pos (c : Ctx) (a : Dec) : Out Dec :=
  match checkNan c a with
  | some o => o
  | none => if isZero a && c.rounding ≠ .floor then fix c (copyAbs a) else fix c a
/-- `__abs__` (883-904). -/
def abs (c : Ctx) (a : Dec) : Out Dec :=
  match checkNan c a with
  | some o => o
  | none => if signOf a then neg c a else pos c a

/-! ### Addition and multiplication -/

/-- `_WorkRep` (4281-4305). -/
structure Work where
  sign : Bool
  int : Nat
  exp : Int
  deriving Repr

/-- The body of `_normalize` (4321-4335), with the operand of larger exponent first. -/
def normalizeWith (tmp other : Work) (prec : Nat) : Work × Work :=
  let exp := tmp.exp + min (-1) (((str tmp.int).length : Int) - prec - 2)
  let other := if (str other.int).length + other.exp - 1 < exp then { other with int := 1, exp := exp } else other
  ({ tmp with int := tmp.int * 10 ^ (tmp.exp - other.exp).toNat, exp := other.exp }, other)

/-- `_normalize` (4308-4335). -/
def normalize (op1 op2 : Work) (prec : Nat) : Work × Work :=
  if op1.exp < op2.exp then
    let (tmp, other) := normalizeWith op2 op1 prec
    (other, tmp)
  else normalizeWith op1 op2 prec

/-- The sum of two numbers that are not zero (955-991); `exp` is the smaller exponent. -/
def addWork (c : Ctx) (op1 op2 : Work) (exp : Int) (negativezero : Bool) : Out Dec :=
  let (op1, op2) := normalize op1 op2 c.prec
  if op1.sign ≠ op2.sign then
    if op1.int = op2.int then fixFin c negativezero [0] exp
    else
      let (op1, op2) := if op1.int < op2.int then (op2, op1) else (op1, op2)
      fixFin c op1.sign (str (op1.int - op2.int)) op1.exp
  else fixFin c op1.sign (str (op1.int + op2.int)) op1.exp

/-- `fix` of a `_rescale`d number. -/
def fixRescale (c : Ctx) (s : Bool) (i : Digits) (e newExp : Int) : Out Dec := fix c (rescale c.rounding s i e newExp)

/-- The sum of finite numbers (932-991). -/
def addFin (c : Ctx) (s1 : Bool) (i1 : Digits) (e1 : Int) (s2 : Bool) (i2 : Digits) (e2 : Int) : Out Dec :=
  let exp := min e1 e2
  let negativezero := c.rounding = .floor && s1 ≠ s2
  if i1 == [0] && i2 == [0] then fixFin c (if negativezero then true else s1 && s2) [0] exp
  else if i1 == [0] then fixRescale c s2 i2 e2 (max exp (e2 - c.prec - 1))
  else if i2 == [0] then fixRescale c s1 i1 e1 (max exp (e1 - c.prec - 1))
  else addWork c ⟨s1, toInt i1, e1⟩ ⟨s2, toInt i2, e2⟩ exp negativezero

/-- `__add__` (906-991). -/
def add (c : Ctx) (a b : Dec) : Out Dec :=
  match checkNans c a b with
  | some o => o
  | none => match a, b with
    | .inf s1, .inf s2 => if s1 ≠ s2 then ([.invalidOperation], .NaN) else ([], .inf s1)
    | .inf s1, _ => ([], .inf s1)
    | _, .inf s2 => ([], .inf s2)
    | .fin s1 i1 e1, .fin s2 i2 e2 => addFin c s1 i1 e1 s2 i2 e2
    | _, _ => ([], .NaN)

/-- `__sub__` (995-1007). -/
def sub (c : Ctx) (a b : Dec) : Out Dec :=
  match checkNans c a b with
  | some o => o
  | none => add c a (copyNegate b)

/-- The product of finite numbers (1043-1072). -/
def mulFin (c : Ctx) (s1 : Bool) (i1 : Digits) (e1 : Int) (s2 : Bool) (i2 : Digits) (e2 : Int) : Out Dec :=
  let sign := s1 ^^ s2
  let exp := e1 + e2
  if i1 == [0] || i2 == [0] then fixFin c sign [0] exp
  else if i1 == [1] then fixFin c sign i2 exp
  else if i2 == [1] then fixFin c sign i1 exp
  else fixFin c sign (str (toInt i1 * toInt i2)) exp

/-- `__mul__` (1017-1072). -/
def mul (c : Ctx) (a b : Dec) : Out Dec :=
  match checkNans c a b with
  | some o => o
  | none => match a, b with
    | .fin s1 i1 e1, .fin s2 i2 e2 => mulFin c s1 i1 e1 s2 i2 e2
    | a, b =>
      if isInf a then if isZero b then ([.invalidOperation], .NaN) else ([], .inf (signOf a ^^ signOf b))
      else if isZero a then ([.invalidOperation], .NaN) else ([], .inf (signOf a ^^ signOf b))

/-- The product in `fma` (1706-1734), exact. -/
def fmaProduct (c : Ctx) (a b : Dec) : Out Dec ⊕ Dec :=
  match a, b with
  | .nan s p true, _ => .inl ([.invalidOperation], quiet c (.nan s p true))
  | _, .nan s p true => .inl ([.invalidOperation], quiet c (.nan s p true))
  | .nan s p false, _ => .inr (.nan s p false)
  | _, .nan s p false => .inr (.nan s p false)
  | .fin s1 i1 e1, .fin s2 i2 e2 => .inr (.fin (s1 ^^ s2) (str (toInt i1 * toInt i2)) (e1 + e2))
  | .inf s, b => if isZero b then .inl ([.invalidOperation], .NaN) else .inr (.inf (s ^^ signOf b))
  | a, .inf s => if isZero a then .inl ([.invalidOperation], .NaN) else .inr (.inf (signOf a ^^ s))

/-- `fma` (1690-1736). -/
def fma (c : Ctx) (a b third : Dec) : Out Dec :=
  match fmaProduct c a b with
  | .inl o => o
  | .inr product => add c product third

/-! ### Division -/

/-- Taking zeros off an exact quotient (1126-1130). -/
def stripZeros : Nat → Nat → Int → Nat × Int
  | 0, coeff, exp => (coeff, exp)
  | fuel + 1, coeff, exp => if coeff % 10 = 0 then stripZeros fuel (coeff / 10) (exp + 1) else (coeff, exp)

/-- The quotient of numbers that are not zero (1109-1133). -/
def divFin (c : Ctx) (s1 : Bool) (i1 : Digits) (e1 : Int) (s2 : Bool) (i2 : Digits) (e2 : Int) : Out Dec :=
  let shift : Int := i2.length - i1.length + c.prec + 1
  let exp := e1 - e2 - shift
  let num := if shift ≥ 0 then toInt i1 * 10 ^ shift.toNat else toInt i1
  let den := if shift ≥ 0 then toInt i2 else toInt i2 * 10 ^ (-shift).toNat
  let coeff := num / den
  if num % den ≠ 0 then fixFin c (s1 ^^ s2) (str (if coeff % 5 = 0 then coeff + 1 else coeff)) exp
  else
    let (coeff, exp) := stripZeros (e1 - e2 - exp).toNat coeff exp
    fixFin c (s1 ^^ s2) (str coeff) exp

/-- `__truediv__` (1076-1133). -/
def truediv (c : Ctx) (a b : Dec) : Out Dec :=
  match checkNans c a b with
  | some o => o
  | none => match a, b with
    | .inf _, .inf _ => ([.invalidOperation], .NaN)
    | .inf s, b => ([], .inf (s ^^ signOf b))
    | a, .inf s => ([.clamped], .fin (signOf a ^^ s) [0] c.etiny)
    | .fin s1 i1 e1, .fin s2 i2 e2 =>
      if i2 == [0] then
        if i1 == [0] then ([.invalidOperation], .NaN) else ([.divisionByZero], .inf (s1 ^^ s2))
      else if i1 == [0] then fixFin c (s1 ^^ s2) [0] (e1 - e2)
      else divFin c s1 i1 e1 s2 i2 e2
    | _, _ => ([], .NaN)

/-- `_divide` (1135-1172) for finite operands. -/
def divide (c : Ctx) (s1 : Bool) (i1 : Digits) (e1 : Int) (s2 : Bool) (i2 : Digits) (e2 : Int) : Out (Dec × Dec) :=
  let idealExp := min e1 e2
  let expdiff := (e1 + i1.length - 1) - (e2 + i2.length - 1)
  if i1 == [0] || expdiff ≤ -2 then ([], .fin (s1 ^^ s2) [0] 0, rescale c.rounding s1 i1 e1 idealExp)
  else
    let n1 := toInt i1 * (if e1 ≥ e2 then 10 ^ (e1 - e2).toNat else 1)
    let n2 := toInt i2 * (if e1 ≥ e2 then 1 else 10 ^ (e2 - e1).toNat)
    if expdiff ≤ c.prec && n1 / n2 < 10 ^ c.prec then
      ([], .fin (s1 ^^ s2) (str (n1 / n2)) 0, .fin s1 (str (n1 % n2)) idealExp)
    else ([.invalidOperation], .NaN, .NaN)

/-- `_divide` with an infinite divisor (1144-1152). -/
def divideInf (c : Ctx) (s1 : Bool) (i1 : Digits) (e1 : Int) (s2 : Bool) : Out (Dec × Dec) :=
  ([], .fin (s1 ^^ s2) [0] 0, rescale c.rounding s1 i1 e1 e1)

/-- `__divmod__` (1181-1219). -/
def divmod (c : Ctx) (a b : Dec) : Out (Dec × Dec) :=
  match checkNans c a b with
  | some (sigs, r) => (sigs, r, r)
  | none => match a, b with
    | .inf _, .inf _ => ([.invalidOperation], .NaN, .NaN)
    | .inf s, b => ([.invalidOperation], .inf (s ^^ signOf b), .NaN)
    | .fin s1 i1 e1, .inf s2 =>
      let (sigs, q, r) := divideInf c s1 i1 e1 s2
      (sigs ++ (fix c r).1, q, (fix c r).2)
    | .fin s1 i1 e1, .fin s2 i2 e2 =>
      if i2 == [0] then
        if i1 == [0] then ([.invalidOperation], .NaN, .NaN) else ([.divisionByZero, .invalidOperation], .inf (s1 ^^ s2), .NaN)
      else
        let (sigs, q, r) := divide c s1 i1 e1 s2 i2 e2
        (sigs ++ (fix c r).1, q, (fix c r).2)
    | _, _ => ([], .NaN, .NaN)

/-- `__mod__` (1228-1253). -/
def mod (c : Ctx) (a b : Dec) : Out Dec :=
  match checkNans c a b with
  | some o => o
  | none => match a, b with
    | .inf _, _ => ([.invalidOperation], .NaN)
    | .fin s1 i1 e1, .inf s2 =>
      let (sigs, _, r) := divideInf c s1 i1 e1 s2
      (sigs ++ (fix c r).1, (fix c r).2)
    | .fin s1 i1 e1, .fin s2 i2 e2 =>
      if i2 == [0] then ([.invalidOperation], .NaN)
      else
        let (sigs, _, r) := divide c s1 i1 e1 s2 i2 e2
        (sigs ++ (fix c r).1, (fix c r).2)
    | _, _ => ([], .NaN)

/-- `__floordiv__` (1340-1367). -/
def floordiv (c : Ctx) (a b : Dec) : Out Dec :=
  match checkNans c a b with
  | some o => o
  | none => match a, b with
    | .inf _, .inf _ => ([.invalidOperation], .NaN)
    | .inf s, b => ([], .inf (s ^^ signOf b))
    | .fin s1 i1 e1, .inf s2 =>
      let (sigs, q, _) := divideInf c s1 i1 e1 s2
      (sigs, q)
    | .fin s1 i1 e1, .fin s2 i2 e2 =>
      if i2 == [0] then
        if i1 == [0] then ([.invalidOperation], .NaN) else ([.divisionByZero], .inf (s1 ^^ s2))
      else
        let (sigs, q, _) := divide c s1 i1 e1 s2 i2 e2
        (sigs, q)
    | _, _ => ([], .NaN)

/-- `remainder_near` (1262-1338) for finite operands, the divisor not zero. -/
def remainderNear (c : Ctx) (s1 : Bool) (i1 : Digits) (e1 : Int) (s2 : Bool) (i2 : Digits) (e2 : Int) : Out Dec :=
  let _ := s2
  let idealExp := min e1 e2
  if i1 == [0] then fixFin c s1 [0] idealExp
  else
    let expdiff := (e1 + i1.length - 1) - (e2 + i2.length - 1)
    if expdiff ≥ c.prec + 1 then ([.invalidOperation], .NaN)
    else if expdiff ≤ -2 then fixRescale c s1 i1 e1 idealExp
    else
      let n1 := toInt i1 * (if e1 ≥ e2 then 10 ^ (e1 - e2).toNat else 1)
      let n2 := toInt i2 * (if e1 ≥ e2 then 1 else 10 ^ (e2 - e1).toNat)
      let q := n1 / n2
      let r := n1 % n2
      let away := 2 * r + q % 2 > n2
      if (if away then q + 1 else q) ≥ 10 ^ c.prec then ([.invalidOperation], .NaN)
      else if away then fixFin c (!s1) (str (n2 - r)) idealExp
      else fixFin c s1 (str r) idealExp

/-! ### Conversions and quantizing -/

/-- `__int__` (1386-1397) for finite numbers. -/
def toInteger (s : Bool) (i : Digits) (e : Int) : Int :=
  if e ≥ 0 then minusOne s * toInt i * 10 ^ e.toNat
  else minusOne s * toInt (orZero (i.take (i.length + e).toNat))

/-- `int` of a decimal; `none` for the exceptions. -/
def intOf : Dec → Option Int
  | .fin s i e => some (toInteger s i e)
  | _ => none

/-- `round(d)`, `floor` and `ceil` (1595-1688), with the rounding mode; `none` for the exceptions. -/
def roundTo (m : Mode) : Dec → Option Int
  | .fin s i e => intOf (rescale m s i e 0)
  | _ => none

/-- `to_integral_value` (2513-2527) of finite numbers. -/
def toIntegral (m : Mode) (s : Bool) (i : Digits) (e : Int) : Dec := if e ≥ 0 then .fin s i e else rescale m s i e 0

/-- `quantize` (2328-2402) for finite operands. -/
def quantizeFin (c : Ctx) (m : Mode) (s : Bool) (i : Digits) (e newExp : Int) : Out Dec :=
  if ¬ (c.etiny ≤ newExp ∧ newExp ≤ c.emax) then ([.invalidOperation], .NaN)
  else if i == [0] then fixFin c s [0] newExp
  else
    let adj := e + i.length - 1
    if adj > c.emax then ([.invalidOperation], .NaN)
    else if adj - newExp + 1 > c.prec then ([.invalidOperation], .NaN)
    else
      let ans := rescale m s i e newExp
      let len : Int := match ans with
        | .fin _ j _ => j.length
        | _ => 0
      if adjusted ans > c.emax then ([.invalidOperation], .NaN)
      else if len > c.prec then ([.invalidOperation], .NaN)
      else
        let sub := if !isZero ans && adjusted ans < c.emin then [Sig.subnormal] else []
        let rnd := if newExp > e then (if cmp ans (.fin s i e) ≠ 0 then [Sig.inexact] else []) ++ [.rounded] else []
        (sub ++ rnd ++ (fix c ans).1, (fix c ans).2)

/-- `quantize` (2328-2402). -/
def quantize (c : Ctx) (m : Mode) (a b : Dec) : Out Dec :=
  match checkNans c a b with
  | some o => o
  | none => match a, b with
    | .inf s, .inf _ => ([], .inf s)
    | .fin s i e, .fin _ _ newExp => quantizeFin c m s i e newExp
    | _, _ => ([.invalidOperation], .NaN)

end Verif.Decimal
