/-
Model of the integer arithmetic that CrossHair performs on symbolic integers.

Sources: /repo/crosshair/libimpl/builtinslib.py and /repo/crosshair/libimpl/mathlib.py.
A symbolic integer is represented by the value it has under one interpretation of the solver's
variables, so each definition computes what the built solver expression evaluates to.  A fork on a
condition (`smt_fork`, `bool()`) is an `if`: the search explores both sides, and any given value
goes to exactly one.  SMT-LIB's `div` and `mod` on integers, to which z3's `/` and `%` on integer
sorts compile, are Euclidean, like `Int./` and `Int.%` in Lean.
-/
namespace Verif.Ints

/-- Python exceptions raised by the modelled code. -/
inductive PyErr where
  | zeroDivision
  | valueError
  | overflow
  | typeError
  deriving DecidableEq, Repr

/-- `apply_smt` for `//` (builtinslib.py:679-692). -/
def smtFloorDiv (x y : Int) : Except PyErr Int :=
  if y = 0 then .error .zeroDivision
  else if y ≥ 0 then
    if x ≥ 0 then .ok (x / y) else .ok (-((y - x - 1) / y))
  else
    if x ≥ 0 then .ok (-((x - y - 1) / -y)) else .ok (-x / -y)

/-- `apply_smt` for `%` (builtinslib.py:679-682, 693-697). -/
def smtMod (x y : Int) : Except PyErr Int :=
  if y = 0 then .error .zeroDivision
  else if y ≥ 0 ∨ x % y = 0 then .ok (x % y)
  else .ok (x % y + y)

/-- `<<` on integers (builtinslib.py:852-861). -/
def lshift (a b : Int) : Except PyErr Int :=
  if b < 0 then .error .valueError else .ok (a * 2 ^ b.toNat)

/-- `>>` on integers (builtinslib.py:852-861). -/
def rshift (a b : Int) : Except PyErr Int :=
  if b < 0 then .error .valueError else smtFloorDiv a (2 ^ b.toNat)

/-- `&` with the second operand realized to `b` (builtinslib.py:863-884).  `none` is the fallback
to full realization, where CPython computes the answer.  `mask_mod & b` is Python's `&` on
concrete non-negative numbers, i.e. `Nat.land`. -/
def andMask (a b : Int) : Option Int :=
  if b = 0 then some 0
  else
    let maskMod := b + 1
    if b > 0 ∧ maskMod.toNat &&& b.toNat = 0 then
      if a ≥ 0 then some (a % maskMod) else some (b - ((-a - 1) % maskMod))
    else none

/-- `SymbolicIntable.__invert__` (builtinslib.py:1118-1119). -/
def invert (a : Int) : Int := -(a + 1)

/-- The loop of `bit_count` (builtinslib.py:1146-1150); `threshold` is always `2 * halfway`.
`n` is the (non-negative) number. -/
def bitCountLoop (n : Nat) (halfway : Nat) (count : Nat) : Nat :=
  if n ≥ halfway ∧ 0 < halfway then
    bitCountLoop n (halfway * 2) (if n % (halfway * 2) ≥ halfway then count + 1 else count)
  else count
  termination_by n + 1 - halfway

/-- `SymbolicIntable.bit_count` (builtinslib.py:1140-1151). -/
def bitCount (x : Int) : Nat :=
  if x < 0 then bitCountLoop (-x).toNat 1 0 else bitCountLoop x.toNat 1 0

/-- `SymbolicInt.bit_length` on the absolute value (builtinslib.py:1349-1362). -/
def bitLengthNat (v : Nat) : Nat :=
  if v ≥ 256 then bitLengthNat (v / 256) + 8
  else if v = 0 then 0
  else if v < 2 then 1
  else if v < 4 then 2
  else if v < 8 then 3
  else if v < 16 then 4
  else if v < 32 then 5
  else if v < 64 then 6
  else if v < 128 then 7
  else 8
  termination_by v

/-- `SymbolicInt.bit_length` (builtinslib.py:1347-1362). -/
def bitLength (x : Int) : Nat :=
  bitLengthNat (if x < 0 then (-x).toNat else x.toNat)

/-- `SymbolicInt.__round__` for a non-negative number and `ndigits = -n < 0`
(builtinslib.py:1330-1345). -/
def roundNonneg (v : Int) (n : Nat) : Int :=
  let factor : Int := 10 ^ n
  let half := factor / 2
  if (v + half) % factor = 0 then
    let floor := v - v % factor
    if (v / factor) % 2 = 0 then floor else floor + factor
  else
    (v + half) - (v + half) % factor

/-- `SymbolicInt.__round__` (builtinslib.py:1325-1345). `ndigits` is `None` or a number. -/
def round (v : Int) (ndigits : Option Int) : Int :=
  match ndigits with
  | none => v
  | some d =>
    if d ≥ 0 then v
    else if v < 0 then -(roundNonneg (-v) (-d).toNat)
    else roundNonneg v (-d).toNat

/-- `SymbolicInt.to_bytes` with a realized, non-negative `length` (builtinslib.py:1388-1404).
`byteorder` is any string. -/
def toBytes (x : Int) (length : Nat) (byteorder : String) (signed : Bool) : Except PyErr (List Int) :=
  let emit (v : Int) : List Int :=
    let arr := (List.range length).map fun i => (v / 2 ^ (i * 8)) % 256
    if byteorder = "big" then arr.reverse else arr
  if signed then
    let half : Int := ((256 ^ length) >>> 1 : Nat)
    if x < -half ∨ x ≥ half then .error .overflow
    else .ok (emit (if x < 0 then 256 ^ length + x else x))
  else
    if x < 0 ∨ x ≥ 256 ^ length then .error .overflow
    else .ok (emit x)

/-- `_int_from_bytes` on a list of byte values (builtinslib.py:5159-5194). -/
def fromBytes (b : List Int) (byteorder : String) (signed : Bool) : Except PyErr Int :=
  if byteorder ≠ "big" ∧ byteorder ≠ "little" then .error .valueError else
  let itr := if byteorder = "little" then b.reverse else b
  let val := itr.foldl (fun val byt => val * 256 + byt) 0
  let n := b.length
  if signed ∧ n ≠ 0 then
    let modulus : Int := 256 ^ n
    if val ≥ modulus / 2 then .ok (val - modulus) else .ok val
  else .ok val

/-- The loop of `SymbolicInt.__repr__` (builtinslib.py:1257-1265), collecting code points in
reverse order.  `n` is the non-negative number. -/
def reprLoop (n : Nat) (divisor : Nat) (acc : List Nat) : List Nat :=
  if h : n / divisor ≠ 0 ∧ 0 < divisor then
    reprLoop n (divisor * 10) (acc ++ [48 + (n / divisor) % 10])
  else acc
  termination_by n + 1 - divisor
  decreasing_by
    have h1 : divisor ≤ n := by
      rcases Nat.lt_or_ge n divisor with h2 | h2
      · exact absurd (Nat.div_eq_of_lt h2) h.1
      · exact h2
    omega

/-- `SymbolicInt.__repr__` for a non-negative number (builtinslib.py:1255-1268). -/
def reprNonneg (n : Nat) : List Nat :=
  if n < 10 then [48 + n] else (reprLoop n 10 [48 + n % 10]).reverse

/-- `SymbolicInt.__repr__` (builtinslib.py:1252-1268), as a list of code points. -/
def repr (x : Int) : List Nat :=
  if x < 0 then 45 :: reprNonneg (-x).toNat else reprNonneg x.toNat

/-- The loop of `_symbolic_repr` (builtinslib.py:1276-1280). -/
def symReprLoop (n : Nat) (threshold : Nat) (acc : List Nat) : List Nat :=
  if n ≥ threshold ∧ 0 < threshold then
    symReprLoop n (threshold * 10) (acc ++ [48 + (n / threshold) % 10])
  else acc
  termination_by n + 1 - threshold

/-- `SymbolicInt._symbolic_repr` (builtinslib.py:1270-1284). -/
def symRepr (x : Int) : List Nat :=
  let n := if x < 0 then (-x).toNat else x.toNat
  let digits := symReprLoop n 10 [48 + n % 10]
  (if x < 0 then digits ++ [45] else digits).reverse

/-- The loop of `_int` over the characters (builtinslib.py:4954-4962); `none` is the fallback to
`int(realize(val))`. -/
def parseLoop (base : Int) : List Nat → Int → Option Int
  | [], ret => some ret
  | ch :: rest, ret =>
    let chNum : Int := (ch : Int) - 48
    if chNum < 0 ∨ chNum ≥ base then none else parseLoop base rest (ret * base + chNum)

/-- `_int` on a symbolic string with base `base` (builtinslib.py:4942-4963).  `cpython s b` is what
CPython's own `int(s, base=b)` does on a concrete string; note that the fallback inside the loop
(line 4960) does not pass the base on. -/
def parseInt (cpython : List Nat → Int → Except PyErr Int) (s : List Nat) (base : Int) :
    Except PyErr Int :=
  if base < 2 ∨ base > 10 ∨ s = [] then cpython s base
  else match parseLoop base s 0 with
    | some r => .ok r
    | none => cpython s 10

/-- `_ch_minimum`, `_ch_maximum` of a `SymbolicBoundedInt` (builtinslib.py:1420-1421). -/
structure Bounds where
  min : Option Int
  max : Option Int
  deriving DecidableEq, Repr

/-- `_ch_intersect_bounds` (builtinslib.py:1474-1489), without the assertion sent to the
solver. -/
def Bounds.intersect (b : Bounds) (newMin newMax : Option Int) : Bounds :=
  let b1 : Bounds := match newMin with
    | none => b
    | some m => match b.min with
      | none => { b with min := some m }
      | some m0 => if m > m0 then { b with min := some m } else b
  match newMax with
  | none => b1
  | some m => match b1.max with
    | none => { b1 with max := some m }
    | some m0 => if m < m0 then { b1 with max := some m } else b1

/-- The early answers of `__lt__` (builtinslib.py:1427-1432); `none` means the solver is asked. -/
def Bounds.lt (b : Bounds) (other : Int) : Option Bool :=
  if b.min.any (fun m => decide (other < m)) then some false
  else if b.max.any (fun m => decide (other > m)) then some true
  else none

/-- The early answers of `__gt__` (builtinslib.py:1447-1452). -/
def Bounds.gt (b : Bounds) (other : Int) : Option Bool :=
  if b.max.any (fun m => decide (other > m)) then some false
  else if b.min.any (fun m => decide (other < m)) then some true
  else none

/-- The decision trigger attached by `__lt__` (builtinslib.py:1435-1443). -/
def Bounds.decidedLt (b : Bounds) (other : Int) (islt : Bool) : Bounds :=
  if islt then b.intersect none (some (other - 1)) else b.intersect (some other) none

/-- The decision trigger attached by `__gt__` (builtinslib.py:1455-1463). -/
def Bounds.decidedGt (b : Bounds) (other : Int) (isgt : Bool) : Bounds :=
  if isgt then b.intersect (some (other + 1)) none else b.intersect none (some other)

/-- `_unary_op(ops.neg)` (builtinslib.py:1493-1496). -/
def Bounds.neg (b : Bounds) : Bounds := { min := b.max.map (- ·), max := b.min.map (- ·) }

theorem fmod_natAbs_lt (a b : Int) (h : b ≠ 0) : (a.fmod b).natAbs < b.natAbs := by
  rcases Int.lt_or_gt_of_ne h with hb | hb
  · have h1 := Int.fmod_nonneg_of_pos (-a) (show 0 < -b by omega)
    have h2 := Int.fmod_lt_of_pos (-a) (show 0 < -b by omega)
    rw [Int.neg_fmod_neg] at h1 h2
    omega
  · have h1 := Int.fmod_nonneg_of_pos a hb
    have h2 := Int.fmod_lt_of_pos a hb
    omega

/-- `_gcd` (mathlib.py:56-59). `%` is Python's modulo; `natAbs` is the final `abs`. -/
def gcd (a b : Int) : Int :=
  if h : b ≠ 0 then gcd b (a.fmod b) else (a.natAbs : Int)
  termination_by b.natAbs
  decreasing_by exact fmod_natAbs_lt a b h

end Verif.Ints
