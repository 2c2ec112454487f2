/-! Sets of characters: crosshair/unicode_categories.py `CharMask`, and crosshair/libimpl/relib.py `single_char_mask`. -/
namespace Verif.Mask

/-- `sys.maxunicode + 1`. -/
def top : Nat := 0x110000

/-- unicode_categories.py:45 an item of `parts`. -/
inductive Part where
  | one (c : Nat)
  | span (lo hi : Nat)
deriving DecidableEq

/-- unicode_categories.py:106-113 `bounds_at`. -/
def Part.bounds : Part → Nat × Nat
  | .one c => (c, c + 1)
  | .span lo hi => (lo, hi)

/-- unicode_categories.py:34-45 `CharMask`. -/
abbrev Mask := List Part

/-- unicode_categories.py:101-104 `all_bounds`. -/
def bounds (m : Mask) : List (Nat × Nat) := m.map Part.bounds

/-- unicode_categories.py:68: a new part. -/
def newPart (lo hi : Nat) : Part := if lo + 1 = hi then .one lo else .span lo hi

/-- unicode_categories.py:47-68 `maybe_add_bounds`. The assertion `minimum >= last_min` (line 65) is left out. -/
def maybeAdd (m : Mask) (lo hi : Nat) : Mask :=
  if lo < hi then
    match m.getLast? with
    | some p =>
      if lo ≤ p.bounds.2 then
        if hi ≤ p.bounds.2 then m else m.dropLast ++ [.span p.bounds.1 hi]
      else m ++ [newPart lo hi]
    | none => m ++ [newPart lo hi]
  else m

/-- unicode_categories.py:95-99 `covers`. -/
def covers (m : Mask) (c : Nat) : Bool := (bounds m).any fun b => b.1 ≤ c && c < b.2

/-- unicode_categories.py:79-93 `smt_matches`: the constraint, evaluated for a character. -/
def smtMatches (m : Mask) (c : Int) : Bool :=
  m.any fun p =>
    match p with
    | .one d => c == d
    | .span lo hi => (lo : Int) ≤ c && c < hi

/-- The loops of `invert`, `union` and `intersect`: bounds are added to an empty mask. -/
def addAll (bs : List (Nat × Nat)) : Mask := bs.foldl (fun m b => maybeAdd m b.1 b.2) []

/-- unicode_categories.py:119-120: consecutive numbers taken as bounds. -/
def pairUp : List Nat → List (Nat × Nat)
  | a :: b :: rest => (a, b) :: pairUp rest
  | _ => []

/-- unicode_categories.py:115-121 `invert`. -/
def invert (m : Mask) : Mask :=
  addAll (pairUp ([0] ++ (bounds m).flatMap (fun b => [b.1, b.2]) ++ [top]))

/-- unicode_categories.py:125 `sorted` for pairs of numbers. -/
def insertPair (x : Nat × Nat) : List (Nat × Nat) → List (Nat × Nat)
  | [] => [x]
  | y :: ys => if x.1 < y.1 ∨ (x.1 = y.1 ∧ x.2 ≤ y.2) then x :: y :: ys else y :: insertPair x ys

/-- unicode_categories.py:125 `sorted` for pairs of numbers. -/
def sortPairs (xs : List (Nat × Nat)) : List (Nat × Nat) := xs.foldr insertPair []

/-- unicode_categories.py:123-127 `union`. -/
def union (m n : Mask) : Mask := addAll (sortPairs (bounds m ++ bounds n))

/-- unicode_categories.py:129-138 `intersect`. -/
def intersect (m n : Mask) : Mask :=
  addAll ((bounds m).flatMap fun a => (bounds n).map fun b => (max a.1 b.1, min a.2 b.2))

/-- unicode_categories.py:140-141 `subtract`. -/
def subtract (m n : Mask) : Mask := intersect m (invert n)

/-! ## Single characters of regular expressions -/

/-- relib.py:187-205 the categories. -/
inductive Category where
  | digit
  | notDigit
  | space
  | notSpace
  | word
  | notWord
deriving DecidableEq

/-- What `sre_parse` makes of an expression for a single character. -/
inductive Term where
  | literal (c : Nat)
  | notLiteral (c : Nat)
  | range (lo hi : Nat)
  | category (k : Category)
  | any

structure Flags where
  ascii : Bool := false
  ignoreCase : Bool := false
  dotAll : Bool := false

/-- What is taken from Python: the characters of the categories, the characters that are looked at for equality without
case (relib.py:104-117 `caseable_chars`: all but those of the category "Lo", in order), which characters `re` takes for
equal without case, and `lower` and `upper` for a character. -/
structure Unicode where
  digit : Mask
  word : Mask
  caseable : List Nat
  eqCase : Nat → Nat → Bool
  lower : Nat → Nat
  upper : Nat → Nat

inductive Error where
  | reError
  | typeError
deriving DecidableEq

/-- relib.py:79. -/
def asciiChars : Mask := [.span 0 128]
/-- relib.py:80. -/
def asciiSpace : Mask := [.span 9 14, .one 32]
/-- relib.py:81-97. -/
def unicodeSpace : Mask :=
  union asciiSpace [.span 28 32, .one 133, .one 160, .one 5760, .span 8192 8203, .span 8232 8234, .one 8239, .one 8287, .one 12288]
/-- relib.py:77. -/
def anyChar : Mask := [.span 0 top]
/-- relib.py:78. -/
def notNewline : Mask := subtract anyChar [.one 10]

/-- relib.py:127 `re.compile(chr(cp), re.IGNORECASE)`, searched for in single characters and given to `ord`: the
character is not escaped. `*`, `+`, `?`, `(`, `)`, `[` and the backslash are not regular expressions; `^`, `$` and `|` match the
empty string, which `ord` refuses; `.` is any character but a line feed. -/
def onePattern (u : Unicode) (c : Nat) : Except Error (Nat → Bool) :=
  if c ∈ [42, 43, 63, 40, 41, 91, 92] then .error .reError
  else if c ∈ [94, 36, 124] then .error .typeError
  else if c = 46 then .ok fun d => d != 10
  else .ok (u.eqCase c)

/-- relib.py:123-130 `unicode_ignorecase_mask`. The cache is left out. -/
def sameCase (u : Unicode) (c : Nat) : Except Error Mask :=
  (onePattern u c).map fun p => (u.caseable.filter p).map .one

/-- relib.py:149-155. -/
def literalMask (u : Unicode) (f : Flags) (c : Nat) : Except Error Mask :=
  if f.ignoreCase then
    (sameCase u c).map fun m => if f.ascii then intersect m asciiChars else m
  else .ok [.one c]

/-- relib.py:182-207: a category. -/
def categoryMask (u : Unicode) (f : Flags) : Category → Mask
  | .digit => if f.ascii then intersect u.digit asciiChars else u.digit
  | .notDigit => invert (if f.ascii then intersect u.digit asciiChars else u.digit)
  | .space => if f.ascii then asciiSpace else unicodeSpace
  | .notSpace => invert (if f.ascii then asciiSpace else unicodeSpace)
  | .word => if f.ascii then intersect u.word asciiChars else u.word
  | .notWord => invert (if f.ascii then intersect u.word asciiChars else u.word)

/-- relib.py:158-170: a range. -/
def rangeMask (u : Unicode) (f : Flags) (lo hi : Nat) : Mask :=
  if f.ignoreCase then
    if f.ascii then intersect [.span (u.lower lo) (u.lower hi + 1), .span (u.upper lo) (u.upper hi + 1)] asciiChars
    else [.span (u.lower lo) (u.lower hi + 1), .span (u.upper lo) (u.upper hi + 1)]
  else [.span lo (hi + 1)]

/-- relib.py:133-213 `single_char_mask`, without sets of terms. Categories that it does not know (they do not come from
`sre_parse`) are left out. -/
def termMask (u : Unicode) (f : Flags) : Term → Except Error Mask
  | .literal c => literalMask u f c
  | .notLiteral c => (literalMask u f c).map invert
  | .range lo hi => .ok (rangeMask u f lo hi)
  | .category k => .ok (categoryMask u f k)
  | .any => .ok (if f.dotAll then anyChar else notNewline)

/-- relib.py:176-180: the loop over the terms. -/
def unionAll (u : Unicode) (f : Flags) (m : Mask) : List Term → Except Error Mask
  | [] => .ok m
  | t :: ts =>
    match termMask u f t with
    | .error e => .error e
    | .ok n => unionAll u f (union m n) ts

/-- relib.py:171-182: a set of terms. -/
def setMask (u : Unicode) (f : Flags) (negate : Bool) (terms : List Term) : Except Error Mask :=
  (unionAll u f [] terms).map fun m => if negate then invert m else m

end Verif.Mask
