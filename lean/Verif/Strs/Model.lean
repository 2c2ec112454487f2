import Verif.Strs.Spec
/-
Model of the string algorithms that symbolic strings share, /repo/crosshair/abcstring.py:38-399 and
/repo/crosshair/libimpl/builtinslib.py:3412-3852.

Strings are lists of code points; comparisons between code points are decided.  Slices of strings are
Python's (`pyCut`); `Verif.Seq` shows that of the underlying sequences.
-/
namespace Verif.Strs

/-- `all(a == b for a, b in zip(xs, ys))`. -/
def allEq (xs ys : Str) : Bool := (xs.zip ys).all fun p => decide (p.1 = p.2)

/-- `_unfindable_range` (abcstring.py:38-51). -/
def unfindableRange (start stop : Option Int) (mylen : Int) : Bool :=
  match start with
  | none => false
  | some start =>
    if start = 0 ∨ start ≤ -mylen then false
    else
      let plain := match stop with
        | none => true
        | some stop => decide (stop ≥ mylen)
      if plain then decide (start > mylen)
      else
        let stop := stop.getD 0
        let start := if start < 0 then start + mylen else start
        let stop := if stop < 0 then stop + mylen else stop
        decide (start > stop)

/-- The test made at each position (abcstring.py:211, 286, 332). -/
def matchAt (points sub : Str) (i : Nat) : Bool :=
  allEq (pyCut points (some i) (some (i + sub.length))) sub

/-- The positions tried (abcstring.py:208-209): `range(0, span + 1)` or `range(span, -1, -1)`, with
`span` the difference of the lengths. -/
def positions (points sub : Str) (fromRight : Bool) : List Nat :=
  let span : Int := (points.length : Int) - sub.length
  if fromRight then (List.range (span + 1).toNat).reverse else List.range (span + 1).toNat

/-- `_find` (abcstring.py:185-213). -/
def find (s sub : Str) (start stop : Option Int) (fromRight : Bool) : Int :=
  let mylen : Int := s.length
  let start : Int := (start.map fun a => if a < 0 then a + mylen else a).getD 0
  let stop : Int := (stop.map fun b => if b < 0 then b + mylen else b).getD mylen
  let matchable := if start ≠ 0 ∨ stop ≠ mylen then pyCut s (some start) (some stop) else s
  if sub.length = 0 then
    if matchable.length = 0 ∧ start > min mylen (max stop 0) then -1
    else if fromRight then max (min stop mylen) 0 else max start 0
  else
    match (positions matchable sub fromRight).find? (matchAt matchable sub) with
    | some i => start + i
    | none => -1

/-- `partition` (abcstring.py:280-294); `none` is the `ValueError` for an empty separator. -/
def partition (s sep : Str) : Option (Str × Str × Str) :=
  if sep.length = 0 then none
  else match (positions s sep false).find? (matchAt s sep) with
    | some start => some (pyCut s none (some start), sep, pyCut s (some (start + sep.length)) none)
    | none => some (s, [], [])

/-- `rpartition` (abcstring.py:325-337). -/
def rpartition (s sep : Str) : Option (Str × Str × Str) :=
  if sep.length = 0 then none
  else match (positions s sep true).find? (matchAt s sep) with
    | some start => some (pyCut s none (some start), sep, pyCut s (some (start + sep.length)) none)
    | none => some ([], [], s)

/-- `LazyIntSymbolicStr.__contains__` (builtinslib.py:3909-3913). -/
def contains (s sub : Str) : Bool :=
  if sub.length = 0 then true
  else match partition s sub with
    | some (_, m, _) => decide (m ≠ [])
    | none => false

/-- `replace` (abcstring.py:296-310); `fuel` bounds the recursion, one more than the length
suffices. -/
def replaceLoop (old new : Str) : Nat → Str → Int → Str
  | 0, s, _ => s
  | fuel + 1, s, count =>
    if count = 0 then s
    else if s.length = 0 then (if old.length = 0 then new else s)
    else if old.length = 0 then
      new ++ pyCut s none (some 1) ++ replaceLoop old new fuel (pyCut s (some 1) none) (count - 1)
    else match partition s old with
      | none => s
      | some (pre, m, suffix) =>
        if m.length = 0 then s
        else pre ++ new ++ replaceLoop old new fuel suffix (count - 1)

@[inherit_doc replaceLoop] def replace (s old new : Str) (count : Int) : Str :=
  replaceLoop old new (s.length + 1) s count

/-- `split` with a separator (builtinslib.py:3717-3738), separator not empty; `fuel` bounds the
recursion. -/
def splitLoop (sep : Str) : Nat → Str → Int → List Str
  | 0, s, _ => [s]
  | fuel + 1, s, maxsplit =>
    if maxsplit = 0 then [s]
    else
      let first := find s sep none none false
      if first = -1 then [s]
      else
        let newMax := if maxsplit < 0 then -1 else maxsplit - 1
        pyCut s none (some first) :: splitLoop sep fuel (pyCut s (some (first + sep.length)) none) newMax

@[inherit_doc splitLoop] def split (s sep : Str) (maxsplit : Int) : Option (List Str) :=
  if sep.length = 0 then none else some (splitLoop sep (s.length + 1) s maxsplit)

/-- `rsplit` with a separator (builtinslib.py:3677-3696). -/
def rsplitLoop (sep : Str) : Nat → Str → Int → List Str
  | 0, s, _ => [s]
  | fuel + 1, s, maxsplit =>
    if maxsplit = 0 then [s]
    else
      let last := find s sep none none true
      if last = -1 then [s]
      else
        let newMax := if maxsplit < 0 then -1 else maxsplit - 1
        rsplitLoop sep fuel (pyCut s none (some last)) newMax ++ [pyCut s (some (sep.length + last)) none]

@[inherit_doc rsplitLoop] def rsplit (s sep : Str) (maxsplit : Int) : Option (List Str) :=
  if sep.length = 0 then none else some (rsplitLoop sep (s.length + 1) s maxsplit)

/-- `count` (abcstring.py:127-138), after slicing; `fuel` bounds the loop. -/
def countLoop (sliced sub : Str) : Nat → Nat → Int → Nat
  | 0, total, _ => total
  | fuel + 1, total, pos =>
    let idx := find sliced sub (some pos) none false
    if idx = -1 then total else countLoop sliced sub fuel (total + 1) (idx + sub.length)

@[inherit_doc countLoop] def count (s sub : Str) (start stop : Option Int) : Nat :=
  let sliced := pyCut s start stop
  if sub.length = 0 then sliced.length + 1 else countLoop sliced sub (sliced.length + 1) 0 0

/-- `startswith` (abcstring.py:351-366), for one prefix. -/
def startswith (s p : Str) (start stop : Option Int) : Bool :=
  let whole := start = none ∧ stop = none
  if ¬ whole ∧ unfindableRange start stop s.length then false
  else
    let matchable := if whole then s else pyCut s start stop
    if p.length > matchable.length then false
    else allEq (pyCut matchable none (some p.length)) p

/-- `endswith` (abcstring.py:147-158), for one suffix. -/
def endswith (s p : Str) (start stop : Option Int) : Bool :=
  let matchable := if start = none ∧ stop = none then s else pyCut s start stop
  if p.length = 0 then !unfindableRange start stop s.length
  else if p.length > matchable.length then false
  else allEq (pyCut matchable (some (-(p.length : Int))) none) p

/-- With a tuple of affixes (abcstring.py:148-149, 352-353). -/
def startswithAny (s : Str) (ps : List Str) (start stop : Option Int) : Bool :=
  ps.any fun p => startswith s p start stop
@[inherit_doc startswithAny] def endswithAny (s : Str) (ps : List Str) (start stop : Option Int) : Bool :=
  ps.any fun p => endswith s p start stop

/-- `removeprefix` (abcstring.py:388-391). -/
def removeprefix (s p : Str) : Str :=
  if startswith s p none none then pyCut s (some p.length) none else s

/-- `removesuffix` (abcstring.py:393-399). -/
def removesuffix (s p : Str) : Str :=
  if endswith s p none none then
    if p.length = 0 then s else pyCut s none (some (-(p.length : Int)))
  else s

/-- `lstrip` (builtinslib.py:3591-3607); `p` is the filter (`isspace`, or membership in `chars`). -/
def lstrip (p : Nat → Bool) (s : Str) : Str :=
  match s.findIdx? (fun c => !p c) with
  | some idx => pyCut s (some idx) none
  | none => []

/-- `rstrip` (builtinslib.py:3698-3715); `fuel` bounds the recursion, the length suffices. -/
def rstripLoop (p : Nat → Bool) : Nat → Str → Str
  | 0, s => s
  | fuel + 1, s => match s.getLast? with
    | none => []
    | some c => if p c then rstripLoop p fuel (pyCut s none (some (-1))) else s

@[inherit_doc rstripLoop] def rstrip (p : Nat → Bool) (s : Str) : Str := rstripLoop p s.length s

/-- `strip` (builtinslib.py:3740-3741). -/
def strip (p : Nat → Bool) (s : Str) : Str := rstrip p (lstrip p s)

/-- `fillchar * n`. -/
def fill (c : Nat) (n : Int) : Str := List.replicate n.toNat c

/-- `center` (builtinslib.py:3412-3426). -/
def center (s : Str) (width : Int) (c : Nat) : Str :=
  let mylen : Int := s.length
  if mylen ≥ width then s
  else
    let remainder := width - mylen
    let smaller := remainder.fdiv 2
    let larger := remainder - smaller
    if width.fmod 2 = 1 then fill c larger ++ s ++ fill c smaller
    else fill c smaller ++ s ++ fill c larger

/-- `ljust` (builtinslib.py:3565-3572). -/
def ljust (s : Str) (width : Int) (c : Nat) : Str := s ++ fill c (max 0 (width - s.length))

/-- `rjust` (builtinslib.py:3632-3642). -/
def rjust (s : Str) (width : Int) (c : Nat) : Str :=
  if (s.length : Int) ≥ width then s else fill c (width - s.length) ++ s

/-- `zfill` (builtinslib.py:3845-3852); 43 is `+`, 45 is `-`, 48 is `0`. -/
def zfill (s : Str) (width : Int) : Str :=
  let fillLength := max 0 (width - s.length)
  if startswith s [43] none none ∨ startswith s [45] none none then
    pyCut s (some 0) (some 1) ++ fill 48 fillLength ++ pyCut s (some 1) none
  else fill 48 fillLength ++ s

/-- `splitlines` (builtinslib.py:3609-3630); `nl` is the newline mask; `fuel` bounds the
recursion. -/
def splitlinesLoop (nl : Nat → Bool) (keepends : Bool) : Nat → Str → List Str
  | 0, _ => []
  | fuel + 1, s =>
    if s.length = 0 then []
    else match s.findIdx? nl with
      | none => [s]
      | some idx =>
        if s[idx]? = some 13 ∧ idx + 1 < s.length ∧ s[idx + 1]? = some 10 then
          (if keepends then pyCut s none (some (idx + 2)) else pyCut s none (some idx)) ::
            splitlinesLoop nl keepends fuel (pyCut s (some (idx + 2)) none)
        else
          (if keepends then pyCut s none (some (idx + 1)) else pyCut s none (some idx)) ::
            splitlinesLoop nl keepends fuel (pyCut s (some (idx + 1)) none)

@[inherit_doc splitlinesLoop] def splitlines (nl : Nat → Bool) (keepends : Bool) (s : Str) : List Str :=
  splitlinesLoop nl keepends (s.length + 1) s

/-- `re.compile(r"\s+").search(t)`: the first run of whitespace, as start and end. -/
def searchWs (p : Nat → Bool) (t : Str) : Option (Nat × Nat) :=
  (t.findIdx? p).map fun i => (i, i + ((t.drop i).takeWhile p).length)

/-- `split_parts_lazy` (builtinslib.py:3261-3300) with `_WS_SPLIT`.  The search position is kept as the
remaining string, `unlimited` as `none`; `fuel` bounds the loop. -/
def splitParts (p : Nat → Bool) : Nat → Option Nat → Str → List Str
  | 0, _, t => [t]
  | fuel + 1, lim, t =>
    if lim = some 0 then [t]
    else match searchWs p t with
      | none => [t]
      | some (i, j) =>
        pyCut t none (some i) :: (if j = t.length then [[]] else splitParts p fuel (lim.map (· - 1)) (t.drop j))

/-- `_split_whitespace_default` (builtinslib.py:3644-3662). -/
def splitWs (p : Nat → Bool) (s : Str) (maxsplit : Int) : List Str :=
  if maxsplit = 0 then
    let left := lstrip p s
    if left.length = 0 then [] else [left]
  else
    let stripped := strip p s
    if stripped.length = 0 then []
    else splitParts p (stripped.length + 1) (if maxsplit < 0 then none else some maxsplit.toNat) stripped

/-- `list(patt.finditer(string))`: all the runs; `off` is how much was consumed before `t`. -/
def findAllWs (p : Nat → Bool) : Nat → Nat → Str → List (Nat × Nat)
  | 0, _, _ => []
  | fuel + 1, off, t => match searchWs p t with
    | none => []
    | some (i, j) => (off + i, off + j) :: findAllWs p fuel (off + j) (t.drop j)

/-- The loop of `rsplit_parts_lazy` (builtinslib.py:3313-3321) over the matches from the right. -/
def rsplitPartsLoop (s : Str) : List (Nat × Nat) → Nat → Int → List Str
  | [], stop, _ => [pyCut s none (some stop)]
  | (i, j) :: ms, stop, maxsplit =>
    if maxsplit ≤ 0 then [pyCut s none (some stop)]
    else pyCut s (some j) (some stop) :: rsplitPartsLoop s ms i (maxsplit - 1)

/-- `rsplit_parts_lazy` (builtinslib.py:3305-3324) with `_WS_SPLIT`. -/
def rsplitParts (p : Nat → Bool) (s : Str) (maxsplit : Int) : List Str :=
  let ms := findAllWs p (s.length + 1) 0 s
  if ms.length = 0 then [s] else (rsplitPartsLoop s ms.reverse s.length maxsplit).reverse

/-- `_rsplit_whitespace_default` (builtinslib.py:3664-3675); `maxsize` is `sys.maxsize`. -/
def rsplitWs (p : Nat → Bool) (maxsize : Int) (s : Str) (maxsplit : Int) : List Str :=
  if maxsplit = 0 then
    let right := rstrip p s
    if right.length = 0 then [] else [right]
  else
    let stripped := strip p s
    if stripped.length = 0 then []
    else if maxsplit < 0 then rsplitParts p stripped maxsize
    else rsplitParts p stripped maxsplit

/-- `expandtabs` (builtinslib.py:3431-3434). -/
def expandtabs (s : Str) (tabsize : Int) : Str := replace s [9] (fill 32 tabsize) (-1)

/-- `_chars_in_maskfn` (builtinslib.py:3436-3448), behind `isalnum`, `isdigit` and so on. -/
def charsIn (mask : Nat → Bool) (ifEmpty : Bool) (s : Str) : Bool :=
  if s.length = 0 then ifEmpty else s.all mask

/-- The loop of `islower` (builtinslib.py:3496-3505). -/
def islowerLoop (lower title : Nat → Bool) : Bool → Str → Bool
  | found, [] => found
  | found, c :: s =>
    if title c then false
    else islowerLoop lower title (if lower c then true else found) s

/-- `islower` (builtinslib.py:3489-3505). -/
def islower (lower title : Nat → Bool) (s : Str) : Bool :=
  if s.length = 0 then false else islowerLoop lower title false s

/-- The loop of `isupper` (builtinslib.py:3550-3560). -/
def isupperLoop (lower upper title : Nat → Bool) : Bool → Str → Bool
  | found, [] => found
  | found, c :: s =>
    if upper c then isupperLoop lower upper title true s
    else if lower c || title c then false
    else isupperLoop lower upper title found s

/-- `isupper` (builtinslib.py:3541-3560). -/
def isupper (lower upper title : Nat → Bool) (s : Str) : Bool :=
  if s.length = 0 then false else isupperLoop lower upper title false s

/-- `istitle` (builtinslib.py:3518-3539). -/
def istitleLoop (lower title : Nat → Bool) : Bool → Bool → Str → Bool
  | _, found, [] => found
  | expectUpper, found, c :: s =>
    if title c then
      if !expectUpper then false else istitleLoop lower title false true s
    else if lower c then
      if expectUpper then false else istitleLoop lower title expectUpper found s
    else istitleLoop lower title true found s

@[inherit_doc istitleLoop] def istitle (lower title : Nat → Bool) (s : Str) : Bool :=
  istitleLoop lower title true false s

end Verif.Strs
