/-
Model of the in-memory text stream: crosshair/libimpl/iolib.py 13-201 (`BackedStringIO`).

Text is a list of characters.  Python slices, `str.find` and the regular expression `(\r\n|\r|\n)` are written
out.  Not modelled: `repr`, realization, arguments of the wrong type, `readable`/`writable`/`seekable`.
-/
namespace Verif.TextIO

/-- iolib.py 28-29: the accepted values of `newline`: `None`, `""`, `"\n"`, `"\r"`, `"\r\n"`. -/
inductive Mode where
  | any
  | raw
  | lf
  | cr
  | crlf
  deriving DecidableEq, Repr

/-- iolib.py 16: the set of newlines seen so far. -/
structure Seen where
  cr : Bool := false
  lf : Bool := false
  crlf : Bool := false
  deriving DecidableEq, Repr

/-- iolib.py 14-17; `closed` is the attribute of the base class. -/
structure Sio where
  contents : List Char
  pos : Int
  mode : Mode
  seen : Seen
  closed : Bool
  deriving DecidableEq, Repr

/-- The exceptions that the operations raise. -/
inductive Err where
  | value
  | os
  deriving DecidableEq, Repr

/-- What an operation gives to its caller. -/
inductive Out where
  | text (s : List Char)
  | num (n : Int)
  | newlines (s : Seen)
  | unit
  | raised (e : Err)
  deriving DecidableEq, Repr

/-- The operations. -/
inductive Op where
  | read (amount : Option Int)
  | readline (limit : Option Int)
  | write (s : List Char)
  | seek (amount whence : Int)
  | tell
  | truncate (size : Option Int)
  | getvalue
  | newlines
  | close
  deriving DecidableEq, Repr

/-! ## Python strings -/

/-- A bound of a slice, or of `str.find`, as a position in a string of length `n`. -/
def clip (n : Nat) (k : Int) : Nat :=
  let j := if k < 0 then k + n else k
  min j.toNat n

/-- `s[a:b]`. -/
def slice (s : List Char) (a b : Int) : List Char := (s.take (clip s.length b)).drop (clip s.length a)

/-- Position of the first occurrence of `sub`. -/
def findSub (sub : List Char) : List Char → Option Nat
  | [] => if sub.isEmpty then some 0 else none
  | c :: cs => if sub.isPrefixOf (c :: cs) then some 0 else (findSub sub cs).map (· + 1)

/-- `s.find(sub, a, b)`. -/
def find (s sub : List Char) (a b : Int) : Option Nat :=
  (findSub sub (slice s a b)).map (· + clip s.length a)

/-- iolib.py 10: where the first match of the regular expression ends. -/
def matchEnd : List Char → Option Nat
  | [] => none
  | '\r' :: '\n' :: _ => some 2
  | '\r' :: _ => some 1
  | '\n' :: _ => some 1
  | _ :: cs => (matchEnd cs).map (· + 1)

/-- The bounds of `Pattern.finditer`, which do not count from the end. -/
def reClip (n : Nat) (k : Int) : Nat := min k.toNat n

/-- The end of the first match in `finditer(s, a, b)`. -/
def searchEnd (s : List Char) (a b : Int) : Option Nat :=
  (matchEnd ((s.take (reClip s.length b)).drop (reClip s.length a))).map (· + reClip s.length a)

/-- iolib.py 82-86: `_UNIVERSAL_NEWLINE_RE.sub`, every match being replaced by `"\n"`. -/
def subAll : List Char → List Char
  | [] => []
  | '\r' :: '\n' :: cs => '\n' :: subAll cs
  | '\r' :: cs => '\n' :: subAll cs
  | '\n' :: cs => '\n' :: subAll cs
  | c :: cs => c :: subAll cs

/-- iolib.py 83, 88: the set of all matches is added to those already seen. -/
def scan (seen : Seen) : List Char → Seen
  | [] => seen
  | '\r' :: '\n' :: cs => scan { seen with crlf := true } cs
  | '\r' :: cs => scan { seen with cr := true } cs
  | '\n' :: cs => scan { seen with lf := true } cs
  | _ :: cs => scan seen cs

/-- The text of a newline in the modes that name one; iolib.py 130 uses `"\n"` for `None`. -/
def Mode.nl : Mode → List Char
  | .any => ['\n']
  | .raw => []
  | .lf => ['\n']
  | .cr => ['\r']
  | .crlf => ['\r', '\n']

/-! ## The stream -/

/-- iolib.py 78-93: `_replace_newlines`. -/
def replaceNewlines (mode : Mode) (seen : Seen) (s : List Char) : List Char × Seen :=
  match mode with
  | .any => (subAll s, scan seen s)
  | .raw => (s, scan seen s)
  | .lf => (s, seen)
  | m => (s.flatMap fun c => if c = '\n' then m.nl else [c], seen)

/-- iolib.py 20-39: the constructor. -/
def init (initial : List Char) (mode : Mode) : Sio :=
  if initial.isEmpty then ⟨[], 0, mode, {}, false⟩
  else
    let (s, seen) := replaceNewlines mode {} initial
    ⟨s, 0, mode, seen, false⟩

/-- iolib.py 104-107: the text that `read` returns. -/
def readText (t : Sio) : Option Int → List Char
  | none => slice t.contents t.pos t.contents.length
  | some n => slice t.contents t.pos (t.pos + n)

/-- iolib.py 101-109: `read`. -/
def read (t : Sio) (amount : Option Int) : Out × Sio :=
  if t.closed then (.raised .value, t)
  else
    let ret := readText t amount
    (.text ret, { t with pos := t.pos + ret.length })

/-- iolib.py 116-138: `readline`. -/
def readline (t : Sio) (limit : Option Int) : Out × Sio :=
  if t.closed then (.raised .value, t)
  else
    let limit := limit.getD t.contents.length
    match t.mode with
    | .raw =>
      match searchEnd t.contents t.pos limit with
      | some e => (.text (slice t.contents t.pos e), { t with pos := e })
      | none => (.text (slice t.contents t.pos limit), { t with pos := limit })
    | m =>
      match find t.contents m.nl t.pos limit with
      | none => (.text (slice t.contents t.pos limit), { t with pos := limit })
      | some idx => (.text (slice t.contents t.pos (idx + m.nl.length)), { t with pos := idx + m.nl.length })

/-- iolib.py 140-158: `write`. -/
def write (t : Sio) (s : List Char) : Out × Sio :=
  if t.closed then (.raised .value, t)
  else if s.isEmpty then (.num 0, t)
  else
    let (ws, seen) := replaceNewlines t.mode t.seen s
    let padded :=
      if t.pos > t.contents.length then
        t.contents ++ List.replicate (t.pos - t.contents.length).toNat (Char.ofNat 0)
      else t.contents
    let contents :=
      if t.pos = padded.length then padded ++ ws
      else slice t.contents 0 t.pos ++ ws ++ slice t.contents (t.pos + ws.length) t.contents.length
    (.num s.length, { t with contents := contents, seen := seen, pos := t.pos + ws.length })

/-- iolib.py 160-178: `seek`. -/
def seek (t : Sio) (amount whence : Int) : Out × Sio :=
  if t.closed then (.raised .value, t)
  else if whence = 1 then
    if amount ≠ 0 then (.raised .os, t) else (.num (t.pos + amount), { t with pos := t.pos + amount })
  else if whence = 2 then
    if amount ≠ 0 then (.raised .os, t)
    else (.num (t.contents.length + amount), { t with pos := t.contents.length + amount })
  else if whence = 0 then
    if amount < 0 then (.raised .value, t) else (.num amount, { t with pos := amount })
  else (.raised .value, t)

/-- iolib.py 190-196: `truncate`. -/
def truncate (t : Sio) (size : Option Int) : Out × Sio :=
  if t.closed then (.raised .value, t)
  else
    let size := size.getD t.pos
    (.num size, { t with contents := slice t.contents 0 size })

/-- iolib.py 68-196: all operations; `newlines` (68-76) shows the set of newlines seen. -/
def step (t : Sio) : Op → Out × Sio
  | .read n => read t n
  | .readline n => readline t n
  | .write s => write t s
  | .seek a w => seek t a w
  | .tell => if t.closed then (.raised .value, t) else (.num t.pos, t)
  | .truncate n => truncate t n
  | .getvalue => (.text t.contents, t)
  | .newlines => (.newlines t.seen, t)
  | .close => (.unit, { t with closed := true })

/-- A history of operations. -/
def run (t : Sio) : List Op → List Out × Sio
  | [] => ([], t)
  | op :: ops =>
    let (o, t') := step t op
    let (os, t'') := run t' ops
    (o :: os, t'')

end Verif.TextIO
