import Verif.TextIO.Model

/-!
What a Python programmer expects of `io.StringIO`: a text, a position counted from the start, and the strings
that have been put in.
-/
namespace Verif.TextIO

/-- A text stream as the programmer sees it. -/
structure Buf where
  text : List Char
  pos : Nat
  fed : List (List Char)
  closed : Bool

/-- Universal newlines: every `\r` becomes a newline, and a `\n` right after a `\r` disappears. -/
def unify (prev : Option Char) : List Char → List Char
  | [] => []
  | c :: cs =>
    if c = '\r' then '\n' :: unify (some c) cs
    else if c = '\n' ∧ prev = some '\r' then unify (some c) cs
    else c :: unify (some c) cs

/-- What is stored of a string that is put in. -/
def stored (mode : Mode) (s : List Char) : List Char :=
  match mode with
  | .any => unify none s
  | .raw | .lf => s
  | .cr => s.map fun c => if c = '\n' then '\r' else c
  | .crlf => s.flatMap fun c => if c = '\n' then ['\r', '\n'] else [c]

/-- The kinds of newline that occur in the strings put in. -/
def hasCrlf (s : List Char) : Bool := decide (['\r', '\n'] <:+: s)

/-- A `\r` that no `\n` follows. -/
def hasCr : List Char → Bool
  | [] => false
  | c :: cs => (decide (c = '\r') && decide (cs.head? ≠ some '\n')) || hasCr cs

/-- A `\n` that no `\r` precedes. -/
def hasLf (prev : Option Char) : List Char → Bool
  | [] => false
  | c :: cs => (decide (c = '\n') && decide (prev ≠ some '\r')) || hasLf (some c) cs

/-- The attribute `newlines`; only two modes keep track. -/
def kinds (mode : Mode) (fed : List (List Char)) : Seen :=
  match mode with
  | .any | .raw => ⟨fed.any hasCr, fed.any (hasLf none), fed.any hasCrlf⟩
  | _ => {}

/-- `p` is a complete line, given what follows it. -/
def complete (mode : Mode) (p rest : List Char) : Bool :=
  match mode with
  | .raw => p.getLast? == some '\n' || (p.getLast? == some '\r' && rest.head? != some '\n')
  | m => m.nl.isSuffixOf p

/-- The first line: the shortest complete prefix, or everything. -/
def firstLine (mode : Mode) (s : List Char) : List Char :=
  match (List.range (s.length + 1)).find? fun k => complete mode (s.take k) (s.drop k) with
  | some k => s.take k
  | none => s

/-- Put `s` at position `pos`, filling a gap with null characters and overwriting what is there. -/
def putAt (text : List Char) (pos : Nat) (s : List Char) : List Char :=
  text.take pos ++ List.replicate (pos - text.length) (Char.ofNat 0) ++ s ++ text.drop (pos + s.length)

/-- A fresh stream. -/
def fresh (initial : List Char) (mode : Mode) : Buf := ⟨stored mode initial, 0, [initial], false⟩

/-- At most `n` characters; a missing or negative `n` is no limit. -/
def upTo (n : Option Int) (s : List Char) : List Char :=
  match n with
  | none => s
  | some n => if n < 0 then s else s.take n.toNat

/-- Everything but `close` raises `ValueError` on a closed stream. -/
def open? (b : Buf) (k : Out × Buf) : Out × Buf := if b.closed then (.raised .value, b) else k

/-- What every operation gives and does. -/
def bufStep (mode : Mode) (b : Buf) : Op → Out × Buf
  | .read n =>
    let r := upTo n (b.text.drop b.pos)
    open? b (.text r, { b with pos := b.pos + r.length })
  | .readline n =>
    let r := upTo n (firstLine mode (b.text.drop b.pos))
    open? b (.text r, { b with pos := b.pos + r.length })
  | .write s =>
    open? b (if s = [] then (.num 0, b)
      else (.num s.length, { b with
        text := putAt b.text b.pos (stored mode s)
        pos := b.pos + (stored mode s).length
        fed := b.fed ++ [s] }))
  | .seek a w =>
    open? b (if w = 0 then (if a < 0 then (.raised .value, b) else (.num a, { b with pos := a.toNat }))
      else if w = 1 then (if a = 0 then (.num b.pos, b) else (.raised .os, b))
      else if w = 2 then
        (if a = 0 then (.num b.text.length, { b with pos := b.text.length }) else (.raised .os, b))
      else (.raised .value, b))
  | .tell => open? b (.num b.pos, b)
  | .truncate n =>
    let size := n.getD b.pos
    open? b (if size < 0 then (.raised .value, b) else (.num size, { b with text := b.text.take size.toNat }))
  | .getvalue => open? b (.text b.text, b)
  | .newlines => open? b (.newlines (kinds mode b.fed), b)
  | .close => (.unit, { b with closed := true })

/-- A history of operations. -/
def bufRun (mode : Mode) (b : Buf) : List Op → List Out × Buf
  | [] => ([], b)
  | op :: ops =>
    let (o, b') := bufStep mode b op
    let (os, b'') := bufRun mode b' ops
    (o :: os, b'')

/-- Operations on which the stream is expected to agree.  Excluded are negative amounts for `read` and
`truncate`; `readline` beyond the end; `readline` with a limit, except at the start of the text and within it;
and `getvalue` and `newlines` after `close`. -/
def Fair (b : Buf) : Op → Prop
  | .read (some n) => 0 ≤ n
  | .readline none => b.pos ≤ b.text.length
  | .readline (some n) => b.pos = 0 ∧ 0 ≤ n ∧ n ≤ b.text.length
  | .truncate (some n) => 0 ≤ n
  | .getvalue | .newlines => b.closed = false
  | _ => True

/-- Every operation of a history is fair. -/
def FairRun (mode : Mode) (b : Buf) : List Op → Prop
  | [] => True
  | op :: ops => Fair b op ∧ FairRun mode (bufStep mode b op).2 ops

/-- The model's stream shows this buffer. -/
structure Shows (m : Mode) (t : Sio) (b : Buf) : Prop where
  mode : t.mode = m
  text : t.contents = b.text
  pos : t.pos = b.pos
  closed : t.closed = b.closed
  seen : t.seen = kinds m b.fed

end Verif.TextIO
