/-
Model of the recognition of condition sections in docstrings:
crosshair/condition_parser.py 102-138 and 353-429.

Text is a list of characters.  `sp` is the test of Unicode whitespace that both `str.strip` and the `\s`
of regular expressions use, `word` the test behind `\w`; both are parameters.  Regular expressions are
written out as functions; the comments say why no backtracking changes the result.
-/
namespace Verif.Doc

abbrev Text := List Char

/-- The section keywords of condition_parser.py 355. -/
inductive Sect where
  | post | pre | raises | inv
  deriving DecidableEq, Repr

variable (sp word : Char → Bool)

/-- `str.lstrip`. -/
def lstrip (t : Text) : Text := t.dropWhile sp

/-- `str.rstrip`. -/
def rstrip (t : Text) : Text := (t.reverse.dropWhile sp).reverse

/-- `str.strip`. -/
def strip (t : Text) : Text := rstrip sp (lstrip sp t)

/-- The length of the group `(\s*)` at the start of a line. -/
def indentOf (t : Text) : Nat := (t.takeWhile sp).length

/-- condition_parser.py 376-378: `has_expr`. -/
def hasExpr (t : Text) : Bool :=
  match strip sp t with
  | [] => false
  | c :: _ => c ≠ '#'

/-- condition_parser.py 362: `_SECTION_LINE = ^(\s*)(.*?)\s*$`: the length of the first group and the
second group.  The first group takes all leading whitespace; the second, being lazy, stops before the
trailing whitespace, and as `.` does not match a line break there must be none inside it. -/
def sectionLine (t : Text) : Option (Nat × Text) :=
  if (strip sp t).contains '\n' then none else some (indentOf sp t, strip sp t)

/-- The alternatives of condition_parser.py 355, tried in order; none is a prefix of another. -/
def keyword : Text → Option (Sect × Text)
  | 'p' :: 'o' :: 's' :: 't' :: r => some (.post, r)
  | 'p' :: 'r' :: 'e' :: r => some (.pre, r)
  | 'r' :: 'a' :: 'i' :: 's' :: 'e' :: 's' :: r => some (.raises, r)
  | 'i' :: 'n' :: 'v' :: r => some (.inv, r)
  | _ => none

/-- The characters allowed in brackets, condition_parser.py 356. -/
def inBrackets (c : Char) : Bool := word c || sp c || c == ',' || c == '.'

/-- condition_parser.py 356: `(?:\[([\w\s\,\.]*)\])?`.  A bracket that is not well-formed makes the whole
header fail, since a colon has to follow. -/
def brackets (t : Text) : Option (Option Text × Text) :=
  match t with
  | '[' :: r =>
      match r.dropWhile (inBrackets sp word) with
      | ']' :: r' => some (some (r.takeWhile (inBrackets sp word)), r')
      | _ => none
  | _ => some (none, t)

/-- An optional colon. -/
def optColon : Text → Text
  | ':' :: r => r
  | r => r

/-- What `_HEADER_LINE` captures. -/
structure Header where
  indent : Nat
  sect : Sect
  bracketed : Option Text
  inline : Text
  deriving DecidableEq, Repr

/-- condition_parser.py 353-361: `_HEADER_LINE`. -/
def header (t : Text) : Option Header :=
  match keyword (optColon (lstrip sp t)) with
  | none => none
  | some (s, r) =>
      match brackets sp word r with
      | none => none
      | some (b, ':' :: r') =>
          if (strip sp (optColon r')).contains '\n' then none
          else some ⟨indentOf sp t, s, b, strip sp (optColon r')⟩
      | some _ => none

/-- The two complaints of condition_parser.py 404-421. -/
inductive Complaint where
  | brackets (s : Sect)
  | duplicate
  deriving DecidableEq, Repr

/-- condition_parser.py 365-373: `SectionParse`, with the current section.  The dict of sections is kept
as one list in the order of discovery; a section's own list is the part with its keyword. -/
structure Parse where
  cur : Option (Sect × Nat) := none
  found : List (Sect × Nat × Text) := []
  complaints : List (Nat × Complaint) := []
  mutableExpr : Option Text := none
  deriving DecidableEq, Repr

/-- condition_parser.py 399-428: a line outside sections (the current section has been cleared). -/
def outside (wanted : List Sect) (p : Parse) (num : Nat) (line : Text) : Parse :=
  match header sp word line with
  | none => p
  | some h =>
      if ¬ wanted.contains h.sect then p
      else
        match h.bracketed with
        | some b =>
            if h.sect ≠ .post then { p with complaints := p.complaints ++ [(num, .brackets h.sect)] }
            else if p.mutableExpr ≠ none then { p with complaints := p.complaints ++ [(num, .duplicate)] }
            else if hasExpr sp h.inline then
              { p with mutableExpr := some b, found := p.found ++ [(h.sect, num, h.inline)] }
            else { p with mutableExpr := some b, cur := some (h.sect, h.indent) }
        | none =>
            if hasExpr sp h.inline then { p with found := p.found ++ [(h.sect, num, h.inline)] }
            else { p with cur := some (h.sect, h.indent) }

/-- condition_parser.py 386-428: one pass of the loop. -/
def step (wanted : List Sect) (p : Parse) (l : Nat × Text) : Parse :=
  if (strip sp l.2).isEmpty then p
  else
    match p.cur with
    | none => outside sp word wanted p l.1 l.2
    | some (s, ind) =>
        match sectionLine sp l.2 with
        | some (i, content) =>
            if i > ind then
              if hasExpr sp content then { p with found := p.found ++ [(s, l.1, content)] } else p
            else outside sp word wanted { p with cur := none } l.1 l.2
        | none => outside sp word wanted { p with cur := none } l.1 l.2

/-- condition_parser.py 381-429: `parse_sections`. -/
def parseSections (wanted : List Sect) (lines : List (Nat × Text)) : Parse :=
  lines.foldl (step sp word wanted) {}

/-- `'''` or `\"\"\"` at the start of a text: what follows. -/
def quotes : Text → Option Text
  | '\'' :: '\'' :: '\'' :: r => some r
  | '"' :: '"' :: '"' :: r => some r
  | _ => none

/-- condition_parser.py 125 and 130: `OPEN_RE = ^\s*r?('''|\"\"\")`: what follows the match. -/
def openRe (t : Text) : Option Text :=
  match lstrip sp t with
  | 'r' :: r => quotes r
  | r => quotes r

/-- Whether `\s*(#.*)?$` matches all of the text.  `$` matches at the end and before a final line
break. -/
def closeTail (t : Text) : Bool :=
  match lstrip sp t with
  | [] => true
  | '#' :: r => (r.dropWhile (· ≠ '\n')).length ≤ 1
  | _ => false

/-- condition_parser.py 126 and 134: `CLOSE_RE = ('''|\"\"\")\s*(#.*)?$`: the text before the leftmost
match, when there is one.  (What `subn` leaves after the match is at most the final line break, which
is whitespace to the caller and left out.) -/
def closeRe : Text → Option Text
  | [] => none
  | c :: t =>
      match quotes (c :: t) with
      | some r => if closeTail sp r then some [] else (closeRe t).map (c :: ·)
      | none => (closeRe t).map (c :: ·)

/-- condition_parser.py 127-138: the lines of the docstring, from the candidate lines. -/
def docLines (started : Bool) : List (Nat × Text) → List (Nat × Text)
  | [] => []
  | (n, l) :: rest =>
      match (if started then some l else openRe sp l) with
      | none => docLines false rest
      | some l' =>
          match closeRe sp l' with
          | some body => [(n, body)]
          | none => (n, l') :: docLines true rest

end Verif.Doc
