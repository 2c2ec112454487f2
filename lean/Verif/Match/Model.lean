/-
Model of the match objects of /repo/crosshair/libimpl/relib.py (225-385): `_MatchPart` and `_Match`.

Strings are lists of code points.  Numbers of groups may be any integers, since they index Python lists.
Only matches of `str` are modelled.
-/
namespace Verif.Match

/-- A result, or the exception raised. -/
inductive Res (α : Type) where
  | ok (a : α)
  | typeError
  | indexError
  | keyError
  | reError
deriving DecidableEq, Repr

/-- Go on with a result. -/
def Res.bind {α β : Type} : Res α → (α → Res β) → Res β
  | .ok a, f => f a
  | .typeError, _ => .typeError
  | .indexError, _ => .indexError
  | .keyError, _ => .keyError
  | .reError, _ => .reError

/-- What a group is asked for by. -/
inductive Key where
  | num (i : Int)
  | name (s : List Nat)
deriving DecidableEq, Repr

/-- The compiled pattern: `groups` and `groupindex`. -/
structure Pattern where
  groups : Nat
  groupindex : List (List Nat × Nat)
deriving DecidableEq, Repr

/-- `_Match`: what its methods use. -/
structure M where
  groups : List (Option (Nat × Nat))
  re : Pattern
  text : List Nat
deriving DecidableEq, Repr

/-- The loop in `_Match.__init__` (296-298). -/
def fill (groups : List (Option (Nat × Nat))) (n : Nat) : List (Option (Nat × Nat)) :=
  groups ++ List.replicate (n - groups.length) none

/-- `_Match.__init__` (295-308). -/
def M.new (groups : List (Option (Nat × Nat))) (re : Pattern) (text : List Nat) : M :=
  ⟨fill groups (re.groups + 1), re, text⟩

/-- Indexing of a list. -/
def item {α : Type} (l : List α) (i : Int) : Res α :=
  let j := if i < 0 then i + l.length else i
  if 0 ≤ j then match l[j.toNat]? with
    | some a => .ok a
    | none => .indexError
  else .indexError

/-- `_groups[group]`, which is a list: names are no indices. -/
def M.at (m : M) : Key → Res (Option (Nat × Nat))
  | .num i => item m.groups i
  | .name _ => .typeError

/-- `start` (264-265). -/
def M.start (m : M) (k : Key) : Res Nat :=
  (m.at k).bind fun
    | some span => .ok span.1
    | none => .typeError

/-- `end` (267-268). -/
def M.stop (m : M) (k : Key) : Res Nat :=
  (m.at k).bind fun
    | some span => .ok span.2
    | none => .typeError

/-- `span` (270-271). -/
def M.span (m : M) (k : Key) : Res (Option (Nat × Nat)) := m.at k

/-- `string[start:end]`. -/
def cut (text : List Nat) (span : Nat × Nat) : List Nat := (text.take span.2).drop span.1

/-- One turn of the loop in `group` (357-364). -/
def M.one (m : M) (k : Key) : Res (Option (List Nat)) :=
  let num : Res Int := match k with
    | .num i => .ok i
    | .name s => match m.re.groupindex.lookup s with
      | some i => .ok i
      | none => .keyError
  num.bind fun i => (item m.groups i).bind fun g => .ok (g.map (cut m.text))

/-- The loop in `group` (356-364). -/
def M.loop (m : M) : List Key → Res (List (Option (List Nat)))
  | [] => .ok []
  | k :: ks => (m.one k).bind fun g => (m.loop ks).bind fun gs => .ok (g :: gs)

/-- What `group` returns: one group or a tuple of them. -/
inductive Got where
  | one (g : Option (List Nat))
  | tuple (gs : List (Option (List Nat)))
deriving DecidableEq, Repr

/-- `group` (352-368). -/
def M.group (m : M) (ks : List Key) : Res Got :=
  match ks with
  | [] => (m.one (.num 0)).bind fun g => .ok (.one g)
  | [k] => (m.one k).bind fun g => .ok (.one g)
  | ks => (m.loop ks).bind fun gs => .ok (.tuple gs)

/-- `groups` (370-375). -/
def M.groupsTuple (m : M) : Res (List (Option (List Nat))) :=
  m.loop ((List.range' 1 (m.groups.length - 1)).map fun (i : Nat) => Key.num i)

/-- `groupdict` (377-384). -/
def M.groupdict (m : M) : Res (List (List Nat × (Nat × Nat))) :=
  m.re.groupindex.foldr (fun e rest => (item m.groups e.2).bind fun g => rest.bind fun d =>
    .ok (match g with
      | some span => (e.1, span) :: d
      | none => d)) (.ok [])

/-- The loop that computes `lastindex` (313-316). -/
def lastindex : Nat → List (Option (Nat × Nat)) → Option Nat → Option Nat
  | _, [], last => last
  | i, none :: gs, last => lastindex (i + 1) gs last
  | i, some _ :: gs, _ => lastindex (i + 1) gs (some i)

/-- `lastindex` (310-316). -/
def M.lastindex (m : M) : Option Nat := Match.lastindex 0 m.groups none

/-- The name of a group, from `_idx_to_name` (311). -/
def M.nameOf (m : M) (i : Nat) : Option (List Nat) := (m.re.groupindex.reverse.find? fun e => e.2 == i).map (·.1)

/-- The loop that computes `lastgroup` (313-318). -/
def lastgroup (nameOf : Nat → Option (List Nat)) : Nat → List (Option (Nat × Nat)) → Option (List Nat) → Option (List Nat)
  | _, [], last => last
  | i, none :: gs, last => lastgroup nameOf (i + 1) gs last
  | i, some _ :: gs, last => lastgroup nameOf (i + 1) gs ((nameOf i).or last)

/-- `lastgroup` (310-318). -/
def M.lastgroup (m : M) : Option (List Nat) := Match.lastgroup m.nameOf 0 m.groups none

/-! ### Templates -/

/-- `[0-9]`. -/
def isDigit (c : Nat) : Bool := decide (48 ≤ c) && decide (c ≤ 57)

/-- `\w`, for ASCII. -/
def isWord (c : Nat) : Bool :=
  isDigit c || (decide (65 ≤ c) && decide (c ≤ 90)) || (decide (97 ≤ c) && decide (c ≤ 122)) || c == 95

/-- `\s`, for ASCII. -/
def isBlank (c : Nat) : Bool := (decide (9 ≤ c) && decide (c ≤ 13)) || (decide (28 ≤ c) && decide (c ≤ 32))

/-- `int` of digits. -/
def number (ds : List Nat) : Nat := ds.foldl (fun n d => n * 10 + (d - 48)) 0

/-- What a template refers to: the groups `num` or `namednum`, `named`, `namedother` of `_BACKREF_RE_SOURCE`
(274-287). -/
inductive Ref where
  | num (n : Nat)
  | named (s : List Nat)
  | other
deriving DecidableEq, Repr

/-- `\s*\+?\d+\s*\>` (281). -/
def namedNum (s : List Nat) : Option (Nat × List Nat) :=
  let s := s.dropWhile isBlank
  let s := if s.head? = some 43 then s.tail else s
  let ds := s.takeWhile isDigit
  let s := (s.dropWhile isDigit).dropWhile isBlank
  if ds ≠ [] ∧ s.head? = some 62 then some (number ds, s.tail) else none

/-- `\w+\>` (282). -/
def namedWord (s : List Nat) : Option (List Nat × List Nat) :=
  let w := s.takeWhile isWord
  let s := s.dropWhile isWord
  if w ≠ [] ∧ s.head? = some 62 then some (w, s.tail) else none

/-- What may follow the backslash (278-284), with what is left.  (For `namedother` what is left does not matter.) -/
def refAt (s : List Nat) : Option (Ref × List Nat) :=
  if s.head?.any fun c => decide (49 ≤ c) && decide (c ≤ 57) then
    if s.tail.head?.any isDigit then some (.num (number (s.take 2)), s.drop 2)
    else some (.num (number (s.take 1)), s.drop 1)
  else if s.take 2 = [103, 60] then
    match namedNum (s.drop 2) with
    | some (n, rest) => some (.num n, rest)
    | none => match namedWord (s.drop 2) with
      | some (w, rest) => some (.named w, rest)
      | none => if (s.drop 2).contains 62 then some (.other, []) else none
  else none

/-- The shortest prefix (276) with a reference after it. -/
def scan (pre : List Nat) : List Nat → Option (List Nat × Ref × List Nat)
  | [] => none
  | c :: cs =>
    if c = 92 then match refAt cs with
      | some (r, rest) => some (pre, r, rest)
      | none => scan (pre ++ [c]) cs
    else scan (pre ++ [c]) cs

/-- `backref_re.fullmatch(template)` (338): `.` does not match a line feed.  (Line feeds among the blanks of `namednum`, which
would be matched, are left out.) -/
def backref (template : List Nat) : Option (List Nat × Ref × List Nat) :=
  if template.contains 10 then none else scan [] template

/-- `str + group`: `None` cannot be added. -/
def addGroup (pre : List Nat) : Option (List Nat) → Res (List Nat)
  | some g => .ok (pre ++ g)
  | none => .typeError

/-- The group that is referred to (343-348). -/
def M.replacement (m : M) : Ref → Res (Option (List Nat))
  | .num n => m.one (.num n)
  | .named s => m.one (.name s)
  | .other => .reError

/-- `expand` (333-350); the first argument bounds the recursion. -/
def M.expandLoop (m : M) : Nat → List Nat → Res (List Nat)
  | 0, template => .ok template
  | fuel + 1, template =>
    match backref template with
    | none => .ok template
    | some (pre, ref, suffix) =>
      (m.replacement ref).bind fun g => (addGroup pre g).bind fun front =>
        (m.expandLoop fuel suffix).bind fun back => .ok (front ++ back)

/-- `expand` (333-350): each reference is at least two characters long. -/
def M.expand (m : M) (template : List Nat) : Res (List Nat) := m.expandLoop (template.length + 1) template

end Verif.Match
