/-! The matcher for regular expressions: crosshair/libimpl/relib.py.

The string is symbolic in the program and the matcher forks on conditions about it (`smt_fork`); on each path it does what it
does on a string that meets the conditions of the path. The model is the matcher on such a string. -/
namespace Verif.Regex

/-- What is matched: the characters (relib.py:678 `trimmed_str`), the flag `re.MULTILINE`, and the table of word characters of
unicode_categories.py. -/
structure Subject where
  text : List Nat
  multiline : Bool := false
  word : Nat → Bool

/-- The kinds of `AT`. -/
inductive At where
  | beginning
  | beginningString
  | ending
  | endingString
  | boundary
  | nonBoundary
deriving DecidableEq

/-- What `sre_parse` makes of a regular expression. A single-character expression is the set of characters that
`single_char_mask` gives for it (see Verif.Mask). `behind` has the width that `getwidth` gives. `close` is the internal
`_END_GROUP_MARKER`. All other operations raise `ReUnhandled`, for which the caller falls back to Python's `re`; they are left
out. -/
inductive Re where
  | char (mask : Nat → Bool)
  | rep (greedy : Bool) (min : Nat) (max : Option Nat) (body : List Re)
  | branch (alts : List (List Re))
  | at (kind : At)
  | ahead (positive : Bool) (sub : List Re)
  | behind (positive : Bool) (width : Nat) (sub : List Re)
  | group (num : Nat) (sub : List Re)
  | close (num : Nat) (start : Nat)

/-- Spans of groups, by number (without group 0, whose span is known). -/
abbrev Groups := Nat → Option (Nat × Nat)

def Groups.none : Groups := fun _ => Option.none
def Groups.set (g : Groups) (num : Nat) (span : Nat × Nat) : Groups := fun i => if i = num then some span else g i

/-- relib.py:226-229 `_MatchPart`: where a match ends, and its groups; where it starts is known. -/
structure Hit where
  stop : Nat
  groups : Groups

/-- A match of nothing. -/
def Hit.at (off : Nat) : Hit := ⟨off, .none⟩

/-- relib.py:258-271 `_add_match`. -/
def Hit.add (a b : Hit) : Hit := ⟨b.stop, fun i => (b.groups i).or (a.groups i)⟩

/-- What the matcher does: it needs more steps than it was given, raises an `IndexError`, or returns a match or `None`. -/
inductive Out where
  | endless
  | indexError
  | no
  | hit (h : Hit)

/-- relib.py:471-485 `continue_matching`: `m` matches lists of patterns. -/
def cont (m : List Re → Nat → Bool → Out) (rest : List Re) (off : Nat) (allowEmpty : Bool) (prefix_ : Hit) : Out :=
  match m rest prefix_.stop (if prefix_.stop ≤ off then allowEmpty else true) with
  | .hit h => .hit (prefix_.add h)
  | o => o

/-- relib.py:524-531 the loop for the least number of repetitions: `m` matches the body. -/
def atLeast (m : Nat → Out) : Nat → Hit → Out
  | 0, acc => .hit acc
  | n + 1, acc =>
    match m acc.stop with
    | .hit h => atLeast m n (acc.add h)
    | o => o

/-- relib.py:535-538 `remaining_reps`. -/
def remaining (min : Nat) : Option Nat → Option Nat
  | none => none
  | some max => some (max - min)

/-- relib.py:542-568: the rest of a repetition, `overall` being the match for the least number of repetitions. -/
def repeatRest (m : List Re → Nat → Bool → Out) (greedy : Bool) (rem : Option Nat) (body rest : List Re) (off : Nat) (allowEmpty : Bool)
    (overall : Hit) : Out :=
  let stopHere := cont m rest off allowEmpty overall
  let more :=
    match m (.rep greedy 1 rem body :: rest) overall.stop (allowEmpty || !decide (overall.stop ≤ off)) with
    | .hit h => .hit (overall.add h)
    | o => o
  if greedy then
    match more with
    | .no => stopHere
    | o => o
  else
    match stopHere with
    | .no => more
    | o => o

/-- relib.py:516-570 `MIN_REPEAT` and `MAX_REPEAT`. -/
def repeat_ (m : List Re → Nat → Bool → Out) (greedy : Bool) (min : Nat) (max : Option Nat) (body rest : List Re) (off : Nat)
    (allowEmpty : Bool) : Out :=
  if max.any (· < min) then .no
  else
    match atLeast (fun o => m body o true) min (.at off) with
    | .hit overall =>
      if max.any (· ≤ min) then cont m rest off allowEmpty overall
      else repeatRest m greedy (remaining min max) body rest off allowEmpty overall
    | o => o

/-- relib.py:571-592 `BRANCH`. -/
def branch_ (m : List Re → Nat → Bool → Out) (rest : List Re) (off : Nat) (allowEmpty : Bool) : List (List Re) → Out
  | [] => .indexError
  | [alt] => m (alt ++ rest) off allowEmpty
  | alt :: alts =>
    match m (alt ++ rest) off allowEmpty with
    | .no => m (.branch alts :: rest) off allowEmpty
    | o => o

/-- relib.py:593-636 `AT`: `c` continues matching. -/
def at_ (s : Subject) (off : Nat) (c : Out) : At → Out
  | .beginning =>
    match if off = 0 then c else .no with
    | .no =>
      if s.multiline then
        match (if off = 0 then s.text.getLast? else s.text[off - 1]?) with
        | none => .indexError
        | some prev => if prev = 10 then c else .no
      else .no
    | o => o
  | .beginningString => if off = 0 then c else .no
  | .ending =>
    if s.text.length ≤ off then c
    else if s.multiline then (if s.text[off]? = some 10 then c else .no)
    else .no
  | .endingString => if s.text.length ≤ off then c else .no
  | .boundary =>
    if s.text.length ≤ off ∨ off = 0 then c
    else if s.word (s.text.getD (off - 1) 0) != s.word (s.text.getD off 0) then c
    else .no
  | .nonBoundary =>
    if s.text.length ≤ off ∨ off = 0 then .no
    else if s.word (s.text.getD (off - 1) 0) == s.word (s.text.getD off 0) then c
    else .no

/-- relib.py:652-655: a look-around, when its pattern has been matched or not. -/
def look (matched : Out) (positive : Bool) (c : Out) : Out :=
  match matched with
  | .hit _ => if positive then c else .no
  | .no => if positive then .no else c
  | o => o

/-- relib.py:463-464, 500-660: one step. `m` is the matcher itself. -/
def step (s : Subject) (m : List Re → Nat → Bool → Out) (pats : List Re) (off : Nat) (allowEmpty : Bool) : Out :=
  match pats with
  | [] => if allowEmpty then .hit (.at off) else .no
  | .char mask :: rest =>
    match s.text[off]? with
    | none => .no
    | some c => if mask c then cont m rest off allowEmpty (.at (off + 1)) else .no
  | .rep greedy min max body :: rest => repeat_ m greedy min max body rest off allowEmpty
  | .branch alts :: rest => branch_ m rest off allowEmpty alts
  | .at kind :: rest => at_ s off (cont m rest off allowEmpty (.at off)) kind
  | .ahead positive sub :: rest => look (m sub off true) positive (m rest off allowEmpty)
  | .behind positive width sub :: rest =>
    if off < width then .no else look (m sub (off - width) true) positive (m rest off allowEmpty)
  | .group num sub :: rest => m (sub ++ .close num off :: rest) off allowEmpty
  | .close num start :: rest =>
    match cont m rest off allowEmpty (.at off) with
    | .hit h => .hit ⟨h.stop, h.groups.set num (start, off)⟩
    | o => o

/-- relib.py:418-660 `_internal_match_patterns`, for a number of nested calls that is sufficient if there is one. -/
def go (s : Subject) : Nat → List Re → Nat → Bool → Out
  | 0 => fun _ _ _ => .endless
  | n + 1 => step s (go s n)

/-! ## Methods of patterns -/

/-- relib.py:663-694 `_match_pattern` with `subpattern` for `fullmatch` (relib.py:795-797): an `AT_END_STRING` is added. -/
def fullPattern (pats : List Re) : List Re := pats ++ [.at .endingString]

/-- The match that was returned; the other outcomes do not occur where this is used. -/
def Out.result : Out → Option Hit
  | .hit h => some h
  | _ => none

/-- relib.py:849, 769 `slice(pos, endpos, 1).indices(len)`: what becomes of either position. -/
def sliceIndex (len : Nat) (i : Int) : Nat := if i < 0 then (i + len).toNat else min i.toNat len

/-- relib.py:843-852 `_search`: the loop. `m` matches at a position. -/
def searchLoop (m : Nat → Option Hit) (endpos : Nat) : Nat → Nat → Option (Nat × Hit)
  | 0, _ => none
  | n + 1, pos =>
    if pos < endpos then
      match m pos with
      | some h => some (pos, h)
      | none => searchLoop m endpos n (pos + 1)
    else none

/-- relib.py:843-852 `_search`; the loop ends, so the number of rounds is enough. -/
def search (m : Nat → Option Hit) (pos endpos : Nat) : Option (Nat × Hit) := searchLoop m endpos (endpos - pos + 1) pos

/-- Where the match that `search` finds starts and ends. -/
def spans (m : Nat → Option Hit) (endpos pos : Nat) : Option (Nat × Nat) := (search m pos endpos).map fun r => (r.1, r.2.stop)

/-- relib.py:730-753 `_finditer_symbolic`: `m` matches at a position and may be told not to match the empty string. The spans
of the matches, for a number of rounds. The check in line 749 is left out: the matcher does what it is told. -/
def finditerLoop (m : Nat → Bool → Option Hit) (endpos : Nat) : Nat → Nat → Bool → Option (List (Nat × Hit))
  | 0, _, _ => none
  | n + 1, pos, lastEmpty =>
    if endpos < pos then some []
    else
      match m pos (!lastEmpty) with
      | none => finditerLoop m endpos n (pos + 1) false
      | some h =>
        if pos = h.stop then (finditerLoop m endpos n pos true).map ((pos, h) :: ·)
        else (finditerLoop m endpos n h.stop false).map ((pos, h) :: ·)

/-- What `split` returns: parts, or what Python's own `split` returns for the string when it is realized. -/
inductive Split where
  | parts (l : List (List Nat))
  | concrete
deriving DecidableEq

/-- builtinslib.py:3286-3306 `split_parts_lazy`: the loop. `search` searches from a position to the end of the text, and gives the start and
the end of the match; `splits` splits have been made. -/
def splitLoop (search : Nat → Option (Nat × Nat)) (text : List Nat) (maxsplit : Int) : Nat → Nat → Nat → List (List Nat) → Option Split
  | 0, _, _, _ => none
  | n + 1, pos, splits, parts =>
    if maxsplit ≠ 0 ∧ maxsplit ≤ splits then some (.parts (parts ++ [text.drop pos]))
    else
      match search pos with
      | none => some (.parts (parts ++ [text.drop pos]))
      | some (a, b) =>
        if a = b then some .concrete
        else
          let parts := parts ++ [(text.take a).drop pos]
          if b = text.length then some (.parts (parts ++ [[]])) else splitLoop search text maxsplit n b (splits + 1) parts

/-- relib.py:821-835 `_split`, for patterns without groups. -/
def split (search : Nat → Option (Nat × Nat)) (text : List Nat) (maxsplit : Int) : Option Split :=
  splitLoop search text maxsplit (text.length + 1) 0 0 []

/-- relib.py:868-901 `_subn`: `search` is the pattern's search in a string, and says where the match starts and ends; `repl` makes the
replacement of what is matched. A function for `repl` that looks at more than the matched text is left out, and so are groups in a template. -/
def subnLoop (search : List Nat → Option (Nat × Nat)) (repl : List Nat → List Nat) : Nat → List Nat → Int → Option (List Nat × Nat)
  | 0, _, _ => none
  | n + 1, text, count =>
    match search text with
    | none => some (text, 0)
    | some (a, b) =>
      let front := text.take a ++ repl ((text.take b).drop a)
      if count = 1 then some (front ++ text.drop b, 1)
      else
        (subnLoop search repl n (if b = a then text.drop (b + 1) else text.drop b) (count - 1)).map fun r => (front ++ r.1, r.2 + 1)

/-- relib.py:868-901 `_subn`; the string gets shorter in every round, so the number of rounds is enough. -/
def subn (search : List Nat → Option (Nat × Nat)) (repl : List Nat → List Nat) (text : List Nat) (count : Int) : Option (List Nat × Nat) :=
  subnLoop search repl (text.length + 1) text count

end Verif.Regex
