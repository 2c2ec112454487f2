import Verif.Regex.Model

/-! Regular expressions as Python's `re` documents them. -/
namespace Verif.Regex

/-! ## Matches in order of preference -/

/-- Exactly `n` times, one after the other: `body` gives the matches of the body at a position. -/
def times (body : Nat → List Hit) : Nat → Nat → List Hit
  | 0, off => [.at off]
  | n + 1, off => (body off).flatMap fun h => (times body n h.stop).map h.add

/-- At most `n` times: greedily, matches with more repetitions are preferred. A repetition of the empty string is the last one. -/
def more (greedy : Bool) (body : Nat → List Hit) : Nat → Option Nat → Nat → List Hit
  | 0, _, off => [.at off]
  | n + 1, last, off =>
    if last = some off then [.at off]
    else
      let longer := (body off).flatMap fun h => (more greedy body n (some off) h.stop).map h.add
      if greedy then longer ++ [.at off] else .at off :: longer

/-- There is a word character at a position. -/
def wordAt (s : Subject) (off : Nat) : Bool := s.text[off]?.any s.word

/-- The characters at either side of a position are different in kind: one is a word character and the other one is not, or is
not there. -/
def isBoundary (s : Subject) (off : Nat) : Bool := (decide (0 < off) && wordAt s (off - 1)) != wordAt s off

/-- When the kinds of `AT` match (the documentation of `^`, `\A`, `$`, `\Z`, `\b` and `\B`). -/
def atHolds (s : Subject) (off : Nat) : At → Bool
  | .beginning => off = 0 ∨ (s.multiline = true ∧ s.text[off - 1]? = some 10)
  | .beginningString => off = 0
  | .ending =>
    s.text.length ≤ off ∨ (off + 1 = s.text.length ∧ s.text[off]? = some 10) ∨ (s.multiline = true ∧ s.text[off]? = some 10)
  | .endingString => s.text.length ≤ off
  | .boundary => isBoundary s off
  | .nonBoundary => !isBoundary s off

/-- How many repetitions there may be beyond the least number: an upper bound, if there is none, is that all but the last one
consume something. -/
def extra (s : Subject) (min : Nat) : Option Nat → Nat
  | some max => max - min
  | none => s.text.length + 1

mutual
/-- The matches of an expression at a position, in order of preference. -/
def runs (s : Subject) : Re → Nat → List Hit
  | .char mask, off =>
    match s.text[off]? with
    | some c => if mask c then [.at (off + 1)] else []
    | none => []
  | .rep greedy min max body, off =>
    (times (runsSeq s body) min off).flatMap fun h =>
      (more greedy (runsSeq s body) (extra s min max) none h.stop).map h.add
  | .branch alts, off => runsAlts s alts off
  | .at kind, off => if atHolds s off kind then [.at off] else []
  | .ahead positive sub, off =>
    match runsSeq s sub off with
    | h :: _ => if positive then [⟨off, h.groups⟩] else []
    | [] => if positive then [] else [.at off]
  | .behind positive width sub, off =>
    match if off < width then [] else runsSeq s sub (off - width) with
    | h :: _ => if positive then [⟨off, h.groups⟩] else []
    | [] => if positive then [] else [.at off]
  | .group num sub, off => (runsSeq s sub off).map fun h => ⟨h.stop, h.groups.set num (off, h.stop)⟩
  | .close num start, off => [⟨off, Groups.none.set num (start, off)⟩]
/-- One expression after the other. -/
def runsSeq (s : Subject) : List Re → Nat → List Hit
  | [], off => [.at off]
  | p :: ps, off => (runs s p off).flatMap fun h => (runsSeq s ps h.stop).map h.add
/-- One of several sequences, earlier ones being preferred. -/
def runsAlts (s : Subject) : List (List Re) → Nat → List Hit
  | [], _ => []
  | a :: as, off => runsSeq s a off ++ runsAlts s as off
end

/-! ## The language -/

/-- `n` steps of a relation. -/
def Steps (r : Nat → Nat → Prop) : Nat → Nat → Nat → Prop
  | 0, a, b => a = b
  | n + 1, a, b => ∃ c, r a c ∧ Steps r n c b

mutual
/-- The expression matches the text between two positions. -/
def lang (s : Subject) : Re → Nat → Nat → Prop
  | .char mask, off, e => e = off + 1 ∧ ∃ c, s.text[off]? = some c ∧ mask c = true
  | .rep _ min max body, off, e => ∃ n, min ≤ n ∧ (∀ m, max = some m → n ≤ m) ∧ Steps (langSeq s body) n off e
  | .branch alts, off, e => langAlts s alts off e
  | .at kind, off, e => e = off ∧ atHolds s off kind = true
  | .ahead positive sub, off, e => e = off ∧ (positive = true ↔ ∃ x, langSeq s sub off x)
  | .behind positive width sub, off, e => e = off ∧ (positive = true ↔ width ≤ off ∧ ∃ x, langSeq s sub (off - width) x)
  | .group _ sub, off, e => langSeq s sub off e
  | .close _ _, off, e => e = off
def langSeq (s : Subject) : List Re → Nat → Nat → Prop
  | [], off, e => e = off
  | p :: ps, off, e => ∃ c, lang s p off c ∧ langSeq s ps c e
def langAlts (s : Subject) : List (List Re) → Nat → Nat → Prop
  | [], _, _ => False
  | a :: as, off, e => langSeq s a off e ∨ langAlts s as off e
end

/-! ## Expressions that the matcher can do -/

mutual
/-- The numbers of the groups. -/
def groupsOf : Re → List Nat
  | .char _ => []
  | .rep _ _ _ body => groupsSeq body
  | .branch alts => groupsAlts alts
  | .at _ => []
  | .ahead _ sub => groupsSeq sub
  | .behind _ _ sub => groupsSeq sub
  | .group num sub => num :: groupsSeq sub
  | .close num _ => [num]
def groupsSeq : List Re → List Nat
  | [] => []
  | p :: ps => groupsOf p ++ groupsSeq ps
def groupsAlts : List (List Re) → List Nat
  | [] => []
  | a :: as => groupsSeq a ++ groupsAlts as
end

/-- What the matcher asks of the string for each kind of `AT`: `$` must not be in front of a line feed at the end, `\b` and
`\B` want word characters at both ends, and `^` wants a string that is not empty if lines count. -/
def atFits (s : Subject) : At → Prop
  | .beginning => s.multiline = true → s.text ≠ []
  | .ending => s.multiline = true ∨ s.text.getLast? ≠ some 10
  | .boundary | .nonBoundary => (∃ c, s.text.head? = some c ∧ s.word c = true) ∧ ∃ c, s.text.getLast? = some c ∧ s.word c = true
  | _ => True

mutual
/-- What the matcher can do: wherever it is, the body of a repetition matches in one way at most, and not the empty string;
no groups inside of look-arounds; no negative look-behind. -/
def Good (s : Subject) : Re → Prop
  | .char _ => True
  | .rep _ min max body =>
    (∀ m, max = some m → min ≤ m) ∧ (∀ off, (runsSeq s body off).length ≤ 1) ∧ (∀ off, ∀ h ∈ runsSeq s body off, off < h.stop) ∧
      GoodSeq s body
  | .branch alts => alts ≠ [] ∧ GoodAlts s alts
  | .at kind => atFits s kind
  | .ahead positive sub => (positive = true → groupsSeq sub = []) ∧ GoodSeq s sub
  | .behind positive _ sub => positive = true ∧ groupsSeq sub = [] ∧ GoodSeq s sub
  | .group _ sub => GoodSeq s sub
  | .close _ _ => True
def GoodSeq (s : Subject) : List Re → Prop
  | [] => True
  | p :: ps => Good s p ∧ GoodSeq s ps
def GoodAlts (s : Subject) : List (List Re) → Prop
  | [] => True
  | a :: as => GoodSeq s a ∧ GoodAlts s as
end

mutual
/-- Repetitions have a least number that is not larger than the largest one (`sre_parse` refuses others). -/
def Wf : Re → Prop
  | .rep _ min max body => (∀ m, max = some m → min ≤ m) ∧ WfSeq body
  | .branch alts => WfAlts alts
  | .ahead _ sub => WfSeq sub
  | .behind _ _ sub => WfSeq sub
  | .group _ sub => WfSeq sub
  | _ => True
def WfSeq : List Re → Prop
  | [] => True
  | p :: ps => Wf p ∧ WfSeq ps
def WfAlts : List (List Re) → Prop
  | [] => True
  | a :: as => WfSeq a ∧ WfAlts as
end

mutual
/-- What is asked of expressions for every match to be right: the kinds of `AT` fit, and the matcher can do what is in
negative look-arounds. -/
def Sane (s : Subject) : Re → Prop
  | .char _ => True
  | .rep _ _ _ body => SaneSeq s body
  | .branch alts => SaneAlts s alts
  | .at kind => atFits s kind
  | .ahead positive sub => if positive then SaneSeq s sub else GoodSeq s sub ∧ (groupsSeq sub).Nodup
  | .behind positive _ sub => if positive then SaneSeq s sub else GoodSeq s sub ∧ (groupsSeq sub).Nodup
  | .group _ sub => SaneSeq s sub
  | .close _ _ => True
def SaneSeq (s : Subject) : List Re → Prop
  | [] => True
  | p :: ps => Sane s p ∧ SaneSeq s ps
def SaneAlts (s : Subject) : List (List Re) → Prop
  | [] => True
  | a :: as => SaneSeq s a ∧ SaneAlts s as
end

/-! ## What can be said by looking at the expression only -/

mutual
/-- It matches in one way at most. -/
def Det : Re → Prop
  | .rep _ min max body => max = some min ∧ DetSeq body
  | .branch _ => False
  | .group _ sub => DetSeq sub
  | _ => True
def DetSeq : List Re → Prop
  | [] => True
  | p :: ps => Det p ∧ DetSeq ps
end

mutual
/-- The least number of characters that it matches. -/
def width : Re → Nat
  | .char _ => 1
  | .rep _ min _ body => min * widthSeq body
  | .branch alts => widthAlts alts
  | .group _ sub => widthSeq sub
  | .at _ => 0
  | .ahead _ _ => 0
  | .behind _ _ _ => 0
  | .close _ _ => 0
def widthSeq : List Re → Nat
  | [] => 0
  | p :: ps => width p + widthSeq ps
def widthAlts : List (List Re) → Nat
  | [] => 0
  | [a] => widthSeq a
  | a :: as => Nat.min (widthSeq a) (widthAlts as)
end

mutual
/-- What is repeated matches in one way at most, and consumes something; `$` is used for lines only and `^` for the string only; no
word boundaries, no groups inside of look-arounds, no negative look-behind. -/
def Plain (multiline : Bool) : Re → Prop
  | .char _ => True
  | .rep _ min max body => (∀ m, max = some m → min ≤ m) ∧ DetSeq body ∧ 0 < widthSeq body ∧ PlainSeq multiline body
  | .branch alts => alts ≠ [] ∧ PlainAlts multiline alts
  | .at kind => kind = .beginningString ∨ kind = .endingString ∨ (kind = .beginning ∧ multiline = false) ∨ (kind = .ending ∧ multiline = true)
  | .ahead positive sub => (positive = true → groupsSeq sub = []) ∧ PlainSeq multiline sub
  | .behind positive _ sub => positive = true ∧ groupsSeq sub = [] ∧ PlainSeq multiline sub
  | .group _ sub => PlainSeq multiline sub
  | .close _ _ => True
def PlainSeq (multiline : Bool) : List Re → Prop
  | [] => True
  | p :: ps => Plain multiline p ∧ PlainSeq multiline ps
def PlainAlts (multiline : Bool) : List (List Re) → Prop
  | [] => True
  | a :: as => PlainSeq multiline a ∧ PlainAlts multiline as
end

mutual
/-- It looks at nothing in front of where it is. -/
def Forward : Re → Prop
  | .rep _ _ _ body => ForwardSeq body
  | .branch alts => ForwardAlts alts
  | .at kind => kind = .endingString
  | .ahead _ sub => ForwardSeq sub
  | .behind _ _ _ => False
  | .group _ sub => ForwardSeq sub
  | .char _ => True
  | .close _ _ => True
def ForwardSeq : List Re → Prop
  | [] => True
  | p :: ps => Forward p ∧ ForwardSeq ps
def ForwardAlts : List (List Re) → Prop
  | [] => True
  | a :: as => ForwardSeq a ∧ ForwardAlts as
end

/-! ## Methods of patterns -/

/-- The preferred match at a position, other than the empty one if that is not allowed. -/
def firstMatch (s : Subject) (pats : List Re) (off : Nat) (allowEmpty : Bool) : Option Hit :=
  (runsSeq s pats off).find? fun h => allowEmpty || decide (off < h.stop)

/-- The leftmost match from `pos` to `endpos`, both included. -/
def Leftmost (m : Nat → Option Hit) (pos endpos : Nat) : Option (Nat × Hit) → Prop
  | some (i, h) => pos ≤ i ∧ i ≤ endpos ∧ m i = some h ∧ ∀ j, pos ≤ j → j < i → m j = none
  | none => ∀ j, pos ≤ j → j ≤ endpos → m j = none

/-- All matches from `pos` to `endpos`: each one is the leftmost match from where the last one ended, and where an empty match was
found, no empty match is looked for again. -/
inductive Scan (m : Nat → Bool → Option Hit) (endpos : Nat) : Nat → Bool → List (Nat × Hit) → Prop
  | done {pos allow} : Leftmost (fun i => m i (allow || decide (i ≠ pos))) pos endpos none → Scan m endpos pos allow []
  | next {pos allow i h l} : Leftmost (fun i => m i (allow || decide (i ≠ pos))) pos endpos (some (i, h)) →
      Scan m endpos h.stop (decide (i < h.stop)) l → Scan m endpos pos allow ((i, h) :: l)

/-- The parts of a text between spans, from a position. -/
def between (text : List Nat) : Nat → List (Nat × Hit) → List (List Nat)
  | p, [] => [text.drop p]
  | p, (a, h) :: l => (text.take a).drop p :: between text h.stop l

/-- A text with spans replaced, from a position. -/
def replaced (text : List Nat) (repl : List Nat → List Nat) : Nat → List (Nat × Hit) → List Nat
  | p, [] => text.drop p
  | p, (a, h) :: l => (text.take a).drop p ++ repl ((text.take h.stop).drop a) ++ replaced text repl h.stop l

/-- The number of splits or replacements that are asked for: zero stands for all. -/
def limited (n : Int) (l : List (Nat × Hit)) : List (Nat × Hit) := if n = 0 then l else l.take n.toNat

end Verif.Regex
