import Verif.Match.Model
/-
What Python's match objects do (https://docs.python.org/3/library/re.html#match-objects).
-/
namespace Verif.Match.Spec

/-- A match as Python knows it: spans of the groups from 1 (`none`: did not take part), names of groups, the span of the whole
match, and the string. -/
structure PyMatch where
  whole : Nat × Nat
  spans : List (Option (Nat × Nat))
  names : List (List Nat × Nat)
  text : List Nat

/-- The match is possible: names are of groups, and no name is given twice. -/
structure PyMatch.Wf (p : PyMatch) : Prop where
  names : ∀ e ∈ p.names, 1 ≤ e.2 ∧ e.2 ≤ p.spans.length
  distinct : (p.names.map (·.1)).Nodup

/-- The span of a group. -/
def PyMatch.spanOf (p : PyMatch) (i : Nat) : Option (Nat × Nat) := if i = 0 then some p.whole else (p.spans[i - 1]?).join

/-- Which group is meant; `none` is the `IndexError` "no such group". -/
inductive Meant (p : PyMatch) : Key → Nat → Prop
  | num (i : Nat) : i ≤ p.spans.length → Meant p (.num i) i
  | name (s : List Nat) (i : Nat) : (s, i) ∈ p.names → Meant p (.name s) i

/-- The characters from one position to another. -/
def between (text : List Nat) (a b : Nat) : List Nat := (text.drop a).take (b - a)

/-- `m.group(i)`. -/
def PyMatch.group (p : PyMatch) (i : Nat) : Option (List Nat) := (p.spanOf i).map fun s => between p.text s.1 s.2

/-- `m.start(i)` is -1 for groups that did not take part. -/
def PyMatch.start (p : PyMatch) (i : Nat) : Int := ((p.spanOf i).map fun s => (s.1 : Int)).getD (-1)

/-- `m.end(i)`. -/
def PyMatch.stop (p : PyMatch) (i : Nat) : Int := ((p.spanOf i).map fun s => (s.2 : Int)).getD (-1)

/-- `m.groupdict()`. -/
def PyMatch.groupdict (p : PyMatch) : List (List Nat × Option (List Nat)) := p.names.map fun e => (e.1, p.group e.2)

/-- The match object that the symbolic implementation makes for it. -/
def PyMatch.symbolic (p : PyMatch) : M := M.new (some p.whole :: p.spans) ⟨p.spans.length, p.names⟩ p.text

/-! ### Templates -/

/-- Parts of a template: text, `\1`, `\12`, `\g<12>`, `\g<name>`. -/
inductive Piece where
  | text (s : List Nat)
  | digit (d : Nat)
  | digits (d e : Nat)
  | number (ds : List Nat)
  | name (s : List Nat)

/-- How a part is written. -/
def Piece.render : Piece → List Nat
  | .text s => s
  | .digit d => [92, 48 + d]
  | .digits d e => [92, 48 + d, 48 + e]
  | .number ds => [92, 103, 60] ++ ds.map (48 + ·) ++ [62]
  | .name s => [92, 103, 60] ++ s ++ [62]

/-- The template. -/
def render (ps : List Piece) : List Nat := ps.flatMap Piece.render

/-- The number with these digits. -/
def decimal : List Nat → Nat
  | [] => 0
  | d :: ds => d * 10 ^ ds.length + decimal ds

/-- A letter, a digit or an underscore. -/
def WordChar (c : Nat) : Prop := (48 ≤ c ∧ c ≤ 57) ∨ (65 ≤ c ∧ c ≤ 90) ∨ (97 ≤ c ∧ c ≤ 122) ∨ c = 95

/-- What follows does not begin with a digit. -/
def NoDigit (ps : List Piece) : Prop := ∀ c, (render ps).head? = some c → c < 48 ∨ 57 < c

/-- The group that a part refers to. -/
inductive Piece.Refers (p : PyMatch) : Piece → Nat → Prop
  | digit (d : Nat) : d ≤ p.spans.length → Piece.Refers p (.digit d) d
  | digits (d e : Nat) : 10 * d + e ≤ p.spans.length → Piece.Refers p (.digits d e) (10 * d + e)
  | number (ds : List Nat) : decimal ds ≤ p.spans.length → Piece.Refers p (.number ds) (decimal ds)
  | name (s : List Nat) (i : Nat) : (s, i) ∈ p.names → Piece.Refers p (.name s) i

/-- The parts are written as Python's manual says, without other escapes and (for the symbolic implementation) without
line feeds. -/
inductive Written : List Piece → Prop
  | nil : Written []
  | text (s ps) : (∀ c ∈ s, c ≠ 92 ∧ c ≠ 10) → Written ps → Written (.text s :: ps)
  | digit (d ps) : 1 ≤ d → d ≤ 9 → NoDigit ps → Written ps → Written (.digit d :: ps)
  | digits (d e ps) : 1 ≤ d → d ≤ 9 → e ≤ 9 → NoDigit ps → Written ps → Written (.digits d e :: ps)
  | number (ds ps) : ds ≠ [] → (∀ d ∈ ds, d ≤ 9) → Written ps → Written (.number ds :: ps)
  | name (s ps) : s ≠ [] → (∀ c ∈ s, WordChar c) → (∀ c, s.head? = some c → c < 48 ∨ 57 < c) → Written ps →
      Written (.name s :: ps)

/-- What the template becomes; groups that did not take part become nothing. -/
inductive Expands (p : PyMatch) : List Piece → List Nat → Prop
  | nil : Expands p [] []
  | text (s ps r) : Expands p ps r → Expands p (.text s :: ps) (s ++ r)
  | ref (q i ps r) : Piece.Refers p q i → Expands p ps r → Expands p (q :: ps) ((p.group i).getD [] ++ r)

end Verif.Match.Spec
