/-
What CPython's string methods do, stated without reference to CrossHair.

A string is the list of its code points.
-/
namespace Verif.Strs

/-- Code points. -/
abbrev Str := List Nat

/-- `sub` occurs in `s` at position `i`. -/
def OccursAt (sub s : Str) (i : Nat) : Prop := ∃ pre post, s = pre ++ sub ++ post ∧ pre.length = i

/-- `sub in s`. -/
def Contains (s sub : Str) : Prop := ∃ i, OccursAt sub s i

/-- The first occurrence is at `i`. -/
def FirstAt (sub s : Str) (i : Nat) : Prop := OccursAt sub s i ∧ ∀ j, j < i → ¬ OccursAt sub s j

/-- The last occurrence is at `i`. -/
def LastAt (sub s : Str) (i : Nat) : Prop := OccursAt sub s i ∧ ∀ j, i < j → ¬ OccursAt sub s j

/-- Python's `s[a:b]`: a bound counts from the end if negative, and is then clamped. -/
def bound (n : Nat) (i : Int) : Nat := (if i < 0 then max (i + n) 0 else min i n).toNat

@[inherit_doc bound] def pyCut (s : Str) (a b : Option Int) : Str :=
  (s.take ((b.map (bound s.length)).getD s.length)).drop ((a.map (bound s.length)).getD 0)

/-- CPython's `ADJUST_INDICES`: the window `a <= i, i + len(sub) <= b` of a search.  The left end is
not clamped to the length. -/
def windowLo (n : Nat) (a : Option Int) : Nat :=
  (a.map fun (i : Int) => (if i < 0 then max (i + n) 0 else i).toNat).getD 0

@[inherit_doc windowLo] def windowHi (n : Nat) (b : Option Int) : Nat := (b.map (bound n)).getD n

/-- `sub` occurs at `i`, within the window. -/
def InWindow (s sub : Str) (a b : Option Int) (i : Nat) : Prop :=
  windowLo s.length a ≤ i ∧ i + sub.length ≤ windowHi s.length b ∧ OccursAt sub s i

/-- `s.find(sub, a, b) == r`. -/
def IsFind (s sub : Str) (a b : Option Int) (r : Int) : Prop :=
  (∃ i : Nat, r = i ∧ InWindow s sub a b i ∧ ∀ j, InWindow s sub a b j → i ≤ j) ∨
  (r = -1 ∧ ∀ j, ¬ InWindow s sub a b j)

/-- `s.rfind(sub, a, b) == r`. -/
def IsRfind (s sub : Str) (a b : Option Int) (r : Int) : Prop :=
  (∃ i : Nat, r = i ∧ InWindow s sub a b i ∧ ∀ j, InWindow s sub a b j → j ≤ i) ∨
  (r = -1 ∧ ∀ j, ¬ InWindow s sub a b j)

/-- `s.split(sep, limit) == pieces`, with no limit given as `none`: cut at the first occurrence
until there is none or the limit is used up. -/
inductive IsSplit (sep : Str) : Option Nat → Str → List Str → Prop
  | limit (s : Str) : IsSplit sep (some 0) s [s]
  | last (lim : Option Nat) (s : Str) : ¬ Contains s sep → IsSplit sep lim s [s]
  | cut (lim : Option Nat) (pre post : Str) (ps : List Str) : lim ≠ some 0 →
      FirstAt sep (pre ++ sep ++ post) pre.length → IsSplit sep (lim.map (· - 1)) post ps →
      IsSplit sep lim (pre ++ sep ++ post) (pre :: ps)

/-- `s.rsplit(sep, limit) == pieces`: cut at the last occurrence. -/
inductive IsRsplit (sep : Str) : Option Nat → Str → List Str → Prop
  | limit (s : Str) : IsRsplit sep (some 0) s [s]
  | last (lim : Option Nat) (s : Str) : ¬ Contains s sep → IsRsplit sep lim s [s]
  | cut (lim : Option Nat) (pre post : Str) (ps : List Str) : lim ≠ some 0 →
      LastAt sep (pre ++ sep ++ post) pre.length → IsRsplit sep (lim.map (· - 1)) pre ps →
      IsRsplit sep lim (pre ++ sep ++ post) (ps ++ [post])

/-- `sep.join(pieces)`. -/
def join (sep : Str) : List Str → Str
  | [] => []
  | [p] => p
  | p :: q :: ps => p ++ sep ++ join sep (q :: ps)

/-- A limit argument as Python takes it: negative means none. -/
def asLimit (n : Int) : Option Nat := if n < 0 then none else some n.toNat

/-- `t` is `s` without the longest prefix of characters satisfying `p`. -/
def IsLstrip (p : Nat → Bool) (s t : Str) : Prop :=
  ∃ pre, s = pre ++ t ∧ (∀ c ∈ pre, p c = true) ∧ ∀ c, t.head? = some c → p c = false

/-- `t` is `s` without the longest suffix of characters satisfying `p`. -/
def IsRstrip (p : Nat → Bool) (s t : Str) : Prop :=
  ∃ post, s = t ++ post ∧ (∀ c ∈ post, p c = true) ∧ ∀ c, t.getLast? = some c → p c = false

/-- `s.splitlines(True) == pieces`, line by line: `nl` says which characters end a line, and a
carriage return followed by a line feed is one end of line. -/
inductive IsLines (nl : Nat → Bool) : Str → List (Str × Str) → Prop
  | nil : IsLines nl [] []
  | last (line : Str) : line ≠ [] → (∀ c ∈ line, nl c = false) → IsLines nl line [(line, [])]
  | crlf (line rest : Str) (ps : List (Str × Str)) : (∀ c ∈ line, nl c = false) → IsLines nl rest ps →
      IsLines nl (line ++ [13, 10] ++ rest) ((line, [13, 10]) :: ps)
  | one (line rest : Str) (c : Nat) (ps : List (Str × Str)) : (∀ c ∈ line, nl c = false) → nl c = true →
      ¬ (c = 13 ∧ rest.head? = some 10) → IsLines nl rest ps →
      IsLines nl (line ++ [c] ++ rest) ((line, [c]) :: ps)

/-- `s.split(None, limit) == pieces`, as documented: runs of whitespace separate the words, leading
and (when the limit is not reached) trailing whitespace is dropped, and what follows the last cut is
kept as it is, without its leading whitespace. -/
inductive IsWsSplit (p : Nat → Bool) : Option Nat → Str → List Str → Prop
  | empty (lim : Option Nat) (ws : Str) : (∀ c ∈ ws, p c = true) → IsWsSplit p lim ws []
  | rest (ws s : Str) (c : Nat) : (∀ c ∈ ws, p c = true) → s.head? = some c → p c = false →
      IsWsSplit p (some 0) (ws ++ s) [s]
  | word (lim : Option Nat) (ws w s : Str) (ps : List Str) : lim ≠ some 0 → (∀ c ∈ ws, p c = true) →
      w ≠ [] → (∀ c ∈ w, p c = false) → (∀ c, s.head? = some c → p c = true) →
      IsWsSplit p (lim.map (· - 1)) s ps → IsWsSplit p lim (ws ++ w ++ s) (w :: ps)

/-- `s.rsplit(None, limit) == pieces`: the mirror image. -/
def IsWsRsplit (p : Nat → Bool) (lim : Option Nat) (s : Str) (ps : List Str) : Prop :=
  IsWsSplit p lim s.reverse (ps.reverse.map List.reverse)

/-- `s.expandtabs(n)`: a tab fills up to the next column divisible by `n`; a line end starts again at
column 0. -/
def pyExpand (n : Nat) (col : Nat) : Str → Str
  | [] => []
  | c :: s =>
    if c = 9 then
      if n = 0 then pyExpand n col s
      else List.replicate (n - col % n) 32 ++ pyExpand n (col + (n - col % n)) s
    else if c = 10 ∨ c = 13 then c :: pyExpand n 0 s
    else c :: pyExpand n (col + 1) s

end Verif.Strs
