/-
Model of /repo/crosshair/stubs_parser.py: rewriting of annotations for older versions of Python (`_rewrite_with_union`, 268-316), and
the search for signatures in the syntax tree of a stub file (`_sig_from_ast`, 72-145).
-/
namespace Verif.Stubs

/-! ### `_rewrite_with_union` -/

/-- `"Union["`. -/
def unionOpen : List Char := ['U', 'n', 'i', 'o', 'n', '[']

/-- `.replace("|", ",")`. -/
def barsToCommas (s : List Char) : List Char := s.map fun c => if c = '|' then ',' else c

/-- The variables of the loop (282-286). -/
structure St where
  new : List Char
  saved : List (Nat × Bool)
  start : Nat
  found : Bool
  idx : Nat

/-- The insertion of `Union[...]` (295-301). -/
def wrap (new : List Char) (start idx : Nat) : List Char :=
  new.take (start + 1) ++ unionOpen ++ barsToCommas ((new.take idx).drop (start + 1)) ++ [']'] ++ new.drop idx

/-- A bar is noted (289-290). -/
def note (st : St) (c : Char) : St := if c = '|' then { st with found := true } else st

/-- At the end of a part with bars, `Union[...]` is put around it (294-302). -/
def finish (st : St) : St := if st.found then { st with new := wrap st.new st.start st.idx, idx := st.idx + 7 } else st

/-- `saved_states.pop()` (303-304); `none` is an `IndexError`. -/
def pop (st : St) : Option St :=
  match st.saved with
  | [] => none
  | (start, found) :: saved => some { st with start := start, found := found, saved := saved }

/-- The first half of a turn (289-304): a bar is noted, and a scope is closed. -/
def close (st : St) (c : Char) : Option St :=
  if c = ')' ∨ c = ']' ∨ c = ',' then
    if c ≠ ',' then pop (finish (note st c)) else some (finish (note st c))
  else some (note st c)

/-- The second half (307-312): a scope is opened. -/
def opens (st : St) (c : Char) : St :=
  let st := if c = '(' ∨ c = '[' ∨ c = ',' then
      { st with saved := if c ≠ ',' then (st.start, st.found) :: st.saved else st.saved, start := st.idx, found := false }
    else st
  { st with idx := st.idx + 1 }

/-- The loop over the characters (288-312). -/
def loop : St → List Char → Option St
  | st, [] => some st
  | st, c :: cs => match close st c with
    | none => none
    | some st => loop (opens st c) cs

/-- `_rewrite_with_union` (268-316; used before Python 3.10). -/
def rewrite (s : List Char) : Option (List Char) :=
  (loop ⟨s, [], 0, false, 0⟩ s).map fun st => if st.found then unionOpen ++ barsToCommas st.new ++ [']'] else st.new

/-! ### `_sig_from_ast` -/

mutual
/-- Statements of a stub: a function (with its signature, and whether that could be made and was valid), a class, an `if` (whether its
condition mentions `sys.`, whether it can be evaluated, and its value), and others, among them `async` functions. -/
inductive Node where
  | func (name sig : Nat) (made valid : Bool) (body : Nodes)
  | cls (name : Nat) (body : Nodes)
  | ifs (sys evals truth : Bool) (body orelse : Nodes)
  | asyncFunc (name sig : Nat)
  | other
/-- Their lists. -/
inductive Nodes where
  | nil
  | cons (n : Node) (ns : Nodes)
end

/-- `sigs.extend(new_sigs); is_valid = is_valid and valid`. -/
def join (a b : List Nat × Bool) : List Nat × Bool := (a.1 ++ b.1, a.2 && b.2)

mutual
/-- What the first loop (103-122) adds for one statement. -/
def named : Node → List Nat → List Nat × Bool
  | .func name sig made valid body, steps =>
    if steps.head? = some name then
      if steps.length = 1 then (if made then [sig] else [], made && valid)
      else if steps.tail.isEmpty then ([], true)
      else join (first body steps.tail) (second body steps.tail)
    else ([], true)
  | .cls name body, steps =>
    if steps.head? = some name then
      if steps.tail.isEmpty then ([], true)
      else join (first body steps.tail) (second body steps.tail)
    else ([], true)
  | .ifs _ _ _ _ _, _ => ([], true)
  | .asyncFunc _ _, _ => ([], true)
  | .other, _ => ([], true)
/-- What the second loop (125-143) adds for one statement. -/
def conditional : Node → List Nat → List Nat × Bool
  | .func _ _ _ _ _, _ => ([], true)
  | .cls _ _, _ => ([], true)
  | .ifs sys evals truth body orelse, steps =>
    if sys then
      if evals then (if truth then join (first body steps) (second body steps) else join (first orelse steps) (second orelse steps))
      else ([], true)
    else ([], true)
  | .asyncFunc _ _, _ => ([], true)
  | .other, _ => ([], true)
/-- The first loop. -/
def first : Nodes → List Nat → List Nat × Bool
  | .nil, _ => ([], true)
  | .cons n ns, steps => join (named n steps) (first ns steps)
/-- The second loop. -/
def second : Nodes → List Nat → List Nat × Bool
  | .nil, _ => ([], true)
  | .cons n ns, steps => join (conditional n steps) (second ns steps)
end

/-- `_sig_from_ast` (72-145): the signatures and whether they are valid. -/
def sigFromAst (stmts : Nodes) (steps : List Nat) : List Nat × Bool :=
  if steps.isEmpty then ([], true) else join (first stmts steps) (second stmts steps)

end Verif.Stubs
