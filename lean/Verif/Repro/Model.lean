import Verif.Repro.Spec

/-!
# How CrossHair prints the arguments of a counterexample

crosshair/util.py: `format_boundargs`, `format_boundargs_as_dictionary` and
`EvalFriendlyReprContext`; crosshair/libimpl/builtinslib.py: the `repr` functions of containers;
crosshair/core.py: `LazyCreationRepr.eval_friendly_format`.

Texts are lists of tokens rather than characters: the temporary name `_ch_efr_<id>_` is the token
`use id`, the same followed by `:=` is `bind id`, and `x=` is the token `kw x`.  So the regular
expressions of `cleanup` find precisely the names, which is so in the code unless some string or
name written by the user contains `_ch_efr_`.  Values that contain themselves are left out: their
`repr` does not end.
-/

namespace Verif.Repro

/-- `", ".join(texts)`. -/
def joined : List (List Tok) → List Tok
  | [] => []
  | [t] => t
  | t :: ts => t ++ .comma :: joined ts

/-- `repr(k) + ": " + repr(v)` for the items of a dictionary (builtinslib.py:5199). -/
def paired : List (List Tok) → List (List Tok)
  | k :: v :: ts => (k ++ .colon :: v) :: paired ts
  | _ => []

/-- The texts of arguments, the keyword ones with `name=` in front (util.py:410, 419-421). -/
def withKws : List (Option String) → List (List Tok) → List (List Tok)
  | some x :: ks, t :: ts => (.kw x :: t) :: withKws ks ts
  | none :: ks, t :: ts => t :: withKws ks ts
  | _, _ => []

/-- The text of an object from the texts of its parts: `_list_repr` (builtinslib.py:5222-5227; also
    util.py:521), `_tuple_repr` (5365-5369), `_set_repr` (5270-5276), `_frozenset_repr` (5261-5267),
    `_dict_repr` (5196-5200), the text of an object without parts (util.py:520, 522), and that of an
    object made by a call: `repr` of dataclasses and named tuples, and the construction text of a
    proxied class (core.py:545-556). -/
def body : Kind → List (List Tok) → List Tok
  | .list, ts => .lbrack :: (joined ts ++ [.rbrack])
  | .tuple, ts => .lpar :: (joined ts ++ [.rpar])
  | .set, [] => [.fn "set", .lpar, .rpar]
  | .set, ts => .lbrace :: (joined ts ++ [.rbrace])
  | .frozenset, [] => [.fn "frozenset", .lpar, .rpar]
  | .frozenset, ts => .fn "frozenset" :: .lpar :: .lbrace :: (joined ts ++ [.rbrace, .rpar])
  | .dict, ts => .lbrace :: (joined (paired ts) ++ [.rbrace])
  | .blob t, _ => [.blob t]
  | .call f ks, ts => .fn f :: .lpar :: (joined (withKws ks ts) ++ [.rpar])

mutual

/-- util.py:528-564 `_eval_friendly_repr`: an object that has a name is written as its name; any
    other gets one *after* its text has been made.  `named` holds the objects whose entry in
    `instance_overrides` is a name.  Numbers, strings, functions, classes and enumeration members
    get no name. -/
def reprVal (named : List Nat) : Val → List Tok × List Nat
  | .atom a => ([.atom a], named)
  | .node i k ps =>
    if i ∈ named then ([.use i], named)
    else (.bind i :: body k (reprAll named ps).1, i :: (reprAll named ps).2)

/-- `map(repr, parts)`: the parts from left to right, in one context. -/
def reprAll (named : List Nat) : List Val → List (List Tok) × List Nat
  | [] => ([], named)
  | p :: ps =>
    ((reprVal named p).1 :: (reprAll (reprVal named p).2 ps).1, (reprAll (reprVal named p).2 ps).2)

end

/-- The temporary name in a token, as `findall` lists them (util.py:575). -/
def Tok.name : Tok → Option Nat
  | .use i => some i
  | .bind i => some i
  | _ => none

/-- The keys of a `Counter`: every name once, in the order of first appearance. -/
def firsts (seen : List Nat) : List Nat → List Nat
  | [] => []
  | i :: is => if i ∈ seen then firsts seen is else i :: firsts (i :: seen) is

/-- The loop of util.py:578-582: a name that occurs more than once is given the next number. -/
def remaps (all : List Nat) : Nat → List Nat → List (Nat × Nat)
  | _, [] => []
  | n, i :: is => if all.count i > 1 then (i, n) :: remaps all (n + 1) is else remaps all n is

/-- `assignment_remaps.get(…)`. -/
def renumber (r : List (Nat × Nat)) (i : Nat) : Option Nat :=
  match r with
  | [] => none
  | (j, n) :: r => if j = i then some n else renumber r i

/-- The substitution of util.py:583-585, for one token. -/
def cleanTok (r : Nat → Option Nat) : Tok → List Tok
  | .use i => match r i with | some n => [.use n] | none => []
  | .bind i => match r i with | some n => [.bind n] | none => []
  | t => [t]

/-- The names that `cleanup` keeps, with their numbers (util.py:575-582). -/
def numbers (ts : List Tok) : Nat → Option Nat :=
  renumber (remaps (ts.filterMap Tok.name) 1 (firsts [] (ts.filterMap Tok.name)))

/-- util.py:574-585 `cleanup` -/
def cleanup (ts : List Tok) : List Tok := ts.flatMap (cleanTok (numbers ts))

/-- util.py:406-420, the body of the loop in `format_boundargs`: how the value of one parameter is
    written. -/
def argsOf (p : Param) : Slot → List (Option String × Val)
  | .many vs => if p.kind = .varPos then vs.map fun v => (none, v) else []
  | .named kvs => if p.kind = .varKw then kvs.map fun kv => (some kv.1, kv.2) else []
  | .one v =>
    match p.kind with
    | .posOnly => [(none, v)]
    | .kwOnly => [(some p.name, v)]
    | .posOrKw => if p.default.isSome then [(some p.name, v)] else [(none, v)]
    | _ => []

/-- util.py:401-421 `format_boundargs`, first half: the arguments as they are written.  Every
    parameter has a value, as `gen_args` gives one to each. -/
def callArgs : List Param → List Slot → List (Option String × Val)
  | p :: ps, s :: ss => argsOf p s ++ callArgs ps ss
  | _, _ => []

/-- util.py:401-421 `format_boundargs`, second half, inside a context: the texts joined. -/
def formatArgs (named : List Nat) (as : List (Option String × Val)) : List Tok × List Nat :=
  (joined (withKws (as.map (·.1)) (reprAll named (as.map (·.2))).1),
    (reprAll named (as.map (·.2))).2)

/-- util.py:396-398 `format_boundargs_as_dictionary`, inside a context -/
def formatDict (named : List Nat) (as : List (String × Val)) : List Tok × List Nat :=
  (.lbrace :: (joined (paired ((as.map fun a => [Tok.atom a.1]).zip
      (reprAll named (as.map (·.2))).1 |>.flatMap fun (k, v) => [k, v])) ++ [.rbrace]),
    (reprAll named (as.map (·.2))).2)

/-- The text of a call: condition_parser.py:166-178 `default_counterexample`,
    path_cover.py:162-168 `output_eval_exression_paths`, around core.py:694-704
    `eval_friendly_format`. -/
def callText (f : String) (as : List (Option String × Val)) : List Tok :=
  .fn f :: .lpar :: (cleanup (formatArgs [] as).1 ++ [.rpar])

/-- The text of the result that path_cover.py:92 makes: `eval_friendly_format` a second time, in the
    context that already holds the names given to the arguments. -/
def resultText (as : List (Option String × Val)) (v : Val) : List Tok :=
  cleanup (reprVal (formatArgs [] as).2 v).1

/-- The text of a value in a context of its own (util.py:427-438 `eval_friendly_repr`). -/
def valueText (v : Val) : List Tok := cleanup (reprVal [] v).1

end Verif.Repro
