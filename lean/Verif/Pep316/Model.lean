import Verif.Doc.Model
/-
Model of the parser for conditions in docstrings: crosshair/condition_parser.py 603-739, which turns
the sections recognised in `Verif.Doc` into conditions.

Compilation and evaluation of expressions are parameters: `compile` stands for `compile_expr` (163-166,
modelled in `Verif.Kinds`) with the text of its error, `run` for `eval` of compiled code.
-/
namespace Verif.Pep316

open Verif.Doc (Text Sect Complaint)

/-- condition_parser.py 60-68: the kinds of conditions made here. -/
inductive Kind where
  | pre | post | inv
  deriving DecidableEq, Repr

/-- What decides a condition: compiled code in a namespace, or `lambda vars: True` (705-707). -/
inductive Decider (κ : Type) where
  | code (k : κ)
  | always
  deriving DecidableEq, Repr

/-- condition_parser.py 183-195: `ConditionExpr`.  The file name is left out, here and in messages: it
is the same for all conditions of a docstring. -/
structure Cond (κ ε : Type) where
  kind : Kind
  evaluate : Option (Decider κ)
  line : Nat
  source : Text
  compileErr : Option (Nat × ε)
  deriving DecidableEq, Repr

/-- Messages about syntax: errors of compilation and complaints of the sections' parser. -/
inductive Msg (ε : Type) where
  | compile (e : ε)
  | section (c : Complaint)
  deriving DecidableEq, Repr

/-- condition_parser.py 208-268: `Conditions`, without functions and signature. -/
structure Conds (κ ε : Type) where
  pre : List (Cond κ ε)
  post : List (Cond κ ε)
  raises : List Nat
  mutableArgs : Option (List Text)
  messages : List (Nat × Complaint)
  deriving DecidableEq, Repr

/-- condition_parser.py 267-268: `has_any`. -/
def Conds.hasAny {κ ε : Type} (c : Conds κ ε) : Bool :=
  !c.pre.isEmpty || !c.post.isEmpty || !c.messages.isEmpty

/-- condition_parser.py 270-274: `syntax_messages`. -/
def Conds.syntaxMessages {κ ε : Type} (c : Conds κ ε) : List (Nat × Msg ε) :=
  ((c.pre ++ c.post).filterMap Cond.compileErr).map (fun e => (e.1, Msg.compile e.2)) ++
    c.messages.map (fun m => (m.1, Msg.section m.2))

variable {κ ε : Type}

/-- condition_parser.py 603-630: `condition_from_source_text`. -/
def condition (compile : Text → Except ε κ) (kind : Kind) (line : Nat) (source : Text) : Cond κ ε :=
  match compile source with
  | .ok k => ⟨kind, some (.code k), line, source, none⟩
  | .error e => ⟨kind, none, line, source, some (line, e)⟩

/-- `{**namespace, **bindings}`: the later dict wins. -/
def overlay {ν : Type} (namespc bindings : Text → Option ν) : Text → Option ν := fun n =>
  match bindings n with
  | some v => some v
  | none => namespc n

/-- condition_parser.py 613-616 and 705-707: what `evaluate` does with bindings. -/
def decideCond {ν ρ : Type} (run : κ → (Text → Option ν) → ρ) (yes : ρ) (namespc bindings : Text → Option ν) :
    Decider κ → ρ
  | .code k => run k (overlay namespc bindings)
  | .always => yes

/-- `str.split` at one character. -/
def splitAt (c : Char) : Text → List Text
  | [] => [[]]
  | x :: xs =>
      if x = c then [] :: splitAt c xs
      else
        match splitAt c xs with
        | [] => [[x]]
        | h :: t => (x :: h) :: t

variable (sp word : Char → Bool)

/-- condition_parser.py 680-684: the names in the brackets of `post[…]`. -/
def mutableNames (b : Text) : List Text :=
  ((splitAt ',' b).filter (fun e => e ≠ [])).map
    (fun e => (splitAt '.' (Doc.strip sp e)).headD [])

/-- The characters of `[\w\.]`. -/
def nameChar (c : Char) : Bool := word c || c == '.'

/-- The characters of `[^\r\n#]`. -/
def bodyChar (c : Char) : Bool := !(c == '\r' || c == '\n' || c == '#')

/-- The word `raises` at the start of a text: what follows. -/
def raisesKw : Text → Option Text
  | 'r' :: 'a' :: 'i' :: 's' :: 'e' :: 's' :: r => some r
  | _ => none

/-- condition_parser.py 635: `\: raises \s+ ( [\w\.]+ ) \:`, after the leading whitespace: the names and
what follows the match.  No backtracking changes the outcome, since a colon is neither whitespace nor a
character of a name. -/
def altSphinx (t : Text) : Option (List Text × Text) :=
  match t with
  | ':' :: t' =>
      match raisesKw t' with
      | some r =>
          if (r.takeWhile sp).isEmpty then none
          else if ((r.dropWhile sp).takeWhile (nameChar word)).isEmpty then none
          else
            match (r.dropWhile sp).dropWhile (nameChar word) with
            | ':' :: rest => some ([(r.dropWhile sp).takeWhile (nameChar word)], rest)
            | _ => none
      | none => none
  | _ => none

/-- condition_parser.py 636 and 652: `\:? raises \s* \: ( [^\r\n#]+ )` after the leading whitespace; the
names are separated by commas. -/
def altPep (t : Text) : Option (List Text × Text) :=
  match raisesKw (Doc.optColon t) with
  | some r =>
      match r.dropWhile sp with
      | ':' :: b =>
          if (b.takeWhile bodyChar).isEmpty then none
          else some (splitAt ',' (b.takeWhile bodyChar), b.dropWhile bodyChar)
      | _ => none
  | none => none

/-- condition_parser.py 633-639: `_RAISE_SPHINX_RE` at the start of a line, with 648-652: the names and
what follows the match. -/
def raisesAt (t : Text) : Option (List Text × Text) :=
  match altSphinx sp word (t.dropWhile sp) with
  | some m => some m
  | none => altPep sp (t.dropWhile sp)

/-- `findall` with 648-652: the names of all matches, from left to right.  `start` says whether the text
is at the start of a line (`^` with `re.MULTILINE`), `skip` how many characters still belong to the last
match. -/
def scan : Bool → Nat → Text → List Text
  | _, _, [] => []
  | _, skip + 1, c :: cs => scan (c == '\n') skip cs
  | false, 0, c :: cs => scan (c == '\n') 0 cs
  | true, 0, c :: cs =>
      match raisesAt sp word (c :: cs) with
      | some (names, rest) => names ++ scan (c == '\n') (cs.length - rest.length) cs
      | none => scan (c == '\n') 0 cs

/-- What a name evaluates to (654-657): nothing if `eval` raises, a class of exceptions, or something
else. -/
inductive Named where
  | fails
  | exception (n : Nat)
  | other
  deriving DecidableEq, Repr

/-- condition_parser.py 642-663: `parse_sphinx_raises`. -/
def sphinxRaises (look : Text → Named) (doc : Option Text) : List Nat :=
  match doc with
  | none => []
  | some d => (scan sp word true 0 d).filterMap
      (fun n => match look n with | .exception e => some e | _ => none)

/-- What the parser sees of a function: whether it is built in, the number of its first line, the lines
of its docstring (102-138, in `Verif.Doc`), and its `__doc__`. -/
structure Fn where
  builtin : Bool
  firstLine : Nat
  docLines : List (Nat × Text)
  doc : Option Text

/-- condition_parser.py 686-705 and 733-738: the conditions of one section. -/
def sectionConds (compile : Text → Except ε κ) (kind : Kind) (s : Sect)
    (found : List (Sect × Nat × Text)) : List (Cond κ ε) :=
  found.filterMap (fun f => if f.1 = s then some (condition compile kind f.2.1 f.2.2) else none)

/-- condition_parser.py 667-720: `Pep316Parser.get_fn_conditions`; `fn` is the outcome of
`get_callable`. -/
def fnConditions (compile : Text → Except ε κ) (look : Text → Named) (fn : Option Fn) :
    Option (Conds κ ε) :=
  match fn with
  | none => none
  | some fn =>
      if fn.builtin then some ⟨[], [], [], some [], []⟩
      else
        let parse := Doc.parseSections sp word [.pre, .post] fn.docLines
        let pre := sectionConds compile .pre .pre parse.found
        let post := sectionConds compile .post .post parse.found
        some
          { pre := pre
            post := if !pre.isEmpty && post.isEmpty
              then [⟨.post, some .always, fn.firstLine, [], none⟩] else post
            raises := sphinxRaises sp word look fn.doc
            mutableArgs := parse.mutableExpr.map (mutableNames sp)
            messages := parse.complaints }

/-- condition_parser.py 722-739: `Pep316Parser.get_class_invariants`; `none` stands for a class without
a source file. -/
def classInvariants (compile : Text → Except ε κ) (docLines : Option (List (Nat × Text))) :
    List (Cond κ ε) :=
  match docLines with
  | none => []
  | some ls => sectionConds compile .inv .inv (Doc.parseSections sp word [.inv] ls).found

end Verif.Pep316
