import Verif.Analyze.Spec
import Verif.Contract.Model
import Verif.Opts.Model
/-
Model of the choice of what to analyse: `analyze_any`, `analyze_module`, `analyze_class`, `analyze_function`
(/repo/crosshair/core.py 938-1054), `get_top_level_classes_and_functions`, `FunctionInfo` and `fn_globals`
(/repo/crosshair/fnutil.py), and of the place of messages (`MessageGenerator`, core.py 1209-1246).

Reading contracts is that of `Verif.Contract`: the parser of some kinds of analysis gives the conditions of a function or
class. Generators are lists; debug output is left out.
-/
namespace Verif.Analyze
open Verif.Opts (OptSet Full Kind)

/-- `Conditions` (condition_parser.py 208-270). -/
abbrev Conds := Contract.Conds Cond

/-- `Conditions.syntax_messages` (condition_parser.py 270-274). -/
def syntaxMessages (c : Conds) : List Nat := (c.pre ++ c.post).filterMap Cond.err ++ c.messages

/-- `Checkable`s (core.py 838-928): a condition with its function's name and options; messages about syntax; and a check
whose messages are clamped to a class (its name). -/
inductive Check where
  | condition (fn : Name) (options : Full Val) (conditions : Conds)
  | syntaxErrors (messages : List Nat)
  | clamped (inner : Check) (cls : Name)

/-- A function, as far as it matters: its name, the options collected for its callable (none if it has no callable), and what
the parser of some kinds finds. -/
structure Fn where
  name : Name
  directives : OptSet Val
  conds : List Kind → Option Conds

/-- A descriptor that `getattr_static` finds in a class. -/
structure Descriptor where
  abstractMethod : Bool := false
  slot : Slot := .function
  directives : OptSet Val := OptSet.empty

/-- A class: its name, `isabstract`, its declaration as the parsers of some kinds see it, and its attributes. -/
structure Class where
  name : Name
  abstract : Bool
  tree : List Kind → Contract.Cls Cond
  attr : Name → Descriptor

/-- The value of `analysis_kind`. -/
def kindsOf (o : Full Val) : List Kind :=
  match o .analysisKind with
  | .kinds l => l
  | _ => []

/-- The value of `enabled`. -/
def enabledOf (o : Full Val) : Bool :=
  match o .enabled with
  | .flag b => b
  | _ => true

/-- `condition_parser` (condition_parser.py 1231-1242): the parser in scope, if there is one, else a new one of the kinds. A
parser is given by its kinds. -/
def conditionParser (scope : Option (List Kind)) (kinds : List Kind) : List Kind :=
  match scope with
  | some current => current
  | none => kinds

/-- `analyze_function` (core.py 1008-1054), with what the parser finds for the function given as `lookup`. -/
def analyzeFunction (defaults : Full Val) (scope : Option (List Kind)) (name : Name) (directives : OptSet Val)
    (lookup : List Kind → Option Conds) (options : OptSet Val) : List Check :=
  let full := (defaults.overlay directives).overlay options
  if !enabledOf full then []
  else
    match lookup (conditionParser scope (kindsOf full)) with
    | none => []
    | some conditions =>
      if (syntaxMessages conditions).isEmpty then
        (conditions.post.filter (fun p => p.compiled)).map fun p => .condition name full { conditions with post := [p] }
      else [.syntaxErrors (syntaxMessages conditions)]

/-- core.py 988-998: the conditions that decide whether a method is looked at. -/
def relevantConds (method : Name) (conditions : Conds) : Conds :=
  if method = "__init__".toList then { conditions with post := conditions.post.filter (fun c => c.role != .inv) }
  else conditions

/-- core.py 970-987: whether a method is skipped because it, or its class, is abstract. -/
def skipped (cls : Class) (d : Descriptor) : Bool :=
  d.abstractMethod || (cls.abstract && !(d.slot == .static || d.slot == .classMethod))

/-- `analyze_class` (core.py 962-1005). The parser stays in scope while the methods are analysed. `analyze_function` looks the
class conditions up again, with the parser then in scope. -/
def analyzeClass (defaults : Full Val) (scope : Option (List Kind)) (cls : Class) (options : OptSet Val) : List Check :=
  let parser := conditionParser scope (kindsOf (defaults.overlay options))
  (Contract.classConds (cls.tree parser)).methods.flatMap fun entry =>
    if skipped cls (cls.attr entry.1) then []
    else if (relevantConds entry.1 entry.2).hasAny then
      (analyzeFunction defaults (some parser) entry.1 (cls.attr entry.1).directives
        (fun k => (Contract.classConds (cls.tree k)).methods.lookup entry.1) options).map fun c => .clamped c cls.name
    else []

/-- What a module has under a name. -/
inductive Thing where
  | function (f : Fn)
  | cls (c : Class)
  | other

/-- A member of a module, with its `__module__`. -/
structure Member where
  definedIn : Option Name
  thing : Thing

/-- Insertion by name, as in sorting the members (`inspect.getmembers`). -/
def insertMember (x : Name × Member) : List (Name × Member) → List (Name × Member)
  | [] => [x]
  | y :: ys => if y.1 < x.1 then y :: insertMember x ys else x :: y :: ys

/-- `inspect.getmembers`: sorted by name. -/
def getmembers (dict : List (Name × Member)) : List (Name × Member) := dict.foldr insertMember []

/-- `get_top_level_classes_and_functions` (fnutil.py 380-391). -/
def topLevel (module : Name) (dict : List (Name × Member)) : List (Name × Thing) :=
  (getmembers dict).filterMap fun m =>
    if m.2.definedIn = some module then
      match m.2.thing with
      | .function f => some (m.1, .function f)
      | .cls c => some (m.1, .cls c)
      | .other => none
    else none

/-- `analyze_module` (core.py 951-959). -/
def analyzeModule (defaults : Full Val) (module : Name) (dict : List (Name × Member)) (options : OptSet Val) : List Check :=
  (topLevel module dict).flatMap fun m =>
    match m.2 with
    | .cls c => analyzeClass defaults none c options
    | .function f => analyzeFunction defaults none f.name f.directives f.conds options
    | .other => []

/-! ### Where messages are placed -/

/-- The state of a `MessageGenerator` (core.py 1210-1218): the file of the function, its first line, and how many lines it
has. -/
structure Generator (F : Type) where
  file : F
  start : Int
  length : Nat

/-- A message: the text of the detail as pieces, the file and the line. -/
structure Placed (F : Type) where
  quoted : Option (List Char)
  detail : List Char
  file : F
  line : Int
deriving DecidableEq, Repr

/-- Python's `lines[i]`: negative indices count from the end; `none` for an `IndexError`. -/
def pyIndex {α : Type} (xs : List α) (i : Int) : Option α :=
  if 0 ≤ i then xs[i.toNat]?
  else if 0 ≤ i + xs.length then xs[(i + xs.length).toNat]?
  else none

/-- `MessageGenerator.make` (core.py 1220-1246). `abspath` is `os.path.abspath`, `lines` is `linecache.getlines`; texts are not
stripped. -/
def Generator.make {F : Type} [DecidableEq F] (g : Generator F) (abspath : F → F) (lines : F → List (List Char))
    (detail : List Char) (file : Option F) (line : Int) : Placed F :=
  match file with
  | none => ⟨some "<unknown>".toList, detail, g.file, g.start⟩
  | some f =>
    if abspath f = abspath g.file ∧ g.start ≤ line ∧ line ≤ g.start + g.length then ⟨none, detail, f, line⟩
    else
      ⟨some (match pyIndex (lines f) (line - 1) with
        | some text => text
        | none => "<unknown>".toList), detail, g.file, g.start⟩

/-! ### Functions in classes -/

/-- Annotations: a type (a number), none, or `Type[…]` of a class. -/
inductive Annotation where
  | empty
  | type (n : Nat)
  | typeOf (n : Nat)
deriving DecidableEq, Repr

/-- A signature: parameters with annotations, and the return annotation. -/
structure Sig where
  params : List (Name × Annotation)
  ret : Annotation
deriving DecidableEq, Repr

/-- What is found in a module or class: plain functions, wrappers of functions, properties with getter, setter and deleter, or
something else. Functions are numbers. -/
inductive Desc where
  | function (f : Nat)
  | static (f : Nat)
  | classMethod (f : Nat)
  | property (get set del : Option Nat)
  | other (f : Nat)
deriving DecidableEq, Repr

/-- Where it is found: in a module or nowhere, or in a class; `subscriptable` tells whether `Type[cls]` is accepted. -/
inductive Context where
  | module
  | cls (c : Nat) (subscriptable : Bool)
deriving DecidableEq, Repr

/-- The exceptions that escape. -/
inductive Crash where
  | indexError
deriving DecidableEq, Repr

/-- `set_first_arg_type` (fnutil.py 106-109). -/
def setFirstArgType (s : Sig) (a : Annotation) : Except Crash Sig :=
  match s.params with
  | [] => .error .indexError
  | p :: ps => .ok ⟨(p.1, a) :: ps, s.ret⟩

/-- `FunctionInfo.get_callable` (fnutil.py 156-185); `resolve` is `resolve_signature`, `none` for an error message. The cache of
the signature is left out. -/
def getCallable (resolve : Nat → Option Sig) (ctx : Context) (desc : Desc) : Except Crash (Option (Nat × Sig)) :=
  match ctx with
  | .module =>
    match desc with
    | .function f | .static f | .classMethod f | .other f => .ok ((resolve f).map fun s => (f, s))
    | .property _ _ _ => .ok none
  | .cls c subscriptable =>
    match desc with
    | .function f =>
      match resolve f with
      | none => .ok none
      | some s => (setFirstArgType s (.type c)).map fun s => some (f, s)
    | .static f => .ok ((resolve f).map fun s => (f, s))
    | .classMethod f =>
      match resolve f with
      | none => .ok none
      | some s => if subscriptable then (setFirstArgType s (.typeOf c)).map fun s => some (f, s) else .ok none
    | .property (some g) none none =>
      match resolve g with
      | none => .ok none
      | some s => (setFirstArgType s (.type c)).map fun s => some (g, s)
    | .property _ _ _ => .ok none
    | .other _ => .ok none

/-- `FunctionInfo.patch_logic` (fnutil.py 187-197). -/
def patchLogic (desc : Desc) (patched : Nat) : Option Desc :=
  match desc with
  | .function _ => some (.function patched)
  | .static _ => some (.static patched)
  | .classMethod _ => some (.classMethod patched)
  | .property _ set del => some (.property (some patched) set del)
  | .other _ => none

/-! ### The names a function can refer to -/

/-- Callables: wrappers with `__wrapped__`, Python functions with their nonlocal and global names, other callables with
`__globals__`, and others. Values are numbers. -/
inductive Callable where
  | wrapper (inner : Callable)
  | function (nonlocals globals : List (Name × Nat))
  | withGlobals (globals : List (Name × Nat))
  | builtin

/-- `fn_globals` (fnutil.py 50-59), as the value of each name. In `{**a, **b}` the entries of `b` win. -/
def fnGlobals (builtins : List (Name × Nat)) : Callable → Name → Option Nat
  | .wrapper inner, n => fnGlobals builtins inner n
  | .function nonlocals globals, n =>
    if nonlocals.isEmpty then globals.lookup n
    else
      match globals.lookup n with
      | some v => some v
      | none => nonlocals.lookup n
  | .withGlobals globals, n => globals.lookup n
  | .builtin, n => builtins.lookup n

end Verif.Analyze
