import Verif.Opts.Spec
import Mathlib.Data.Rat.Floor
/-
Model of /repo/crosshair/options.py and of the parsing of directives in /repo/crosshair/codeconfig.py.
-/
namespace Verif.Opts

/-! ### Overlaying -/

/-- `AnalysisOptionSet` (options.py 49-73): every field may be `None`. -/
abbrev OptSet (V : Type) := Field → Option V

/-- `AnalysisOptionSet()`. -/
def OptSet.empty {V : Type} : OptSet V := fun _ => none

/-- `AnalysisOptionSet.overlay` (options.py 89-91): the values of `overrides` that are not `None` replace those of
`self`. -/
def OptSet.overlay {V : Type} (self overrides : OptSet V) : OptSet V := fun f =>
  if (overrides f).isSome then overrides f else self f

/-- `AnalysisOptions` (options.py 134-150), without the transient deadline. -/
abbrev Full (V : Type) := Field → V

/-- `AnalysisOptions.overlay` (options.py 179-188). -/
def Full.overlay {V : Type} (self : Full V) (overrides : OptSet V) : Full V := fun f =>
  match overrides f with
  | some v => v
  | none => self f

/-- The fields copied by `option_set_from_dict` (options.py 118-127). -/
def dictFields : List Field :=
  [.analysisKind, .specsComplete, .perPathTimeout, .perConditionTimeout, .maxUninteresting, .reportAll, .reportVerbose,
   .unblock]

/-- `if arg_val is not None: setattr(options, optname, arg_val)` (options.py 129-130). -/
def setIf {V : Type} (o : OptSet V) (f : Field) : Option V → OptSet V
  | some v => fun g => if g = f then some v else o g
  | none => o

/-- `option_set_from_dict` (options.py 116-131); `source` gives the value of each name, `none` for a missing or `None`
value. -/
def fromDict {V : Type} (source : Field → Option V) : OptSet V :=
  dictFields.foldl (fun o f => setIf o f (source f)) .empty

/-! ### Limits -/

/-- Timeouts: floating point numbers that are not negative infinity.  Finite values are rationals; the rounding of
arithmetic is a parameter of the functions below. -/
inductive Num where
  | fin (q : Rat)
  | inf
  | nan
deriving DecidableEq

/-- The product with a finite number. -/
def Num.mul (fl : Rat → Rat) (x : Num) (p : Rat) : Num :=
  match x with
  | .fin q => .fin (fl (q * p))
  | .inf => if p = 0 then .nan else .inf
  | .nan => .nan

def Num.isfinite : Num → Bool
  | .fin _ => true
  | _ => false

def Num.isnan : Num → Bool
  | .nan => true
  | _ => false

/-- Python's `round` of a float to an integer: halves go to the even neighbour. -/
def roundHalfEven (x : Rat) : Int :=
  let f := ⌊x⌋
  if x - f < 1 / 2 then f
  else if x - f > 1 / 2 then f + 1
  else if f % 2 = 0 then f else f + 1

/-- The options that limit analysis. -/
structure Limits where
  perCondition : Num
  perPath : Num
  maxIterations : Int
  maxUninteresting : Int

/-- `sys.maxsize`. -/
def maxsize : Int := 2 ^ 63 - 1

/-- `AnalysisOptions.split_limits` (options.py 190-215).  `fl` is the rounding of floating point results, including the
conversion of integers. -/
def splitLimits (fl : Rat → Rat) (o : Limits) (priority : Rat) : Limits × Limits :=
  let m1 := roundHalfEven (fl (fl o.maxIterations * priority))
  let o1 := { o with perCondition := o.perCondition.mul fl priority, perPath := o.perPath.mul fl priority, maxIterations := m1 }
  let inv := fl (1 - priority)
  let o2 := { o with perCondition := o.perCondition.mul fl inv, perPath := o.perPath.mul fl inv, maxIterations := o.maxIterations - m1 }
  (o1, o2)

/-- `get_max_uninteresting_iterations` (options.py 154-163). -/
def getMaxUninteresting (o : Limits) : Int :=
  if o.maxUninteresting = maxsize ∧ o.perCondition.isfinite = false then 5
  else if o.maxUninteresting = 0 then maxsize
  else o.maxUninteresting

/-- `get_per_path_timeout` (options.py 165-177); `root` is `x ** 0.5`. -/
def getPerPathTimeout (root : Rat → Rat) (o : Limits) : Num :=
  if o.perPath.isnan then
    match o.perCondition with
    | .fin t => if t > 1 then .fin (root t) else .fin t
    | _ =>
      let m := getMaxUninteresting o
      if m < maxsize then .fin (max m 1 : Int) else .inf
  else o.perPath

/-! ### Directives -/

/-- One attempt of the first alternative of the regular expression `\S+\s*\=\s*\S+` (codeconfig.py 58) with `\S+`
taking the first `n` characters of `s`: the number of characters matched. -/
def tryAt (sp : Char → Bool) (s : List Char) (n : Nat) : Option Nat :=
  let afterKey := s.drop n
  let gap1 := afterKey.takeWhile sp
  match afterKey.drop gap1.length with
  | '=' :: afterEq =>
    let gap2 := afterEq.takeWhile sp
    let value := (afterEq.drop gap2.length).takeWhile (fun c => !sp c)
    if value = [] then none else some (n + gap1.length + 1 + gap2.length + value.length)
  | _ => none

/-- The length of the match at `s`, which begins with a character that is not whitespace: `\S+` gives back characters one
by one until the first alternative matches; otherwise the second alternative takes the word. -/
def matchLen (sp : Char → Bool) (s : List Char) : Nat :=
  let w := s.takeWhile (fun c => !sp c)
  (((List.range w.length).reverse.map (· + 1)).findSome? (tryAt sp s)).getD w.length

/-- `findall` (codeconfig.py 58).  The first argument bounds the number of characters. -/
def findall (sp : Char → Bool) : Nat → List Char → List (List Char)
  | 0, _ => []
  | fuel + 1, s =>
    match s with
    | [] => []
    | c :: rest =>
      if sp c then findall sp fuel rest
      else s.take (matchLen sp s) :: findall sp fuel (s.drop (matchLen sp s))

/-- Python's `s.split("=", 2)`. -/
def splitEq : Nat → List Char → List (List Char)
  | 0, s => [s]
  | n + 1, s =>
    match s.dropWhile (· ≠ '=') with
    | [] => [s]
    | _ :: after => s.takeWhile (· ≠ '=') :: splitEq n after

/-- Python's `str.strip`. -/
def strip (sp : Char → Bool) (s : List Char) : List Char := ((s.dropWhile sp).reverse.dropWhile sp).reverse

/-- The loop over the parts in `parse_directives` (codeconfig.py 58-78).  `parseField` is `AnalysisOptionSet.parse_field`.
`none` is `InvalidDirective`. -/
def parseParts {V : Type} (sp : Char → Bool) (parseField : Field → List Char → Option V) :
    OptSet V → List (List Char) → Option (OptSet V)
  | result, [] => some result
  | result, part :: rest =>
    let part := if part = "on".toList then "enabled=yes".toList else part
    let part := if part = "off".toList then "enabled=no".toList else part
    match splitEq 2 part with
    | [k, v] =>
      match directiveFields.lookup (strip sp k) with
      | none => none
      | some field =>
        match parseField field (strip sp v) with
        | none => none
        | some value =>
          if (result field).isSome then none
          else parseParts sp parseField (result.overlay fun f => if f = field then some value else none) rest
    | _ => none

/-- `parse_directives` (codeconfig.py 47-79) of the texts of the directives of one scope. -/
def parseDirectives {V : Type} (sp : Char → Bool) (parseField : Field → List Char → Option V) (texts : List (List Char)) :
    Option (OptSet V) :=
  parseParts sp parseField .empty (texts.flatMap fun t => findall sp t.length t)

/-- `_parse_bool` (options.py 28-33) for ASCII text. -/
def parseBool (s : List Char) : Option Bool :=
  let t := s.map Char.toLower
  if t = "1".toList ∨ t = "true".toList ∨ t = "y".toList ∨ t = "yes".toList then some true
  else if t = "0".toList ∨ t = "false".toList ∨ t = "n".toList ∨ t = "no".toList then some false
  else none

/-- Python's `split(",")`. -/
def splitComma : List Char → List (List Char)
  | [] => [[]]
  | c :: rest =>
    if c = ',' then [] :: splitComma rest
    else match splitComma rest with
      | p :: ps => (c :: p) :: ps
      | [] => [[c]]

/-- `_parse_analysis_kind` (options.py 21-25); `none` for `ValueError`. -/
def parseKinds (sp : Char → Bool) (s : List Char) : Option (List Kind) :=
  (splitComma s).mapM fun part => kindNames.lookup (strip sp part)

/-! ### Scopes -/

/-- `collect_options` (codeconfig.py 82-118).  `own` gives the options of a thing's own directives (for a module, those in
column 0), `none` if they are malformed; the argument list of a package is reversed: the innermost name first. -/
def collectRev {V : Type} (own : Thing → Option (OptSet V)) : List String → Option (OptSet V)
  | [] => some .empty
  | x :: outer => (collectRev own outer).bind fun parent => (own (.package (x :: outer).reverse)).map parent.overlay

/-- `collect_options` of any thing. -/
def collect {V : Type} (own : Thing → Option (OptSet V)) : Thing → Option (OptSet V)
  | .package path => collectRev own path.reverse
  | .module pkg name => (collectRev own pkg.reverse).bind fun parent => (own (.module pkg name)).map parent.overlay
  | .member pkg m q =>
    ((collectRev own pkg.reverse).bind fun parent => (own (.module pkg m)).map parent.overlay).bind fun parent =>
      (own (.member pkg m q)).map parent.overlay

/-- The options a function is analysed with (core.py 1018): defaults, then directives, then the command line. -/
def effective {V : Type} (defaults : Full V) (own : Thing → Option (OptSet V)) (cli : OptSet V) (t : Thing) : Option (Full V) :=
  (collect own t).map fun d => (defaults.overlay d).overlay cli

end Verif.Opts
