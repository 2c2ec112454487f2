import Mathlib.Logic.Function.Basic
import Verif.Mask.Model

/-! Tables of characters and case mappings of symbolic strings: crosshair/unicode_categories.py (`compute_categories`,
`UnicodeMaskCache`), the case methods and `translate` of `AnySymbolicStr` in crosshair/libimpl/builtinslib.py, and
crosshair/libimpl/unicodedatalib.py. -/
namespace Verif.CaseMaps

open Verif.Mask (Mask Part maybeAdd union invert)

/-- What Python says of single characters. The text of a case mapping is a list of code points. -/
structure Unicode where
  category : Nat → String
  bidirectional : Nat → String
  isWord : Nat → Bool
  isLower : Nat → Bool
  isUpper : Nat → Bool
  isTitle : Nat → Bool
  lower : Nat → List Nat
  upper : Nat → List Nat
  title : Nat → List Nat
  casefold : Nat → List Nat
  /-- `none` stands for `ValueError`. -/
  decimal : Nat → Option Int
  digit : Nat → Option Int
  /-- `Fraction(numeric(ch)).limit_denominator()`, as numerator and denominator. -/
  numeric : Nat → Option (Int × Int)

/-- unicode_categories.py:149-165: what the loop of `compute_categories` keeps. `data` lists, in order, the items
together with their category. -/
structure Scan where
  lastPoint : Nat
  lastCategory : String
  data : List (String × Part)
  word : Mask

/-- unicode_categories.py:151-163: one turn of the loop. -/
def scanStep (u : Unicode) (s : Scan) (cur : Nat) : Scan :=
  let word := if u.isWord cur then maybeAdd s.word cur (cur + 1) else s.word
  let cat := u.category cur
  if cat ≠ s.lastCategory then
    let item := if cur = s.lastPoint + 1 then Part.one s.lastPoint else Part.span s.lastPoint cur
    { lastPoint := cur, lastCategory := cat, data := s.data ++ [(s.lastCategory, item)], word }
  else { s with word }

/-- unicode_categories.py:144-169 `compute_categories`, for characters below `size` (`maxunicode + 1`). -/
def computeCategories (u : Unicode) (size : Nat) : List (String × Mask) :=
  let s := ((List.range size).drop 1).foldl (scanStep u) ⟨0, u.category 0, [], []⟩
  let data := s.data ++ [(u.category (size - 1), Part.span s.lastPoint size)]
  let names := (data.map Prod.fst).eraseDups
  (names.map fun k => (k, (data.filter fun p => p.1 == k).map Prod.snd)) ++ [("word", s.word)]

/-- A category of the dictionary; `none` is `KeyError`. -/
def categoryMask (u : Unicode) (size : Nat) (name : String) : Option Mask := (computeCategories u size).lookup name

/-- unicode_categories.py:188-196 `get_unicode_mask`, without inversion. -/
def unicodeMask (u : Unicode) (size : Nat) (first : String) (more : List String) : Option Mask :=
  more.foldl (fun acc name => do return union (← acc) (← categoryMask u size name)) (categoryMask u size first)

/-- unicode_categories.py:202-213 `get_char_fn_map`; `ValueError` and `None` are both `none`. -/
def charFnMap {A : Type} (size : Nat) (f : Nat → Option A) : List (Nat × A) :=
  (List.range size).filterMap fun c => (f c).map fun v => (c, v)

/-- unicode_categories.py:234-238 `make_mask`. -/
def makeMask (vals : List Nat) : Mask := vals.foldl (fun m v => maybeAdd m v (v + 1)) []

/-- unicode_categories.py:216-221 `get_char_fn_domain_mask`. The keys are in order, so that `sorted` changes nothing. -/
def domainMask {A : Type} (size : Nat) (f : Nat → Option A) : Mask := makeMask ((charFnMap size f).map Prod.fst)

/-- unicode_categories.py:224-231 `get_char_predicate_mask`. -/
def predicateMask (size : Nat) (p : Nat → Bool) : Mask :=
  (List.range size).foldl (fun m c => if p c then maybeAdd m c (c + 1) else m) []

/-- unicode_categories.py:325-328 `casemap`. -/
def casemap (size : Nat) (f : Nat → List Nat) : List (Nat × List Nat) :=
  charFnMap size fun c => if f c = [c] then none else some (f c)

/-- unicode_categories.py:414-497: the keys of the `_exists` masks: all of the map, or those with `n` characters. -/
def caseExists (size : Nat) (f : Nat → List Nat) (n : Nat) : Mask :=
  makeMask (((casemap size f).filter fun p => n ≤ p.2.length).map Prod.fst)

/-- unicode_categories.py:418-501: the tables of the first, second and third character (`n` is 1, 2 or 3).
That no mapping is empty (for `n = 1`, where Python does not look at the length) is taken from Python. -/
def caseNth (size : Nat) (f : Nat → List Nat) (n : Nat) : List (Nat × Int) :=
  ((casemap size f).filter fun p => n ≤ p.2.length).map fun p => (p.1, (p.2.getD (n - 1) 0 : Int))

/-- What is told to the solver about one of its functions. -/
inductive Constraint where
  /-- unicode_categories.py:70-77 `interpret_smt_function`: for all integers. -/
  | mask (name : String) (m : Mask)
  /-- unicode_categories.py:256-258: a conjunction of equations. -/
  | points (name : String) (eqs : List (Nat × Int))
deriving DecidableEq

/-- unicode_categories.py:249-251 `val_to_key`. -/
def addKey (groups : List (Int × List Nat)) (p : Nat × Int) : List (Int × List Nat) :=
  if groups.any fun g => g.1 == p.2 then groups.map fun g => if g.1 = p.2 then (g.1, g.2 ++ [p.1]) else g
  else groups ++ [(p.2, [p.1])]

/-- unicode_categories.py:244-260: the expression of `_cached_int_transform`. -/
def intTransform (name : String) (transforms : List (Nat × Int)) : Constraint :=
  let groups := transforms.foldl addKey []
  .points name (groups.flatMap fun g => g.2.map fun k => (k, g.1))

/-- The functions of `UnicodeMaskCache` that are not one of four case mappings. -/
inductive Mapping where
  | casefold
  | tolower
  | totitle
  | toupper
deriving DecidableEq

/-- The name before the underscore. -/
def Mapping.name : Mapping → String
  | .casefold => "casefold"
  | .tolower => "tolower"
  | .totitle => "totitle"
  | .toupper => "toupper"

/-- The mapping of Python. -/
def Mapping.fn (u : Unicode) : Mapping → Nat → List Nat
  | .casefold => u.casefold
  | .tolower => u.lower
  | .totitle => u.title
  | .toupper => u.upper

/-- The functions of `UnicodeMaskCache`. `tolower_3rd` is not there in Python and never asked for here. -/
inductive Fn where
  | ascii | alnum | alpha | decimal | digit | numeric | lower | printable | space | newline | upper | title | word
  | exists1 (m : Mapping) | first (m : Mapping)
  | exists2 (m : Mapping) | second (m : Mapping)
  | exists3 (m : Mapping) | third (m : Mapping)
  | digitExists | decimalInt | decimalExists | digitInt | numericExists | numerator | denominator
deriving DecidableEq

/-- The names of the functions: unicode_categories.py:337-528. -/
def Fn.name : Fn → String
  | .ascii => "ascii" | .alnum => "alnum" | .alpha => "alpha" | .decimal => "decimal" | .digit => "digit"
  | .numeric => "numeric" | .lower => "lower" | .printable => "printable" | .space => "space" | .newline => "newline"
  | .upper => "upper" | .title => "title" | .word => "word"
  | .exists1 m => m.name ++ "_exists" | .first m => m.name ++ "_1st"
  | .exists2 m => m.name ++ "_2nd_exists" | .second m => m.name ++ "_2nd"
  | .exists3 m => m.name ++ "_3rd_exists" | .third m => m.name ++ "_3rd"
  | .digitExists => "digit_exists" | .decimalInt => "decimal_int" | .decimalExists => "decimal_exists"
  | .digitInt => "digit_int" | .numericExists => "numeric_exists" | .numerator => "numeric_numerator"
  | .denominator => "numeric_denominator"

/-- unicode_categories.py:377-383 `_is_space_char`. -/
def isSpaceChar (u : Unicode) (c : Nat) : Bool :=
  if u.category c = "Zs" then true
  else if u.bidirectional c = "WS" ∨ u.bidirectional c = "B" ∨ u.bidirectional c = "S" then true
  else false

/-- unicode_categories.py:337-528: the mask of each function that has one; `none` is `KeyError`. -/
def maskOf (u : Unicode) (size : Nat) : Fn → Option Mask
  | .ascii => some [.span 0 128]
  | .alnum => (unicodeMask u size "Lm" ["Lt", "Lu", "Ll", "Lo"]).map fun alpha => union alpha (domainMask size u.numeric)
  | .alpha => unicodeMask u size "Lm" ["Lt", "Lu", "Ll", "Lo"]
  | .decimal => unicodeMask u size "Nd" []
  | .digit => some (domainMask size u.digit)
  | .numeric => some (domainMask size u.numeric)
  | .lower => some (domainMask size fun c => if u.isLower c then some () else none)
  | .printable =>
    (unicodeMask u size "Cc" ["Co", "Cn", "Cf", "Cs", "Zs", "Zl", "Zp", "Zs"]).map fun m => union (invert m) [.one 32]
  | .space => some (predicateMask size (isSpaceChar u))
  | .newline => some ([10, 11, 12, 13, 28, 29, 30, 133, 8232, 8233].map .one)
  | .upper => some (domainMask size fun c => if u.isUpper c then some () else none)
  | .title => some (domainMask size fun c => if u.isTitle c then some () else none)
  | .word => categoryMask u size "word"
  | .exists1 m => some (caseExists size (m.fn u) 0)
  | .exists2 m => some (caseExists size (m.fn u) 2)
  | .exists3 m => some (caseExists size (m.fn u) 3)
  | .digitExists => some (domainMask size u.digit)
  | .decimalExists => some (domainMask size u.decimal)
  | .numericExists => some (domainMask size u.numeric)
  | _ => none

/-- unicode_categories.py:337-528: the table of each function that has one. -/
def tableOf (u : Unicode) (size : Nat) : Fn → Option (List (Nat × Int))
  | .first m => some (caseNth size (m.fn u) 1)
  | .second m => some (caseNth size (m.fn u) 2)
  | .third m => some (caseNth size (m.fn u) 3)
  | .decimalInt => some (charFnMap size u.decimal)
  | .digitInt => some (charFnMap size u.digit)
  | .numerator => some ((charFnMap size u.numeric).map fun p => (p.1, p.2.1))
  | .denominator => some ((charFnMap size u.numeric).map fun p => (p.1, p.2.2))
  | _ => none

/-- unicode_categories.py:240-277: the constraint that is made for a function. `is_` is put in front of the names of
masks. -/
def constraintOf (u : Unicode) (size : Nat) (f : Fn) : Option Constraint :=
  match tableOf u size f with
  | some t => some (intTransform f.name t)
  | none => (maskOf u size f).map fun m => .mask ("is_" ++ f.name) m

/-- The process: `_INTERPRETATION_CACHE`, and for each cache (one for each path) what its solver has been told and
`_cached_smt_fns`. -/
structure World where
  interpretations : List (String × Constraint)
  told : Nat → List Constraint
  known : Nat → List String

/-- unicode_categories.py:240-311: a function is asked for, in the cache with number `i`. `none` is `KeyError`. -/
def ask (u : Unicode) (size : Nat) (w : World) (i : Nat) (f : Fn) : Option World :=
  if f.name ∈ w.known i then some w
  else
    match w.interpretations.lookup f.name with
    | some c =>
      some { w with told := Function.update w.told i (w.told i ++ [c]), known := Function.update w.known i (f.name :: w.known i) }
    | none =>
      match constraintOf u size f with
      | none => none
      | some c =>
        some { interpretations := (f.name, c) :: w.interpretations
               told := Function.update w.told i (w.told i ++ [c])
               known := Function.update w.known i (f.name :: w.known i) }

/-- Functions asked for, one after the other, in any of the caches. -/
def askAll (u : Unicode) (size : Nat) (w : World) : List (Nat × Fn) → Option World
  | [] => some w
  | (i, f) :: rest =>
    match ask u size w i f with
    | none => none
    | some w => askAll u size w rest

/-- The values that the solver gives to its functions. -/
structure Interp where
  pred : String → Int → Bool
  fn : String → Int → Int

/-- What the constraint says of the values. -/
def Interp.Sat (i : Interp) : Constraint → Prop
  | .mask name m => ∀ c : Int, i.pred name c = Mask.smtMatches m c
  | .points name eqs => ∀ p ∈ eqs, i.fn name p.1 = p.2

/-- A text: code points. -/
abbrev Str := List Int

/-- The value of the mask function. -/
def Interp.test (i : Interp) (f : Fn) (c : Int) : Bool := i.pred ("is_" ++ f.name) c
/-- The value of the transforming function. -/
def Interp.app (i : Interp) (f : Fn) (c : Int) : Int := i.fn f.name c

/-- builtinslib.py:3396-3410 and 3829-3843: `casefold` and `upper` of a single character. -/
def mapOne (i : Interp) (m : Mapping) (c : Int) : Str :=
  if !i.test (.exists1 m) c then [c]
  else
    let a := i.app (.first m) c
    if !i.test (.exists2 m) c then [a]
    else
      let b := i.app (.second m) c
      if !i.test (.exists3 m) c then [a, b]
      else [a, b, i.app (.third m) c]

/-- builtinslib.py:3390-3410 `casefold`. -/
def casefold (i : Interp) (s : Str) : Str :=
  if s.length ≠ 1 then s.flatMap (mapOne i .casefold) else mapOne i .casefold (s.getD 0 0)

/-- builtinslib.py:3823-3843 `upper`. -/
def upper (i : Interp) (s : Str) : Str :=
  if s.length ≠ 1 then s.flatMap (mapOne i .toupper) else mapOne i .toupper (s.getD 0 0)

/-- builtinslib.py:3578-3589: `lower` of a single character. -/
def lowerOne (i : Interp) (c : Int) : Str :=
  if !i.test (.exists1 .tolower) c then [c]
  else
    let a := i.app (.first .tolower) c
    if !i.test (.exists2 .tolower) c then [a]
    else [a, i.app (.second .tolower) c]

/-- builtinslib.py:3574-3589 `lower`. -/
def lower (i : Interp) (s : Str) : Str :=
  if s.length ≠ 1 then s.flatMap (lowerOne i) else lowerOne i (s.getD 0 0)

/-- builtinslib.py:3741-3761 `swapcase`. -/
def swapcase (i : Interp) (s : Str) : Str :=
  s.foldl (fun ret c => ret ++ if i.test .lower c then upper i [c] else if i.test .upper c then lower i [c] else [c]) []

/-- builtinslib.py:3763-3774 `_title_one_char`. -/
def titleOneChar (i : Interp) (c : Int) : Str :=
  let a := i.app (.first .totitle) c
  if !i.test (.exists2 .totitle) c then [a]
  else
    let b := i.app (.second .totitle) c
    if !i.test (.exists3 .totitle) c then [a, b]
    else [a, b, i.app (.third .totitle) c]

/-- builtinslib.py:3785-3805: the loop of `title`. -/
def titleLoop (i : Interp) : Bool → Str → Str → Str
  | _, ret, [] => ret
  | doUpper, ret, c :: s =>
    if !(i.test .title c || i.test .lower c) then titleLoop i true (ret ++ [c]) s
    else if !doUpper then titleLoop i doUpper (ret ++ lower i [c]) s
    else if i.test (.exists1 .totitle) c then titleLoop i false (ret ++ titleOneChar i c) s
    else titleLoop i false (ret ++ [c]) s

/-- builtinslib.py:3776-3805 `title`. -/
def title (i : Interp) (s : Str) : Str := titleLoop i true [] s

/-- builtinslib.py:3381-3388 `capitalize`, for Python 3.8 or later. -/
def capitalize (i : Interp) (s : Str) : Str :=
  if s.length = 0 then [] else title i [s.getD 0 0] ++ lower i (s.drop 1)

/-- What looking up a character in a table for `translate` gives. -/
inductive Lookup where
  | int (n : Int)
  | str (s : Str)
  | none
  /-- Any other object. -/
  | other
  | keyError
  | indexError
  /-- Another `LookupError`. -/
  | lookupError
  /-- Another exception. -/
  | failure
deriving DecidableEq

inductive Error where
  | typeError
  | valueError
  | lookupError
  | failure
deriving DecidableEq

/-- builtinslib.py:4841-4847 `_chr`. -/
def chr (n : Int) : Except Error Str := if n < 0 ∨ n > 0x10FFFF then .error .valueError else .ok [n]

/-- builtinslib.py:3807-3821 `translate`. -/
def translate (table : Int → Lookup) : Str → List Str → Except Error Str
  | [], parts => .ok parts.flatten
  | c :: s, parts =>
    match table c with
    | .keyError | .indexError => translate table s (parts ++ [[c]])
    | .lookupError => .error .lookupError
    | .failure => .error .failure
    | .int n =>
      match chr n with
      | .ok t => translate table s (parts ++ [t])
      | .error e => .error e
    | .str t => translate table s (parts ++ [t])
    | .none => translate table s parts
    | .other => .error .typeError

/-- unicodedatalib.py:11-21 and 24-34 `_decimal` and `_digit` of a symbolic string; `none` is the missing argument of
`ord` being a single character (`TypeError`). -/
def numberOf (i : Interp) (ex val : Fn) (s : Str) : Except Error Int :=
  match s with
  | [c] => if !i.test ex c then .error .valueError else .ok (i.app val c)
  | _ => .error .typeError

@[inherit_doc numberOf] def decimalOf (i : Interp) (s : Str) : Except Error Int := numberOf i .decimalExists .decimalInt s
@[inherit_doc numberOf] def digitOf (i : Interp) (s : Str) : Except Error Int := numberOf i .digitExists .digitInt s

/-- unicodedatalib.py:37-48 `_numeric` of a symbolic string: numerator and denominator of the quotient that is
returned. -/
def numericOf (i : Interp) (s : Str) : Except Error (Int × Int) :=
  match s with
  | [c] => if !i.test .numericExists c then .error .valueError else .ok (i.app .numerator c, i.app .denominator c)
  | _ => .error .typeError

end Verif.CaseMaps
