/-
Options and directive comments, stated without reference to CrossHair's code.
-/
namespace Verif.Opts

/-- The fields of an option set. -/
inductive Field where
  | analysisKind | enabled | specsComplete | perConditionTimeout | perPathTimeout | maxIterations | reportAll
  | reportVerbose | unblock | timeout | maxUninteresting | stats
deriving DecidableEq, Repr

/-- The last of several settings of a field that is present. -/
def lastSet {V : Type} : List (Option V) → Option V
  | [] => none
  | x :: rest => match lastSet rest with
    | some v => some v
    | none => x

/-- One setting in a directive: a key with a value text, or the words `on` and `off`. -/
inductive Setting where
  | pair (key value : List Char)
  | on
  | off
deriving DecidableEq, Repr

/-- A word: characters other than whitespace and "=", at least one. -/
def IsWord (sp : Char → Bool) (w : List Char) : Prop := w ≠ [] ∧ ∀ c ∈ w, sp c = false ∧ c ≠ '='

/-- A setting as written, with optional whitespace around "=".  `on` and `off` are written as such. -/
inductive Written (sp : Char → Bool) : Setting → List Char → Prop where
  | pair {k v s1 s2 : List Char} : IsWord sp k → IsWord sp v → (∀ c ∈ s1, sp c = true) → (∀ c ∈ s2, sp c = true) →
      Written sp (.pair k v) (k ++ s1 ++ '=' :: (s2 ++ v))
  | on : Written sp .on "on".toList
  | off : Written sp .off "off".toList

/-- The text of a directive: settings separated by whitespace. -/
inductive Directive (sp : Char → Bool) : List Setting → List Char → Prop where
  | nil {s : List Char} : (∀ c ∈ s, sp c = true) → Directive sp [] s
  | last {x : Setting} {s t : List Char} : (∀ c ∈ s, sp c = true) → Written sp x t → Directive sp [x] (s ++ t)
  | cons {x : Setting} {xs : List Setting} {s t gap rest : List Char} : (∀ c ∈ s, sp c = true) → Written sp x t →
      gap ≠ [] → (∀ c ∈ gap, sp c = true) → Directive sp xs rest → Directive sp (x :: xs) (s ++ t ++ gap ++ rest)

/-- What a setting says. -/
def Setting.keyValue : Setting → List Char × List Char
  | .pair k v => (k, v)
  | .on => ("enabled".toList, "yes".toList)
  | .off => ("enabled".toList, "no".toList)

/-- The fields that directives may set, by name. -/
def directiveFields : List (List Char × Field) :=
  [("enabled".toList, .enabled), ("analysis_kind".toList, .analysisKind), ("specs_complete".toList, .specsComplete),
   ("max_iterations".toList, .maxIterations), ("per_condition_timeout".toList, .perConditionTimeout),
   ("per_path_timeout".toList, .perPathTimeout), ("max_uninteresting_iterations".toList, .maxUninteresting)]

/-- The kinds of analysis. -/
inductive Kind where
  | asserts | pep316 | icontract | deal
deriving DecidableEq, Repr

/-- Their names. -/
def kindNames : List (List Char × Kind) :=
  [("asserts".toList, .asserts), ("PEP316".toList, .pep316), ("icontract".toList, .icontract), ("deal".toList, .deal)]

/-- Texts joined with commas. -/
def joinComma : List (List Char) → List Char
  | [] => []
  | [p] => p
  | p :: ps => p ++ ',' :: joinComma ps

/-- What directives may be attached to: a package (its path), a module in a package (`[]` for none), or anything with a
`__module__` (functions, classes). -/
inductive Thing where
  | package (path : List String)
  | module (pkg : List String) (name : String)
  | member (pkg : List String) (moduleName qualname : String)
deriving DecidableEq, Repr


/-- The scopes a thing is in, outermost first, and the thing itself: the packages around it, its module, itself. -/
def scopes : Thing → List Thing
  | .package path => (List.range path.length).map fun i => .package (path.take (i + 1))
  | .module pkg name => ((List.range pkg.length).map fun i => .package (pkg.take (i + 1))) ++ [.module pkg name]
  | .member pkg m q =>
    ((List.range pkg.length).map fun i => .package (pkg.take (i + 1))) ++ [.module pkg m, .member pkg m q]

end Verif.Opts
