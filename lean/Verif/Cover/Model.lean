/-
Model of the output of tests in /repo/crosshair/path_cover.py (171-209), and of `cover` in /repo/crosshair/main.py (717-787).
-/
import Verif.Cover.Spec

namespace Verif.Cover

/-! ### The tests of a function -/

/-- The references as a set: adding one. -/
def addTo {α : Type} [DecidableEq α] (x : α) (l : List α) : List α := if x ∈ l then l else l ++ [x]

/-- `import_statements_for_references` (171-181). -/
def importsFor : List Ref → List Import
  | [] => []
  | r :: rs =>
    if r.mod = builtinsName then importsFor rs
    else if '.' ∈ r.qual then addTo (.fromMod r.mod (r.qual.takeWhile (· ≠ '.'))) (importsFor rs)
    else addTo (.fromMod r.mod r.qual) (importsFor rs)

/-- `fn_name.replace(".", "_")` (192). -/
def underscored (q : Str) : Str := q.map fun c => if c = '.' then '_' else c

/-- `test_name_suffix` (194). -/
def suffix (idx : Nat) : Str := if idx = 0 then [] else '_' :: decimal (idx + 1)

/-- The name of a test (196), without `test_`. -/
def testName (fn : Ref) (idx : Nat) : Str := underscored fn.qual ++ suffix idx

/-- One turn of the loop (193-206). -/
def testOf (fn : Ref) (idx : Nat) (p : Path) : Test :=
  ⟨testName fn idx, match p.exc with
    | none => .equal fn.qual p.args p.result
    | some e => match e.pattern with
      | some m => .raisesMatch e.name m fn.qual p.args
      | none => .raises e.name fn.qual p.args⟩

def testsFrom (fn : Ref) : Nat → List Path → List Test
  | _, [] => []
  | idx, p :: ps => testOf fn idx p :: testsFrom fn (idx + 1) ps

/-- `output_pytest_paths` (184-209): imports and tests. -/
def outputPytest (f : Fn) : List Import × List Test :=
  let refs := f.paths.foldl (fun acc p => p.refs.foldl (fun a r => addTo r a) acc) [f.ref]
  let imports := f.paths.foldl (fun acc p => if p.exc.isSome then addTo .pytest acc else acc) []
  ((importsFor refs).foldl (fun a i => addTo i a) imports, testsFrom f.ref 0 f.paths)

/-! ### `cover` -/

/-- The loop over the stack of entities (723-738): an entity is taken from the end; members of a module go to the end. -/
def collect {F : Type} : Nat → List (Entity F) → List F → Option (List F)
  | 0, _, _ => none
  | fuel + 1, stack, acc =>
    match stack.reverse with
    | [] => some acc
    | e :: rest =>
      match e with
      | .mod ms => collect fuel (rest.reverse ++ ms.map .member) acc
      | .member (.fn f) => collect fuel rest.reverse (acc ++ [f])
      | .member (.cls ms) => collect fuel rest.reverse (acc ++ ms)

/-- What examining a function comes to. -/
inductive Examined where
  /-- `get_callable` gives nothing. -/
  | notCallable
  | notDeterministic
  | paths (f : Fn)

/-- The loop over the functions (745-781) for the format `PYTEST`; `none` for the exit code 2. -/
def coverLoop : List Examined → List Import → List Test → Option (List Import × List Test)
  | [], imports, tests => some (imports, tests)
  | .notCallable :: xs, imports, tests => coverLoop xs imports tests
  | .notDeterministic :: _, _, _ => none
  | .paths f :: xs, imports, tests =>
    let (is, ts) := outputPytest f
    coverLoop xs (is.foldl (fun a i => addTo i a) imports) (tests ++ ts)

/-- `cover` (717-787) for the format `PYTEST`: the exit code and what is written. The order of the import statements is left out. -/
def cover (fns : List Examined) : Int × Option (List Import × List Test) :=
  match fns with
  | [] => (2, none)
  | _ => match coverLoop fns [] [] with
    | none => (2, none)
    | some out => (0, some out)

end Verif.Cover
