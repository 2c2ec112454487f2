/-! Finding what the user names: crosshair/fnutil.py, crosshair/util.py, crosshair/main.py.

Parts of names are strings; objects (modules, classes, functions, others) are numbers. -/
namespace Verif.Names

/-- What `importlib.util.find_spec` does (which imports the parent packages). -/
inductive Find where
  | found
  /-- None or `ModuleNotFoundError` -/
  | absent
  /-- another exception -/
  | raises
deriving DecidableEq

/-- Modules and objects.  Simplification: importing a module does not change what there is. -/
structure World where
  find : List String → Find
  /-- `import_module`; `none`: an exception -/
  load : List String → Option Nat
  /-- `getattr`; `none`: `hasattr` is false -/
  attr : Nat → String → Option Nat
  /-- `obj.__dict__`; `none`: there is no such attribute -/
  dict : Nat → Option (String → Option Nat)
  isClass : Nat → Bool
  isModule : Nat → Bool

inductive Found where
  | module (m : Nat)
  | cls (c : Nat)
  /-- `FunctionInfo(context, name, descriptor)` -/
  | function (context : Nat) (name : String) (descriptor : Nat)
deriving DecidableEq

inductive Res where
  | ok (x : Found)
  /-- `ErrorDuringImport` -/
  | importError
  /-- `NotFound` -/
  | notFound
  /-- `ValueError`, for "<locals>" -/
  | valueError
  /-- `AttributeError`: no `__dict__` -/
  | attributeError
  | assertionError
deriving DecidableEq

/-- fnutil.py:226-235: the last part of a name. -/
def walkLast (w : World) (obj : Nat) (p : String) : Res :=
  match w.dict obj with
  | none => .attributeError
  | some d =>
    match d p with
    | none => .notFound
    | some t =>
      if w.isClass obj || w.isModule obj then
        if w.isClass t then .ok (.cls t) else .ok (.function obj p t)
      else .assertionError

/-- fnutil.py:204-235 `walk_qualname`, for a list of parts that is not empty. -/
def walk (w : World) (obj : Nat) : List String → Res
  | [] => .notFound
  | [p] => walkLast w obj p
  | p :: q :: rest =>
    if p = "<locals>" then .valueError
    else
      match w.attr obj p with
      | none => .notFound
      | some o => walk w o (q :: rest)

/-- fnutil.py:258-277: the loop over prefixes, of length `i` and shorter. -/
def tryPrefixes (w : World) (parts : List String) : Nat → Res
  | 0 => .assertionError
  | i + 1 =>
    match w.find (parts.take (i + 1)) with
    | .raises => .importError
    | .absent => if i = 0 then .importError else tryPrefixes w parts i
    | .found =>
      match w.load (parts.take (i + 1)) with
      | none => .importError
      | some m => if parts.drop (i + 1) = [] then .ok (.module m) else walk w m (parts.drop (i + 1))

/-- fnutil.py:238-278 `load_by_qualname`. -/
def loadByQualname (w : World) (parts : List String) : Res := tryPrefixes w parts parts.length

inductive Exit where
  | objects (xs : List Found)
  /-- a message, and exit code 2 -/
  | code2
  /-- an exception that nobody catches -/
  | traceback
deriving DecidableEq

/-- main.py:659-672 `checked_load`, with fnutil.py:357-377 `load_files_or_qualnames`, for names. -/
def checkedLoad (w : World) : List (List String) → Exit
  | [] => .objects []
  | n :: ns =>
    match loadByQualname w n with
    | .ok x =>
      match checkedLoad w ns with
      | .objects xs => .objects (x :: xs)
      | e => e
    | .importError => .code2
    | _ => .traceback

/-! ## Lines -/

/-- A member of a module or class, in the order of `getmembers`, which sorts them by name. -/
inductive Member where
  /-- a function; `here`: its module is the one looked at; `own`: it is in the `__dict__` of the class or module;
  first line and number of lines -/
  | fn (id : Nat) (here own : Bool) (start len : Nat)
  | cls (here : Bool) (members : List Member)
  | other

inductive Line where
  | ok (id : Nat)
  | none
  | keyError
deriving DecidableEq

/-- fnutil.py:281-287 `_contains_line`, for functions of the same file. -/
def containsLine (start len line : Nat) : Bool := start ≤ line && line ≤ start + len

/-- fnutil.py:290-307 `load_function_at_line`. -/
def atLine (line : Nat) : List Member → Line
  | [] => .none
  | .fn id here own start len :: ms =>
    if here && containsLine start len line then (if own then .ok id else .keyError)
    else atLine line ms
  | .cls here members :: ms =>
    if here then
      match atLine line members with
      | .none => atLine line ms
      | r => r
    else atLine line ms
  | .other :: ms => atLine line ms

/-! ## Paths -/

/-- A file or directory. -/
inductive Tree where
  | file
  | dir (entries : List (String × Tree))

/-- fnutil.py:310-335 `analyzable_filename`; `lead`: the character can begin a name. -/
def analyzable (lead : Char → Bool) (name : List Char) : Bool :=
  ['.', 'p', 'y'].isSuffixOf name &&
    match name with
    | [] => false
    | c :: _ => lead c && name != ['s', 'e', 't', 'u', 'p', '.', 'p', 'y']

/-- The files of a directory that can be analyzed. -/
def files (lead : Char → Bool) (path : List String) : List (String × Tree) → List (List String)
  | [] => []
  | (n, .file) :: es => (if analyzable lead n.toList then [path ++ [n]] else []) ++ files lead path es
  | (_, .dir _) :: es => files lead path es

mutual
/-- fnutil.py:345-349 with `os.walk`: a directory (its path is `path`) and everything below it. -/
def walkDir (lead : Char → Bool) (path : List String) : Tree → List (List String)
  | .file => []
  | .dir es => files lead path es ++ subdirs lead path es
def subdirs (lead : Char → Bool) (path : List String) : List (String × Tree) → List (List String)
  | [] => []
  | (n, t) :: es => walkDir lead (path ++ [n]) t ++ subdirs lead path es
end

/-- fnutil.py:338-351 `walk_paths`; second component false: `FileNotFoundError`, after the paths in front of it. -/
def walkPaths (lead : Char → Bool) (ignoreMissing : Bool) (look : List String → Option Tree) : List (List String) → List (List String) × Bool
  | [] => ([], true)
  | p :: ps =>
    match look p with
    | none => if ignoreMissing then walkPaths lead ignoreMissing look ps else ([], false)
    | some (.dir es) => let r := walkPaths lead ignoreMissing look ps; (walkDir lead p (.dir es) ++ r.1, r.2)
    | some .file => let r := walkPaths lead ignoreMissing look ps; (p :: r.1, r.2)

/-- util.py:594-596: going up from a directory (given from its end, `[]` is the root) while there is an
`__init__.py`; the directory that is left, and the names passed.  `none`: it does not end. -/
def goUp (isPackage : List String → Bool) : List String → Option (List String × List String)
  | [] => if isPackage [] then none else some ([], [])
  | d :: path =>
    if isPackage (d :: path) then
      match goUp isPackage path with
      | none => none
      | some (root, dirs) => some (root, dirs ++ [d])
    else some (d :: path, [])

/-- util.py:588-599 `extract_module_from_file`: the directory to import from, and the parts of the module name. -/
def extractModule (isPackage : List String → Bool) (path : List String) (name : String) : Option (List String × List String) :=
  match goUp isPackage path with
  | none => none
  | some (root, dirs) => some (root, dirs ++ (if name = "__init__" then [] else [name]))

end Verif.Names
