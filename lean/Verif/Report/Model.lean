import Verif.Report.Spec
/-
Model of messages: their order (/repo/crosshair/statespace.py), their collection (/repo/crosshair/core.py), and what the
commands print and return (/repo/crosshair/main.py).
-/
namespace Verif.Report

/-- `MessageType._order` (statespace.py 87-101). -/
def State.order : State → Nat
  | .confirmed => 0
  | .cannotConfirm => 1
  | .preUnsat => 2
  | .postErr => 3
  | .execErr => 4
  | .postFail => 5
  | .syntaxErr => 6
  | .importErr => 7

/-- `MessageType.__lt__` (statespace.py 83-84). -/
def State.lt (a b : State) : Bool := decide (a.order < b.order)

/-- `<=` as `functools.total_ordering` derives it: less or equal. -/
def State.le (a b : State) : Bool := State.lt a b || decide (a = b)

/-- Whether `message_sort_key(a) < message_sort_key(b)` (core.py 817-818): tuples are compared entry by entry, `False`
before `True`. `unable` tells whether a text contains `UNABLE_TO_REPR_TEXT`. -/
def keyLt {F : Type} (unable : List Char → Bool) (a b : Msg F) : Bool :=
  if a.state ≠ b.state then State.lt a.state b.state
  else if (!unable a.text) ≠ (!unable b.text) then unable a.text
  else decide (-(a.text.length : Int) < -(b.text.length : Int))

/-- Python's `max(a, b, key=message_sort_key)`: the first unless the second is greater. -/
def maxMsg {F : Type} (unable : List Char → Bool) (a b : Msg F) : Msg F := if keyLt unable a b then b else a

/-- `MessageCollector.append` (core.py 829-834), on the dictionary as a list in insertion order. -/
def append {F : Type} [DecidableEq F] (unable : List Char → Bool) :
    List (Place F × Msg F) → Msg F → List (Place F × Msg F)
  | [], m => [(m.place, m)]
  | (k, old) :: rest, m =>
    if k = m.place then (k, maxMsg unable old m) :: rest
    else (k, old) :: append unable rest m

/-- The order of places: as tuples. -/
def placeLe {F : Type} [DecidableEq F] (le : F → F → Bool) (a b : Place F) : Bool :=
  if a.1 ≠ b.1 then le a.1 b.1
  else if a.2.1 ≠ b.2.1 then decide (a.2.1 ≤ b.2.1)
  else decide (a.2.2 ≤ b.2.2)

/-- Insertion into a sorted list, after equal elements. -/
def insertSorted {α : Type} (le : α → α → Bool) (x : α) : List α → List α
  | [] => [x]
  | y :: ys => if le y x then y :: insertSorted le x ys else x :: y :: ys

/-- Python's `sorted`: stable. -/
def sorted {α : Type} (le : α → α → Bool) (l : List α) : List α := l.foldl (fun acc x => insertSorted le x acc) []

/-- `MessageCollector.extend` and `get` (core.py 825-837).  Places are different, so the messages are never compared. -/
def collect {F : Type} [DecidableEq F] (unable : List Char → Bool) (le : F → F → Bool) (msgs : List (Msg F)) : List (Msg F) :=
  (sorted (fun a b => placeLe le a.1 b.1) (msgs.foldl (append unable) [])).map Prod.snd

/-- The results of analysing a condition. -/
inductive Verdict where
  | confirmed | unknown | refuted
deriving DecidableEq, Repr

/-- `ConditionCheckable.analyze` (core.py 846-890), after `analyze_calltree`; the condition is at `file`, `line`. -/
def conditionMessages {F : Type} (file : F) (line : Nat) (v : Verdict) (msgs : List (Msg F)) : List (Msg F) :=
  match v with
  | .unknown => [⟨.cannotConfirm, "Not confirmed.".toList, file, line, 0⟩]
  | .confirmed => [⟨.confirmed, "Confirmed over all paths.".toList, file, line, 0⟩]
  | .refuted => msgs

/-- `ClampedCheckable.analyze` (core.py 909-920); `same` is `samefile`. -/
def clamp {F : Type} (same : F → F → Bool) (clsFile : F) (clsLine : Nat) (msgs : List (Msg F)) : List (Msg F) :=
  msgs.map fun m => if same m.file clsFile then m else { m with file := clsFile, line := clsLine }

/-- `run_checkables` (core.py 931-935). -/
def runCheckables {F : Type} [DecidableEq F] (unable : List Char → Bool) (le : F → F → Bool) (checkables : List (List (Msg F))) :
    List (Msg F) :=
  collect unable le checkables.flatten

/-- What is printed for a message: its level in the short form, or its introduction in the long form. -/
inductive Printed (F : Type) where
  | short (isError : Bool) (m : Msg F)
  | long (m : Msg F)
deriving DecidableEq

/-- `short_describe_message` (main.py 627-637). -/
def shortDescribe {F : Type} (reportAll : Bool) (m : Msg F) : Option (Printed F) :=
  if State.le m.state .preUnsat then
    if reportAll then some (.short false m) else none
  else some (.short true m)

/-- `long_describe_message` (main.py 593-624): whether anything is printed. -/
def longDescribe {F : Type} (reportAll : Bool) (m : Msg F) : Option (Printed F) :=
  if !reportAll && State.le m.state .preUnsat then none
  else some (.long m)

/-- `describe_message` (main.py 584-590). -/
def describe {F : Type} (verbose reportAll : Bool) (m : Msg F) : Option (Printed F) :=
  if verbose then longDescribe reportAll m else shortDescribe reportAll m

/-- The loop at the end of `check` (main.py 857-865): the lines printed and whether there were problems. -/
def checkLoop {F : Type} (verbose reportAll : Bool) : List (Msg F) → List (Printed F) × Bool
  | [] => ([], false)
  | m :: rest =>
    let (lines, any) := checkLoop verbose reportAll rest
    match describe verbose reportAll m with
    | none => (lines, any)
    | some line => (line :: lines, any || State.lt .preUnsat m.state)

/-- `check` (main.py 839-866): the lines printed and the exit status.  `none` for targets that could not be loaded (`checked_load`,
main.py 661-672). -/
def check {F : Type} [DecidableEq F] (unable : List Char → Bool) (le : F → F → Bool) (verbose reportAll : Bool)
    (targets : Option (List (List (Msg F)))) : List (Printed F) × Nat :=
  match targets with
  | none => ([], 2)
  | some checkables =>
    let (lines, any) := checkLoop verbose reportAll (runCheckables unable le checkables)
    (lines, if any then 1 else 0)

/-- `messages_merged` (main.py 506-516): the dictionary by file and line, and whether anything changed. -/
def merge {F : Type} [DecidableEq F] : List ((F × Nat) × Msg F) → List (Msg F) → List ((F × Nat) × Msg F) × Bool
  | d, [] => (d, false)
  | d, m :: rest =>
    if (d.any fun e => decide (e.1 = (m.file, m.line))) then merge d rest
    else ((merge (d ++ [((m.file, m.line), m)]) rest).1, true)

/-- The batches of messages in the watch loop between restarts (main.py 435-438): problems are merged. -/
def watchBatches {F : Type} [DecidableEq F] (batches : List (List (Msg F))) : List ((F × Nat) × Msg F) :=
  batches.foldl (fun d b => (merge d (b.filter fun m => State.lt .preUnsat m.state)).1) []

/-- The iteration limit in the watch loop (main.py 426-434): `k` passes after a restart. -/
def watchLimit (initial : Nat) : Nat → Nat
  | 0 => initial
  | k + 1 => min (watchLimit initial k * 2) 100000000

/-- `diffbehavior` (main.py 675-714): the number of differences reported and the exit status.  The functions may fail to load;
the comparison may fail with an explanation. -/
def diffExit (load1 load2 : Bool) (diffs : Option Nat) : Nat × Nat :=
  if load1 = false ∨ load2 = false then (0, 2)
  else match diffs with
    | none => (0, 2)
    | some 0 => (0, 0)
    | some n => (n, 1)

/-- `search` (main.py 790-828): the examples printed and the exit status. `formatter` is `none` if no formatter was asked
for, and otherwise whether it could be loaded. -/
def searchExit {E : Type} (load : Bool) (formatter : Option Bool) (all : Bool) (examples : List E) : List E × Nat :=
  if load = false then ([], 2)
  else if formatter = some false then ([], 2)
  else
    let printed := if all then examples else []
    let final := examples.foldl (fun _ e => some e) none
    match final with
    | none => (printed, 1)
    | some e => (if all then printed else printed ++ [e], 0)

end Verif.Report
