import Verif.Editor.Spec
import Verif.Watch.Model
/-
Model of the language server (/repo/crosshair/lsp_server.py): the handlers of the editor's notifications, and the thread that analyses,
as they interleave. A handler is one step; the loops of the other thread take many steps, and handlers may come between them. A message
is recorded in one step. Left out: the logging, and how the files are analysed (found messages and restarts are events).
-/
namespace Verif.Editor

open Verif.Watch (put remove)

/-- The messages of a file, by line. -/
abbrev Found := List (Int × Msg)

/-- What the thread that analyses is doing: it analyses; it publishes (with the rest of the copied items, 86-101); it is about to forget
a file (102); it starts again (with the rest of the copied items, 148-149); it has ended with an exception. -/
inductive Phase where
  | analyzing
  | publishing (todo : List (Nat × Option Found))
  | forgetting (uri : Nat) (todo : List (Nat × Option Found))
  | resetting (todo : List (Nat × Option Found))
  | dead
deriving DecidableEq, Repr

/-- `active_messages`, what the editor shows, and what the thread is doing. -/
structure State where
  active : List (Nat × Option Found)
  shown : Nat → List Msg
  phase : Phase

/-- The start (104-111): nothing is shown. -/
def State.start : State := ⟨[], fun _ => [], .analyzing⟩

/-- `publish_diagnostics`. -/
def State.send (st : State) (uri : Nat) (ms : List Msg) : State := { st with shown := fun u => if u = uri then ms else st.shown u }

/-- Recording a message (159-165). -/
def record (fs : Found) (m : Msg) : Found :=
  match fs.lookup m.line with
  | none => put fs m.line m
  | some old => if old.kind.rank < m.kind.rank then put fs m.line m else fs

/-- The messages that are shown (92-97). -/
def toShow (fs : Found) : List Msg := (fs.map (·.2)).filter fun m => !decide (m.kind.rank < Kind.preUnsat.rank)

/-- A message is found (159-165). `active_messages` is a `defaultdict`; `as_uri` fails for file names that are not absolute. -/
def State.record (st : State) (m : Msg) : State :=
  match m.uri with
  | none => { st with phase := .dead }
  | some uri =>
    match st.active.lookup uri with
    | some none => st
    | some (some fs) => { st with active := put st.active uri (some (Editor.record fs m)) }
    | none => { st with active := put st.active uri (some (Editor.record [] m)) }

/-- One step of the thread that analyses. -/
def State.tick (st : State) : State :=
  match st.phase with
  | .publishing [] => { st with phase := .analyzing }
  | .publishing ((_, none) :: todo) => { st with phase := .publishing todo }
  | .publishing ((uri, some fs) :: todo) =>
    let st := st.send uri (toShow fs)
    if (toShow fs).isEmpty then { st with phase := .forgetting uri todo } else { st with phase := .publishing todo }
  | .forgetting uri todo => { st with active := remove st.active uri, phase := .publishing todo }
  | .resetting [] => { st with phase := .analyzing }
  | .resetting ((uri, none) :: todo) => { st with active := put st.active uri none, phase := .resetting todo }
  | .resetting ((uri, some _) :: todo) => { st with active := put st.active uri (some []), phase := .resetting todo }
  | .analyzing => st
  | .dead => st

/-- One event. Events of the thread happen only when it analyses. -/
def step (st : State) : Ev → State
  | .change uri => { st with active := put st.active uri none }.send uri []
  | .close uri => { st with active := put st.active uri none }.send uri []
  | .opened uri => { st with active := put st.active uri (some []) }
  | .save uri => { st with active := put st.active uri (some []) }.send uri []
  | .found m => if st.phase = .analyzing then st.record m else st
  | .publish => if st.phase = .analyzing then { st with phase := .publishing st.active } else st
  | .restart => if st.phase = .analyzing then { st with phase := .resetting st.active } else st
  | .tick => st.tick

/-- Many events. -/
def run (st : State) (evs : List Ev) : State := evs.foldl step st

/-! ### Positions -/

/-- The severity of a mark (67-72). -/
inductive Severity where
  | information | warning | error
deriving DecidableEq, Repr

/-- A mark: line, columns, severity. -/
structure Mark where
  line : Int
  start : Nat
  stop : Nat
  severity : Severity
deriving DecidableEq, Repr

/-- The span of group 1 of `^\s*(.*?)\s*$` (64-66); nothing if the text has a line break inside, which `.` does not match. -/
def strip (space : Nat → Bool) (line : List Nat) : Option (Nat × Nat) :=
  let lead := (line.takeWhile space).length
  let rest := line.drop lead
  let mid := (rest.reverse.dropWhile space).reverse
  if mid.contains 10 then none else some (lead, lead + mid.length)

/-- `doclines[line]` for a line less than the length: negative numbers count from the end. -/
def lineAt (lines : List (List Nat)) (line : Int) : Option (List Nat) :=
  if line < 0 then lines[(line + lines.length).toNat]? else lines[line.toNat]?

/-- `get_diagnostic` (58-82). -/
def getDiagnostic (space : Nat → Bool) (m : Msg) (lines : List (List Nat)) : Mark :=
  let line := m.line - 1
  let (start, stop) :=
    if m.column = 0 then
      if line < lines.length then
        match (lineAt lines line).bind (strip space) with
        | some span => span
        | none => (m.column, m.column)
      else (m.column, m.column)
    else (m.column, m.column)
  let severity :=
    if m.kind.rank < Kind.preUnsat.rank then .information
    else if m.kind = .preUnsat then .warning
    else .error
  ⟨line, start, stop, severity⟩

end Verif.Editor
