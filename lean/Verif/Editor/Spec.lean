/-
What a user of the language server relies on: what is marked in a file is what has been found in the file as it is.
-/
namespace Verif.Editor

/-- The states of messages, from harmless to bad. -/
inductive Kind where
  | confirmed | cannotConfirm | preUnsat | postErr | execErr | postFail | syntaxErr | importErr
deriving DecidableEq, Repr

/-- The order of the states. -/
def Kind.rank : Kind → Nat
  | .confirmed => 0
  | .cannotConfirm => 1
  | .preUnsat => 2
  | .postErr => 3
  | .execErr => 4
  | .postFail => 5
  | .syntaxErr => 6
  | .importErr => 7

/-- A message of the analysis. `uri` is the file, nothing if the file name is not absolute (as `<string>`). -/
structure Msg where
  uri : Option Nat
  line : Int
  column : Nat
  kind : Kind
  text : Nat
deriving DecidableEq, Repr

/-- What happens: in the editor, and in the thread that analyses. -/
inductive Ev where
  /-- the text is changed, and not saved -/
  | change (uri : Nat)
  | close (uri : Nat)
  | opened (uri : Nat)
  | save (uri : Nat)
  /-- the analysis finds something -/
  | found (m : Msg)
  /-- a pass has ended, and its messages are to be sent to the editor -/
  | publish
  /-- the files on disk have changed; the analysis starts again -/
  | restart
  /-- the thread that analyses goes on with what it is doing: one step -/
  | tick
deriving DecidableEq, Repr

/-- It happens in the editor. -/
def Ev.editor : Ev → Bool
  | .change _ | .close _ | .opened _ | .save _ => true
  | _ => false

/-- It concerns the file. -/
def Ev.about (uri : Nat) : Ev → Bool
  | .change u | .close u | .opened u | .save u => u == uri
  | _ => false

/-- The text of the file is not what is on disk, or the file is closed (events: the last one first). -/
def Unsaved (uri : Nat) : List Ev → Prop
  | [] => False
  | .change u :: before | .close u :: before => u = uri ∨ Unsaved uri before
  | .opened u :: before | .save u :: before => u ≠ uri ∧ Unsaved uri before
  | _ :: before => Unsaved uri before

/-- What has been found in the file since the analysis started (or the file was opened or saved), the first one first. -/
def foundSince (uri : Nat) : List Ev → List Msg
  | [] => []
  | .found m :: before => foundSince uri before ++ if m.uri = some uri then [m] else []
  | .restart :: _ => []
  | .change u :: before | .close u :: before | .opened u :: before | .save u :: before => if u = uri then [] else foundSince uri before
  | _ :: before => foundSince uri before

/-- `m` is the first one of the worst on its line. -/
def FirstWorst (l : List Msg) (m : Msg) : Prop :=
  ∃ a b, l = a ++ m :: b ∧ (∀ x ∈ a, x.line = m.line → x.kind.rank < m.kind.rank) ∧ (∀ x ∈ b, x.line = m.line → x.kind.rank ≤ m.kind.rank)

/-- What should be marked: on each line the first one of the worst messages, unless it is harmless. -/
structure Marks (found shown : List Msg) : Prop where
  exact : ∀ m, m ∈ shown ↔ FirstWorst found m ∧ 2 ≤ m.kind.rank
  once : (shown.map Msg.line).Nodup

/-! ### Positions -/

/-- How many units of UTF-16 a text has: the protocol counts columns in them. -/
def units : List Nat → Nat
  | [] => 0
  | c :: cs => (if c < 65536 then 1 else 2) + units cs

/-- From `a` to `b` is the text of the line without the spaces around it. -/
def Covers (space : Nat → Bool) (line : List Nat) (a b : Nat) : Prop :=
  ∃ before mid after, line = before ++ mid ++ after ∧ before.all space = true ∧ after.all space = true ∧
    (∀ c, mid.head? = some c → space c = false) ∧ (∀ c, mid.getLast? = some c → space c = false) ∧
    a = units before ∧ b = units (before ++ mid)

end Verif.Editor
