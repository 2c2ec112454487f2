/-
Messages and exit statuses, stated without reference to CrossHair's code.
-/
namespace Verif.Report

/-- The kinds of message, from harmless to severe. -/
inductive State where
  | confirmed | cannotConfirm | preUnsat | postErr | execErr | postFail | syntaxErr | importErr
deriving DecidableEq, Repr

/-- A message about a place in a source file. -/
structure Msg (F : Type) where
  state : State
  text : List Char
  file : F
  line : Nat
  column : Nat
deriving DecidableEq

/-- Messages that report a problem, rather than a result that may be ignored. -/
def State.isProblem : State → Bool
  | .confirmed | .cannotConfirm | .preUnsat => false
  | .postErr | .execErr | .postFail | .syntaxErr | .importErr => true

/-- The place a message is about. -/
abbrev Place (F : Type) := F × Nat × Nat

def Msg.place {F : Type} (m : Msg F) : Place F := (m.file, m.line, m.column)

/-- A file order: total, transitive, and equal only for equal files. -/
structure FileOrder {F : Type} (le : F → F → Bool) : Prop where
  total : ∀ a b, le a b = true ∨ le b a = true
  trans : ∀ a b c, le a b = true → le b c = true → le a c = true
  antisymm : ∀ a b, le a b = true → le b a = true → a = b

/-- Severities, from harmless to severe. -/
def severities : List State := [.confirmed, .cannotConfirm, .preUnsat, .postErr, .execErr, .postFail, .syntaxErr, .importErr]

/-- Messages at different places in reading order: by file, then line, then column. -/
def Before {F : Type} (le : F → F → Bool) (a b : Msg F) : Prop :=
  (a.file ≠ b.file ∧ le a.file b.file = true) ∨
  (a.file = b.file ∧ (a.line < b.line ∨ (a.line = b.line ∧ a.column < b.column)))

/-- The message `m` is preferred over `n`: it is more severe; or as severe, and its inputs could be shown while those of
`n` could not; or equal in both, and shorter. -/
def Preferred {F : Type} (severity : State → Nat) (shown : List Char → Bool) (m n : Msg F) : Prop :=
  severity n.state < severity m.state ∨
  severity n.state = severity m.state ∧
    ((shown n.text = false ∧ shown m.text = true) ∨
     (shown n.text = shown m.text ∧ m.text.length < n.text.length))

end Verif.Report
