/-
What the audit wall should decide, stated without reference to CrossHair's tables of handlers.
-/
namespace Verif.Wall

/-- Text, as characters. -/
abbrev Str := List Char

/-- What happens to an operation that raises an audit event: it goes ahead, it is stopped with
`SideEffectDetected`, or the check itself fails on malformed arguments. -/
inductive Verdict where
  | allow
  | reject
  | crash
deriving DecidableEq, Repr

/-- An `--unblock` entry: `event`, or `event:token:token...`. -/
structure Rule where
  event : Str
  tokens : List Str
deriving DecidableEq, Repr

/-- How an entry is written. -/
def Rule.text (r : Rule) : Str := r.event ++ r.tokens.flatMap (':' :: ·)

/-- Parts of an entry are separated by colons, so they cannot contain any. -/
def Rule.Wellformed (r : Rule) : Prop := ':' ∉ r.event ∧ ∀ t ∈ r.tokens, ':' ∉ t

/-- An entry covers an event whose name it gives and whose leading tokens it lists. -/
def Rule.Covers (r : Rule) (event : Str) (tokens : List Str) : Prop := r.event = event ∧ r.tokens <+: tokens

/-- Some entry of the list covers the event. -/
def Covered (rules : List Str) (event : Str) (tokens : List Str) : Prop :=
  ∃ r : Rule, r.Wellformed ∧ r.text ∈ rules ∧ r.Covers event tokens

/-- Some entry of the list is about the event. -/
def Mentioned (rules : List Str) (event : Str) : Prop := ∃ r : Rule, r.Wellformed ∧ r.text ∈ rules ∧ r.event = event

/-- The module an event belongs to: its name up to the first dot. -/
def family (event : Str) : Str := event.takeWhile (· ≠ '.')

/-- Families whose events reach outside the process. -/
def outsideFamilies : List String :=
  ["os", "fcntl", "ftplib", "glob", "imaplib", "msvcrt", "nntplib", "pathlib", "poplib", "shutil", "smtplib",
   "socket", "sqlite3", "subprocess", "telnetlib", "urllib", "webbrowser"]

/-- Events of those families that are let through. -/
def harmless : List String :=
  ["os.putenv", "os.unsetenv", "os.listdir", "os.scandir", "os.chdir", "os.fwalk", "os.getxattr", "os.listxattr",
   "os.walk", "msvcrt.heapmin", "msvcrt.kbhit", "msvcrt.get_osfhandle", "msvcrt.setmode", "glob.glob",
   "pathlib.Path.glob", "socket.gethostbyname", "socket.__new__", "socket.bind", "socket.connect"]

/-- Writes to the Windows registry. -/
def registryWrites : List String :=
  ["winreg.CreateKey", "winreg.DeleteKey", "winreg.DeleteValue", "winreg.SaveKey", "winreg.SetValue",
   "winreg.DisableReflectionKey", "winreg.EnableReflectionKey"]

/-- An event that is dangerous whatever its arguments. -/
def Dangerous (event : Str) : Prop :=
  (event ∈ registryWrites.map String.toList) ∨
  (family event ∈ outsideFamilies.map String.toList ∧ event ∉ harmless.map String.toList)

/-- Flags with which opening a file can change it: write only, read/write, create, exclusive, truncate, append. -/
def WriteFlags (flags : Nat) : Prop :=
  flags.testBit 0 = true ∨ flags.testBit 1 = true ∨ flags.testBit 6 = true ∨ flags.testBit 7 = true ∨
  flags.testBit 9 = true ∨ flags.testBit 10 = true

end Verif.Wall
