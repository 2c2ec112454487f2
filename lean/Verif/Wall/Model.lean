import Verif.Wall.Spec
/-
Model of /repo/crosshair/auditwall.py.  Strings are lists of characters and dictionaries are functions to `Option`
(their order is not observable here).  The file flags have their Linux values.
-/
namespace Verif.Wall

/-- An argument of an audit event, as far as the wall looks at it: `None`, a string (or bytes or path, decoded), a list
or tuple (its items as `_as_text` renders them), an integer, or anything else. -/
inductive Arg where
  | none
  | text (s : Str)
  | seq (items : List Str)
  | int (n : Nat)
  | other (s : Str)
deriving DecidableEq, Repr

/-- What the wall asks the interpreter: `str(x)`, `_as_text(x)` (37-38), the splitting of a command line (41-51), and
whether the call stack is inside a module that may start processes (100-106, 133-143). -/
structure Env where
  str : Arg → Str
  asText : Arg → Str
  splitCommand : Str → List Str
  insideAllowed : Bool

/-- `_SPAWN_EVENTS` (34). -/
def spawnEvents : List Str := ["subprocess.Popen".toList, "os.posix_spawn".toList]

/-- The tokens of the `cmd` argument (65-70). -/
def cmdTokens (env : Env) : Arg → List Str
  | .seq items => items
  | .text s => env.splitCommand s
  | _ => []

/-- `match_tokens` (54-75). -/
def matchTokens (env : Env) (event : Str) (args : List Arg) : List Str :=
  match args with
  | executable :: cmd :: _ =>
    if event ∈ spawnEvents then
      let tokens := cmdTokens env cmd
      let tokens := if tokens = [] ∧ executable ≠ .none then [env.asText executable] else tokens
      if tokens ≠ [] then tokens else args.map env.str
    else args.map env.str
  | _ => args.map env.str

/-- `_BLOCKED_OPEN_FLAGS` (27-29): `O_WRONLY | O_RDWR | O_APPEND | O_CREAT | O_EXCL | O_TRUNC` on Linux. -/
def blockedOpenFlags : Nat := 1 ||| 2 ||| 1024 ||| 64 ||| 128 ||| 512

/-- `check_open` (109-118). -/
def checkOpen : List Arg → Verdict
  | [name, _, .int flags] =>
    if name = .text "/dev/null".toList ∨ name = .text "nul".toList then .allow
    else if flags &&& blockedOpenFlags ≠ 0 then .reject else .allow
  | [name, _, _] => if name = .text "/dev/null".toList ∨ name = .text "nul".toList then .allow else .crash
  | _ => .crash

/-- `check_msvcrt_open` (121-127). -/
def checkMsvcrtOpen : List Arg → Verdict
  | [_, .int flags] => if flags &&& blockedOpenFlags ≠ 0 then .reject else .allow
  | _ => .crash

/-- A trie of token prefixes (308-313): a dictionary by token, with a mark at the end of a prefix. -/
inductive Trie where
  | node (isEnd : Bool) (kids : List (Str × Trie))

def Trie.empty : Trie := .node false []
def Trie.isEnd : Trie → Bool
  | .node e _ => e
def Trie.kids : Trie → List (Str × Trie)
  | .node _ k => k

/-- `current[arg]`. -/
def kid (kids : List (Str × Trie)) (k : Str) : Option Trie := (kids.find? fun x => x.1 == k).map (·.2)

/-- Adding one prefix (310-313). -/
def Trie.insert : List Str → Trie → Trie
  | [], t => .node true t.kids
  | p :: ps, t => .node t.isEnd ((p, Trie.insert ps ((kid t.kids p).getD .empty)) :: t.kids)

/-- The trie of all prefixes (308-313). -/
def buildTrie (prefixes : List (List Str)) : Trie := prefixes.foldl (fun t p => t.insert p) .empty

/-- The walk in `handler` (316-322): whether a listed prefix is met. -/
def Trie.walk : Trie → List Str → Bool
  | _, [] => false
  | t, arg :: rest =>
    match kid t.kids arg with
    | none => false
    | some c => if c.isEnd then true else Trie.walk c rest

/-- The handlers, closures of `_make_prefix_based_handler` (298-325) included. -/
inductive Handler where
  | accept
  | reject
  | checkOpen
  | checkSubprocess
  | checkMsvcrtOpen
  | prefixed (trie : Trie) (onMatch onMiss : Handler)

/-- Calling a handler: `accept` (78), `reject` (94), `check_subprocess` (146-148) and the others. -/
def Handler.run (env : Env) (event : Str) (args : List Arg) : Handler → Verdict
  | .accept => .allow
  | .reject => .reject
  | .checkOpen => Wall.checkOpen args
  | .checkSubprocess => if env.insideAllowed then .allow else .reject
  | .checkMsvcrtOpen => Wall.checkMsvcrtOpen args
  | .prefixed trie onMatch onMiss =>
    if trie.walk (matchTokens env event args) then onMatch.run env event args else onMiss.run env event args

/-- A dictionary from events to handlers. -/
abbrev Table := Str → Option Handler

/-- `d[k] = v`. -/
def Table.set (t : Table) (k : Str) (v : Handler) : Table := fun x => if x = k then some v else t x

/-- The initial `_SPECIAL_HANDLERS` (151-156). -/
def initialSpecial : Table :=
  Table.set (Table.set (Table.set (Table.set (fun _ => none) "open".toList .checkOpen)
    "subprocess.Popen".toList .checkSubprocess) "os.posix_spawn".toList .checkSubprocess)
    "msvcrt.open_osfhandle".toList .checkMsvcrtOpen

/-- The events rejected by name (164-172). -/
def rejectedEvents : List Str :=
  ["winreg.CreateKey", "winreg.DeleteKey", "winreg.DeleteValue", "winreg.SaveKey", "winreg.SetValue",
   "winreg.DisableReflectionKey", "winreg.EnableReflectionKey"].map String.toList

/-- The events accepted by name (175-197). -/
def acceptedEvents : List Str :=
  ["os.putenv", "os.unsetenv", "msvcrt.heapmin", "msvcrt.kbhit", "glob.glob", "msvcrt.get_osfhandle",
   "msvcrt.setmode", "os.listdir", "os.scandir", "os.chdir", "os.fwalk", "os.getxattr", "os.listxattr", "os.walk",
   "pathlib.Path.glob", "socket.gethostbyname", "socket.__new__", "socket.bind", "socket.connect"].map String.toList

/-- The prefixes rejected as a group (201-219). -/
def rejectedPrefixes : List Str :=
  ["os", "fcntl", "ftplib", "glob", "imaplib", "msvcrt", "nntplib", "pathlib", "poplib", "shutil", "smtplib",
   "socket", "sqlite3", "subprocess", "telnetlib", "urllib", "webbrowser"].map String.toList

/-- `make_handler` (159-222). -/
def makeHandler (special : Table) (event : Str) : Handler :=
  match special event with
  | some h => h
  | none =>
    if event ∈ rejectedEvents then .reject
    else if event ∈ acceptedEvents then .accept
    else if event.takeWhile (· ≠ '.') ∈ rejectedPrefixes then .reject
    else .accept

/-- `s.split(c)`. -/
def split (c : Char) : Str → List Str
  | [] => [[]]
  | x :: xs =>
    if x = c then [] :: split c xs
    else match split c xs with
      | [] => [[x]]
      | h :: t => (x :: h) :: t

/-- `p.split(":", 1)[0]`, the key of the grouping (335). -/
def eventOf (p : Str) : Str := p.takeWhile (· ≠ ':')

/-- Comparison of strings by code points. -/
def leStr : Str → Str → Bool
  | [], _ => true
  | _ :: _, [] => false
  | a :: x, b :: y => if a.toNat < b.toNat then true else if a = b then leStr x y else false

/-- `sorted`. -/
def insertSorted (p : Str) : List Str → List Str
  | [] => [p]
  | q :: l => if leStr p q then p :: q :: l else q :: insertSorted p l
def sorted (l : List Str) : List Str := l.foldr insertSorted []

/-- `itertools.groupby` on the event: runs of neighbours with one event. -/
def groups : List Str → List (Str × List Str)
  | [] => []
  | p :: ps =>
    match groups ps with
    | (e, g) :: rest => if e = eventOf p then (e, p :: g) :: rest else (eventOf p, [p]) :: (e, g) :: rest
    | [] => [(eventOf p, [p])]

/-- `reject if on_match is accept else accept` (307). -/
def opposite (terminal : Bool) : Handler := if terminal then .reject else .accept
def terminalHandler (terminal : Bool) : Handler := if terminal then .accept else .reject

/-- The body of the loop of `_update_special_handlers` (337-344); `terminal` is true for `accept`. -/
def installGroup (terminal : Bool) (special : Table) (eg : Str × List Str) : Table :=
  if eg.2.any (fun g => eg.1 == g) then special.set eg.1 (terminalHandler terminal)
  else special.set eg.1 (.prefixed (buildTrie (eg.2.map fun a => (split ':' a).tail)) (terminalHandler terminal)
    ((special eg.1).getD (opposite terminal)))

/-- `_update_special_handlers` (328-344). -/
def updateSpecial (special : Table) (prefixes : List Str) (terminal : Bool) : Table :=
  (groups (sorted prefixes)).foldl (installGroup terminal) special

/-- The module's state: `_SPECIAL_HANDLERS`, `_HANDLERS`, `_ENABLED`, `_HOOK_INSTALLED` (151, 225-227). -/
structure Wall where
  special : Table
  cache : Table
  enabled : Bool
  installed : Bool

def initialWall : Wall := { special := initialSpecial, cache := fun _ => none, enabled := true, installed := false }

/-- `audithook` (230-237). -/
def audithook (env : Env) (w : Wall) (event : Str) (args : List Arg) : Verdict × Wall :=
  if w.enabled then
    match w.cache event with
    | some h => (h.run env event args, w)
    | none =>
      let h := makeHandler w.special event
      (h.run env event args, { w with cache := w.cache.set event h })
  else (.allow, w)

/-- The interpreter raising an audit event: the hook runs once installed.  (Installing it twice makes it run twice, with
the same verdict.) -/
def fire (env : Env) (w : Wall) (event : Str) (args : List Arg) : Verdict × Wall :=
  if w.installed then audithook env w event args else (.allow, w)

/-- `engage_auditwall` (347-354). -/
def engage (w : Wall) (allow : List Str) : Wall :=
  if "EVERYTHING".toList ∈ allow then w
  else { w with special := updateSpecial w.special allow true, installed := true }

/-- `disable_auditwall` (357-360); `none` is the failed assertion. -/
def disable (w : Wall) : Option Wall := if w.enabled then some { w with enabled := false } else none

/-- The entry of `enabled_auditwall` (276-287). -/
def enterEnabled (w : Wall) (allow reject : List Str) : Wall :=
  let w := if w.installed then w else engage w []
  let w := if allow ≠ [] then { w with special := updateSpecial w.special allow true } else w
  let w := if reject ≠ [] then { w with special := updateSpecial w.special reject false } else w
  let w := if allow ≠ [] ∨ reject ≠ [] then { w with cache := fun _ => none } else w
  { w with enabled := true }

/-- Its exit (290-295), `before` being the state at entry. -/
def exitEnabled (before w : Wall) : Wall :=
  { w with enabled := before.installed && before.enabled, special := before.special, cache := before.cache }

/-- How code ends. -/
inductive End where
  | done
  | sideEffect
  | assertion
  | crashed
deriving DecidableEq, Repr

/-- Code running under the wall: events, sequencing, `try/except` around code, and the two scopes. -/
inductive Prog where
  | skip
  | event (e : Str) (args : List Arg)
  | seq (a b : Prog)
  | attempt (a : Prog)
  | opened (a : Prog)
  | enabled (allow reject : List Str) (a : Prog)

def verdictEnd : Verdict → End
  | .allow => .done
  | .reject => .sideEffect
  | .crash => .crashed

/-- Running code: how it ends, the verdicts it saw, and the state it leaves (`opened_auditwall` 240-248,
`enabled_auditwall` 251-295; both restore in `finally`). -/
def Prog.run (env : Env) : Prog → Wall → End × List Verdict × Wall
  | .skip, w => (.done, [], w)
  | .event e args, w => let r := fire env w e args; (verdictEnd r.1, [r.1], r.2)
  | .seq a b, w =>
    let r := a.run env w
    if r.1 = .done then
      let r' := b.run env r.2.2
      (r'.1, r.2.1 ++ r'.2.1, r'.2.2)
    else r
  | .attempt a, w => let r := a.run env w; (.done, r.2.1, r.2.2)
  | .opened a, w =>
    if w.enabled then
      let r := a.run env { w with enabled := false }
      (r.1, r.2.1, { r.2.2 with enabled := true })
    else (.assertion, [], w)
  | .enabled allow reject a, w =>
    let r := a.run env (enterEnabled w allow reject)
    (r.1, r.2.1, exitEnabled w r.2.2)

/-- `explain` (82-91): the entry it advises. -/
def advice (env : Env) (event : Str) (args : List Arg) : Str :=
  event ++ (matchTokens env event args).flatMap (':' :: ·)

end Verif.Wall
