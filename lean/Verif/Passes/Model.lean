import Mathlib.Data.List.Sort
import Verif.Watch.Model
import Verif.B64.Model
/-
Model of the passes of the watcher of /repo/crosshair/watcher.py: handing files to the pool of workers, collecting results,
and noticing changes and the wish to stop; and of what a worker writes and what is read of it.
The pool itself and the detection of changed files are those of `Verif.Watch.Model`.
-/
namespace Verif.Passes

open Verif.Watch (Pool Worker Times checkChanged prune spawn isWorking)

/-- `WorkItemInput` (watcher.py 56): the file and the deadline; the options are left out.  Each item carries the number of
items handed out before it. -/
structure Item (F : Type) where
  serial : Nat
  file : F
  deadline : Int
deriving DecidableEq

/-- Where the generator of `run_iteration` stands (watcher.py 262-272): not running; at the test of the loop; just resumed after
giving out a result; before `handle_periodic`; before `garden_workers`. -/
inductive Place where
  | idle
  | top
  | resumed
  | periodic
  | garden
deriving DecidableEq

/-- How the last pass ended. -/
inductive Ending where
  | none
  | complete
  | aborted
  | empty
deriving DecidableEq

/-- `Watcher` (watcher.py 211-229) with the generator, and a record: `shown` the results given out, `blanks` the number of
empty results given out, `checks` the times of the checks for changes, `changes` the number of changes noticed, `serial` the number of
items handed out, and `fresh` the results put into the queue since the loop last found it empty.  Times are whole milliseconds. -/
structure St (F M : Type) where
  pool : Pool (Item F) (Item F × M)
  known : Times F Int
  stop : Bool
  flag : Bool
  next : Int
  place : Place
  ending : Ending
  shown : List (Item F × M)
  blanks : Nat
  checks : List Int
  changes : Nat
  serial : Nat
  fresh : List (Item F × M)

/-- `Watcher(files)` (watcher.py 220-226, 234-235); `max` is one less than the number of processors. -/
def St.new (F M : Type) (max : Nat) : St F M :=
  ⟨Pool.new _ _ max, [], false, false, 0, .idle, .none, [], 0, [], 0, 0, []⟩

/-- What happens. -/
inductive Act (F M : Type) where
  /-- The thread of the `k`-th worker creates its process. -/
  | start (k : Nat)
  /-- The thread of the `k`-th worker ends, with a result if its process printed one (watcher.py 125-128). -/
  | exit (k : Nat) (out : Option M)
  /-- `shutdown` (watcher.py 228-229) -/
  | shutdown
  /-- A call of `run_iteration`, at some time, with what is found on disk and what workers killed meanwhile still put into
  the queue. -/
  | begin (iterations : Nat) (now : Int) (disk : List (F × Option Int)) (late : Item F → Option M)
  /-- The generator goes on. -/
  | go (now : Int) (disk : List (F × Option Int)) (late : Item F → Option M)

/-- The result of a worker names its item (watcher.py 142: `(filename, stats, messages)`). -/
def named {F M : Type} (late : Item F → Option M) (i : Item F) : Option (Item F × M) := (late i).map fun m => (i, m)

/-- `pool.terminate()` (watcher.py 187-189), as in `Verif.Watch.step`. -/
def terminate {F M : Type} (late : Item F → Option M) (s : St F M) : St F M :=
  let p := Verif.Watch.step Item.deadline s.pool (.terminate (named late))
  { s with pool := p, fresh := s.fresh ++ p.produced.drop s.pool.produced.length }

/-- `pool.garden_workers()` (watcher.py 191-193), as in `Verif.Watch.step`. -/
def garden {F M : Type} (now : Int) (late : Item F → Option M) (s : St F M) : St F M :=
  let p := Verif.Watch.step Item.deadline s.pool (.garden now (named late))
  { s with pool := p, fresh := s.fresh ++ p.produced.drop s.pool.produced.length }

/-- `handle_periodic` (watcher.py 275-288).  The two readings of the clock are taken to be the same. -/
def handlePeriodic {F M : Type} [DecidableEq F] (now : Int) (disk : List (F × Option Int)) (late : Item F → Option M)
    (s : St F M) : St F M × Bool :=
  if s.stop then (terminate late s, true)
  else if now ≥ s.next then
    let s := { s with next := now + 1000, checks := s.checks ++ [now] }
    let (known, changed) := checkChanged disk s.known
    let s := { s with known := known }
    if changed then
      let s := terminate late { s with flag := true, changes := s.changes + 1 }
      ({ s with pool := Pool.new _ _ s.pool.max, fresh := [] }, true)
    else (s, false)
  else (s, false)

/-- `sorted(self._modtimes.items(), key=lambda pair: -pair[1])` (watcher.py 245). -/
def byTime {F : Type} (known : Times F Int) : List (F × Int) := known.insertionSort fun a b => -a.2 ≤ -b.2

/-- `worker_timeout` (watcher.py 246-248), in milliseconds. -/
def workerTimeout (iterations : Nat) : Int := max 10000 ((iterations : Int) * 1000000)

/-- `pool.submit((filename, options, time.time() + worker_timeout))` (watcher.py 198-199, 253). -/
def submit {F M : Type} (deadline : Int) (s : St F M) (file : F) : St F M :=
  { s with pool := Verif.Watch.step Item.deadline s.pool (.submit ⟨s.serial, file, deadline⟩), serial := s.serial + 1 }

/-- The start of `run_iteration` (watcher.py 244-261).  What the workers do meanwhile is taken to happen before or after, and the
clock is read once. -/
def begin {F M : Type} [DecidableEq F] (iterations : Nat) (now : Int) (disk : List (F × Option Int)) (late : Item F → Option M)
    (s : St F M) : St F M :=
  let s := ((byTime s.known).map Prod.fst).foldl (submit (now + workerTimeout iterations)) s
  let s := garden now late s
  if isWorking s.pool then { s with place := .top }
  else
    let s := (handlePeriodic (now + 1500) disk late s).1
    { s with blanks := s.blanks + 1, ending := .empty }

/-- One step of the loop of `run_iteration` (watcher.py 262-272). -/
def go {F M : Type} [DecidableEq F] (now : Int) (disk : List (F × Option Int)) (late : Item F → Option M) (s : St F M) : St F M :=
  match s.place with
  | .idle => s
  | .top =>
    if isWorking s.pool then
      match s.pool.results with
      | [] => { s with place := .periodic, fresh := [] }
      | r :: _ => { s with pool := Verif.Watch.step Item.deadline s.pool .get, shown := s.shown ++ [r], place := .resumed }
    else { s with place := .idle, ending := .complete }
  | .resumed => if s.pool.results.isEmpty then { s with place := .periodic, fresh := [] } else { s with place := .top }
  | .periodic =>
    let (s, b) := handlePeriodic now disk late s
    if b then { s with blanks := s.blanks + 1, place := .idle, ending := .aborted } else { s with place := .garden }
  | .garden => { garden now late s with place := .top }

/-- The thread of a worker ends (watcher.py 125-128). -/
def exit {F M : Type} (k : Nat) (out : Option M) (s : St F M) : St F M :=
  match s.pool.workers[k]? with
  | some w =>
    let p := Verif.Watch.step Item.deadline s.pool (.exit k (out.map fun m => (w.item, m)))
    { s with pool := p, fresh := s.fresh ++ p.produced.drop s.pool.produced.length }
  | none => s

/-- One action. -/
def act {F M : Type} [DecidableEq F] (s : St F M) : Act F M → St F M
  | .start k => { s with pool := Verif.Watch.step Item.deadline s.pool (.start k) }
  | .exit k out => exit k out s
  | .shutdown => { s with stop := true }
  | .begin n now disk late => if s.place = .idle then begin n now disk late s else s
  | .go now disk late => go now disk late s

/-- A history of a watcher, which looks for files once before the first pass (main.py 552-553). -/
def run {F M : Type} [DecidableEq F] (max : Nat) (disk : List (F × Option Int)) (acts : List (Act F M)) : St F M :=
  acts.foldl act { St.new F M max with known := (checkChanged disk []).1 }

/-! ### What a worker prints -/

/-- `bytes.splitlines()` as used at watcher.py 127, on the codes of the bytes: lines end at 10, 13, or 13 followed by 10. -/
def splitlines : List Nat → List (List Nat)
  | [] => []
  | [c] => if c = 10 ∨ c = 13 then [[]] else [[c]]
  | c :: d :: rest =>
    if c = 13 ∧ d = 10 then [] :: splitlines rest
    else if c = 10 ∨ c = 13 then [] :: splitlines (d :: rest)
    else
      match splitlines (d :: rest) with
      | [] => [[c]]
      | l :: ls => (c :: l) :: ls

/-- `serialize` (watcher.py 60-61); `pack` stands for pickling and compression. -/
def serialize {A : Type} (pack : A → List Nat) (x : A) : List Nat := Verif.B64.b2a Verif.B64.stdAlphabet false true 0 (pack x)

/-- `deserialize` (watcher.py 64-69); `none` for an error, `unpack` stands for decompression and unpickling. -/
def deserialize {A : Type} (unpack : List Nat → Option A) (data : List Nat) : Option A :=
  (Verif.B64.a2b Verif.B64.stdAlphabet false true data).bind unpack

/-- What a worker writes (watcher.py 141-143): what the analysed code writes, and the result with a newline. -/
def workerOutput {A : Type} (pack : A → List Nat) (noise : List Nat) (x : A) : List Nat := noise ++ serialize pack x ++ [10]

/-- The end of `PoolWorkerShell.run` (watcher.py 125-128): what is put into the queue. -/
def received {A : Type} (unpack : List Nat → Option A) (stdout : List Nat) : Option A :=
  match (splitlines stdout).getLast? with
  | none => none
  | some l => deserialize unpack l

end Verif.Passes
