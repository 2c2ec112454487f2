import Verif.Report.Model
/-
Model of /repo/crosshair/watcher.py: noticing changed files, and the pool of worker processes; and of the loop of
`crosshair watch` in /repo/crosshair/main.py.
-/
namespace Verif.Watch

open Verif.Report (Msg State merge)

/-! ### Files -/

/-- A dictionary from files to modification times, in insertion order. -/
abbrev Times (P T : Type) := List (P × T)

/-- `d[key] = value`. -/
def put {P T : Type} [DecidableEq P] (d : Times P T) (k : P) (v : T) : Times P T :=
  match d with
  | [] => [(k, v)]
  | (k', v') :: rest => if k' = k then (k, v) :: rest else (k', v') :: put rest k v

/-- `del d[key]`, or the effect of `pop` on the dictionary. -/
def remove {P T : Type} [DecidableEq P] (d : Times P T) (k : P) : Times P T := d.filter fun e => decide (e.1 ≠ k)

/-- The loop of `check_changed` (watcher.py 293-301): the known times, the times not yet checked, and whether anything
changed.  Files come with their times, `none` for a file that has just vanished. -/
def scan {P T : Type} [DecidableEq P] [DecidableEq T] :
    List (P × Option T) → Times P T → Times P T → Bool → Times P T × Times P T × Bool
  | [], known, unchecked, changed => (known, unchecked, changed)
  | (_, none) :: rest, known, unchecked, changed => scan rest known unchecked changed
  | (f, some t) :: rest, known, unchecked, changed =>
    if unchecked.lookup f = some t then scan rest known (remove unchecked f) changed
    else scan rest (put known f t) (remove unchecked f) true

/-- `Watcher.check_changed` (watcher.py 290-307). -/
def checkChanged {P T : Type} [DecidableEq P] [DecidableEq T] (files : List (P × Option T)) (known : Times P T) :
    Times P T × Bool :=
  match scan files known known false with
  | (known', unchecked, changed) =>
    if unchecked = [] then (known', changed)
    else (unchecked.foldl (fun d e => remove d e.1) known', true)

/-! ### The pool -/

/-- A worker thread with its item (watcher.py 100-127): whether the thread is alive, and whether its process exists. -/
structure Worker (I : Type) where
  item : I
  alive : Bool
  started : Bool

/-- `Pool` (watcher.py 148-160), with a record of what was submitted, which items' workers were removed, which items were
dropped, which results were put into the queue and which were taken out. -/
structure Pool (I R : Type) where
  workers : List (Worker I)
  work : List I
  results : List R
  max : Nat
  submitted : List I
  ended : List I
  dropped : List I
  produced : List R
  delivered : List R

/-- `Pool(max_processes)`. -/
def Pool.new (I R : Type) (max : Nat) : Pool I R := ⟨[], [], [], max, [], [], [], [], []⟩

/-- `_spawn_workers` (watcher.py 162-176).  The first argument bounds the number of rounds. -/
def spawn {I R : Type} : Nat → Pool I R → Pool I R
  | 0, p => p
  | fuel + 1, p =>
    match p.work.getLast? with
    | none => p
    | some i =>
      if p.workers.length < p.max then
        spawn fuel { p with work := p.work.dropLast, workers := p.workers ++ [⟨i, true, false⟩] }
      else p

/-- `curtime > worker.deadline` (watcher.py 180-182); `none` for the time is infinity, `deadline` the third entry of an item. -/
def overdue {I : Type} (deadline : I → Int) (now : Option Int) (w : Worker I) : Bool :=
  match now with
  | none => true
  | some t => decide (t > deadline w.item)

/-- Killing in `_prune_workers` (watcher.py 179-187): workers that are alive, over their deadline and have a process. A
killed worker may still put a result into the queue: `late`. -/
def killed {I R : Type} (deadline : I → Int) (now : Option Int) (late : I → Option R) (w : Worker I) : Worker I × Option R :=
  if w.alive && overdue deadline now w && w.started then ({ w with alive := false }, late w.item) else (w, none)

/-- `_prune_workers` (watcher.py 178-188). -/
def prune {I R : Type} (deadline : I → Int) (now : Option Int) (late : I → Option R) (p : Pool I R) : Pool I R :=
  let ws := p.workers.map (killed deadline now late)
  let out := ws.filterMap Prod.snd
  { p with
    workers := (ws.map Prod.fst).filter (fun w => w.alive)
    ended := p.ended ++ ((ws.map Prod.fst).filter (fun w => !w.alive)).map Worker.item
    results := p.results ++ out
    produced := p.produced ++ out }

/-- What can happen to a pool. -/
inductive Event (I R : Type) where
  /-- `submit` (watcher.py 201-202) -/
  | submit (i : I)
  /-- The thread of the `k`-th worker creates its process. -/
  | start (k : Nat)
  /-- The thread of the `k`-th worker ends, with a result if the process printed one. -/
  | exit (k : Nat) (out : Option R)
  /-- `garden_workers` (watcher.py 194-196) -/
  | garden (now : Int) (late : I → Option R)
  /-- `terminate` (watcher.py 190-192) -/
  | terminate (late : I → Option R)
  /-- `get_result` (watcher.py 207-211) -/
  | get

/-- One event. -/
def step {I R : Type} (deadline : I → Int) (p : Pool I R) : Event I R → Pool I R
  | .submit i => { p with work := p.work ++ [i], submitted := p.submitted ++ [i] }
  | .start k => { p with workers := p.workers.modify k (fun w => { w with started := w.started || w.alive }) }
  | .exit k out =>
    match p.workers[k]? with
    | some w =>
      if w.alive then
        { p with workers := p.workers.modify k (fun w => { w with alive := false })
                 results := p.results ++ out.toList, produced := p.produced ++ out.toList }
      else p
    | none => p
  | .garden now late =>
    let p := prune deadline (some now) late p
    spawn p.work.length p
  | .terminate late =>
    let p := prune deadline none late p
    { p with work := [], dropped := p.dropped ++ p.work }
  | .get =>
    match p.results with
    | [] => p
    | r :: rest => { p with results := rest, delivered := p.delivered ++ [r] }

/-- `is_working` (watcher.py 198-199). -/
def isWorking {I R : Type} (p : Pool I R) : Bool := !p.workers.isEmpty || !p.work.isEmpty

/-- A run of a pool. -/
def run {I R : Type} (deadline : I → Int) (max : Nat) (events : List (Event I R)) : Pool I R :=
  events.foldl (step deadline) (Pool.new I R max)

/-! ### The loop -/

/-- The state of `run_watch_loop` (main.py 411-475): whether to restart, the watcher's change flag, the limit, the messages
on display, and the displays printed so far. -/
structure Loop (F : Type) where
  restart : Bool
  flag : Bool
  limit : Nat
  active : List ((F × Nat) × Msg F)
  screens : List (List (Msg F))

/-- The start; the limit and the messages are unset until the first pass. -/
def Loop.start (F : Type) : Loop F := ⟨true, false, 0, [], []⟩

/-- One turn of the inner loop (main.py 435-475): new messages.  `rewritable` is `term_lines_rewritable`. -/
def batchStep {F : Type} [DecidableEq F] (rewritable : Bool) (s : Loop F) (msgs : List (Msg F)) : Loop F :=
  let problems := msgs.filter fun m => State.lt .preUnsat m.state
  let merged := merge s.active problems
  let s := { s with active := merged.1, screens := if merged.2 then s.screens ++ [merged.1.map Prod.snd] else s.screens }
  if !merged.2 && !rewritable then s
  else if s.flag then { s with flag := false, restart := true }
  else s

/-- One pass (main.py 418-435): `batches` are the messages of the workers in order of arrival. If a change is noticed,
the watcher sets its flag, ends the pass and yields once more, without messages (watcher.py 263-265, 281-286). -/
def passStep {F : Type} [DecidableEq F] (rewritable : Bool) (initial : Nat) (s : Loop F) (pass : List (List (Msg F)) × Bool) : Loop F :=
  let s := if s.restart then { s with restart := false, limit := initial, active := [] }
    else { s with limit := min (s.limit * 2) 100000000 }
  let s := pass.1.foldl (batchStep rewritable) s
  if pass.2 then batchStep rewritable { s with flag := true } [] else s

/-- Some passes. -/
def watch {F : Type} [DecidableEq F] (rewritable : Bool) (initial : Nat) (passes : List (List (List (Msg F)) × Bool)) : Loop F :=
  passes.foldl (passStep rewritable initial) (Loop.start F)

end Verif.Watch
