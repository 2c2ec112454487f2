/-
How the depth of the stack of values changes when the interpreter runs, by instruction. (Nothing here is about CrossHair.)
-/
namespace Verif.Depths

/-- What an instruction does: pop a value and perhaps jump forward; send a value and perhaps jump forward; jump; iterate, or jump forward
to the end of the loop; leave the function or raise; or anything else, with its effect on the depth. -/
inductive Kind
  | popJump | send | jumpForward | jumpBackward | forIter | stop
  | other (effect : Int)
deriving DecidableEq, Repr

/-- An instruction: the number of prefixes (`EXTENDED_ARG`) before it, its number of cache entries, its whole argument, and whether it is
one of those that CrossHair wants to trace. -/
structure Instr where
  kind : Kind
  ext : Nat := 0
  caches : Nat := 0
  arg : Nat := 0
  traced : Bool := false
deriving DecidableEq, Repr

/-- The number of code units of an instruction. -/
def Instr.size (ins : Instr) : Nat := ins.ext + 1 + ins.caches

/-- The number of code units of all instructions. -/
def total : List Instr → Nat
  | [] => 0
  | ins :: r => ins.size + total r

/-- The instruction that begins (with its prefixes) at a code unit. -/
inductive At : List Instr → Nat → Instr → Prop
  | here (ins r) : At (ins :: r) 0 ins
  | there (ins' r k ins) (h : At r k ins) : At (ins' :: r) (ins'.size + k) ins

/-- Where it can go on after the instruction at `pc`, and by how much the depth changes. (A loop that ends goes on at its `END_FOR`, which
takes two values away: the interpreter does both at once.) -/
def succ (ins : Instr) (pc : Nat) : List (Nat × Int) :=
  let next := pc + ins.size
  match ins.kind with
  | .popJump => [(next, -1), (next + ins.arg, -1)]
  | .send => [(next, 0), (next + ins.arg, 0)]
  | .jumpForward => [(next + ins.arg, 0)]
  | .jumpBackward => [(next - ins.arg, 0)]
  | .forIter => [(next, 1), (next + ins.arg, 1)]
  | .stop => []
  | .other e => [(next, e)]

/-- An entry of the table of exceptions: for instructions in a range, the handler, the number of values to keep, and whether the place of
the exception is pushed, too. -/
structure Entry where
  start : Nat
  size : Nat
  handler : Nat
  level : Nat
  lasti : Bool
deriving DecidableEq, Repr

/-- An entry covers an instruction. -/
def Entry.covers (e : Entry) (pc : Nat) (ins : Instr) : Prop := e.start ≤ pc + ins.ext ∧ pc + ins.ext < e.start + e.size

/-- The depth that the handler begins with. -/
def Entry.depth (e : Entry) : Int := e.level + (if e.lasti then 1 else 0) + 1

/-- Runs of the code from depth `d0`: the places that were passed, the last place and the depth there. -/
inductive Run (code : List Instr) (table : List Entry) (d0 : Int) : List Nat → Nat → Int → Prop
  | start : Run code table d0 [0] 0 d0
  | step (v pc d ins j δ) (h : Run code table d0 v pc d) (hat : At code pc ins) (hs : (j, δ) ∈ succ ins pc) :
    Run code table d0 (j :: v) j (d + δ)
  | raise (v pc d ins e) (h : Run code table d0 v pc d) (hat : At code pc ins) (he : e ∈ table) (hc : e.covers pc ins) :
    Run code table d0 (e.handler :: v) e.handler e.depth

/-- A place that begins an instruction. -/
def Start (code : List Instr) (k : Nat) : Prop := ∃ ins, At code k ins

/-- What the compiler makes sure of, as the interpreter expects it. Instructions go on at instructions (or at the end, if a jump without
condition or a return is the last one); the table of exceptions is about instructions; a jump forward has no caches. The depth at a place
does not depend on the run. At the start of a range there are at least as many values as its handler keeps. And a run gets into the ranges
of a handler at the start of one of them. -/
structure Compiled (code : List Instr) (table : List Entry) (d0 : Int) : Prop where
  targets : ∀ pc ins, At code pc ins → ∀ j δ, (j, δ) ∈ succ ins pc → Start code j ∨ j = total code
  starts : ∀ e ∈ table, ∃ ins, At code e.start ins ∧ e.covers e.start ins
  handlers : ∀ e ∈ table, Start code e.handler
  forward : ∀ pc ins, At code pc ins → ins.kind = .jumpForward → ins.caches = 0
  unique : ∀ v v' pc d d', Run code table d0 v pc d → Run code table d0 v' pc d' → d = d'
  levels : ∀ e ∈ table, ∀ v d, Run code table d0 v e.start d → (e.level : Int) ≤ d
  entered : ∀ v pc d ins e, Run code table d0 v pc d → At code pc ins → e ∈ table → e.covers pc ins →
    ∃ e' ∈ table, e'.handler = e.handler ∧ e'.start ∈ v

end Verif.Depths
