import Verif.Depths.Spec
/-
Model of `_ch_mark_stacks` in /repo/crosshair/_mark_stacks.h (541-790) and of the cache of its results (`_ch_get_stacks`,
/repo/crosshair/_tracers.c 169-207).
-/
namespace Verif.Depths

/-- `stacks` (`none` is `UNINITIALIZED`), `enabled_tracing` and `todo` (550-586). -/
structure State where
  stacks : Nat → Option Int
  enabled : Nat → Bool
  todo : Bool

def State.put (s : State) (j : Nat) (d : Int) : State := { s with stacks := fun k => if k = j then some d else s.stacks k }

def State.enable (s : State) (j : Nat) (t : Bool) : State := { s with enabled := fun k => if k = j then s.enabled k || t else s.enabled k }

/-- The loop over prefixes (592-597): `stacks[i] = next_stack`. -/
def State.fill (s : State) (i n : Nat) (next : Option Int) : State :=
  { s with stacks := fun k => if i < k ∧ k ≤ i + n then next else s.stacks k }

/-- The `switch` (605-752), for an instruction at `p` that is followed by `ni`; `PyCompile_OpcodeStackEffect` and the cases with a fixed
effect are the effect of `other`. -/
def effect (s : State) (ins : Instr) (p ni : Nat) (d : Int) (t : Bool) : State :=
  match ins.kind with
  | .popJump =>
    let j := ni + ins.arg
    ((s.put j (d - 1)).enable j t).put ni (d - 1)
  | .send =>
    let j := ins.arg + p + ins.caches + 1
    ((s.put j d).enable j t).put ni d
  | .jumpForward =>
    let j := ins.arg + p + 1
    (s.put j d).enable j t
  | .jumpBackward =>
    let j := ni - ins.arg
    let s := if s.stacks j = none ∧ j < p then { s with todo := true } else s
    (s.put j d).enable j t
  | .forIter =>
    let s := s.put ni (d + 1)
    let j := ins.arg + 1 + ins.caches + p
    (s.put j (d + 1)).enable j t
  | .stop => s
  | .other e => s.put ni (d + e)

/-- One round of the loop over the instructions (587-755), at `i`. `trace_enabled_here` (589) is about the first code unit, which is a
prefix if there is one; prefixes are not traced. -/
def visit (ins : Instr) (i : Nat) (s : State) : State :=
  let next := s.stacks i
  let t := if ins.ext = 0 then ins.traced else false
  let s := s.enable i t
  let s := s.fill i ins.ext next
  let p := i + ins.ext
  let ni := p + ins.caches + 1
  match next with
  | none => s
  | some d => (effect s ins p ni d t).enable ni t

/-- The loop over the instructions (587-755). -/
def scan : List Instr → Nat → State → State
  | [], _, s => s
  | ins :: r, i, s => scan r (i + ins.ext + ins.caches + 1) (visit ins i s)

/-- `_ch_pop_to_level` (20-30). -/
def popToLevel (stack : Int) (level : Nat) : Int := if level = 0 then 0 else if level < stack then level else stack

/-- The loop over the table of exceptions (757-780). -/
def excScan : List Entry → State → State
  | [], s => s
  | e :: r, s =>
    match s.stacks e.start, s.stacks e.handler with
    | some d, none =>
      let target := popToLevel d e.level
      let target := if e.lasti then target + 1 else target
      excScan r ({ s with todo := true }.put e.handler (target + 1))
    | _, _ => excScan r s

/-- The outer loop (584-781), at most `n` times. -/
def passes (code : List Instr) (table : List Entry) : Nat → State → State
  | 0, s => s
  | n + 1, s =>
    let s := excScan table (scan code 0 { s with todo := false })
    if s.todo then passes code table n s else s

/-- `_ch_mark_stacks`; the depth at the beginning (573-582) is 1 for generators in 3.12, else 0. The first flag is not initialized (569-572):
`g` is what is found there. -/
def mark (code : List Instr) (table : List Entry) (d0 : Int) (g : Bool) : State :=
  passes code table (code.length + 1) ⟨fun k => if k = 0 then some d0 else none, fun k => if k = 0 then g else false, false⟩

/-! ### The cache -/

/-- `_ch_get_stacks`: the cache, and the result. `stacksOf` is `_ch_mark_stacks`, and `rnd` is what `rand` gives. Codes are compared by
address; an entry keeps its code alive. -/
def getStacks {α β : Type} [DecidableEq α] (stacksOf : α → β) (rnd : Nat) (cache : List (α × β)) (code : α) : List (α × β) × β :=
  let (cache, pos, entry) :=
    match cache.findIdx? (fun e => e.1 = code) with
    | some pos => (cache, pos, cache[pos]?)
    | none =>
      let cache := if cache.length = 64 then cache.take 63 else cache
      let entry := (code, stacksOf code)
      (cache ++ [entry], cache.length, some entry)
  match entry with
  | none => (cache, stacksOf code)
  | some entry =>
    if 0 < pos then
      let mid := rnd % pos
      match cache[mid]? with
      | some other => (((cache.set pos other).set mid entry), entry.2)
      | none => (cache, entry.2)
    else (cache, entry.2)

end Verif.Depths
