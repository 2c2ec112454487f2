import Verif.Cells.Spec
/-
Small stores of CrossHair: `IdKeyedDict`, `DynamicScopeVar` and `memo` (crosshair/util.py), and `CoverageTracingModule`
(crosshair/tracers.py).
-/
namespace Verif.Cells

/-! ### Dictionaries by identity -/

variable {V : Type}

/-- A process. An object lives at an address while it has one. -/
structure Mem (V : Type) where
  /-- The number of the next object. -/
  next : Nat
  addr : Nat → Option Nat
  /-- The objects that the program refers to. -/
  held : Nat → Bool
  /-- `IdKeyedDict.inner` (util.py 185): by `id`, the key object and the value. -/
  inner : List (Nat × Nat × V)

def start : Mem V := ⟨0, fun _ => none, fun _ => false, []⟩

/-- `dict.__getitem__` of the inner dictionary. -/
def innerGet (l : List (Nat × Nat × V)) (a : Nat) : Option (Nat × V) := l.lookup a

/-- `dict.__setitem__` of the inner dictionary: in place, or at the end. -/
def innerSet : List (Nat × Nat × V) → Nat → Nat × V → List (Nat × Nat × V)
  | [], a, e => [(a, e)]
  | (b, f) :: l, a, e => if b = a then (a, e) :: l else (b, f) :: innerSet l a e

/-- `dict.__delitem__` of the inner dictionary. -/
def innerDel (l : List (Nat × Nat × V)) (a : Nat) : List (Nat × Nat × V) := l.filter fun p => p.1 ≠ a

/-- `IdKeyedDict.__getitem__` (187-188), with the address of the key. -/
def dictGet (l : List (Nat × Nat × V)) (a : Nat) : Seen V :=
  match innerGet l a with
  | some e => .value e.2
  | none => .keyError

/-- `IdKeyedDict.__setitem__` (190-191): the key object is kept too. -/
def dictSet (l : List (Nat × Nat × V)) (o a : Nat) (v : V) : List (Nat × Nat × V) := innerSet l a (o, v)

/-- `IdKeyedDict.__delitem__` (193-194). -/
def dictDel (l : List (Nat × Nat × V)) (a : Nat) : List (Nat × Nat × V) × Seen V :=
  match innerGet l a with
  | some _ => (innerDel l a, .done)
  | none => (l, .keyError)

/-- `IdKeyedDict.__len__` (201-202). -/
def dictLen (l : List (Nat × Nat × V)) : Nat := l.length

/-- An object is referred to: by the program, or as a key object in the dictionary. -/
def referred (m : Mem V) (o : Nat) : Bool := m.held o || m.inner.any fun p => p.2.1 = o

/-- One step of a process; `none` if it cannot happen: memory is free if no object lives at the address, the collector frees only objects
that nothing refers to, and the program uses only objects that it refers to. -/
def step (m : Mem V) : Op V → Option (Mem V × Seen V)
  | .alloc a =>
    if (List.range m.next).all fun o => m.addr o ≠ some a then
      some ({ m with next := m.next + 1, addr := Function.update m.addr m.next (some a), held := Function.update m.held m.next true }, .done)
    else none
  | .drop o => some ({ m with held := Function.update m.held o false }, .done)
  | .collect o => if referred m o then none else some ({ m with addr := Function.update m.addr o none }, .done)
  | .set o v =>
    match m.held o, m.addr o with
    | true, some a => some ({ m with inner := dictSet m.inner o a v }, .done)
    | _, _ => none
  | .get o =>
    match m.held o, m.addr o with
    | true, some a => some (m, dictGet m.inner a)
    | _, _ => none
  | .del o =>
    match m.held o, m.addr o with
    | true, some a => some ({ m with inner := (dictDel m.inner a).1 }, (dictDel m.inner a).2)
    | _, _ => none

/-- A process for some steps. -/
def run (m : Mem V) : List (Op V) → Option (Mem V × List (Seen V))
  | [] => some (m, [])
  | op :: ops =>
    match step m op with
    | some r => (run r.1 ops).map fun s => (s.1, r.2 :: s.2)
    | none => none

/-! ### Scopes -/

/-- A `DynamicScopeVar`: its value for each thread (`threading.local`, util.py 631), and the `with` statements that each thread is in: their
values and the values before. Values are not `None`; scopes of generators that are left in another order are left out. -/
structure Local (V : Type) where
  value : Nat → Option V
  frames : Nat → List (V × Option V)

/-- `DynamicScopeVar.open`, on entering (636-640). -/
def enter (s : Local V) (t : Nat) (v : V) (reentrant : Bool) : Local V × Out V :=
  let old := s.value t
  if reentrant = false ∧ old.isSome then (s, .assertion)
  else (⟨Function.update s.value t (some v), Function.update s.frames t ((v, old) :: s.frames t)⟩, .fine)

/-- `DynamicScopeVar.open`, in `finally` (643-645). -/
def leave [DecidableEq V] (s : Local V) (t : Nat) : Local V × Out V :=
  match s.frames t with
  | [] => (s, .fine)
  | (v, old) :: rest =>
    if s.value t = some v then (⟨Function.update s.value t old, Function.update s.frames t rest⟩, .fine)
    else (⟨s.value, Function.update s.frames t rest⟩, .assertion)

/-- `DynamicScopeVar.get` (647-653). -/
def getVar (s : Local V) (t : Nat) (default : Option V) : Out V :=
  match s.value t with
  | some v => .value v
  | none =>
    match default with
    | some v => .value v
    | none => .assertion

/-- An act of a thread. -/
def act [DecidableEq V] (s : Local V) (t : Nat) : Act V → Local V × Out V
  | .enter v r => enter s t v r
  | .leave => leave s t
  | .get d => (s, getVar s t d)

/-- Acts of threads in turn. -/
def acts [DecidableEq V] (s : Local V) : List (Nat × Act V) → List (Out V)
  | [] => []
  | (t, a) :: rest => (act s t a).2 :: acts (act s t a).1 rest

/-! ### Saved results -/

/-- `memo` (util.py 93-103): one call. The function may give other results at other times. Also says if the function was called. -/
def memoCall {A B E : Type} [DecidableEq A] (f : Nat → A → Except E B) (saved : List (A × B)) (time : Nat) (a : A) :
    List (A × B) × Except E B × Bool :=
  match saved.lookup a with
  | some b => (saved, .ok b, false)
  | none =>
    match f time a with
    | .ok b => (saved ++ [(a, b)], .ok b, true)
    | .error e => (saved, .error e, true)

/-- Calls in turn. -/
def memoCalls {A B E : Type} [DecidableEq A] (f : Nat → A → Except E B) (saved : List (A × B)) (time : Nat) :
    List A → List (A × Except E B × Bool)
  | [] => []
  | a :: as => (a, (memoCall f saved time a).2) :: memoCalls f (memoCall f saved time a).1 (time + 1) as

/-! ### Coverage -/

/-- `CoverageTracingModule` (tracers.py 364-382): the code of the functions, the offsets of their instructions, and those seen. -/
structure Coverage where
  codes : List Nat
  offsets : Nat → Finset Nat
  seen : Nat → Finset Nat

/-- `CoverageTracingModule.__init__`. -/
def Coverage.new (fns : List Nat) (code : Nat → Nat) (instructions : Nat → Finset Nat) : Coverage :=
  ⟨fns.map code, fun c => if c ∈ fns.map code then instructions c else ∅, fun _ => ∅⟩

/-- `trace_op` (384-390); `none` if the assertion fails. -/
def Coverage.traceOp (c : Coverage) (code lasti : Nat) : Option Coverage :=
  if code ∉ c.codes then some c
  else if lasti ∈ c.offsets code then some { c with seen := Function.update c.seen code (insert lasti (c.seen code)) }
  else none

/-- All instructions of a run. -/
def Coverage.trace (c : Coverage) : List (Nat × Nat) → Option Coverage
  | [] => some c
  | (code, lasti) :: rest => (c.traceOp code lasti).bind fun d => d.trace rest

/-- `get_results` (392-402): the offsets covered, all offsets, and their ratio. -/
def Coverage.results (c : Coverage) (code : Nat) : Finset Nat × Finset Nat × ℚ :=
  (c.seen code, c.offsets code, (c.seen code).card / (c.offsets code).card)

end Verif.Cells
