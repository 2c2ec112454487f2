import Verif.Scope.Model

/-! What scopes should do: a scope changes what is seen inside it, and only there. -/
namespace Verif.Scope

/-- What is in force at a point of a program: the value of each variable, the patches in force (the latest first),
the tracing modules (the latest last), and so on. -/
structure Ctx where
  vars : Nat → Option Nat := fun _ => none
  patches : List (Fn × Fn) := []
  modules : List Mod := []
  tracing : Bool := false
  tool : Bool := false
  space : Option Nat := none
  enforcing : Option (List Fn) := none
  engaged : Bool := false
  path : List Nat := []
  hooks : List Hook := []

/-- The patches of a function that are in force, the latest first. -/
def layers (ps : List (Fn × Fn)) (f : Fn) : List Fn :=
  match ps with
  | [] => []
  | (orig, new) :: rest => if orig = f then new :: layers rest f else layers rest f

/-- The layer below the one with a code object; below the lowest is the function itself. -/
def below (code : Fn → Code) (f : Fn) (c : Code) : List Fn → Option Fn
  | [] => none
  | g :: rest => if code g = c then some (rest.head?.getD f) else below code f c rest

/-- Whom a call reaches: a call from the code of a patch reaches the layer below it; any other call reaches the
latest patch.  Wrappers are exempt. -/
def callTarget (cfg : Cfg) (ps : List (Fn × Fn)) (caller : Code) (fn : Fn) : Fn :=
  if cfg.wrapperCode caller || cfg.wrapperFn fn then fn
  else (below cfg.code fn caller (layers ps fn)).getD ((layers ps fn).head?.getD fn)

/-- The modules called for an opcode while tracing: those that want it, in the order in which they were pushed. -/
def handlersFor (cfg : Cfg) (ms : List Mod) (op : Nat) : List Mod := ms.filter (fun m => decide (op ∈ cfg.wanted m))

/-- What is seen at a point. -/
def Ctx.look (cfg : Cfg) (c : Ctx) : Look → Seen
  | .var x => .value (c.vars x)
  | .call caller fn => .fn (callTarget cfg c.patches caller fn)
  | .handlers op => .mods (if c.tracing then handlersFor cfg c.modules op else [])
  | .modules => .mods c.modules
  | .tracing => .flag c.tracing
  | .stateSpace => .value c.space
  | .enforcing => .fns c.enforcing
  | .engaged => .flag c.engaged
  | .path => .paths c.path
  | .hooks => .hooks c.hooks

/-- The scopes that refuse to be entered. -/
def Ctx.refuses (c : Ctx) : Scope → Option Exc
  | .opened x _ reentrant => if !reentrant && (c.vars x).isSome then some .assertion else none
  | .reprContext _ => if c.tracing then none else some .internal
  | .stateSpace _ => if c.space.isSome then some .internal else none
  | .enforcement => if c.enforcing.isSome then some .assertion else none
  | .shortCircuit => if c.engaged then some .assertion else none
  | _ => none

/-- What is in force inside a scope. -/
def Ctx.inside (cfg : Cfg) (c : Ctx) : Scope → Ctx
  | .opened x v _ => { c with vars := fun y => if y = x then v else c.vars y }
  | .reprContext ps => { c with patches := ps.reverse ++ c.patches }
  | .patched ps ms => { c with patches := ps.reverse ++ c.patches, modules := c.modules ++ ms }
  | .pushed m => { c with modules := c.modules ++ [m] }
  | .noTracing => { c with tracing := false }
  | .resumedTracing => { c with tracing := true }
  | .tracer => { c with modules := c.modules ++ [cfg.patcher], tool := true, tracing := true }
  | .stateSpace n => { c with space := some n }
  | .enforcing f => { c with enforcing := c.enforcing.map (f :: ·) }
  | .enforcement => { c with enforcing := some [], modules := c.modules ++ [cfg.enforcer] }
  | .shortCircuit => { c with engaged := true }
  | .pypath paths => { c with path := paths.reverse ++ c.path }
  | .pureImports => { c with hooks := c.hooks.map .prefer }

/-- The specification: the exception that ends a program and what it sees.  What is in force after a scope is what
was in force before it, however the scope is left. -/
def specRun (cfg : Cfg) : Prog → Ctx → Option Exc × List Seen
  | .skip, _ => (none, [])
  | .look l, c => (none, [c.look cfg l])
  | .raise e, _ => (some e, [])
  | .seq p q, c =>
    match specRun cfg p c with
    | (some e, log) => (some e, log)
    | (none, log) => ((specRun cfg q c).1, log ++ (specRun cfg q c).2)
  | .scope sc p, c =>
    match c.refuses sc with
    | some e => (some e, [])
    | none => specRun cfg p (c.inside cfg sc)
  | .attempt p, c => (none, (specRun cfg p c).2)

/-- Patches of the same function that are in force together have different code objects, and none is the function
itself. -/
def PatchesOk (cfg : Cfg) (ps : List (Fn × Fn)) : Prop :=
  ps.Pairwise (fun p q => p.1 = q.1 → cfg.code p.2 ≠ cfg.code q.2) ∧ ∀ p ∈ ps, p.2 ≠ p.1

/-- The ways of nesting that the scopes are made for: patches have their own code objects, the patches of one scope
are a dict (each function once), no tracing module is pushed while it is in force already, tracing is started
once, a function is not enforced within itself; and there is at least one opcode patch. -/
def Ctx.Fits (cfg : Cfg) (c : Ctx) : Scope → Prop
  | .reprContext ps => PatchesOk cfg (ps.reverse ++ c.patches) ∧ (ps.map (·.1)).Nodup
  | .patched ps ms => PatchesOk cfg (ps.reverse ++ c.patches) ∧ (ps.map (·.1)).Nodup ∧
      (c.modules ++ ms).Nodup ∧ ms ≠ []
  | .pushed m => m ∉ c.modules
  | .tracer => cfg.patcher ∉ c.modules ∧ c.tool = false ∧ c.tracing = false
  | .enforcing f => ∀ fs, c.enforcing = some fs → f ∉ fs
  | .enforcement => cfg.enforcer ∉ c.modules
  | .pureImports => False
  | _ => True

/-- All scopes of a program that are reached are nested in these ways, and it does not raise `GeneratorExit`. -/
def WellNested (cfg : Cfg) : Prog → Ctx → Prop
  | .skip, _ => True
  | .look _, _ => True
  | .raise e, _ => e ≠ .generatorExit
  | .seq p q, c => WellNested cfg p c ∧ WellNested cfg q c
  | .scope sc p, c => c.Fits cfg sc ∧ WellNested cfg p (c.inside cfg sc)
  | .attempt p, c => WellNested cfg p c

/-- The opcodes wanted are opcodes, each once. -/
def Cfg.Ok (cfg : Cfg) : Prop := ∀ m, (cfg.wanted m).Nodup ∧ ∀ op ∈ cfg.wanted m, op < 256

/-- The state at the start of CrossHair, or one in which everything has been undone: nothing is in force. -/
def initial : State := {}

end Verif.Scope
