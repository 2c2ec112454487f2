/-!
# Scoped state

Models the context managers through which CrossHair changes global state for a while: context variables, patches of
functions, tracing modules, switching tracing off and on, and a few flags.  Programs are built from scopes,
sequences, exceptions and handlers.

Functions, code objects, tracing modules and values are numbers.  One thread.
-/
namespace Verif.Scope

abbrev Fn := Nat
abbrev Code := Nat
abbrev Mod := Nat

/-- What does not change: the code object of each function, which code objects and functions are wrappers made by
CrossHair, the opcodes that each tracing module wants, the opcodes that are traced by default
(`_tracers.c:47-76 _ch_TRACABLE_INSTRUCTIONS`), and the patching and enforcing modules. -/
structure Cfg where
  code : Fn → Code
  wrapperCode : Code → Bool
  wrapperFn : Fn → Bool
  wanted : Mod → List Nat
  traceable : Nat → Bool
  patcher : Mod
  enforcer : Mod

/-- The exceptions that end a scope. -/
inductive Exc where
  | user (n : Nat)
  | generatorExit
  | assertion
  | internal
  | valueError
  | keyError
  deriving DecidableEq, Repr

/-- pure_importer.py:9-11: a path hook, possibly wrapped. -/
inductive Hook where
  | orig (n : Nat)
  | prefer (h : Hook)
  deriving DecidableEq, Repr

/-- pure_importer.py:25 `isinstance(hook, PreferPureLoaderHook)` -/
def Hook.isPrefer : Hook → Bool
  | .prefer _ => true
  | .orig _ => false

/-- pure_importer.py:26 `hook.orig_hook` -/
def Hook.inner : Hook → Hook
  | .prefer h => h
  | .orig n => .orig n

/-- The global state. -/
structure State where
  /-- util.py:633: the attribute `value` of each variable's thread-local; `none` is absent or `None` -/
  vars : Nat → Option Nat := fun _ => none
  /-- tracers.py:221: `overrides` of the patching module -/
  overrides : Fn → Option Fn := fun _ => none
  /-- tracers.py:222: `nextfn`, from code object and original function -/
  nextfn : Code → Fn → Option Fn := fun _ _ => none
  /-- _tracers.h: `modules` -/
  modules : List Mod := []
  /-- _tracers.h: `handlers`, each table mapping opcodes to modules -/
  tables : List (Nat → Option Mod) := []
  /-- _tracers.h: `trace_all_opcodes` -/
  traceAll : Bool := false
  /-- _tracers.h: `enabled` -/
  enabled : Bool := false
  /-- whether the identifier of the monitoring tool is in use (`sys.monitoring`) -/
  tool : Bool := false
  /-- statespace.py: `_THREAD_LOCALS.space` -/
  space : Option Nat := none
  /-- enforce.py:191: `fns_enforcing` -/
  enforcing : Option (List Fn) := none
  /-- core.py:1106: `engaged` -/
  engaged : Bool := false
  /-- `sys.path` -/
  path : List Nat := []
  /-- `sys.path_hooks` -/
  hooks : List Hook := []

/-! ## Patches -/

/-- tracers.py:226-233 `PatchingModule.add`; the state at the failure is returned when the assertion fails. -/
def addPatches (cfg : Cfg) : List (Fn × Fn) → State → Except (Exc × State) State
  | [], s => .ok s
  | (orig, new) :: rest, s =>
    let prev := (s.overrides orig).getD orig
    if prev = new then .error (.assertion, s)
    else addPatches cfg rest { s with
      nextfn := fun c f => if c = cfg.code new ∧ f = orig then some prev else s.nextfn c f
      overrides := fun f => if f = orig then some new else s.overrides f }

/-- tracers.py:235-238 `PatchingModule.pop` -/
def popPatches (cfg : Cfg) : List (Fn × Fn) → State → State × Option Exc
  | [], s => (s, none)
  | (orig, the_override) :: rest, s =>
    match s.overrides orig with
    | none => (s, some .keyError)
    | some cur =>
      if cur = the_override then
        match s.nextfn (cfg.code the_override) orig with
        | none => (s, some .keyError)
        | some prev => popPatches cfg rest { s with
            nextfn := fun c f => if c = cfg.code the_override ∧ f = orig then none else s.nextfn c f
            overrides := fun f => if f = orig then some prev else s.overrides f }
      else (s, some .assertion)

/-- tracers.py:243-268 `PatchingModule.trace_call`: the function that is called in place of `fn` by code `caller`;
`fn` itself when `trace_call` returns `None`.  All functions are hashable here. -/
def resolve (cfg : Cfg) (s : State) (caller : Code) (fn : Fn) : Fn :=
  match s.overrides fn with
  | none => fn
  | some target =>
    if cfg.wrapperCode caller then fn
    else if cfg.wrapperFn fn then fn
    else match s.nextfn caller fn with
      | some next => if next = fn then fn else next
      | none => target

/-! ## Tracing modules -/

/-- _tracers.c:275-289: enter the module for an opcode into the first table where the opcode is free, adding a table
if there is none. -/
def place (m : Mod) (op : Nat) : List (Nat → Option Mod) → List (Nat → Option Mod)
  | [] => [fun o => if o = op then some m else none]
  | t :: ts =>
    if t op = none then (fun o => if o = op then some m else t o) :: ts else t :: place m op ts

/-- _tracers.c:251-290: the loop over the opcodes wanted. -/
def placeAll (cfg : Cfg) (m : Mod) : List Nat → State → State
  | [], s => s
  | op :: rest, s =>
    if op ≥ 256 then placeAll cfg m rest s
    else placeAll cfg m rest { s with
      traceAll := s.traceAll || !cfg.traceable op
      tables := place m op s.tables }

/-- _tracers.c:211-297 `CTracer_push_module`, for a module whose `opcodes_wanted` is a set of integers. -/
def pushModule (cfg : Cfg) (m : Mod) (s : State) : State :=
  placeAll cfg m (cfg.wanted m) { s with modules := s.modules ++ [m] }

/-- Whether the first table has a handler for an opcode that is not traced by default. -/
def topUntraceable (cfg : Cfg) (tables : List (Nat → Option Mod)) : Bool :=
  match tables with
  | [] => false
  | top :: _ => (List.range 256).any (fun op => (top op).isSome && !cfg.traceable op)

/-- _tracers.c:300-347 `CTracer_pop_module` -/
def popModule (cfg : Cfg) (m : Mod) (s : State) : State × Option Exc :=
  match s.modules.getLast? with
  | none => (s, some .valueError)
  | some last =>
    if m ≠ last then (s, some .valueError)
    else
      let tables := s.tables.map (fun t => fun o => if t o = some m then none else t o)
      ({ s with
        modules := s.modules.dropLast
        tables := tables
        traceAll := if s.traceAll then topUntraceable cfg tables else false }, none)

/-- _tracers.c:734-785 `CTracer_instruction_monitor` and 406-500 `CTracer_handle_opcode`: the modules that are called
for an opcode, in order.  An opcode that is not traced by default is skipped unless `trace_all_opcodes` is set;
that the next opcode after a traced one is handled too does not matter here. -/
def handlers (cfg : Cfg) (s : State) (op : Nat) : List Mod :=
  if !s.enabled then []
  else if !s.traceAll && !cfg.traceable op then []
  else s.tables.filterMap (fun t => t op)

/-! ## Scopes -/

/-- The context managers. -/
inductive Scope where
  /-- util.py:634-645 `DynamicScopeVar.open` -/
  | opened (x : Nat) (v : Option Nat) (reentrant : Bool)
  /-- util.py:520-572 `EvalFriendlyReprContext` -/
  | reprContext (patches : List (Fn × Fn))
  /-- core.py:148-162 `Patched`, with the registered patches and opcode patches, which are the same at its end -/
  | patched (patches : List (Fn × Fn)) (mods : List Mod)
  /-- tracers.py:401-410 `PushedModule` -/
  | pushed (m : Mod)
  /-- tracers.py:417-418 `NoTracing` -/
  | noTracing
  /-- tracers.py:421-431 `ResumedTracing` -/
  | resumedTracing
  /-- tracers.py:291-315 `CompositeTracer` -/
  | tracer
  /-- statespace.py:270-287 `StateSpaceContext` -/
  | stateSpace (n : Nat)
  /-- enforce.py:195-204 `currently_enforcing` -/
  | enforcing (f : Fn)
  /-- enforce.py:207-219 `enabled_enforcement` -/
  | enforcement
  /-- core.py:1113-1120 `ShortCircuitingContext` -/
  | shortCircuit
  /-- util.py:328-336 `add_to_pypath` -/
  | pypath (paths : List Nat)
  /-- pure_importer.py:20-28 `prefer_pure_python_imports` -/
  | pureImports
  deriving DecidableEq, Repr

/-- What a scope remembers from its start. -/
inductive Saved where
  | nothing
  | old (v : Option Nat)
  | noop (b : Bool)
  | path (p : List Nat)
  deriving DecidableEq, Repr

/-- core.py:153-154: push modules one after the other. -/
def pushAll (cfg : Cfg) : List Mod → State → State
  | [], s => s
  | m :: ms, s => pushAll cfg ms (pushModule cfg m s)

/-- core.py:159-160: pop modules; the list is reversed already. -/
def popAll (cfg : Cfg) : List Mod → State → State × Option Exc
  | [], s => (s, none)
  | m :: ms, s =>
    match popModule cfg m s with
    | (s', none) => popAll cfg ms s'
    | (s', some e) => (s', some e)

/-- Entering a scope: what it remembers and the new state, or the exception raised and the state at that point. -/
def enter (cfg : Cfg) (sc : Scope) (s : State) : Except (Exc × State) (Saved × State) :=
  match sc with
  | .opened x v reentrant =>
    if !reentrant && (s.vars x).isSome then .error (.assertion, s)
    else .ok (.old (s.vars x), { s with vars := fun y => if y = x then v else s.vars y })
  | .reprContext patches =>
    if !s.enabled then .error (.internal, s)
    else match addPatches cfg patches s with
      | .error e => .error e
      | .ok s' => .ok (.nothing, s')
  | .patched patches mods =>
    match addPatches cfg patches s with
    | .error e => .error e
    | .ok s' =>
      if mods.isEmpty then .error (.internal, s')
      else .ok (.nothing, pushAll cfg mods s')
  | .pushed m => .ok (.nothing, pushModule cfg m s)
  | .noTracing =>  -- _tracers.c:897-914, disabling = True
    if s.enabled then .ok (.noop false, { s with enabled := false }) else .ok (.noop true, s)
  | .resumedTracing =>  -- _tracers.c:897-914, disabling = False
    if s.enabled then .ok (.noop true, s) else .ok (.noop false, { s with enabled := true })
  | .tracer =>
    let s1 := pushModule cfg cfg.patcher s
    if s1.tool then .error (.valueError, s1)
    else .ok (.nothing, { s1 with tool := true, enabled := true })
  | .stateSpace n =>
    if s.space.isSome then .error (.internal, s) else .ok (.nothing, { s with space := some n })
  | .enforcing f =>
    match s.enforcing with
    | none => .ok (.noop true, s)
    | some fs => .ok (.noop false, { s with enforcing := some (if f ∈ fs then fs else f :: fs) })
  | .enforcement =>
    if s.enforcing.isSome then .error (.assertion, s)
    else .ok (.nothing, pushModule cfg cfg.enforcer { s with enforcing := some [] })
  | .shortCircuit =>
    if s.engaged then .error (.assertion, s) else .ok (.nothing, { s with engaged := true })
  | .pypath paths => .ok (.path s.path, { s with path := paths.reverse ++ s.path })
  | .pureImports => .ok (.nothing, { s with hooks := s.hooks.map .prefer })

/-- Leaving a scope, with the exception that ended its body if any: the new state, and an exception raised by the
scope itself. -/
def leave (cfg : Cfg) (sc : Scope) (saved : Saved) (exc : Option Exc) (s : State) : State × Option Exc :=
  match sc with
  | .opened x v _ =>
    match saved with
    | .old ov =>
      if s.vars x = v then ({ s with vars := fun y => if y = x then ov else s.vars y }, none)
      else (s, some .assertion)
    | _ => (s, some .internal)
  | .reprContext patches => popPatches cfg patches s
  | .patched patches mods =>
    match popAll cfg mods.reverse s with
    | (s', some e) => (s', some e)
    | (s', none) => popPatches cfg patches s'
  | .pushed m => popModule cfg m s
  | .noTracing =>  -- _tracers.c:917-931
    if saved = .noop false ∧ exc ≠ some .generatorExit then ({ s with enabled := true }, none) else (s, none)
  | .resumedTracing =>
    if saved = .noop false ∧ exc ≠ some .generatorExit then ({ s with enabled := false }, none) else (s, none)
  | .tracer => popModule cfg cfg.patcher { s with tool := false, enabled := false }
  | .stateSpace n =>
    if s.space = some n then ({ s with space := none }, none) else (s, some .internal)
  | .enforcing f =>
    if saved = .noop true then (s, none)
    else match s.enforcing with
      | none => (s, some .internal)
      | some fs => if f ∈ fs then ({ s with enforcing := some (fs.erase f) }, none) else (s, some .keyError)
  | .enforcement => popModule cfg cfg.enforcer { s with enforcing := none }
  | .shortCircuit => if s.engaged then ({ s with engaged := false }, none) else (s, some .assertion)
  | .pypath _ =>
    match saved with
    | .path p => ({ s with path := p }, none)
    | _ => (s, some .internal)
  | .pureImports =>  -- no `finally`: nothing happens after an exception
    if exc.isSome then (s, none)
    else if s.hooks.all Hook.isPrefer then ({ s with hooks := s.hooks.map Hook.inner }, none)
    else (s, some .assertion)

/-! ## Programs -/

/-- What a program can look at. -/
inductive Look where
  | var (x : Nat)
  | call (caller : Code) (fn : Fn)
  | handlers (op : Nat)
  | modules
  | tracing
  | stateSpace
  | enforcing
  | engaged
  | path
  | hooks
  deriving DecidableEq, Repr

/-- What it sees. -/
inductive Seen where
  | value (v : Option Nat)
  | fn (f : Fn)
  | mods (ms : List Mod)
  | flag (b : Bool)
  | fns (fs : Option (List Fn))
  | paths (ps : List Nat)
  | hooks (hs : List Hook)
  deriving DecidableEq, Repr

/-- util.py:655 `get_if_in_scope`, `trace_call`, the handlers of an opcode, `get_modules`, and the flags. -/
def look (cfg : Cfg) (s : State) : Look → Seen
  | .var x => .value (s.vars x)
  | .call caller fn => .fn (resolve cfg s caller fn)
  | .handlers op => .mods (handlers cfg s op)
  | .modules => .mods s.modules
  | .tracing => .flag s.enabled
  | .stateSpace => .value s.space
  | .enforcing => .fns s.enforcing
  | .engaged => .flag s.engaged
  | .path => .paths s.path
  | .hooks => .hooks s.hooks

/-- Programs: `look` records what is seen, `raise` raises, `scope` is a `with` statement, and `attempt` is a `try`
whose handler catches everything. -/
inductive Prog where
  | skip
  | look (l : Look)
  | raise (e : Exc)
  | seq (p q : Prog)
  | scope (sc : Scope) (p : Prog)
  | attempt (p : Prog)

/-- The final state, the exception that ended the program if any, and what was seen. -/
def run (cfg : Cfg) : Prog → State → State × Option Exc × List Seen
  | .skip, s => (s, none, [])
  | .look l, s => (s, none, [look cfg s l])
  | .raise e, s => (s, some e, [])
  | .seq p q, s =>
    match run cfg p s with
    | (s', some e, log) => (s', some e, log)
    | (s', none, log) =>
      match run cfg q s' with
      | (s'', r, log') => (s'', r, log ++ log')
  | .scope sc p, s =>
    match enter cfg sc s with
    | .error (e, s') => (s', some e, [])
    | .ok (saved, s1) =>
      match run cfg p s1 with
      | (s2, r, log) =>
        match leave cfg sc saved r s2 with
        | (s3, some e) => (s3, some e, log)
        | (s3, none) => (s3, r, log)
  | .attempt p, s =>
    match run cfg p s with
    | (s', _, log) => (s', none, log)

end Verif.Scope
