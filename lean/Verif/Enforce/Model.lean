/-
Model of the enforcement of contracts on calls: crosshair/enforce.py 48-282.

Python code is a tree of steps (`Prog`): it reads and writes a state `σ`, and calls functions, which
are numbers.  An argument list is one value `V`.  A condition is code as well: it may call functions,
and the calls are enforced in their turn.  Running takes fuel, since code need not end; `none` is "no
answer yet".  Tracing on and off, the bytecode level and error texts are left out.
-/
namespace Verif.Enforce

/-- Functions, by number. -/
abbrev Fn := Nat

/-- Names, as characters. -/
abbrev Name := List Char

/-- What can be raised.  `pre f i` and `post f i`: enforce.py 24-29, 107 and 130, condition `i` of `f`;
`mutableArgs f`: the `PostconditionFailed` of 97; `bad f`: the `TypeError` of `signature.bind` (81);
`missing f`: the `KeyError` of `set.remove` (204); `user e`: anything else. -/
inductive Exc (E : Type) where
  | pre (f : Fn) (i : Nat)
  | post (f : Fn) (i : Nat)
  | mutableArgs (f : Fn)
  | bad (f : Fn)
  | missing (f : Fn)
  | user (e : E)
  deriving DecidableEq, Repr

/-- The outcome of code: a value or an exception. -/
inductive Out (V E : Type) where
  | val (v : V)
  | exc (e : Exc E)
  deriving DecidableEq, Repr

/-- Python code.  `call w f a k` calls `f` on `a`; `w` says whether the call is one for which
`trace_call` looks for conditions (239-257, see `traceCall`). -/
inductive Prog (σ V E : Type) where
  | ret (v : V)
  | raise (e : Exc E)
  | get (k : σ → Prog σ V E)
  | put (s : σ) (k : Prog σ V E)
  | call (w : Bool) (f : Fn) (a : V) (k : Out V E → Prog σ V E)

/-- condition_parser.py 208-270, the parts `EnforcementWrapper` uses.  `bind` is
`signature.bind` with `apply_defaults` (enforce.py 81-82); `snap` makes the copies of the arguments in
`__old__` (88-93; uncopyable arguments are up to `snap`); a postcondition without `evaluate` is `none`
(125). -/
structure Conds (σ V E O : Type) where
  bind : V → Option V
  params : List Name
  mutableArgs : Option (List Name)
  snap : σ → V → O
  pre : List (V → Prog σ V E)
  post : List (Option (O → V → V → Prog σ V E))

/-- The functions of a program, with the conditions that the parser finds for them (259-278). -/
structure Code (σ V E O : Type) where
  truthy : V → Bool
  body : Fn → V → Prog σ V E
  conds : Fn → Option (Conds σ V E O)

/-- enforce.py 192: `fns_enforcing`, `None` when enforcement is off. -/
abbrev Busy := Option (List Fn)

/-- The state of a run: outcome, state, and the functions being enforced. -/
abbrev Run (σ V E : Type) := Option (Out V E × σ × Busy)

/-- enforce.py 196-200: on entry of `currently_enforcing`. -/
def enter (f : Fn) : Busy → Busy
  | none => none
  | some l => some (if l.contains f then l else f :: l)

/-- enforce.py 201-204: on exit, `set.remove` in `finally`.  An error there replaces the outcome. -/
def leave {V E : Type} (f : Fn) (o : Out V E) : Busy → Out V E × Busy
  | none => (o, none)
  | some l => if l.contains f then (o, some (l.filter (· != f))) else (.exc (.missing f), some l)

/-- enforce.py 83-101: are there mutable arguments that are not parameters? -/
def unknownMutable {σ V E O : Type} (c : Conds σ V E O) : Bool :=
  match c.mutableArgs with
  | none => false
  | some m => m.any (fun x => !c.params.contains x)

section
variable {σ V E O : Type}

/-- enforce.py 102-110: the loop over preconditions.  `none` in the outcome: all hold. -/
def preLoop (truthy : V → Bool) (ev : Busy → σ → Prog σ V E → Run σ V E) (f : Fn) (args : V) :
    Nat → List (V → Prog σ V E) → Busy → σ → Option (Option (Exc E) × σ × Busy)
  | _, [], b, s => some (none, s, b)
  | i, p :: ps, b, s =>
    match ev b s (p args) with
    | none => none
    | some (.exc e, s', b') => some (some e, s', b')
    | some (.val v, s', b') =>
      if truthy v then preLoop truthy ev f args (i + 1) ps b' s' else some (some (.pre f i), s', b')

/-- enforce.py 123-134: the loop over postconditions.  `prefer_true` decides a symbolic outcome; here
outcomes are decided. -/
def postLoop (truthy : V → Bool) (ev : Busy → σ → Prog σ V E → Run σ V E) (f : Fn) (old : O) (args r : V) :
    Nat → List (Option (O → V → V → Prog σ V E)) → Busy → σ → Option (Option (Exc E) × σ × Busy)
  | _, [], b, s => some (none, s, b)
  | i, none :: ps, b, s => postLoop truthy ev f old args r (i + 1) ps b s
  | i, some p :: ps, b, s =>
    match ev b s (p old args r) with
    | none => none
    | some (.exc e, s', b') => some (some e, s', b')
    | some (.val v, s', b') =>
      if truthy v then postLoop truthy ev f old args r (i + 1) ps b' s' else some (some (.post f i), s', b')

/-- The first `with` block of enforce.py 79-110, for the outcome of its body: an exception or the bound
arguments with the old values. -/
def before (truthy : V → Bool) (ev : Busy → σ → Prog σ V E → Run σ V E) (f : Fn) (c : Conds σ V E O) (a : V)
    (b : Busy) (s : σ) : Option (Option (Exc E) × σ × Busy) :=
  match c.bind a with
  | none => some (some (.bad f), s, b)
  | some args =>
    if unknownMutable c then some (some (.mutableArgs f), s, b)
    else preLoop truthy ev f args 0 c.pre b s

/-- enforce.py 73-136: `_crosshair_wrapper`. -/
def wrapper (truthy : V → Bool) (ev : Busy → σ → Prog σ V E → Run σ V E) (body : Prog σ V E) (f : Fn)
    (c : Conds σ V E O) (a : V) (b : Busy) (s : σ) : Run σ V E :=
  match b with
  | none => ev b s body
  | some l =>
    if l.contains f then ev b s body
    else
      match before truthy ev f c a (enter f b) s with
      | none => none
      | some (some e, s', b') => let (o, b'') := leave f (.exc e) b'; some (o, s', b'')
      | some (none, s', b') =>
        match leave f (.val a) b' with
        | (.exc e, b'') => some (.exc e, s', b'')
        | (.val _, b'') =>
          match ev b'' s' body with
          | none => none
          | some (.exc e, s2, b2) => some (.exc e, s2, b2)
          | some (.val r, s2, b2) =>
            match postLoop truthy ev f (c.snap s ((c.bind a).getD a)) ((c.bind a).getD a) r 0 c.post (enter f b2) s2 with
            | none => none
            | some (some e, s3, b3) => let (o, b4) := leave f (.exc e) b3; some (o, s3, b4)
            | some (none, s3, b3) => let (o, b4) := leave f (.val r) b3; some (o, s3, b4)

/-- A call: with conditions and seen by the tracer it goes through the wrapper (275-282), otherwise
directly to the function. -/
def callFn (c : Code σ V E O) (ev : Busy → σ → Prog σ V E → Run σ V E) (w : Bool) (f : Fn) (a : V)
    (b : Busy) (s : σ) : Run σ V E :=
  match w, c.conds f with
  | true, some cs => wrapper c.truthy ev (c.body f a) f cs a b s
  | _, _ => ev b s (c.body f a)

/-- Running code. -/
def run (c : Code σ V E O) : Nat → Busy → σ → Prog σ V E → Run σ V E
  | 0, _, _, _ => none
  | _ + 1, b, s, .ret v => some (.val v, s, b)
  | _ + 1, b, s, .raise e => some (.exc e, s, b)
  | n + 1, b, s, .get k => run c n b s (k s)
  | n + 1, b, _, .put s' k => run c n b s' k
  | n + 1, b, s, .call w f a k =>
    match callFn c (run c n) w f a b s with
    | none => none
    | some (o, s', b') => run c n b' s' (k o)

end

/-! ### Which calls are enforced -/

/-- The code object of the caller (enforce.py 220-229). -/
structure Caller where
  name : Name
  file : Name

/-- enforce.py 145-171. -/
def quietSuffixes : List Name :=
  ["/ast.py", "/crosshair/libimpl/builtinslib.py", "/crosshair/core.py", "/crosshair/condition_parser.py",
   "/crosshair/enforce.py", "/crosshair/util.py", "/crosshair/fnutil.py", "/crosshair/statespace.py",
   "/crosshair/tracers.py", "/z3.py", "/z3core.py", "/z3printer.py", "/z3types.py", "/copy.py", "/inspect.py",
   "/re.py", "/copyreg.py", "/sre_parse.py", "/sre_compile.py", "/traceback.py", "/contextlib.py",
   "/linecache.py", "/collections/__init__.py", "/enum.py", "/typing.py"].map String.toList

/-- enforce.py 220-229: `wants_codeobj`. -/
def wants (c : Caller) : Bool :=
  if c.name == "_crosshair_with_enforcement".toList then true
  else if quietSuffixes.any (fun x => x.isSuffixOf c.file) then false
  else if c.name == "_crosshair_wrapper".toList then false
  else true

/-- enforce.py 231-237: `cached_wants_codeobj`, with the cache as an association list. -/
def cachedWants {K : Type} [DecidableEq K] (code : K → Caller) (cache : List (K × Bool)) (k : K) :
    Bool × List (K × Bool) :=
  match cache.lookup k with
  | some v => (v, cache)
  | none => (wants (code k), (k, wants (code k)) :: cache)

/-- What is being called.  `special`: `super` or `type`; `onClass` and `onType` are the conditions found
under the target's name on the binding target (when that is a class) and on its type, `onFn` those of a
function without binding target.  `any`: `has_any()` of the conditions. -/
structure Target (C : Type) where
  name : Option Name
  noEnforce : Bool
  isType : Bool
  special : Bool
  bound : Bool
  boundToClass : Bool
  onFn : Option C
  onClass : Option C
  onType : Option C

/-- What `trace_call` answers. -/
inductive Answer (C : Type) where
  | asIs
  | unwrapped
  | construct
  | enforce (c : C)
  deriving DecidableEq, Repr

/-- enforce.py 259-273: where conditions are looked for. -/
def lookUp {C : Type} (any : C → Bool) (t : Target C) : Option C :=
  if !t.bound then t.onFn
  else
    match (if t.boundToClass then t.onClass else none) with
    | some c => if any c then some c else t.onType
    | none => t.onType

/-- enforce.py 275-276: conditions without content are none. -/
def findConds {C : Type} (any : C → Bool) (t : Target C) : Option C := (lookUp any t).filter any

/-- enforce.py 239-282: `trace_call`.  (`C` stands for the conditions.) -/
def traceCall {C : Type} (any : C → Bool) (caller : Caller) (t : Target C) : Answer C :=
  if !wants caller then .asIs
  else
    let name := t.name.getD []
    if ">".toList.isSuffixOf name || "_crosshair_wrapper".toList.isSuffixOf name then .asIs
    else if t.noEnforce then .unwrapped
    else if t.isType && !t.special then .construct
    else
      match findConds any t with
      | none => .asIs
      | some c => .enforce c

/-- A class as far as construction goes; `metaCall` is a metaclass's own `__call__`. -/
structure Class (V R E : Type) where
  new : V → Out R E
  isInstance : R → Bool
  init : R → V → Option (Exc E)
  metaCall : Option (V → Out R E)

/-- enforce.py 48-59: `manual_constructor`. -/
def manualConstruct {V R E : Type} (c : Class V R E) (a : V) : Out R E :=
  match c.new a with
  | .exc e => .exc e
  | .val r =>
    if c.isInstance r then
      match c.init r a with
      | some e => .exc e
      | none => .val r
    else .val r

end Verif.Enforce
