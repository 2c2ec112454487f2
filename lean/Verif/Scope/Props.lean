import Verif.Scope.Lemmas

/-! Properties of scoped state (C51). -/
namespace Verif.Scope

/-- A configuration for examples: each function has its own code object; module 7 is the patching module, which wants
opcode 1, module 8 the enforcing module, which wants opcodes 1 and 2, and module 9 wants opcodes 2 and 3; opcode 3 is
not traced by default. -/
def exampleCfg : Cfg where
  code := fun f => f + 100
  wrapperCode := fun _ => false
  wrapperFn := fun _ => false
  wanted := fun m => if m = 7 then [1] else if m = 8 then [1, 2] else if m = 9 then [2, 3] else []
  traceable := fun op => op != 3
  patcher := 7
  enforcer := 8

theorem exampleCfg_ok : exampleCfg.Ok := by
  intro m
  simp only [exampleCfg]
  split
  · decide
  · split
    · decide
    · split <;> simp

/-- A program of nested scopes that is left by exceptions. -/
def exampleProg : Prog :=
  .scope .tracer <|
    .seq
      (.attempt (.scope (.patched [(1, 2), (5, 6)] [9]) <|
        .seq (.look (.call 0 1)) <|
        .seq (.scope (.reprContext [(1, 3)]) (.seq (.look (.call 0 1)) (.seq (.look (.call 103 1)) (.look (.call 102 1))))) <|
        .seq (.look (.handlers 3)) <|
        .seq (.scope .enforcement (.seq (.look (.handlers 2)) (.scope (.enforcing 5) (.look .enforcing)))) <|
        .seq (.scope (.opened 4 (some 10) false) (.scope .noTracing (.seq (.look (.handlers 1)) (.look (.var 4))))) <|
        .scope (.pypath [30, 31]) (.seq (.look .path) (.raise (.user 1)))))
      (.seq (.look (.call 0 1)) (.seq (.look (.handlers 3)) (.look (.handlers 1))))

/-- **C51.** Run from a state in which nothing is in force, a program of well-nested scopes sees at every point just
what the enclosing scopes put in force, whatever was entered and left before, and however it was left: the run agrees
with `specRun`, where a scope has no effect outside its body.  At the end everything looks as at the start.  (It is
partial because `WellNested` excludes `GeneratorExit`, a few ways of nesting and `prefer_pure_python_imports`; see
the disagreements below.) -/
theorem scopes_restore_partial (cfg : Cfg) (hcfg : cfg.Ok) (p : Prog) (hp : WellNested cfg p {}) :
    (run cfg p initial).2 = specRun cfg p {} ∧
      ∀ l, look cfg (run cfg p initial).1 l = look cfg initial l := by
  obtain ⟨s', h1, h2, _⟩ := run_inv hcfg p inv_initial hp
  rw [h1]
  exact ⟨rfl, fun l => by rw [inv_look h2, inv_look (inv_initial (cfg := cfg))]⟩

theorem exampleProg_wellNested : WellNested exampleCfg exampleProg {} := by
  simp [exampleProg, WellNested, Ctx.Fits, Ctx.inside, exampleCfg, PatchesOk]

example : specRun exampleCfg exampleProg {} =
    (none, [.fn 2, .fn 3, .fn 2, .fn 1, .mods [9], .mods [9, 8], .fns (some [5]), .mods [], .value (some 10),
      .paths [31, 30], .fn 1, .mods [], .mods [7]]) := by decide +kernel

example : (run exampleCfg exampleProg initial).2 = specRun exampleCfg exampleProg {} :=
  (scopes_restore_partial exampleCfg exampleCfg_ok exampleProg exampleProg_wellNested).1

/-- The scopes around a point, the outermost first. -/
def within : List Scope → Prog → Prog
  | [], p => p
  | sc :: scs, p => .scope sc (within scs p)

/-- **C51.** Within any scopes, what is seen after running a program, even one that raises an exception, is what was
seen before it. -/
theorem seen_again_partial (cfg : Cfg) (hcfg : cfg.Ok) (scs : List Scope) (l : Look) (p : Prog)
    (hp : WellNested cfg (within scs (.seq (.look l) (.seq (.attempt p) (.look l)))) {})
    (hr : ∀ e, (run cfg (within scs (.seq (.look l) (.seq (.attempt p) (.look l)))) initial).2.1 ≠ some e) :
    ∃ v seen, (run cfg (within scs (.seq (.look l) (.seq (.attempt p) (.look l)))) initial).2.2 = v :: (seen ++ [v]) := by
  have h := (scopes_restore_partial cfg hcfg _ hp).1
  rw [h] at hr ⊢
  clear h hp
  generalize ({} : Ctx) = c at hr ⊢
  induction scs generalizing c with
  | nil => exact ⟨c.look cfg l, (specRun cfg p c).2, by simp [within, specRun]⟩
  | cons sc scs ih =>
    simp only [within, specRun] at hr ⊢
    cases hc : c.refuses sc with
    | some e => rw [hc] at hr; exact absurd rfl (hr e)
    | none => rw [hc] at hr; exact ih _ hr

example : (run exampleCfg (within [.tracer, .patched [(1, 2)] [9]] (.seq (.look (.handlers 3)) (.seq (.attempt
    (.scope .noTracing (.scope (.pushed 8) (.raise (.user 0))))) (.look (.handlers 3))))) initial).2.2 =
    [.mods [9], .mods [9]] := by decide +kernel

/-- **C51.** `add_to_pypath` puts back the path whatever its body did, well nested or not, and whatever the state. -/
theorem pypath_restores (cfg : Cfg) (paths : List Nat) (p : Prog) (s : State) :
    (run cfg (.scope (.pypath paths) p) s).1.path = s.path := by
  simp only [run, enter, leave]

example : (run exampleCfg (.scope (.pypath [4]) (.scope (.opened 1 none true) (.raise .generatorExit)))
    { initial with path := [1, 2] }).1.path = [1, 2] := by decide +kernel

/-- **C51.** `prefer_pure_python_imports` puts back the path hooks if its body ends without an exception and leaves
the hooks alone. -/
theorem pureImports_restores_partial (cfg : Cfg) (p : Prog) (s s2 : State) (log : List Seen)
    (hp : run cfg p { s with hooks := s.hooks.map .prefer } = (s2, none, log))
    (hh : s2.hooks = s.hooks.map .prefer) :
    (run cfg (.scope .pureImports p) s).1.hooks = s.hooks ∧ (run cfg (.scope .pureImports p) s).2 = (none, log) := by
  have hall : (s.hooks.map Hook.prefer).all Hook.isPrefer = true := by simp [Hook.isPrefer]
  have hmap : (s.hooks.map Hook.prefer).map Hook.inner = s.hooks := by
    rw [List.map_map]
    conv => rhs; rw [← List.map_id s.hooks]
    rfl
  simp only [run, enter, hp, leave, Option.isSome_none, Bool.false_eq_true, if_false, hh, hall, if_true, hmap, and_self]

example : (run exampleCfg (.scope .pureImports (.look .hooks)) { initial with hooks := [.orig 1, .orig 2] }).2.2 =
    [.hooks [.prefer (.orig 1), .prefer (.orig 2)]] := by decide +kernel

/-- **C51.** Scopes of patches that are not left in the reverse order are noticed: to remove a patch that is not the
latest of its function raises `AssertionError` and changes nothing. -/
theorem pop_out_of_order (cfg : Cfg) (s : State) (orig old new : Fn) (rest : List (Fn × Fn))
    (h : s.overrides orig = some new) (hne : new ≠ old) :
    popPatches cfg ((orig, old) :: rest) s = (s, some .assertion) := by
  simp [popPatches, h, hne]

example : (popPatches exampleCfg [(1, 2)] { initial with overrides := fun f => if f = 1 then some 3 else none }).2 =
    some .assertion := by decide +kernel

/-! ## Disagreements -/

/-- Disagreement: after an exception, `prefer_pure_python_imports` leaves the hooks wrapped. -/
theorem pureImports_exception :
    (run exampleCfg (.scope .pureImports (.raise (.user 0))) { initial with hooks := [.orig 1] }).1.hooks ≠
      [.orig 1] := by decide +kernel

/-- Disagreement: `GeneratorExit` that passes through `NoTracing` leaves tracing off (which is on purpose, since a
generator may be closed anywhere, but then tracing stays off within the scopes around). -/
theorem noTracing_generatorExit :
    (run exampleCfg (.scope .tracer (.seq (.look .tracing) (.seq (.attempt (.scope .noTracing (.raise .generatorExit)))
      (.look .tracing)))) initial).2.2 = [.flag true, .flag false] := by decide +kernel

/-- Disagreement: a module that is pushed again while it is in force is not called any more after the inner scope,
although it is still listed. -/
theorem pushed_twice :
    (run exampleCfg (.scope .tracer (.scope (.pushed 9) (.seq (.look (.handlers 3)) (.seq
      (.scope (.pushed 9) .skip) (.seq (.look (.handlers 3)) (.look .modules)))))) initial).2.2 =
      [.mods [9], .mods [], .mods [7, 9]] := by decide +kernel

/-- Disagreement: a tracer that is entered while another one is active raises `ValueError` with its patching module
pushed. -/
theorem tracer_twice :
    (run exampleCfg (.scope .tracer (.seq (.look .modules) (.seq (.attempt (.scope .tracer .skip)) (.look .modules))))
      initial).2 = (none, [.mods [7], .mods [7, 7]]) := by decide +kernel

/-- Disagreement: a function enforced within itself is not marked as enforced after the inner scope, and the outer
scope ends with `KeyError`. -/
theorem enforcing_twice :
    (run exampleCfg (.scope .enforcement (.scope (.enforcing 5) (.seq (.look .enforcing) (.seq
      (.scope (.enforcing 5) .skip) (.look .enforcing))))) initial).2 =
      (some .keyError, [.fns (some [5]), .fns (some [])]) := by decide +kernel

/-- Functions 2 and 3 have the same code object, as two closures made by one `def` do. -/
def sharedCode : Cfg := { exampleCfg with code := fun f => if f = 3 then 102 else f + 100 }

/-- Disagreement: two patches of a function with the same code object, one within the other.  The layer below the
outer one is overwritten, so inside the outer patch calls itself, and the outer scope ends with `KeyError` and its
patch in force. -/
theorem patch_same_code :
    (run sharedCode (.seq (.attempt (.scope .tracer (.scope (.reprContext [(1, 2)]) (.seq (.look (.call 102 1))
      (.scope (.reprContext [(1, 3)]) (.look (.call 102 1))))))) (.look (.call 0 1))) initial).2 =
      (none, [.fn 1, .fn 2, .fn 2]) := by decide +kernel

/-- Disagreement: `Patched` without opcode patches fails, with its patches in force. -/
theorem patched_without_opcodes :
    (run exampleCfg (.seq (.attempt (.scope (.patched [(1, 2)] []) .skip)) (.look (.call 0 1))) initial).2 =
      (none, [.fn 2]) := by decide +kernel

end Verif.Scope
