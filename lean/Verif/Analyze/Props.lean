import Verif.Analyze.Lemmas
/-
The theorems about what is analysed.
-/
namespace Verif.Analyze
open Verif.Opts (OptSet Full Kind)

/-! ### Examples used below -/

/-- The options by default: on, with contracts in docstrings. -/
def exDefaults : Full Val
  | .enabled => .flag true
  | .analysisKind => .kinds [.pep316]
  | _ => .num 0

/-- No options. -/
def exNone : OptSet Val := OptSet.empty

/-- The directive `analysis_kind=asserts`. -/
def exAsserts : OptSet Val
  | .analysisKind => some (.kinds [.asserts])
  | _ => none

/-- A precondition, two postconditions and an invariant. -/
def exPre : Cond := ⟨.pre, 1, true, none⟩
def exPost : Cond := ⟨.post, 2, true, none⟩
def exPost' : Cond := ⟨.post, 3, true, none⟩
def exBad : Cond := ⟨.post, 4, false, some 7⟩
def exInv : Cond := ⟨.inv, 5, true, none⟩

/-- Contracts in the docstring, none with asserts. -/
def exFn (posts : List Cond) : Fn where
  name := "f".toList
  directives := exNone
  conds := fun ks => if ks = [.pep316] then some ⟨0, [exPre], posts, [], none, []⟩ else none

/-! ### Functions -/

/-- A function with a contract under the kinds of analysis in force is checked exactly if it is enabled by the options in force:
if nothing is wrong with the contract there is one check for each postcondition, in order, with all the preconditions; otherwise
all the messages about the contract are reported, and nothing is checked. -/
theorem function_checks (defaults : Full Val) (f : Fn) (given : OptSet Val) (o : Full Val) (ks : List Kind) (b : Bool)
    (ho : InForce defaults f.directives given o) (hk : o .analysisKind = .kinds ks) (hb : o .enabled = .flag b) :
    (b = false → analyzeFunction defaults none f.name f.directives f.conds given = []) ∧
    (f.conds ks = none → analyzeFunction defaults none f.name f.directives f.conds given = []) ∧
    ∀ c, f.conds ks = some c → b = true →
      (Wellformed c.pre c.post c.messages → (∀ p ∈ c.post, p.Sound) →
        analyzeFunction defaults none f.name f.directives f.conds given =
          c.post.map fun p => .condition f.name o { c with post := [p] }) ∧
      (¬ Wellformed c.pre c.post c.messages →
        ∃ ms, analyzeFunction defaults none f.name f.directives f.conds given = [.syntaxErrors ms] ∧
          ∀ m, m ∈ ms ↔ Faulty c.pre c.post c.messages m) := by
  have hko : kindsOf o = ks := by unfold kindsOf; rw [hk]
  have heo : enabledOf o = b := by unfold enabledOf; rw [hb]
  refine ⟨fun h => ?_, fun h => ?_, fun c hc h => ⟨fun hw hs => ?_, fun hw => ?_⟩⟩
  · unfold analyzeFunction
    rw [inForce_eq ho]
    simp [heo, h]
  · unfold analyzeFunction
    rw [inForce_eq ho]
    simp [conditionParser, hko, h]
  · exact analyzeFunction_wf defaults none f.name f.directives f.conds given o c ho (heo.trans h)
      (by rw [conditionParser, hko]; exact hc) hs hw
  · refine ⟨syntaxMessages c, ?_, fun m => mem_syntaxMessages c m⟩
    unfold analyzeFunction
    rw [inForce_eq ho]
    have : ¬ (syntaxMessages c).isEmpty = true := fun h => hw ((wellformed_iff c).mpr h)
    simp only [heo, h, Bool.not_true, Bool.false_eq_true, if_false, conditionParser, hko, hc, this]

example : InForce exDefaults (exFn [exPost, exPost']).directives exNone exDefaults := by
  intro f; cases f <;> rfl

example : (analyzeFunction exDefaults none "f".toList exNone (exFn [exPost, exPost']).conds exNone).length = 2 ∧
    (analyzeFunction exDefaults none "f".toList exNone (exFn [exPost, exBad]).conds exNone).length = 1 ∧
    (analyzeFunction exDefaults none "f".toList exAsserts (exFn [exPost, exBad]).conds exNone).length = 0 := by decide +kernel

/-! ### Classes -/

/-- Everything that is checked for a class belongs to a method that has a contract under the kinds of analysis for the class, that
is not abstract, and that needs no instance if the class is abstract; the messages are clamped to the class. -/
theorem class_checks_only (defaults : Full Val) (cls : Class) (given : OptSet Val) (ks : List Kind)
    (hk : defaults.overlay given .analysisKind = .kinds ks) (x : Check) (hx : x ∈ analyzeClass defaults none cls given) :
    ∃ n y, x = .clamped y cls.name ∧ (cls.attr n).abstractMethod = false ∧
      (cls.abstract = true → ¬ (cls.attr n).slot.NeedsInstance) ∧
      ∃ cc, Contract.methodConds (cls.tree ks) n = some cc ∧ ∀ o, InForce defaults (cls.attr n).directives given o →
        ((∃ p ∈ cc.post, y = .condition n o { cc with post := [p] }) ∨
          ∃ ms, y = .syntaxErrors ms ∧ ∀ m, m ∈ ms ↔ Faulty cc.pre cc.post cc.messages m) := by
  have hko : kindsOf (defaults.overlay given) = ks := by unfold kindsOf; rw [hk]
  obtain ⟨n, y, rfl, hsk, _, hy⟩ := mem_analyzeClass defaults cls given x hx
  rw [hko] at hy
  have hin : InForce defaults (cls.attr n).directives given ((defaults.overlay (cls.attr n).directives).overlay given) := by
    intro f
    simp only [Opts.lastSet, Full.overlay]
    cases given f <;> cases (cls.attr n).directives f <;> rfl
  obtain ⟨_, cc, hcc, h⟩ := mem_analyzeFunction _ _ _ _ _ _ _ y hin hy
  unfold skipped at hsk
  rw [Bool.or_eq_false_iff] at hsk
  refine ⟨n, y, rfl, hsk.1, fun ha => ?_, cc, hcc, fun o ho => ?_⟩
  · have h2 := hsk.2
    rw [ha] at h2
    generalize (cls.attr n).slot = s at h2
    cases s <;> simp [Slot.NeedsInstance] at h2 ⊢
  · rw [inForce_eq ho] at h
    rcases h with ⟨_, p, hp, _, he⟩ | ⟨ms, _, he, hm⟩
    · exact Or.inl ⟨p, hp, he⟩
    · exact Or.inr ⟨ms, he, hm⟩

/-- Every postcondition of a method is checked, if the options in force enable it, nothing is wrong with the contract, the method is
not abstract and needs no instance of an abstract class. -/
theorem class_checks_all (defaults : Full Val) (cls : Class) (given : OptSet Val) (ks : List Kind)
    (hk : defaults.overlay given .analysisKind = .kinds ks) (n : Name) (cc : Conds)
    (hcc : Contract.methodConds (cls.tree ks) n = some cc) (o : Full Val)
    (ho : InForce defaults (cls.attr n).directives given o) (hb : o .enabled = .flag true)
    (ha : (cls.attr n).abstractMethod = false) (hi : cls.abstract = true → ¬ (cls.attr n).slot.NeedsInstance)
    (hw : Wellformed cc.pre cc.post cc.messages) (hs : ∀ p ∈ cc.post, p.Sound) (p : Cond) (hp : p ∈ cc.post)
    (hinit : n = "__init__".toList → p.role ≠ .inv) :
    .clamped (.condition n o { cc with post := [p] }) cls.name ∈ analyzeClass defaults none cls given := by
  have hko : kindsOf (defaults.overlay given) = ks := by unfold kindsOf; rw [hk]
  have heo : enabledOf o = true := by unfold enabledOf; rw [hb]
  refine class_mem defaults cls given n cc _ (by rw [hko]; exact hcc) ?_ ?_ ?_
  · unfold skipped
    rw [ha]
    cases hca : cls.abstract with
    | false => rfl
    | true =>
      have h2 := hi hca
      generalize (cls.attr n).slot = s at h2
      cases s <;> simp [Slot.NeedsInstance] at h2 <;> rfl
  · unfold relevantConds
    split
    · rename_i hn
      have : p ∈ cc.post.filter (fun c => c.role != .inv) := by
        rw [List.mem_filter]
        exact ⟨hp, by simpa using hinit hn⟩
      simp only [Contract.Conds.hasAny]
      cases hf : cc.post.filter (fun c => c.role != .inv) with
      | nil => rw [hf] at this; exact absurd this (by simp)
      | cons a l => simp
    · simp only [Contract.Conds.hasAny]
      cases hf : cc.post with
      | nil => rw [hf] at hp; exact absurd hp (by simp)
      | cons a l => simp
  · rw [analyzeFunction_wf defaults _ n (cls.attr n).directives _ given o cc ho heo
      (by rw [hko]; simp only [conditionParser]; exact hcc) hs hw]
    exact List.mem_map_of_mem (f := fun p => Check.condition n o { cc with post := [p] }) hp

/-- A class with a method that has a postcondition. -/
def exBase : Contract.Cls Cond :=
  .mk ⟨false, [(true, [])], [("put".toList, .value [some ⟨1, [exPre], [exPost], [], none, []⟩])], 0⟩ []

/-- Its subclass, which overrides the method and adds a postcondition. -/
def exSub : Contract.Cls Cond :=
  .mk ⟨false, [(true, [])], [("put".toList, .value [some ⟨2, [], [exPost'], [], none, []⟩])], 0⟩ [exBase]

def exClass (tree : List Kind → Contract.Cls Cond) : Class where
  name := "C".toList
  abstract := false
  tree := tree
  attr := fun _ => {}

example : Contract.methodConds ((exClass fun _ => exSub).tree [.pep316]) "put".toList =
      some ⟨2, [exPre], [exPost, exPost'], [], none, []⟩ ∧
    (analyzeClass exDefaults none (exClass fun _ => exSub) exNone).length = 2 := by
  decide +kernel

example : (analyzeClass exDefaults none { exClass (fun _ => exSub) with abstract := true } exNone).length = 0 ∧
    (analyzeClass exDefaults none
      { exClass (fun _ => exSub) with abstract := true, attr := fun _ => { slot := .static } } exNone).length = 2 := by
  decide +kernel

/-- A subclass is checked against the postconditions of the class it inherits a method from, also if it overrides the method. -/
theorem inherited_checked (defaults : Full Val) (cls : Class) (given : OptSet Val) (ks : List Kind)
    (hk : defaults.overlay given .analysisKind = .kinds ks) (n : Name) (d : Contract.Decl Cond) (bases : List (Contract.Cls Cond))
    (base : Contract.Cls Cond) (cb cc : Conds) (ht : cls.tree ks = .mk d bases) (hd : Contract.Ordinary d)
    (hl : Contract.Leftmost n bases base) (hcb : Contract.methodConds base n = some cb)
    (hown : ∀ own, Contract.says d n = .declares own → own.pre = []) (hh : Contract.says d n ≠ .hides)
    (hcc : Contract.methodConds (cls.tree ks) n = some cc) (o : Full Val)
    (ho : InForce defaults (cls.attr n).directives given o) (hb : o .enabled = .flag true)
    (ha : (cls.attr n).abstractMethod = false) (hi : cls.abstract = true → ¬ (cls.attr n).slot.NeedsInstance)
    (hw : Wellformed cc.pre cc.post cc.messages) (hs : ∀ p ∈ cc.post, p.Sound) (p : Cond) (hp : p ∈ cb.post)
    (hinit : n ≠ "__init__".toList) :
    ∃ conds : Conds, conds.post = [p] ∧ cb.pre <+: conds.pre ∧
      .clamped (.condition n o conds) cls.name ∈ analyzeClass defaults none cls given := by
  have hkeep := Contract.subclass_keeps n d bases base cb cc hd hl hcb hown hh (ht ▸ hcc)
  exact ⟨{ cc with post := [p] }, rfl, hkeep.2,
    class_checks_all defaults cls given ks hk n cc hcc o ho hb ha hi hw hs p (hkeep.1.subset hp) fun h => absurd h hinit⟩

/-- If `__init__` has only invariants to fulfil, it is not checked. -/
theorem init_invariants_partial (defaults : Full Val) (cls : Class) (given : OptSet Val) (ks : List Kind)
    (hk : defaults.overlay given .analysisKind = .kinds ks)
    (hinit : ∀ cc, ("__init__".toList, cc) ∈ (Contract.classConds (cls.tree ks)).methods →
      cc.pre = [] ∧ (∀ p ∈ cc.post, p.role = .inv) ∧ cc.messages = [])
    (o : Full Val) (c : Conds) (x : Name) :
    .clamped (.condition "__init__".toList o c) x ∉ analyzeClass defaults none cls given := by
  have hko : kindsOf (defaults.overlay given) = ks := by unfold kindsOf; rw [hk]
  intro hx
  obtain ⟨n, y, hxy, _, ⟨e, he, hen, hany⟩, hy⟩ := mem_analyzeClass defaults cls given _ hx
  injection hxy with h1 h2
  have hin : InForce defaults (cls.attr n).directives given ((defaults.overlay (cls.attr n).directives).overlay given) := by
    intro f
    simp only [Opts.lastSet, Full.overlay]
    cases given f <;> cases (cls.attr n).directives f <;> rfl
  obtain ⟨_, cc, _, h⟩ := mem_analyzeFunction _ _ _ _ _ _ _ y hin hy
  rcases h with ⟨_, p, hp, _, h3⟩ | ⟨ms, _, h3, _⟩
  · rw [← h1] at h3
    injection h3 with h4 h5 h6
    obtain ⟨e1, e2⟩ := e
    subst hen
    simp only at h4 hany he
    subst h4
    rw [hko] at he
    obtain ⟨g1, g2, g3⟩ := hinit e2 he
    unfold relevantConds at hany
    rw [if_pos rfl] at hany
    have : e2.post.filter (fun c => c.role != .inv) = [] := by
      rw [List.filter_eq_nil_iff]
      intro q hq
      simp [g2 q hq]
    simp [Contract.Conds.hasAny, g1, g3, this] at hany
  · rw [← h1] at h3
    cases h3

/-- A class with an invariant whose `__init__` has the conditions given. -/
def exWithInit (pre : List Cond) : Contract.Cls Cond :=
  .mk ⟨false, [(true, [exInv])], [("__init__".toList, .value [some ⟨1, pre, [], [], none, []⟩])], 1⟩ []

example : ((Contract.classConds (exWithInit [])).methods.all fun e => e.2.pre.isEmpty && e.2.post.all fun p => p.role == .inv)
    = true ∧ (analyzeClass exDefaults none (exClass fun _ => exWithInit []) exNone).length = 0 := by decide +kernel

/-- Disagreement: the comment in the code says that invariants are not checked on `__init__`; but if `__init__` has a precondition
they are, since its conditions are looked up again. -/
theorem init_invariants_checked : ∃ (cls : Class) (o : Full Val) (c : Conds),
    .clamped (.condition "__init__".toList o c) cls.name ∈ analyzeClass exDefaults none cls exNone ∧ c.post = [exInv] := by
  refine ⟨exClass fun _ => exWithInit [exPre], exDefaults, ⟨1, [exPre], [exInv], [], none, []⟩, ?_, rfl⟩
  refine class_mem exDefaults _ exNone "__init__".toList ⟨1, [exPre], [exInv], [], none, []⟩ _ (by decide +kernel) (by decide +kernel)
    (by decide +kernel) ?_
  rw [analyzeFunction_wf exDefaults _ _ _ _ exNone exDefaults ⟨1, [exPre], [exInv], [], none, []⟩ (fun f => by cases f <;> rfl)
    rfl (by decide +kernel) (fun p hp => by simp at hp; subst hp; exact Or.inl rfl)
    ((wellformed_iff _).mpr rfl)]
  exact List.mem_map_of_mem (f := fun p => Check.condition "__init__".toList exDefaults
    { (⟨1, [exPre], [exInv], [], none, []⟩ : Conds) with post := [p] }) (by simp)

/-- A class with a contract in a docstring, and a directive asking for asserts. -/
def exDirected : Class where
  name := "C".toList
  abstract := false
  tree := fun ks => if ks = [.pep316] then exBase else .mk ⟨false, [(true, [])], [], 0⟩ []
  attr := fun _ => { directives := exAsserts }

/-- Disagreement: a directive that sets the kind of analysis holds for functions (`function_checks`), but for methods it is
recorded in the options of the check and not obeyed: here contracts in the docstring are checked although the options in
force ask for asserts. -/
theorem method_kind_ignored : ∃ (cls : Class) (n : Name) (o : Full Val) (c : Conds),
    InForce exDefaults (cls.attr n).directives exNone o ∧ o .analysisKind = .kinds [.asserts] ∧
    Contract.methodConds (cls.tree [.asserts]) n = none ∧
    .clamped (.condition n o c) cls.name ∈ analyzeClass exDefaults none cls exNone := by
  refine ⟨exDirected, "put".toList,
    (exDefaults.overlay exAsserts), ⟨1, [exPre], [exPost], [], none, []⟩, fun f => by cases f <;> rfl, rfl, by decide +kernel, ?_⟩
  refine class_mem exDefaults exDirected exNone "put".toList ⟨1, [exPre], [exPost], [], none, []⟩ _ (by decide +kernel) (by decide +kernel)
    (by decide +kernel) ?_
  rw [analyzeFunction_wf exDefaults _ _ _ _ exNone (exDefaults.overlay exAsserts) ⟨1, [exPre], [exPost], [], none, []⟩
    (fun f => by cases f <;> rfl) rfl (by decide +kernel) (fun p hp => by simp at hp; subst hp; exact Or.inl rfl)
    ((wellformed_iff _).mpr rfl)]
  exact List.mem_map_of_mem (f := fun p => Check.condition "put".toList (exDefaults.overlay exAsserts)
    { (⟨1, [exPre], [exPost], [], none, []⟩ : Conds) with post := [p] }) (by simp)

/-! ### Modules -/

/-- A module is analysed by analysing the functions and classes defined in it, in the order of their names, and nothing else; in
whatever order they were defined. -/
theorem module_checks (defaults : Full Val) (module : Name) (dict sorted : List (Name × Member)) (given : OptSet Val)
    (hp : sorted.Perm dict) (hs : Alphabetical (sorted.map Prod.fst)) :
    analyzeModule defaults module dict given = sorted.flatMap fun e =>
      if e.2.definedIn = some module then
        match e.2.thing with
        | .function f => analyzeFunction defaults none f.name f.directives f.conds given
        | .cls c => analyzeClass defaults none c given
        | .other => []
      else [] := by
  unfold analyzeModule topLevel
  rw [getmembers_eq dict sorted hp hs]
  clear hp hs
  induction sorted with
  | nil => rfl
  | cons e l ih =>
    rw [List.filterMap_cons, List.flatMap_cons, ← ih]
    by_cases hd : e.2.definedIn = some module
    · simp only [hd, if_true]
      cases e.2.thing <;> simp
    · simp [hd]

/-- If the names are different, there is such an order. -/
theorem module_order_exists (dict : List (Name × Member)) (hn : (dict.map Prod.fst).Nodup) :
    ∃ sorted : List (Name × Member), sorted.Perm dict ∧ Alphabetical (sorted.map Prod.fst) :=
  ⟨getmembers dict, getmembers_perm dict, by
    unfold Alphabetical
    rw [List.pairwise_map]
    exact getmembers_sorted dict hn⟩

example : (analyzeModule exDefaults "m".toList
    [("g".toList, ⟨some "other".toList, .function (exFn [exPost])⟩), ("f".toList, ⟨some "m".toList, .function (exFn [exPost])⟩),
     ("C".toList, ⟨some "m".toList, .cls (exClass fun _ => exSub)⟩), ("x".toList, ⟨none, .other⟩)] exNone).length = 3 := by
  decide +kernel

/-! ### Where messages are placed -/

/-- A message is always placed in the function's file, from its first line to the line after its last; an event within the function
keeps its place, and an event elsewhere is quoted at the first line of the function. -/
theorem message_place_partial {F : Type} [DecidableEq F] (g : Generator F) (abspath : F → F) (lines : F → List (List Char))
    (detail : List Char) (file : Option F) (line : Int) :
    abspath (g.make abspath lines detail file line).file = abspath g.file ∧
    g.start ≤ (g.make abspath lines detail file line).line ∧
    (g.make abspath lines detail file line).line ≤ g.start + g.length ∧
    (g.make abspath lines detail file line).detail = detail ∧
    (∀ f, file = some f → abspath f = abspath g.file → g.start ≤ line → line < g.start + g.length →
      g.make abspath lines detail file line = ⟨none, detail, f, line⟩) ∧
    (∀ f text, file = some f → (abspath f ≠ abspath g.file ∨ line < g.start ∨ g.start + g.length < line) → 1 ≤ line →
      (lines f)[(line - 1).toNat]? = some text → g.make abspath lines detail file line = ⟨some text, detail, g.file, g.start⟩) := by
  unfold Generator.make
  refine ⟨?_, ?_, ?_, ?_, ?_, ?_⟩
  · cases file with
    | none => rfl
    | some f =>
      by_cases h : abspath f = abspath g.file ∧ g.start ≤ line ∧ line ≤ g.start + g.length
      · simp only [h, and_self, if_true]
      · simp only [h, if_false]
  · cases file with
    | none => exact le_refl _
    | some f =>
      by_cases h : abspath f = abspath g.file ∧ g.start ≤ line ∧ line ≤ g.start + g.length
      · simp only [h, and_self, if_true]
      · simp only [h, if_false]; exact le_refl _
  · cases file with
    | none => show g.start ≤ g.start + g.length; omega
    | some f =>
      by_cases h : abspath f = abspath g.file ∧ g.start ≤ line ∧ line ≤ g.start + g.length
      · simp only [h, and_self, if_true]
      · simp only [h, if_false]; omega
  · cases file with
    | none => rfl
    | some f => dsimp only; split <;> rfl
  · rintro f rfl h1 h2 h3
    have h : abspath f = abspath g.file ∧ g.start ≤ line ∧ line ≤ g.start + g.length := ⟨h1, h2, by omega⟩
    simp only [h, and_self, if_true]
  · rintro f text rfl h1 h2 h3
    have h : ¬ (abspath f = abspath g.file ∧ g.start ≤ line ∧ line ≤ g.start + g.length) := by
      rintro ⟨a, b, c⟩
      rcases h1 with h1 | h1 | h1
      · exact h1 a
      · omega
      · omega
    simp only [h, if_false]
    have : pyIndex (lines f) (line - 1) = some text := by
      unfold pyIndex
      rw [if_pos (by omega)]
      exact h3
    rw [this]

/-- Disagreement: the line after the last line of a function is taken to be inside the function. -/
theorem line_after_function : ∃ (g : Generator Nat) (lines : Nat → List (List Char)) (line : Int),
    g.start + g.length = line ∧
    g.make id lines "error".toList (some g.file) line = ⟨none, "error".toList, g.file, line⟩ :=
  ⟨⟨0, 3, 2⟩, fun _ => ["import x", "", "def f():", "  pass", "boom()"].map String.toList, 5, by decide, by decide +kernel⟩

example : (⟨0, 3, 2⟩ : Generator Nat).make id (fun _ => ["a", "b", "def f():", "  pass", "x", "boom()"].map String.toList)
    "error".toList (some 0) 6 = ⟨some "boom()".toList, "error".toList, 0, 3⟩ := by decide +kernel

/-! ### Functions in classes -/

/-- The signature under which a function is analysed: in a module its own; in a class the first parameter of methods and read-only
properties is an instance of the class, that of class methods the class, and static methods keep theirs; the other parameters and
the return annotation do not change. Properties that can be set or deleted are not analysed. -/
theorem callable_signature (resolve : Nat → Option Sig) (f c : Nat) (x : Name) (a ret : Annotation)
    (ps : List (Name × Annotation)) (hf : resolve f = some ⟨(x, a) :: ps, ret⟩) :
    getCallable resolve .module (.function f) = .ok (some (f, ⟨(x, a) :: ps, ret⟩)) ∧
    (∀ sub, getCallable resolve (.cls c sub) (.function f) = .ok (some (f, ⟨(x, .type c) :: ps, ret⟩))) ∧
    (∀ sub, getCallable resolve (.cls c sub) (.static f) = .ok (some (f, ⟨(x, a) :: ps, ret⟩))) ∧
    getCallable resolve (.cls c true) (.classMethod f) = .ok (some (f, ⟨(x, .typeOf c) :: ps, ret⟩)) ∧
    (∀ sub, getCallable resolve (.cls c sub) (.property (some f) none none) = .ok (some (f, ⟨(x, .type c) :: ps, ret⟩))) ∧
    (∀ sub get set del, set ≠ none ∨ del ≠ none →
      getCallable resolve (.cls c sub) (.property get set del) = .ok none) := by
  refine ⟨?_, fun sub => ?_, fun sub => ?_, ?_, fun sub => ?_, fun sub get set del h => ?_⟩
  · simp [getCallable, hf]
  · simp [getCallable, hf, setFirstArgType, Except.map]
  · simp [getCallable, hf]
  · simp [getCallable, hf, setFirstArgType, Except.map]
  · simp [getCallable, hf, setFirstArgType, Except.map]
  · cases get <;> cases set <;> cases del <;> simp [getCallable] at h ⊢

example : getCallable (fun _ => some ⟨[("self".toList, .empty), ("x".toList, .type 1)], .type 2⟩) (.cls 9 true) (.function 0) =
    .ok (some (0, ⟨[("self".toList, .type 9), ("x".toList, .type 1)], .type 2⟩)) := rfl

/-- Without a signature nothing is analysed. -/
theorem callable_none (resolve : Nat → Option Sig) (ctx : Context) (f : Nat) (hf : resolve f = none) :
    getCallable resolve ctx (.function f) = .ok none ∧ getCallable resolve ctx (.static f) = .ok none ∧
    getCallable resolve ctx (.classMethod f) = .ok none ∧ getCallable resolve ctx (.property (some f) none none) = .ok none := by
  cases ctx <;> simp [getCallable, hf]

example : (fun _ : Nat => (none : Option Sig)) 3 = none := rfl

/-- Disagreement: a function without parameters in a class (for example a lambda as a class attribute) makes the analysis of the
class fail with an `IndexError`. -/
theorem callable_crash : ∃ (resolve : Nat → Option Sig) (f c : Nat),
    getCallable resolve (.cls c true) (.function f) = .error .indexError :=
  ⟨fun _ => some ⟨[], .empty⟩, 0, 0, rfl⟩

/-- Replacing the function in a class keeps how it is found: the replacement is analysed exactly if, and with the same kind of first
parameter as, the original would be if it were the replacement. Setters and deleters are kept. -/
theorem patch_keeps (desc d : Desc) (g : Nat) (h : patchLogic desc g = some d) :
    (∀ f, desc = .function f → d = .function g) ∧ (∀ f, desc = .static f → d = .static g) ∧
    (∀ f, desc = .classMethod f → d = .classMethod g) ∧
    (∀ get set del, desc = .property get set del → d = .property (some g) set del) ∧
    (∀ resolve ctx fn sig, getCallable resolve ctx d = .ok (some (fn, sig)) → fn = g) := by
  cases desc with
  | other f => simp [patchLogic] at h
  | property get set del =>
    simp only [patchLogic, Option.some.injEq] at h
    subst h
    refine ⟨?_, ?_, ?_, ?_, ?_⟩
    · intro f hf; cases hf
    · intro f hf; cases hf
    · intro f hf; cases hf
    · intro a b c' he; cases he; rfl
    · intro resolve ctx fn sig hr
      cases ctx <;> cases set <;> cases del <;> simp [getCallable] at hr
      cases hg : resolve g with
      | none => simp [hg] at hr
      | some s =>
        simp only [hg, setFirstArgType] at hr
        cases hp : s.params with
        | nil => simp [hp, Except.map] at hr
        | cons p ps => simp [hp, Except.map] at hr; exact hr.1.symm
  | function f =>
    simp only [patchLogic, Option.some.injEq] at h
    subst h
    refine ⟨fun _ _ => rfl, ?_, ?_, ?_, ?_⟩
    · intro f hf; cases hf
    · intro f hf; cases hf
    · intro a b c' he; cases he
    · intro resolve ctx fn sig hr
      cases hg : resolve g with
      | none => cases ctx <;> simp [getCallable, hg] at hr
      | some s =>
        cases ctx with
        | module => simp [getCallable, hg] at hr; exact hr.1.symm
        | cls c sub =>
          simp only [getCallable, hg, setFirstArgType] at hr
          cases hp : s.params with
          | nil => simp [hp, Except.map] at hr
          | cons p ps => simp [hp, Except.map] at hr; exact hr.1.symm
  | static f =>
    simp only [patchLogic, Option.some.injEq] at h
    subst h
    refine ⟨?_, fun _ _ => rfl, ?_, ?_, ?_⟩
    · intro f hf; cases hf
    · intro f hf; cases hf
    · intro a b c' he; cases he
    · intro resolve ctx fn sig hr
      cases hg : resolve g with
      | none => cases ctx <;> simp [getCallable, hg] at hr
      | some s => cases ctx <;> simp [getCallable, hg] at hr <;> exact hr.1.symm
  | classMethod f =>
    simp only [patchLogic, Option.some.injEq] at h
    subst h
    refine ⟨?_, ?_, fun _ _ => rfl, ?_, ?_⟩
    · intro f hf; cases hf
    · intro f hf; cases hf
    · intro a b c' he; cases he
    · intro resolve ctx fn sig hr
      cases hg : resolve g with
      | none => cases ctx <;> simp [getCallable, hg] at hr
      | some s =>
        cases ctx with
        | module => simp [getCallable, hg] at hr; exact hr.1.symm
        | cls c sub =>
          cases sub with
          | false => simp [getCallable, hg] at hr
          | true =>
            simp only [getCallable, hg, setFirstArgType, if_true] at hr
            cases hp : s.params with
            | nil => simp [hp, Except.map] at hr
            | cons p ps => simp [hp, Except.map] at hr; exact hr.1.symm

example : patchLogic (.property (some 1) (some 2) none) 5 = some (.property (some 5) (some 2) none) := rfl

/-! ### Names -/

/-- The value of a name in a function: the closure variable, else the global one; through wrappers. -/
inductive NameIn : Callable → Name → Option Nat → Prop where
  | wrapper {inner : Callable} {n : Name} {v : Option Nat} : NameIn inner n v → NameIn (.wrapper inner) n v
  | closure {nonlocals globals : List (Name × Nat)} {n : Name} {v : Nat} : nonlocals.lookup n = some v →
      NameIn (.function nonlocals globals) n (some v)
  | global {nonlocals globals : List (Name × Nat)} {n : Name} : nonlocals.lookup n = none →
      NameIn (.function nonlocals globals) n (globals.lookup n)

/-- Whether some name is both a closure variable and a global one. -/
def Shadows : Callable → Name → Prop
  | .wrapper inner, n => Shadows inner n
  | .function nonlocals globals, n => nonlocals.lookup n ≠ none ∧ globals.lookup n ≠ none
  | _, _ => False

/-- Conditions and annotations see the names of the function, unless a closure variable has the name of a global variable. -/
theorem names_partial (builtins : List (Name × Nat)) (f : Callable) (n : Name) (v : Option Nat) (h : NameIn f n v)
    (hs : ¬ Shadows f n) : fnGlobals builtins f n = v := by
  induction h with
  | wrapper _ ih => exact ih hs
  | @closure nonlocals globals n v h =>
    simp only [fnGlobals]
    have hne : nonlocals.isEmpty = false := by
      cases nonlocals with
      | nil => simp at h
      | cons a l => rfl
    have hg : globals.lookup n = none := by
      cases hg : globals.lookup n with
      | none => rfl
      | some w => exact absurd ⟨by rw [h]; exact Option.some_ne_none v, by rw [hg]; exact Option.some_ne_none w⟩ hs
    simp [hne, hg, h]
  | @global nonlocals globals n h =>
    simp only [fnGlobals]
    split
    · rfl
    · cases hg : globals.lookup n with
      | none => simp [h]
      | some w => rfl

example : fnGlobals [] (.wrapper (.function [("x".toList, 1)] [("y".toList, 2)])) "x".toList = some 1 := by decide +kernel

/-- Disagreement: a closure variable with the name of a global variable is not seen; conditions get the global one. -/
theorem names_shadowed : ∃ (f : Callable) (n : Name) (v w : Nat),
    NameIn f n (some v) ∧ fnGlobals [] f n = some w ∧ v ≠ w :=
  ⟨.function [("limit".toList, 1)] [("limit".toList, 2)], "limit".toList, 1, 2, .closure (by decide +kernel), by decide +kernel,
    by decide⟩

end Verif.Analyze
