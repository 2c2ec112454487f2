import Verif.Names.Lemmas

/-! Resolving names (C52), lines and paths (C82, C83). -/
namespace Verif.Names

/-! ## Dotted names -/

/-- A package `p` (0) with a submodule `p.m` (1), which has a class `C` (2) with a method `f` (3) and a subclass
`D` (4) of `C`; the package has an attribute `n` (5), no module. -/
def sample : World where
  find ps := if ps = ["p"] ∨ ps = ["p", "m"] then .found else .absent
  load ps := if ps = ["p"] then some 0 else if ps = ["p", "m"] then some 1 else none
  attr o a :=
    if o = 0 ∧ a = "m" then some 1 else if o = 1 ∧ a = "C" then some 2 else if o = 1 ∧ a = "D" then some 4
    else if (o = 2 ∨ o = 4) ∧ a = "f" then some 3 else if o = 0 ∧ a = "n" then some 5 else none
  dict o :=
    if o = 0 then some fun a => if a = "m" then some 1 else if a = "n" then some 5 else none
    else if o = 1 then some fun a => if a = "C" then some 2 else if a = "D" then some 4 else none
    else if o = 2 then some fun a => if a = "f" then some 3 else none
    else if o = 4 then some fun _ => none
    else none
  isClass o := o = 2 || o = 4
  isModule o := o = 0 || o = 1

/-- C52: Exactly the names of something are resolved, to what they name: the longest prefix that is a module is
imported, and from there attributes are followed. -/
theorem resolves_iff {w : World} {parts : List String} {x : Found} : loadByQualname w parts = .ok x ↔ Names w parts x := names_iff

example : loadByQualname sample ["p", "m"] = .ok (.module 1) ∧ loadByQualname sample ["p", "m", "C"] = .ok (.cls 2) ∧
    loadByQualname sample ["p", "m", "C", "f"] = .ok (.function 2 "f" 3) ∧ loadByQualname sample ["p", "n"] = .ok (.function 0 "n" 5) := by decide

/-- C52: However a name can be split into module and attributes, it names one thing only. -/
theorem unambiguous {w : World} {parts : List String} {x y : Found} (hx : Names w parts x) (hy : Names w parts y) : x = y := by
  have := (names_iff.2 hx).symm.trans (names_iff.2 hy)
  cases this
  rfl

example : Names sample ["p", "m"] (.module 1) := names_iff.1 (by decide)

/-- C52: If the name is no name of anything, there is an error. -/
theorem unresolved {w : World} {parts : List String} (h : ∀ x, ¬Names w parts x) : ∀ x, loadByQualname w parts ≠ .ok x :=
  fun x hx => h x (names_iff.1 hx)

example : ∀ x, ¬Names sample ["p", "q"] x := fun x h => by
  have : loadByQualname sample ["p", "q"] = .notFound := by decide
  rw [names_iff.2 h] at this
  cases this

/-- Disagreement: C52 (and the documentation of `load_by_qualname`, "raises: NotFound"). When not even the first part is
a module, `NotFound` is turned into `ErrorDuringImport`. -/
theorem missing_module_importError {w : World} {parts : List String} (hp : parts ≠ []) (h : ∀ q, q <+: parts → q ≠ [] → w.find q = .absent) :
    loadByQualname w parts = .importError := by
  have key : ∀ i, i < parts.length → tryPrefixes w parts (i + 1) = .importError := by
    intro i hi
    have hf : w.find (parts.take (i + 1)) = .absent := by
      refine h _ (List.take_prefix _ _) ?_
      intro e
      have := congrArg List.length e
      rw [List.length_take, List.length_nil] at this
      omega
    induction i with
    | zero => rw [tryPrefixes, hf]; simp
    | succ i ih =>
      rw [tryPrefixes, hf]
      simp only [Nat.add_eq_zero_iff, Nat.one_ne_zero, and_false, if_false]
      refine ih (by omega) ?_
      refine h _ (List.take_prefix _ _) ?_
      intro e
      have := congrArg List.length e
      rw [List.length_take, List.length_nil] at this
      omega
  cases parts with
  | nil => exact absurd rfl hp
  | cons p ps => exact key ps.length (by simp)

example : loadByQualname sample ["q", "r"] = .importError := by decide

/-- Disagreement: C52. A method that a class inherits is an attribute of it, but is not found. -/
theorem inherited_refused : sample.attr 4 "f" = some 3 ∧ Attrs sample 1 ["D"] 4 ∧ loadByQualname sample ["p", "m", "D", "f"] = .notFound :=
  ⟨by decide, .cons (by decide) (by decide) .nil, by decide⟩

/-- Disagreement: C52. A name inside something that is neither module nor class is no reported error but an
`AttributeError`. -/
theorem inside_other : loadByQualname sample ["p", "n", "x", "y"] = .notFound ∧ loadByQualname sample ["p", "n", "x"] = .attributeError := by decide

/-- C52: The commands end with a message and exit code 2 if a name cannot be imported, and the names in front of it are
names of something.  Missing: names that are not found in a module, see `notFound_traceback`. -/
theorem reported_partial {w : World} {names : List (List String)} :
    (∀ xs, checkedLoad w names = .objects xs ↔ AllNames w names xs) ∧
      (checkedLoad w names = .code2 ↔ ∃ pre n post, names = pre ++ n :: post ∧ (∀ m ∈ pre, ∃ x, Names w m x) ∧ loadByQualname w n = .importError) := by
  induction names with
  | nil =>
    constructor
    · intro xs
      rw [checkedLoad]
      constructor
      · intro h; cases h; exact .nil
      · intro h; cases h; rfl
    · rw [checkedLoad]
      constructor
      · intro h; cases h
      · rintro ⟨pre, n, post, h, _⟩; simp at h
  | cons n ns ih =>
    have bad : ∀ {r}, loadByQualname w n = r → (∀ x, r ≠ .ok x) → ∀ {xs}, ¬AllNames w (n :: ns) xs := by
      intro r hr hne xs h
      cases h with
      | cons h _ => exact hne _ (hr.symm.trans (names_iff.2 h))
    have other : ∀ {r}, loadByQualname w n = r → (∀ x, r ≠ .ok x) → r ≠ .importError →
        ¬∃ pre m post, n :: ns = pre ++ m :: post ∧ (∀ m ∈ pre, ∃ x, Names w m x) ∧ loadByQualname w m = .importError := by
      rintro r hr hne hi ⟨pre, m, post, he, hpre, hm⟩
      cases pre with
      | nil =>
        simp only [List.nil_append, List.cons.injEq] at he
        rw [← he.1, hr] at hm
        exact hi hm
      | cons a pre =>
        simp only [List.cons_append, List.cons.injEq] at he
        obtain ⟨x, hx⟩ := hpre a (by simp)
        rw [← he.1] at hx
        exact hne x (hr.symm.trans (names_iff.2 hx))
    rw [checkedLoad]
    cases hr : loadByQualname w n with
    | ok x =>
      simp only
      constructor
      · intro xs
        constructor
        · intro h
          cases hc : checkedLoad w ns with
          | objects ys =>
            rw [hc] at h
            cases h
            exact .cons (names_iff.1 hr) ((ih.1 ys).1 hc)
          | code2 => rw [hc] at h; cases h
          | traceback => rw [hc] at h; cases h
        · intro h
          cases h with
          | cons h1 h2 =>
            rw [(ih.1 _).2 h2]
            rw [unambiguous (names_iff.1 hr) h1]
      · constructor
        · intro h
          cases hc : checkedLoad w ns with
          | objects ys => rw [hc] at h; cases h
          | traceback => rw [hc] at h; cases h
          | code2 =>
            obtain ⟨pre, m, post, h1, h2, h3⟩ := ih.2.1 hc
            refine ⟨n :: pre, m, post, by rw [h1]; rfl, ?_, h3⟩
            intro y hy
            rcases List.mem_cons.1 hy with rfl | hy
            · exact ⟨x, names_iff.1 hr⟩
            · exact h2 y hy
        · rintro ⟨pre, m, post, he, hpre, hm⟩
          cases pre with
          | nil =>
            simp only [List.nil_append, List.cons.injEq] at he
            rw [← he.1, hr] at hm
            cases hm
          | cons a pre =>
            simp only [List.cons_append, List.cons.injEq] at he
            rw [ih.2.2 ⟨pre, m, post, he.2, fun y hy => hpre y (by simp [hy]), hm⟩]
    | importError =>
      simp only
      refine ⟨fun xs => ⟨fun h => (by cases h), fun h => absurd h (bad hr (by simp))⟩, fun _ => ⟨[], n, ns, rfl, by simp, hr⟩, fun _ => trivial⟩
    | notFound =>
      exact ⟨fun xs => ⟨fun h => (by cases h), fun h => absurd h (bad hr (by simp))⟩, fun h => (by cases h), fun h => absurd h (other hr (by simp) (by simp))⟩
    | valueError =>
      exact ⟨fun xs => ⟨fun h => (by cases h), fun h => absurd h (bad hr (by simp))⟩, fun h => (by cases h), fun h => absurd h (other hr (by simp) (by simp))⟩
    | attributeError =>
      exact ⟨fun xs => ⟨fun h => (by cases h), fun h => absurd h (bad hr (by simp))⟩, fun h => (by cases h), fun h => absurd h (other hr (by simp) (by simp))⟩
    | assertionError =>
      exact ⟨fun xs => ⟨fun h => (by cases h), fun h => absurd h (bad hr (by simp))⟩, fun h => (by cases h), fun h => absurd h (other hr (by simp) (by simp))⟩

example : checkedLoad sample [["p", "m"], ["p", "m", "C"]] = .objects [.module 1, .cls 2] ∧ checkedLoad sample [["p"], ["q"]] = .code2 := by decide

/-- Disagreement: C52. If a name is not found in its module, there is no message and exit code 2, but an exception that
nobody catches (Python then exits with code 1, the code for counterexamples). -/
theorem notFound_traceback {w : World} {n : List String} (h : loadByQualname w n = .notFound) (ns : List (List String)) :
    checkedLoad w (n :: ns) = .traceback := by
  rw [checkedLoad, h]

example : loadByQualname sample ["p", "m", "typo"] = .notFound := by decide

/-! ## Lines -/

/-- C82: What is found for a line is a function that the line belongs to, or whose last line is directly in front of it.
Missing: see `line_behind` and `inherited_keyError`. -/
theorem line_sound_partial {line : Nat} {ms : List Member} {f : Nat} (h : atLine line ms = .ok f) :
    ∃ start len, Seen ms f true start len ∧ start ≤ line ∧ line ≤ start + len := by
  obtain ⟨id, own, start, len, hs, h1, h2, h3⟩ := atLine_seen (line := line) (ms := ms) (by rw [h]; simp)
  rw [h] at h3
  cases own with
  | false => cases h3
  | true =>
    simp only [if_true, Line.ok.injEq] at h3
    subst h3
    exact ⟨start, len, hs, h1, h2⟩

/-- C82: The function that a line belongs to is found, if there is no other whose last line is directly in front of it,
and no class inherits it. -/
theorem line_found_partial {line : Nat} {ms : List Member} {f start len : Nat} (hf : Seen ms f true start len) (h1 : start ≤ line) (h2 : line < start + len)
    (ho : ∀ id own start len, Seen ms id own start len → start ≤ line → line ≤ start + len → id = f ∧ own = true) : atLine line ms = .ok f := by
  by_cases hn : atLine line ms = .none
  · exact absurd ⟨h1, by omega⟩ (atLine_none hn _ _ _ _ hf)
  · obtain ⟨id, own, start', len', hs, h3, h4, h5⟩ := atLine_seen hn
    obtain ⟨rfl, rfl⟩ := ho _ _ _ _ hs h3 h4
    simpa using h5

/-- C82: Nothing is found only if the line belongs to no function. -/
theorem line_none {line : Nat} {ms : List Member} (h : atLine line ms = .none) {id start len : Nat} {own : Bool} (hs : Seen ms id own start len) :
    ¬(start ≤ line ∧ line < start + len) := by
  have := atLine_none h _ _ _ _ hs
  omega

/-- A class with a method (lines 2 to 4), an imported function, and a function (lines 6 and 7). -/
def lines : List Member := [.cls true [.fn 0 true true 2 3], .fn 1 false true 1 9, .other, .fn 2 true true 6 2]

example : atLine 3 lines = .ok 0 ∧ atLine 7 lines = .ok 2 ∧ atLine 1 lines = .none := by
  simp [lines, atLine, containsLine]
example : ∀ id own start len, Seen lines id own start len → start ≤ 7 → 7 ≤ start + len → id = 2 ∧ own = true := by
  intro id own start len h h1 h2
  cases h with
  | cls h => cases h with
    | fn => omega
    | tail h => cases h
  | tail h => cases h with
    | tail h => cases h with
      | tail h => cases h with
        | fn => exact ⟨rfl, rfl⟩
        | tail h => cases h

/-- Disagreement: C82. With a function in lines 1 and 2 and another in lines 3 and 4, line 3 gives the first. -/
theorem line_behind : atLine 3 [.fn 0 true true 1 2, .fn 1 true true 3 2] = .ok 0 := by simp [atLine, containsLine]

/-- Disagreement: C82. If a class that comes first in the alphabet inherits a method, there is a `KeyError` for the lines of
the method. -/
theorem inherited_keyError : atLine 2 [.cls true [.fn 0 true false 2 1], .cls true [.fn 0 true true 2 1]] = .keyError := by
  simp [atLine, containsLine]

/-! ## Paths -/

/-- C83: Of directories exactly the Python files in them and below them whose names can be those of modules are visited,
except `setup.py`; files that are named themselves are visited in any case. -/
theorem visited_iff {lead : Char → Bool} {look : List String → Option Tree} {ignore : Bool} {paths out : List (List String)} {done : Bool}
    (h : walkPaths lead ignore look paths = (out, done)) (hd : done = true) (x : List String) :
    x ∈ out ↔ ∃ p ∈ paths, (look p = some .file ∧ x = p) ∨
      ∃ es rel n, look p = some (.dir es) ∧ FileAt es rel n ∧ Analyzable lead n ∧ x = p ++ rel ++ [n] := by
  subst hd
  induction paths generalizing out with
  | nil => rw [walkPaths] at h; cases h; simp
  | cons p ps ih =>
    rw [walkPaths] at h
    cases hp : look p with
    | none =>
      rw [hp] at h
      simp only at h
      split at h
      · rw [ih h]
        simp [hp]
      · cases h
    | some t =>
      rw [hp] at h
      cases hr : walkPaths lead ignore look ps with
      | mk o d =>
        cases t with
        | file =>
          simp only [hr, Prod.mk.injEq] at h
          obtain ⟨rfl, rfl⟩ := h
          rw [List.mem_cons, ih hr]
          simp [hp]
        | dir es =>
          simp only [hr, Prod.mk.injEq] at h
          obtain ⟨rfl, rfl⟩ := h
          rw [List.mem_append, ih hr, mem_walkDir]
          simp [hp]

/-- C83: An error is raised exactly if a path is missing, unless that is ignored. -/
theorem missing_iff {lead : Char → Bool} {look : List String → Option Tree} {ignore : Bool} {paths : List (List String)} :
    (walkPaths lead ignore look paths).2 = false ↔ ignore = false ∧ ∃ p ∈ paths, look p = none := by
  induction paths with
  | nil => simp [walkPaths]
  | cons p ps ih =>
    rw [walkPaths]
    cases hp : look p with
    | none => cases ignore <;> simp [hp, ih]
    | some t => cases t <;> simp [hp, ih]

/-- `src` with `a.py`, `setup.py`, `#b.py` and `sub/c.py`; and `notes`, a file. -/
def disk (p : List String) : Option Tree :=
  if p = ["src"] then some (.dir [("a.py", .file), ("sub", .dir [("c.py", .file)]), ("setup.py", .file), ("#b.py", .file)])
  else if p = ["notes"] then some .file else none

example : walkPaths Char.isAlpha false disk [["src"], ["notes"]] = ([["src", "a.py"], ["src", "sub", "c.py"], ["notes"]], true) := by decide +kernel
example : (walkPaths Char.isAlpha false disk [["nowhere"]]).2 = false := by decide +kernel

/-- C83: A file is imported under the names of all directories above it that are packages, from the first directory that is
none. -/
theorem module_of_file {isPackage : List String → Bool} {path root dirs : List String} {name : String}
    (h : extractModule isPackage path name = some (root, dirs)) :
    ∃ pkgs, path = pkgs ++ root ∧ dirs = pkgs.reverse ++ (if name = "__init__" then [] else [name]) ∧ isPackage root = false ∧
      ∀ a b, pkgs = a ++ b → b ≠ [] → isPackage (b ++ root) = true := by
  have key : ∀ {path root dirs}, goUp isPackage path = some (root, dirs) → ∃ pkgs, path = pkgs ++ root ∧ dirs = pkgs.reverse ∧ isPackage root = false ∧
      ∀ a b, pkgs = a ++ b → b ≠ [] → isPackage (b ++ root) = true := by
    intro path
    induction path with
    | nil =>
      intro root dirs h
      rw [goUp] at h
      split at h
      · cases h
      · rename_i hp
        cases h
        exact ⟨[], rfl, rfl, by simpa using hp, fun a b h hb => by simp at h; exact absurd h.2 hb⟩
    | cons d path ih =>
      intro root dirs h
      rw [goUp] at h
      split at h
      · rename_i hp
        cases hg : goUp isPackage path with
        | none => rw [hg] at h; cases h
        | some r =>
          obtain ⟨root', dirs'⟩ := r
          rw [hg] at h
          simp only [Option.some.injEq, Prod.mk.injEq] at h
          obtain ⟨rfl, rfl⟩ := h
          obtain ⟨pkgs, rfl, rfl, h1, h2⟩ := ih hg
          refine ⟨d :: pkgs, rfl, by simp, h1, ?_⟩
          intro a b hab hb
          cases a with
          | nil => simp only [List.nil_append] at hab; rw [← hab]; exact hp
          | cons x a =>
            simp only [List.cons_append, List.cons.injEq] at hab
            exact h2 a b hab.2 hb
      · rename_i hp
        cases h
        exact ⟨[], rfl, rfl, by simpa using hp, fun a b h hb => by simp at h; exact absurd h.2 hb⟩
  unfold extractModule at h
  cases hg : goUp isPackage path with
  | none => rw [hg] at h; cases h
  | some r =>
    obtain ⟨root', dirs'⟩ := r
    rw [hg] at h
    simp only [Option.some.injEq, Prod.mk.injEq] at h
    obtain ⟨rfl, rfl⟩ := h
    obtain ⟨pkgs, h1, rfl, h2⟩ := key hg
    exact ⟨pkgs, h1, rfl, h2⟩

/-- C83: The name of a module is always found.  Missing: file systems with an `__init__.py` in the root directory, see
`root_package`. -/
theorem module_ends_partial {isPackage : List String → Bool} (h : isPackage [] = false) (path : List String) (name : String) :
    extractModule isPackage path name ≠ none := by
  have : ∀ path, goUp isPackage path ≠ none := by
    intro path
    induction path with
    | nil => rw [goUp, h]; simp
    | cons d path ih =>
      rw [goUp]
      split
      · cases hg : goUp isPackage path with
        | none => exact absurd hg ih
        | some r => simp
      · simp
  unfold extractModule
  cases hg : goUp isPackage path with
  | none => exact absurd hg (this path)
  | some r => simp

example : extractModule (fun p => p = ["b", "a", "home"] ∨ p = ["a", "home"]) ["b", "a", "home"] "m" = some (["home"], ["a", "b", "m"]) ∧
    extractModule (fun p => p = ["b", "a", "home"] ∨ p = ["a", "home"]) ["b", "a", "home"] "__init__" = some (["home"], ["a", "b"]) := by decide

/-- Disagreement: C83. With an `__init__.py` in the root directory the search for the top package does not end. -/
theorem root_package : extractModule (fun _ => true) ["home"] "m" = none := by decide

end Verif.Names
