import Verif.Doc.Props
import Verif.Pep316.Lemmas
/-
Properties of conditions in docstrings.
-/
namespace Verif.Pep316

open Verif.Doc (Text Sect Complaint Trimmed Reading exSp exWord exClasses)

variable {κ ε : Type} {sp word : Char → Bool}

theorem condition_written (compile : Text → Except ε κ) (kind : Kind) (n : Nat) (t : Text) :
    Written compile kind n t (condition compile kind n t) := by
  unfold condition
  split
  · rename_i k hk; exact ⟨rfl, rfl, rfl, Or.inl ⟨k, hk, rfl, rfl⟩⟩
  · rename_i e he; exact ⟨rfl, rfl, rfl, Or.inr ⟨e, he, rfl, rfl⟩⟩

theorem sectionConds_of (compile : Text → Except ε κ) (kind : Kind) (s : Sect)
    (found : List (Sect × Nat × Text)) :
    SectionOf compile kind s found (sectionConds compile kind s found) := by
  induction found with
  | nil => exact .nil
  | cons f fs ih =>
    obtain ⟨s', n, t⟩ := f
    by_cases h : s' = s
    · subst h
      simp only [sectionConds, List.filterMap_cons, if_true]
      exact .this (condition_written compile kind n t) ih
    · simp only [sectionConds, List.filterMap_cons, if_neg h]
      exact .other h ih

/-- Whether a section has conditions. -/
theorem section_nil {compile : Text → Except ε κ} {kind : Kind} {s : Sect}
    {found : List (Sect × Nat × Text)} {cs : List (Cond κ ε)} (h : SectionOf compile kind s found cs) :
    cs = [] ↔ ∀ f ∈ found, f.1 ≠ s := by
  induction h with
  | nil => simp
  | other hs _ ih => simp [ih, hs]
  | this _ _ _ => simp

/-- **C208.** The conditions of a function are those written in its docstring, in order, with their
lines; each can be decided or comes with the error of its own text.  A function with preconditions only
has one postcondition, which is always true, at the function's first line; complaints about the sections
are passed on.  Something that is not callable has no conditions. -/
theorem function_conditions (hw : Doc.Classes sp word) (compile : Text → Except ε κ) (look : Text → Named)
    (fn : Fn) (hb : fn.builtin = false) (r : Reading) (hr : Doc.Doc sp word [.pre, .post] none fn.docLines r) :
    fnConditions sp word compile look none = none ∧
    ∃ c, fnConditions sp word compile look (some fn) = some c ∧
      SectionOf compile .pre .pre r.found c.pre ∧
      ((∃ f ∈ r.found, f.1 = Sect.post) ∨ (∀ f ∈ r.found, f.1 ≠ Sect.pre) →
        SectionOf compile .post .post r.found c.post) ∧
      ((∀ f ∈ r.found, f.1 ≠ Sect.post) ∧ (∃ f ∈ r.found, f.1 = Sect.pre) →
        c.post = [⟨.post, some .always, fn.firstLine, [], none⟩]) ∧
      c.messages = r.complaints ∧
      (c.mutableArgs = none ↔ r.mutableExpr = none) := by
  refine ⟨rfl, ?_⟩
  have hread := (Doc.parse_exact hw _ _ _).mp hr
  have h1 : (Doc.parseSections sp word [.pre, .post] fn.docLines).found = r.found := by rw [← hread]; rfl
  have h2 : (Doc.parseSections sp word [.pre, .post] fn.docLines).complaints = r.complaints := by
    rw [← hread]; rfl
  have h3 : (Doc.parseSections sp word [.pre, .post] fn.docLines).mutableExpr = r.mutableExpr := by
    rw [← hread]; rfl
  have hpre := sectionConds_of compile .pre .pre r.found
  have hpost := sectionConds_of compile .post .post r.found
  refine ⟨_, by simp only [fnConditions, hb]; rfl, ?_, ?_, ?_, h2, ?_⟩
  · simp only [h1]; exact hpre
  · intro h
    simp only [h1]
    have : (!(sectionConds compile .pre .pre r.found).isEmpty &&
        (sectionConds compile .post .post r.found).isEmpty) = false := by
      rw [Bool.and_eq_false_iff]
      rcases h with ⟨f, hf, hs⟩ | h
      · right
        rw [List.isEmpty_eq_false_iff]
        intro he
        exact (section_nil hpost).mp he f hf hs
      · left
        rw [(section_nil hpre).mpr h]
        rfl
    rw [this]
    exact hpost
  · rintro ⟨h, f, hf, hs⟩
    simp only [h1]
    rw [(section_nil hpost).mpr h]
    have : (sectionConds compile .pre .pre r.found).isEmpty = false := by
      rw [List.isEmpty_eq_false_iff]
      intro he
      exact (section_nil hpre).mp he f hf hs
    rw [this]
    rfl
  · simp only [h3]
    cases r.mutableExpr <;> simp

/-- **C208.** Built-in functions have no conditions in docstrings, and are taken to change none of their
arguments. -/
theorem builtin_conditions (compile : Text → Except ε κ) (look : Text → Named) (fn : Fn)
    (hb : fn.builtin = true) :
    ∃ c, fnConditions sp word compile look (some fn) = some c ∧ c.hasAny = false ∧ c.raises = [] ∧
      c.mutableArgs = some [] := by
  refine ⟨_, by simp only [fnConditions, hb, if_true]; rfl, rfl, rfl, rfl⟩

/-- Compilation for the examples: a question mark is an error. -/
def exCompile (t : Text) : Except Nat Text := if t.contains '?' then .error 1 else .ok t

/-- A docstring with a precondition, a bad precondition and brackets in the wrong place. -/
def exDoc : List (Nat × Text) :=
  [(4, "Adds.\n".toList), (5, "  pre:\n".toList), (6, "    x > 0\n".toList), (7, "    x ?\n".toList),
   (8, "  pre[x]: y\n".toList)]

example : (fnConditions exSp exWord exCompile (fun _ => .other) (some ⟨false, 3, exDoc, none⟩)) =
    some ⟨[⟨.pre, some (.code "x > 0".toList), 6, "x > 0".toList, none⟩,
           ⟨.pre, none, 7, "x ?".toList, some (7, 1)⟩],
          [⟨.post, some .always, 3, [], none⟩], [], none, [(8, .brackets .pre)]⟩ := by decide +kernel

example : ∃ r, Doc.Doc exSp exWord [.pre, .post] none exDoc r :=
  Doc.doc_exists exClasses _ _ _ (Nat.le_refl _) _

/-- **C209.** A function's syntax errors are all reported: for every written condition whose text does
not compile there is a message with its line, for every complaint about a section as well, and there are
no others. -/
theorem syntax_errors (hw : Doc.Classes sp word) (compile : Text → Except ε κ) (look : Text → Named)
    (fn : Fn) (hb : fn.builtin = false) (r : Reading) (hr : Doc.Doc sp word [.pre, .post] none fn.docLines r)
    (c : Conds κ ε) (hc : fnConditions sp word compile look (some fn) = some c) (n : Nat) (m : Msg ε) :
    (n, m) ∈ c.syntaxMessages ↔
      (∃ s t e, (s, n, t) ∈ r.found ∧ compile t = .error e ∧ m = .compile e) ∨
      (∃ k, (n, k) ∈ r.complaints ∧ m = .section k) := by
  obtain ⟨_, c', hc', hpre, hpost, hdef, hmsg, -⟩ := function_conditions hw compile look fn hb r hr
  rw [hc] at hc'
  cases hc'
  have hwanted : ∀ f ∈ r.found, f.1 = Sect.pre ∨ f.1 = Sect.post := by
    intro f hf
    obtain ⟨s, k, t⟩ := f
    have hread := (Doc.parse_exact hw _ _ _).mp hr
    have h1 : (Doc.parseSections sp word [.pre, .post] fn.docLines).found = r.found := by rw [← hread]; rfl
    rw [← h1] at hf
    have := (Doc.found_in_line hw _ _ _ _ _ hf).1
    simpa using this
  have herr : ∀ kind s cs, SectionOf compile kind s r.found cs → ∀ x e,
      ((∃ y ∈ cs, y.compileErr = some (x, e)) ↔ ∃ t, (s, x, t) ∈ r.found ∧ compile t = .error e) := by
    intro kind s cs h x e
    generalize r.found = found at h
    induction h with
    | nil => simp
    | @other s' n' t' fs cs hs _ ih =>
      rw [ih]
      constructor
      · rintro ⟨t, ht, he⟩; exact ⟨t, List.mem_cons_of_mem _ ht, he⟩
      · rintro ⟨t, ht, he⟩
        rcases List.mem_cons.mp ht with ht | ht
        · cases ht; exact absurd rfl hs
        · exact ⟨t, ht, he⟩
    | @this n' t' fs d cs hwr _ ih =>
      obtain ⟨-, -, -, hcase⟩ := hwr
      constructor
      · rintro ⟨y, hy, hye⟩
        rcases List.mem_cons.mp hy with rfl | hy
        · rcases hcase with ⟨k, _, _, hn⟩ | ⟨e', he', _, hsm⟩
          · rw [hn] at hye; cases hye
          · rw [hsm] at hye
            cases hye
            exact ⟨t', List.mem_cons_self, he'⟩
        · obtain ⟨t, ht, he⟩ := ih.mp ⟨y, hy, hye⟩
          exact ⟨t, List.mem_cons_of_mem _ ht, he⟩
      · rintro ⟨t, ht, he⟩
        rcases List.mem_cons.mp ht with ht | ht
        · cases ht
          rcases hcase with ⟨k, hk, _⟩ | ⟨e', he', _, hsm⟩
          · rw [hk] at he; cases he
          · rw [he'] at he
            cases he
            exact ⟨d, List.mem_cons_self, hsm⟩
        · obtain ⟨y, hy, hye⟩ := ih.mpr ⟨t, ht, he⟩
          exact ⟨y, List.mem_cons_of_mem _ hy, hye⟩
  have hposterr : ∀ x e, ((∃ y ∈ c.post, y.compileErr = some (x, e)) ↔
      ∃ t, (Sect.post, x, t) ∈ r.found ∧ compile t = .error e) := by
    intro x e
    by_cases h : (∃ f ∈ r.found, f.1 = Sect.post) ∨ (∀ f ∈ r.found, f.1 ≠ Sect.pre)
    · exact herr _ _ _ (hpost h) x e
    · rw [not_or] at h
      obtain ⟨h1, h2⟩ := h
      have h1' : ∀ f ∈ r.found, f.1 ≠ Sect.post := fun f hf he => h1 ⟨f, hf, he⟩
      have h2' : ∃ f ∈ r.found, f.1 = Sect.pre := by
        by_contra hcon
        exact h2 (fun f hf he => hcon ⟨f, hf, he⟩)
      rw [hdef ⟨h1', h2'⟩]
      constructor
      · rintro ⟨y, hy, hye⟩
        rw [List.mem_singleton] at hy
        subst hy
        cases hye
      · rintro ⟨t, ht, _⟩
        exact absurd rfl (h1' _ ht)
  unfold Conds.syntaxMessages
  rw [List.mem_append]
  refine or_congr ?_ ?_
  · simp only [List.mem_map, List.mem_filterMap, List.mem_append]
    constructor
    · rintro ⟨⟨x, e⟩, ⟨y, hy, hye⟩, he⟩
      cases he
      rcases hy with hy | hy
      · obtain ⟨t, ht, hcmp⟩ := (herr _ _ _ hpre x e).mp ⟨y, hy, hye⟩
        exact ⟨_, t, e, ht, hcmp, rfl⟩
      · obtain ⟨t, ht, hcmp⟩ := (hposterr x e).mp ⟨y, hy, hye⟩
        exact ⟨_, t, e, ht, hcmp, rfl⟩
    · rintro ⟨s, t, e, ht, hcmp, rfl⟩
      rcases hwanted _ ht with hs | hs <;> simp only at hs <;> subst hs
      · obtain ⟨y, hy, hye⟩ := (herr _ _ _ hpre n e).mpr ⟨t, ht, hcmp⟩
        exact ⟨(n, e), ⟨y, Or.inl hy, hye⟩, rfl⟩
      · obtain ⟨y, hy, hye⟩ := (hposterr n e).mpr ⟨t, ht, hcmp⟩
        exact ⟨(n, e), ⟨y, Or.inr hy, hye⟩, rfl⟩
  · rw [hmsg]
    simp only [List.mem_map]
    constructor
    · rintro ⟨⟨x, k⟩, hk, he⟩; cases he; exact ⟨k, hk, rfl⟩
    · rintro ⟨k, hk, rfl⟩; exact ⟨(n, k), hk, rfl⟩

example : ∃ c, fnConditions exSp exWord exCompile (fun _ => .other) (some ⟨false, 3, exDoc, none⟩) = some c ∧
    c.syntaxMessages = [(7, .compile 1), (8, .section (.brackets .pre))] := by
  refine ⟨_, rfl, ?_⟩
  decide +kernel

/-- **C209.** A class's invariants are those written in its docstring, in order, each decided by its text
or with its error. -/
theorem class_invariants_partial (hw : Doc.Classes sp word) (compile : Text → Except ε κ)
    (ls : List (Nat × Text)) (r : Reading) (hr : Doc.Doc sp word [.inv] none ls r) :
    classInvariants sp word compile none = [] ∧
    SectionOf compile .inv .inv r.found (classInvariants sp word compile (some ls)) := by
  refine ⟨rfl, ?_⟩
  have hread := (Doc.parse_exact hw _ _ _).mp hr
  have h1 : (Doc.parseSections sp word [.inv] ls).found = r.found := by rw [← hread]; rfl
  simp only [classInvariants, h1]
  exact sectionConds_of compile .inv .inv r.found

/-- **C209.** Disagreement: an invariant with brackets (which a function's docstring would get a message
for) is dropped without a message: the result is the same as for a class without invariants. -/
theorem invariant_dropped :
    (∃ r, Doc.Doc exSp exWord [.inv] none [(1, "  inv[x]: x > 0\n".toList)] r ∧
      r.complaints = [(1, .brackets .inv)]) ∧
    classInvariants exSp exWord exCompile (some [(1, "  inv[x]: x > 0\n".toList)]) =
      classInvariants exSp exWord exCompile (some []) := by
  refine ⟨⟨_, (Doc.parse_exact exClasses _ _ _).mpr rfl, ?_⟩, ?_⟩ <;> decide +kernel

example : classInvariants exSp exWord exCompile (some [(1, "  inv: x > 0\n".toList)]) =
    [⟨.inv, some (.code "x > 0".toList), 1, "x > 0".toList, none⟩] := by decide +kernel

/-- **C210.** A condition is evaluated with the arguments bound in preference to the globals of the
module, and with the globals otherwise. -/
theorem names_in_conditions {ν ρ : Type} (run : κ → (Text → Option ν) → ρ) (yes : ρ)
    (globals bindings : Text → Option ν) (k : κ) :
    decideCond run yes globals bindings (.always : Decider κ) = yes ∧
    ∃ env, decideCond run yes globals bindings (.code k) = run k env ∧
      ∀ n, (∀ v, bindings n = some v → env n = some v) ∧ (bindings n = none → env n = globals n) := by
  refine ⟨rfl, _, rfl, ?_⟩
  intro n
  unfold overlay
  constructor
  · intro v h; rw [h]
  · intro h; rw [h]

example : decideCond (fun (k : Text) env => env k) (some 1) (fun n => if n = ['x'] then some 5 else some 6)
    (fun n => if n = ['x'] then some 7 else none) (.code ['x']) = some 7 := by decide +kernel

theorem strip_split (e : Text) : ∃ a b, e = a ++ Doc.strip sp e ++ b ∧ (∀ c ∈ a, sp c = true) ∧
    (∀ c ∈ b, sp c = true) := by
  obtain ⟨a, b, h, ha, hb, _⟩ := Doc.trimmed_strip sp e
  exact ⟨a, b, h, ha, hb⟩

theorem mem_mutableNames {b a : Text} : a ∈ mutableNames sp b ↔
    ∃ e ∈ splitAt ',' b, e ≠ [] ∧ (Doc.strip sp e).takeWhile (fun x => x ≠ '.') = a := by
  simp only [mutableNames, List.mem_map, List.mem_filter, decide_eq_true_eq, splitAt_head, and_assoc]

/-- **C211.** An argument is taken to be mutable exactly if the brackets of the postcondition name it or
something in it, as long as no blank comes before a dot; other arguments never are. -/
theorem mutable_arguments_partial (hdot : sp '.' = false) (b a : Text) (ha : Identifier sp a) :
    (a ∈ mutableNames sp b → DeclaredMutable sp b a) ∧
    (Tidy sp b → DeclaredMutable sp b a → a ∈ mutableNames sp b) := by
  obtain ⟨hne, hid⟩ := ha
  constructor
  · intro h
    obtain ⟨e, he, -, hp⟩ := mem_mutableNames.mp h
    refine ⟨_, splitAt_items ',' b, e, he, ?_⟩
    obtain ⟨x, y, hxy, hx, hy⟩ := strip_split (sp := sp) e
    have hs : Doc.strip sp e = a ++ (Doc.strip sp e).dropWhile (fun x => x ≠ '.') := by
      conv => lhs; rw [← List.takeWhile_append_dropWhile (p := fun x => decide (x ≠ '.')) (l := Doc.strip sp e), hp]
    have hh := Doc.head_dropWhile (fun x => decide (x ≠ '.')) (Doc.strip sp e)
    generalize (Doc.strip sp e).dropWhile (fun x => decide (x ≠ '.')) = rest at hs hh
    cases rest with
    | nil =>
      refine ⟨x, y, [], ?_, hx, hy, Or.inl rfl⟩
      rw [hxy, hs]; simp
    | cons c rest =>
      refine ⟨x, [], (c :: rest) ++ y, ?_, hx, by simp, Or.inr ?_⟩
      · rw [hxy, hs]; simp
      · have := hh c rfl
        simp at this
        simp [this]
  · rintro htidy ⟨items, hitems, e, he, before, between, after, hxy, hbf, hbt, haf⟩
    refine mem_mutableNames.mpr ⟨e, by rw [items_iff.mp hitems]; exact he, ?_, ?_⟩
    · rw [hxy]
      simp [hne]
    · have hahead : ∀ t : Text, ∀ c, (a ++ t).head? = some c → sp c = false := by
        intro t c hc
        cases a with
        | nil => exact absurd rfl hne
        | cons d a =>
          simp at hc
          subst hc
          exact (hid d List.mem_cons_self).1
      have halast : ∀ c, a.getLast? = some c → sp c = false := by
        intro c hc
        exact (hid c (List.mem_of_getLast? hc)).1
      have hatake : ∀ c ∈ a, (decide (c ≠ '.')) = true := fun c hc => by simpa using (hid c hc).2.1
      rcases haf with rfl | haf
      · have : Doc.strip sp e = a := by
          apply Doc.strip_of_trimmed
          refine ⟨before, between, by rw [hxy]; simp, hbf, hbt, ?_, halast⟩
          simpa using hahead []
        rw [this]
        simpa using List.takeWhile_append_of_pos (l₂ := []) hatake
      · have hbetween : between = [] := by
          by_contra hcon
          obtain ⟨u, v, huv⟩ := item_infix (c := ',') he
          have hb : b = u ++ e ++ v := by rw [hitems.2.2, huv]
          obtain ⟨bt, c, hbc⟩ : ∃ bt c, between = bt ++ [c] :=
            ⟨_, _, (List.dropLast_concat_getLast hcon).symm⟩
          obtain ⟨r, hr⟩ : ∃ r, after = '.' :: r := by
            cases after with
            | nil => cases haf
            | cons d r => cases haf; exact ⟨r, rfl⟩
          have := htidy (u ++ before ++ a ++ bt) c (r ++ v) (by rw [hb, hxy, hbc, hr]; simp)
          rw [hbt c (by rw [hbc]; simp)] at this
          cases this
        subst hbetween
        have htrim := Doc.trimmed_strip sp after
        obtain ⟨x, y, hxy2, hx, hy, h1, h2⟩ := htrim
        have hx0 : x = [] := by
          cases x with
          | nil => rfl
          | cons d x =>
            rw [hxy2] at haf
            have hd : d = '.' := by simpa using haf
            have h0 := hx d List.mem_cons_self
            rw [hd, hdot] at h0
            cases h0
        subst hx0
        obtain ⟨core', hcore⟩ : ∃ r, Doc.strip sp after = '.' :: r := by
          cases hc : Doc.strip sp after with
          | nil =>
            rw [hc] at hxy2
            rw [hxy2] at haf
            have hmem := List.mem_of_mem_head? (Option.mem_def.mpr haf)
            have := hy '.' (by simpa using hmem)
            rw [hdot] at this
            cases this
          | cons d r =>
            rw [hc] at hxy2
            rw [hxy2] at haf
            have hd : d = '.' := by simpa using haf
            exact ⟨r, by rw [hd]⟩
        have hs : Doc.strip sp e = a ++ '.' :: core' := by
          apply Doc.strip_of_trimmed
          refine ⟨before, y, ?_, hbf, hy, hahead _, ?_⟩
          · rw [hxy]
            conv => lhs; rw [hxy2, hcore]
            simp
          · intro c hc
            refine h2 c ?_
            rw [hcore]
            rw [List.getLast?_append] at hc
            cases hl : ('.' :: core').getLast? with
            | none => simp at hl
            | some d => rw [hl] at hc; simpa using hc
        rw [hs, List.takeWhile_append_of_pos hatake]
        simp

example : Identifier exSp "self".toList ∧ "self".toList ∈ mutableNames exSp "xs, self.items".toList ∧
    "items".toList ∉ mutableNames exSp "xs, self.items".toList := by
  refine ⟨⟨by decide, by decide⟩, by decide +kernel, by decide +kernel⟩

/-- **C211.** Disagreement: with a blank before the dot the argument is not recognised, so that changing
it counts as an error. -/
theorem blank_before_dot : DeclaredMutable exSp "self .items".toList "self".toList ∧
    "self".toList ∉ mutableNames exSp "self .items".toList := by
  refine ⟨⟨_, splitAt_items _ _, "self .items".toList, by decide +kernel, [], [' '], ".items".toList,
    by decide, by decide, by decide, Or.inr rfl⟩, by decide +kernel⟩

/-- **C211.** Disagreement: a blank in the brackets declares an argument with the empty name, which no
function has. -/
theorem blank_brackets : mutableNames exSp " ".toList = [[]] ∧ mutableNames exSp [] = [] ∧
    mutableNames exSp "xs, ".toList = ["xs".toList, []] := by
  refine ⟨?_, ?_, ?_⟩ <;> decide +kernel

/-- **C212.** The exceptions that a docstring allows are exactly the exception classes that its lines
declare, in either notation, anywhere in the text, as long as no line is just the word `raises`; names
that cannot be evaluated and values that are not exceptions are passed over, and do not affect others. -/
theorem declared_exceptions_partial (hw : Classes sp word) (hs : sp 's' = false) (look : Text → Named)
    (ls : List Text) (hl : ∀ l ∈ ls, '\n' ∉ l) (hb : ∀ l ∈ ls, ¬ Bare sp l) (e : Nat) :
    sphinxRaises sp word look none = [] ∧
    (e ∈ sphinxRaises sp word look (some (['\n'].intercalate ls)) ↔
      ∃ l ∈ ls, ∃ items, Declares sp word l items ∧ ∃ n ∈ items, look n = .exception e) := by
  refine ⟨rfl, ?_⟩
  simp only [sphinxRaises, List.mem_filterMap]
  constructor
  · rintro ⟨n, hn, he⟩
    obtain ⟨l, hl', items, hd, hni⟩ := (scan_lines hw hs ls hl hb n).mp hn
    refine ⟨l, hl', items, hd, n, hni, ?_⟩
    split at he
    · rename_i e' heq; cases he; exact heq
    · cases he
  · rintro ⟨l, hl', items, hd, n, hni, he⟩
    exact ⟨n, (scan_lines hw hs ls hl hb n).mpr ⟨l, hl', items, hd, hni⟩, by rw [he]⟩

/-- Names for the examples. -/
def exLook (n : Text) : Named :=
  if n = "ValueError".toList then .exception 1
  else if n = " KeyError".toList then .exception 2
  else if n = "int".toList then .other else .fails

theorem exRaises : Classes exSp exWord := by
  refine ⟨by decide, by decide, by decide, by decide, ?_⟩
  intro c
  simp only [exWord, exSp, Bool.or_eq_true, beq_iff_eq]
  intro h
  rw [Bool.or_eq_false_iff, Bool.or_eq_false_iff]
  refine ⟨⟨?_, ?_⟩, ?_⟩ <;> rw [beq_eq_false_iff_ne] <;> rintro rfl <;> revert h <;> decide

example : sphinxRaises exSp exWord exLook
    (some "Adds.\n\n  :raises ValueError: if so\n raises: int, KeyError, Foo # ok\n".toList) = [1, 2] ∧
    (∀ l ∈ ["Adds.".toList, " :raises ValueError: if so".toList], '\n' ∉ l) := by
  refine ⟨by decide +kernel, by decide +kernel⟩

/-- **C212.** Disagreement: after the word `raises` alone on a line, the beginning of the next line is
taken for a declaration. -/
theorem next_line_taken :
    sphinxRaises exSp exWord exLook (some "Sorts and\n:raises\nValueError: not so".toList) = [1] ∧
    (∀ l ∈ ["Sorts and".toList, ":raises".toList, "ValueError: not so".toList],
      ∀ items, ¬ Declares exSp exWord l items) := by
  refine ⟨by decide +kernel, ?_⟩
  intro l hl items hd
  have hn : '\n' ∉ l := (by decide +kernel :
    ∀ l ∈ ["Sorts and".toList, ":raises".toList, "ValueError: not so".toList], '\n' ∉ l) l hl
  obtain ⟨r, h⟩ := declared_found (tl := []) exRaises hn (Or.inl rfl) hd
  have h0 : ∀ l ∈ ["Sorts and".toList, ":raises".toList, "ValueError: not so".toList],
      raisesAt exSp exWord (l ++ []) = none := by decide +kernel
  rw [h0 l hl] at h
  cases h

end Verif.Pep316
