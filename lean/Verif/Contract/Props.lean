import Verif.Contract.Lemmas
/-
Properties of gathered conditions: inheritance of contracts and of class invariants.
-/
namespace Verif.Contract

variable {γ : Type}

/- A small hierarchy for the examples: conditions are numbers.  `Account.withdraw` declares a
precondition 1 and a postcondition 2, and the class an invariant 10; `Savings` overrides it with the
postcondition 3 and an invariant 11; `Youth` overrides it again with a precondition 4. -/
def withdraw : Name := "withdraw".toList
def fnEntry (fn : Nat) (pre post : List Nat) : Entry Nat := .value [some ⟨fn, pre, post, [], none, []⟩]
def account : Cls Nat := .mk { parsers := [(true, [10])], dict := [(withdraw, fnEntry 1 [1] [2])] } []
def savings : Cls Nat := .mk { parsers := [(true, [11])], dict := [(withdraw, fnEntry 2 [] [3])] } [account]
def youth : Cls Nat := .mk { parsers := [(true, [])], dict := [(withdraw, fnEntry 3 [4] [])] } [savings]

/-- Every method with conditions has a line of classes that the conditions are drawn from. -/
theorem line_exists (n : Name) (c : Cls γ) (h : AllOrdinary c) (hm : methodConds c n ≠ none) :
    ∃ ls, Line n c ls := by
  match c, h with
  | .mk d bases, .mk hd hb =>
    cases hc : methodConds (.mk d bases) n with
    | none => exact absurd hc hm
    | some cc =>
      have hl := lookup_bases bases n
      have he := baseConds_eq d (mergeMethods (classCondsList bases)) n
      cases hf : bases.findSome? (fun b => methodConds b n) with
      | none =>
        have hnone := (findSome_none n bases).mp hf
        rw [hf] at hl; rw [hl] at he
        cases hs : says d n with
        | declares own => exact ⟨_, .root hd hnone hs⟩
        | nothing =>
          rw [hs] at he
          rcases methodConds_cases d bases hd n cc hc with ⟨b', hb', _⟩ | ⟨_, hn, hi, _⟩
          · rw [he] at hb'; cases hb'
          · exact ⟨_, .constructor hd hn hi (Or.inr ⟨hs, hnone⟩)⟩
        | hides =>
          rw [hs] at he
          rcases methodConds_cases d bases hd n cc hc with ⟨b', hb', _⟩ | ⟨_, hn, hi, _⟩
          · rw [he] at hb'; cases hb'
          · exact ⟨_, .constructor hd hn hi (Or.inl hs)⟩
      | some s =>
        obtain ⟨b, hleft, hbs⟩ := (findSome_leftmost n bases s).mp hf
        have hmem : b ∈ bases := by obtain ⟨l1, l2, rfl, _⟩ := hleft; simp
        obtain ⟨ls, hls⟩ := line_exists n b (hb b hmem) (by rw [hbs]; simp)
        cases hs : says d n with
        | declares own => exact ⟨_, .override hd hleft hls hs⟩
        | nothing => exact ⟨_, .inherit hd hleft hls hs⟩
        | hides =>
          rw [hs] at he
          rcases methodConds_cases d bases hd n cc hc with ⟨b', hb', _⟩ | ⟨_, hn, hi, _⟩
          · rw [he] at hb'; cases hb'
          · exact ⟨_, .constructor hd hn hi (Or.inl hs)⟩
termination_by sizeOf c
decreasing_by
  have := List.sizeOf_lt_of_mem hmem
  simp_wf
  omega

/-- **C38.** A function's declared conditions are those of the first syntax in which any are found; when
none are found in any syntax, it counts as having none if any syntax could carry conditions. -/
theorem declared_conditions (parsed : List (Option (Conds γ))) :
    (∀ before c after, parsed = before ++ some c :: after → c.hasAny = true →
      (∀ b, some b ∈ before → b.hasAny = false) → compositeFn parsed none = some c) ∧
    ((∀ b, some b ∈ parsed → b.hasAny = false) →
      (∀ c, compositeFn parsed none = some c → c.hasAny = false) ∧
      (compositeFn parsed none = none ↔ ∀ x ∈ parsed, x = none)) := by
  have first : ∀ (before : List (Option (Conds γ))) c after ret, c.hasAny = true →
      (∀ b, some b ∈ before → b.hasAny = false) → compositeFn (before ++ some c :: after) ret = some c := by
    intro before c after ret hc
    induction before generalizing ret with
    | nil => intro _; simp [compositeFn, hc]
    | cons x before ih =>
      intro hb
      cases x with
      | none => exact ih ret (fun b h => hb b (List.mem_cons_of_mem _ h))
      | some d =>
        simp only [List.cons_append, compositeFn, hb d List.mem_cons_self, Bool.false_eq_true, if_false]
        exact ih _ (fun b h => hb b (List.mem_cons_of_mem _ h))
  have rest : ∀ (ps : List (Option (Conds γ))) ret, (∀ b, some b ∈ ps → b.hasAny = false) →
      (∀ b, ret = some b → b.hasAny = false) →
      (∀ c, compositeFn ps ret = some c → c.hasAny = false) ∧
      (compositeFn ps ret = none ↔ ret = none ∧ ∀ x ∈ ps, x = none) := by
    intro ps
    induction ps with
    | nil => intro ret _ hr; simp [compositeFn]; exact hr
    | cons x ps ih =>
      intro ret hb hr
      cases x with
      | none =>
        obtain ⟨h1, h2⟩ := ih ret (fun b h => hb b (List.mem_cons_of_mem _ h)) hr
        simp only [compositeFn]
        exact ⟨h1, by rw [h2]; simp⟩
      | some d =>
        have hd := hb d List.mem_cons_self
        obtain ⟨h1, h2⟩ := ih (some d) (fun b h => hb b (List.mem_cons_of_mem _ h))
          (by intro b hb'; cases hb'; exact hd)
        simp only [compositeFn, hd, Bool.false_eq_true, if_false]
        exact ⟨h1, by rw [h2]; simp⟩
  constructor
  · rintro before c after rfl hc hb
    exact first before c after none hc hb
  · intro hb
    obtain ⟨h1, h2⟩ := rest parsed none hb (by simp)
    exact ⟨h1, by rw [h2]; simp⟩

example : compositeFn [none, some ⟨1, [], [], [], none, []⟩, some ⟨2, [], [5], [], none, []⟩] none
    = some (⟨2, [], [5], [], none, []⟩ : Conds Nat) := by decide +kernel

/-- **C38.** The postconditions of a method are those declared by the classes along its line, all of
them, together with the invariants that apply on exit, and nothing else. -/
theorem postconditions_accumulate (n : Name) (c : Cls γ) (ls : List (Level γ)) (cc : Conds γ)
    (h : Line n c ls) (hc : methodConds c n = some cc) :
    cc.post = ls.flatMap (fun l => l.post ++ onExit n l) := by
  have hb := built_of_line h cc hc
  clear h hc
  induction hb with
  | root own inv => simp [addInv, onExit, Level.post]; split <;> simp
  | override own sup inv ls _ ih => simp [addInv, mergeFn, onExit, Level.post, ih]; split <;> simp
  | inherit sup inv ls _ ih => simp [addInv, onExit, Level.post, ih]; split <;> simp
  | constructor f inv hn =>
    have : invPlaces n = (false, true) := by subst hn; decide +kernel
    simp [onExit, Level.post, this]

/-- **C38.** The preconditions are those of the nearest class that declares any, together with the
invariants that apply on entry of that class and of the classes below it. -/
theorem preconditions_nearest (n : Name) (c : Cls γ) (above : List (Level γ)) (l : Level γ)
    (below : List (Level γ)) (cc : Conds γ) (h : Line n c (above ++ l :: below))
    (hc : methodConds c n = some cc) (hl : l.pre ≠ []) (hbelow : ∀ x ∈ below, x.pre = []) :
    cc.pre = l.pre ++ (l :: below).flatMap (onEntry n) := by
  have hb := built_of_line h cc hc
  clear h hc
  generalize hls : above ++ l :: below = ls at hb
  induction hb generalizing below with
  | root own inv =>
    have := snoc_split (ls := []) hls.symm
    rcases this with ⟨rfl, rfl, _⟩ | ⟨b', _, hb'⟩
    · simp [addInv, onEntry, Level.pre]; split <;> simp
    · simp at hb'
  | override own sup inv ls _ ih =>
    rcases snoc_split hls.symm with ⟨rfl, rfl, _⟩ | ⟨b', rfl, hb'⟩
    · have : own.pre.isEmpty = false := by
        cases hp : own.pre with
        | nil => simp [Level.pre, hp] at hl
        | cons => rfl
      simp [addInv, mergeFn, onEntry, Level.pre, this]; split <;> simp
    · have hp : own.pre = [] := hbelow ⟨some own, inv⟩ (by simp)
      have := ih b' (fun x hx => hbelow x (by simp [hx])) hb'.symm
      simp only [List.flatMap_cons] at this
      simp [addInv, mergeFn, hp, this, onEntry]; split <;> simp
  | inherit sup inv ls _ ih =>
    rcases snoc_split hls.symm with ⟨rfl, rfl, _⟩ | ⟨b', rfl, hb'⟩
    · simp [Level.pre] at hl
    · have := ih b' (fun x hx => hbelow x (by simp [hx])) hb'.symm
      simp only [List.flatMap_cons] at this
      simp [addInv, this, onEntry]; split <;> simp
  | constructor f inv hn =>
    have := snoc_split (ls := []) hls.symm
    rcases this with ⟨rfl, rfl, _⟩ | ⟨b', _, hb'⟩
    · simp [Level.pre] at hl
    · simp at hb'

/-- **C38.** When no class declares a precondition, the preconditions are the invariants that apply
on entry. -/
theorem preconditions_none (n : Name) (c : Cls γ) (ls : List (Level γ)) (cc : Conds γ)
    (h : Line n c ls) (hc : methodConds c n = some cc) (hl : ∀ x ∈ ls, x.pre = []) :
    cc.pre = ls.flatMap (onEntry n) := by
  have hb := built_of_line h cc hc
  clear h hc
  induction hb with
  | root own inv =>
    have hp : own.pre = [] := hl ⟨some own, inv⟩ (by simp)
    simp [addInv, onEntry, hp]
  | override own sup inv ls _ ih =>
    have hp : own.pre = [] := hl ⟨some own, inv⟩ (by simp)
    have := ih (fun x hx => hl x (by simp [hx]))
    simp [addInv, mergeFn, hp, this, onEntry]; split <;> simp
  | inherit sup inv ls _ ih =>
    have := ih (fun x hx => hl x (by simp [hx]))
    simp [addInv, this, onEntry]; split <;> simp
  | constructor f inv hn =>
    have : invPlaces n = (false, true) := by subst hn; decide +kernel
    simp [onEntry, this]

/-- **C38.** An exception is allowed exactly when some class along the line declares it. -/
theorem raises_accumulate (n : Name) (c : Cls γ) (ls : List (Level γ)) (cc : Conds γ)
    (h : Line n c ls) (hc : methodConds c n = some cc) (e : Nat) :
    e ∈ cc.raises ↔ ∃ l ∈ ls, ∃ own, l.own = some own ∧ e ∈ own.raises := by
  have hb := built_of_line h cc hc
  clear h hc
  induction hb with
  | root own inv => simp [addInv]
  | override own sup inv ls _ ih =>
    simp only [addInv, mergeFn, List.mem_append, ih, List.mem_singleton]
    constructor
    · rintro (he | ⟨l, hl, o, ho, he⟩)
      · exact ⟨_, Or.inr rfl, own, rfl, he⟩
      · exact ⟨l, Or.inl hl, o, ho, he⟩
    · rintro ⟨l, hl | rfl, o, ho, he⟩
      · exact Or.inr ⟨l, hl, o, ho, he⟩
      · cases ho; exact Or.inl he
  | inherit sup inv ls _ ih =>
    simp only [addInv, List.mem_append, ih, List.mem_singleton]
    constructor
    · rintro ⟨l, hl, o, ho, he⟩; exact ⟨l, Or.inl hl, o, ho, he⟩
    · rintro ⟨l, hl | rfl, o, ho, he⟩
      · exact ⟨l, hl, o, ho, he⟩
      · cases ho
  | constructor f inv hn => simp

/-- **C38.** The function to run, and the problems found in its contract, are those of the nearest
class that defines the method. -/
theorem function_nearest (n : Name) (c : Cls γ) (above : List (Level γ)) (l : Level γ)
    (below : List (Level γ)) (own cc : Conds γ) (h : Line n c (above ++ l :: below))
    (hc : methodConds c n = some cc) (hl : l.own = some own) (hbelow : ∀ x ∈ below, x.own = none) :
    cc.fn = own.fn ∧ cc.messages = own.messages := by
  have hb := built_of_line h cc hc
  clear h hc
  generalize hls : above ++ l :: below = ls at hb
  induction hb generalizing below with
  | root own' inv =>
    rcases snoc_split (ls := []) hls.symm with ⟨rfl, rfl, _⟩ | ⟨b', _, hb'⟩
    · cases hl; exact ⟨rfl, rfl⟩
    · simp at hb'
  | override own' sup inv ls _ ih =>
    rcases snoc_split hls.symm with ⟨rfl, rfl, _⟩ | ⟨b', rfl, hb'⟩
    · cases hl; exact ⟨rfl, rfl⟩
    · have := hbelow ⟨some own', inv⟩ (by simp)
      cases this
  | inherit sup inv ls _ ih =>
    rcases snoc_split hls.symm with ⟨rfl, rfl, _⟩ | ⟨b', rfl, hb'⟩
    · cases hl
    · exact ih b' (fun x hx => hbelow x (by simp [hx])) hb'.symm
  | constructor f inv hn =>
    rcases snoc_split (ls := []) hls.symm with ⟨rfl, rfl, _⟩ | ⟨b', _, hb'⟩
    · cases hl
    · simp at hb'

/-- **C38.** The arguments that may be changed are those stated by the nearest class that states
any. -/
theorem mutable_nearest (n : Name) (c : Cls γ) (above : List (Level γ)) (l : Level γ)
    (below : List (Level γ)) (own cc : Conds γ) (m : List Name) (h : Line n c (above ++ l :: below))
    (hc : methodConds c n = some cc) (hl : l.own = some own) (hm : own.mutableArgs = some m)
    (hbelow : ∀ x ∈ below, ∀ o, x.own = some o → o.mutableArgs = none) :
    cc.mutableArgs = some m := by
  have hb := built_of_line h cc hc
  clear h hc
  generalize hls : above ++ l :: below = ls at hb
  induction hb generalizing below with
  | root own' inv =>
    rcases snoc_split (ls := []) hls.symm with ⟨rfl, rfl, _⟩ | ⟨b', _, hb'⟩
    · cases hl; exact hm
    · simp at hb'
  | override own' sup inv ls _ ih =>
    rcases snoc_split hls.symm with ⟨rfl, rfl, _⟩ | ⟨b', rfl, hb'⟩
    · cases hl; simp [addInv, mergeFn, hm]
    · have h1 := hbelow ⟨some own', inv⟩ (by simp) own' rfl
      simp only [addInv, mergeFn, h1]
      exact ih b' (fun x hx => hbelow x (by simp [hx])) hb'.symm
  | inherit sup inv ls _ ih =>
    rcases snoc_split hls.symm with ⟨rfl, rfl, _⟩ | ⟨b', rfl, hb'⟩
    · cases hl
    · exact ih b' (fun x hx => hbelow x (by simp [hx])) hb'.symm
  | constructor f inv hn =>
    rcases snoc_split (ls := []) hls.symm with ⟨rfl, rfl, _⟩ | ⟨b', _, hb'⟩
    · cases hl
    · simp at hb'

/-- The line of `Youth.withdraw`, and its conditions: precondition 4 alone, postconditions 2 and 3
and both invariants. -/
theorem youth_line : Line withdraw youth
    [⟨some ⟨1, [1], [2], [], none, []⟩, [10]⟩, ⟨some ⟨2, [], [3], [], none, []⟩, [11]⟩,
     ⟨some ⟨3, [4], [], [], none, []⟩, []⟩] := by
  have h1 : Line withdraw account [⟨some ⟨1, [1], [2], [], none, []⟩, [10]⟩] :=
    .root ⟨rfl, (true, [10]), by decide, rfl⟩ (by simp) rfl
  have h2 : Line withdraw savings ([⟨some ⟨1, [1], [2], [], none, []⟩, [10]⟩]
      ++ [⟨some ⟨2, [], [3], [], none, []⟩, [11]⟩]) :=
    .override ⟨rfl, (true, [11]), by decide, rfl⟩ ⟨[], [], rfl, by simp, by decide +kernel⟩ h1 rfl
  exact .override (d := { parsers := [(true, [])], dict := [(withdraw, fnEntry 3 [4] [])] })
    ⟨rfl, (true, []), by decide, rfl⟩ ⟨[], [], rfl, by simp, by decide +kernel⟩ h2 rfl

example : methodConds youth withdraw = some ⟨3, [4], [2, 10, 3, 11], [], none, []⟩ ∧
    methodConds savings withdraw = some ⟨2, [1, 10, 11], [2, 10, 3, 11], [], none, []⟩ := by
  decide +kernel

/-- **C38.** What a caller of the superclass relies on is kept: the postconditions of the base that the
method is inherited from all remain, and so do its preconditions when the class declares none. -/
theorem subclass_keeps (n : Name) (d : Decl γ) (bases : List (Cls γ)) (b : Cls γ) (cb cc : Conds γ)
    (hd : Ordinary d) (hb : Leftmost n bases b) (hcb : methodConds b n = some cb)
    (hs : ∀ own, says d n = .declares own → own.pre = []) (hh : says d n ≠ .hides)
    (hc : methodConds (.mk d bases) n = some cc) :
    cb.post <+: cc.post ∧ cb.pre <+: cc.pre := by
  have hl := lookup_bases bases n
  rw [leftmost_findSome n bases b hb, hcb] at hl
  have he := baseConds_eq d (mergeMethods (classCondsList bases)) n
  rw [hl] at he
  rcases methodConds_cases d bases hd n cc hc with ⟨x, hx, rfl⟩ | ⟨hx, _⟩
  · cases hsd : says d n with
    | hides => exact absurd hsd hh
    | nothing =>
      rw [hsd] at he; rw [he] at hx; cases hx
      simp only [addInv]
      constructor <;> split <;> simp
    | declares own =>
      rw [hsd] at he; rw [he] at hx; cases hx
      simp only [addInv, mergeFn, hs own hsd, List.isEmpty_nil, if_true]
      constructor
      · split <;> simp [List.append_assoc]
      · split <;> simp
  · cases hsd : says d n with
    | hides => exact absurd hsd hh
    | nothing => rw [hsd] at he; rw [he] at hx; cases hx
    | declares own => rw [hsd] at he; rw [he] at hx; cases hx

example : (⟨1, [1, 10], [2, 10], [], none, []⟩ : Conds Nat).post <+: [2, 10, 3, 11] := by decide

/-- **C38.** With several bases, only the leftmost one that has conditions for the method counts: the
postconditions that another base promises are dropped. -/
theorem second_base_dropped : ∃ (a b c : Cls Nat), c = .mk ⟨false, [(true, [])], [], 0⟩ [a, b] ∧
    (∃ cb, methodConds b withdraw = some cb ∧ 2 ∈ cb.post) ∧
    (∃ cc, methodConds c withdraw = some cc ∧ 2 ∉ cc.post) :=
  ⟨.mk ⟨false, [(true, [])], [(withdraw, fnEntry 1 [] [1])], 0⟩ [],
   .mk ⟨false, [(true, [])], [(withdraw, fnEntry 2 [] [2])], 0⟩ [], _, rfl,
   ⟨⟨2, [], [2], [], none, []⟩, by decide +kernel, by decide⟩,
   ⟨⟨1, [], [1], [], none, []⟩, by decide +kernel, by decide⟩⟩

/-- **C38.** In a diamond, the function taken for the method is the one that the leftmost base
inherits, although Python's resolution order would find the override of the other base (function 2)
first: `class A: f`, `class B(A)`, `class C(A): f`, `class D(B, C)`. -/
theorem diamond_takes_wrong_function : ∃ (a b c d : Cls Nat),
    a = .mk ⟨false, [(true, [])], [(withdraw, fnEntry 1 [] [1])], 0⟩ [] ∧
    b = .mk ⟨false, [(true, [])], [], 0⟩ [a] ∧
    c = .mk ⟨false, [(true, [])], [(withdraw, fnEntry 2 [] [2])], 0⟩ [a] ∧
    d = .mk ⟨false, [(true, [])], [], 0⟩ [b, c] ∧
    (methodConds d withdraw).map Conds.fn = some 1 ∧ (methodConds d withdraw).map Conds.post = some [1] :=
  ⟨_, _, _, _, rfl, rfl, rfl, rfl, by decide +kernel, by decide +kernel⟩

/-! ## Class invariants -/

/-- **C73.** Where invariants apply, by the method's name: on entry and exit for names without a leading
underscore and for double-underscore names in general; on exit only for the constructor; on entry only
for the destructor; nowhere for other names with a leading underscore and for seven special names. -/
theorem invariant_places (n : Name) :
    (n.head? ≠ some '_' → invPlaces n = (true, true)) ∧
    invPlaces "__init__".toList = (false, true) ∧ invPlaces "__del__".toList = (true, false) ∧
    (n.head? = some '_' → ¬ (['_', '_'] <+: n ∧ ['_', '_'] <:+ n) → invPlaces n = (false, false)) ∧
    (['_', '_'] <+: n → ['_', '_'] <:+ n → n ∉ exempt → n ≠ "__init__".toList → n ≠ "__del__".toList →
      invPlaces n = (true, true)) ∧
    (n ∈ exempt → invPlaces n = (false, false)) := by
  have e2 : "__".toList = ['_', '_'] := by decide +kernel
  have e1 : "_".toList = ['_'] := by decide +kernel
  have hex : ∀ m ∈ exempt, ['_', '_'] <+: m ∧ ['_', '_'] <:+ m := by decide +kernel
  have hinit : ['_', '_'] <+: "__init__".toList ∧ ['_', '_'] <:+ "__init__".toList := by decide +kernel
  have hdel : ['_', '_'] <+: "__del__".toList ∧ ['_', '_'] <:+ "__del__".toList := by decide +kernel
  have hhead : ∀ m : Name, ['_', '_'] <+: m → m.head? = some '_' := by
    rintro m ⟨t, rfl⟩; rfl
  have hpre1 : (['_'].isPrefixOf n) = true ↔ n.head? = some '_' := by
    cases n with
    | nil => simp
    | cons a l =>
      simp only [List.isPrefixOf, Bool.and_true, beq_iff_eq, List.head?_cons, Option.some.injEq]
      exact ⟨Eq.symm, Eq.symm⟩
  refine ⟨?_, by decide +kernel, by decide +kernel, ?_, ?_, ?_⟩
  · intro h
    unfold invPlaces
    rw [e2, e1]
    rw [if_neg, if_neg, if_neg, if_neg, if_neg]
    · rw [hpre1]; exact h
    · simp only [Bool.and_eq_true, List.isPrefixOf_iff_prefix]
      exact fun hh => h (hhead n hh.1)
    · rintro rfl; exact h (hhead _ hinit.1)
    · rintro rfl; exact h (hhead _ hdel.1)
    · rw [List.contains_iff_mem]; exact fun hh => h (hhead n (hex n hh).1)
  · intro h hd
    unfold invPlaces
    rw [e2, e1]
    rw [if_neg, if_neg, if_neg, if_neg, if_pos]
    · rw [hpre1]; exact h
    · simp only [Bool.and_eq_true, List.isPrefixOf_iff_prefix, List.isSuffixOf_iff_suffix]
      exact hd
    · rintro rfl; exact hd hinit
    · rintro rfl; exact hd hdel
    · rw [List.contains_iff_mem]; exact fun hh => hd (hex n hh)
  · intro h1 h2 h3 h4 h5
    unfold invPlaces
    rw [e2, if_neg, if_neg h5, if_neg h4, if_pos]
    · simp only [Bool.and_eq_true, List.isPrefixOf_iff_prefix, List.isSuffixOf_iff_suffix]
      exact ⟨h1, h2⟩
    · rw [List.contains_iff_mem]; exact h3
  · intro h
    unfold invPlaces
    rw [if_pos]
    rw [List.contains_iff_mem]; exact h

example : invPlaces "withdraw".toList = (true, true) ∧ invPlaces "_audit".toList = (false, false) ∧
    invPlaces "__len__".toList = (true, true) ∧ invPlaces "__repr__".toList = (false, false) ∧
    invPlaces "__x".toList = (false, false) := by decide +kernel

/-- **C73.** A method whose name has no leading underscore may assume the invariants of its own class
and must establish them, and every such function in the class body is checked for this. -/
theorem own_invariants_guard (n : Name) (d : Decl γ) (bases : List (Cls γ)) (hd : Ordinary d)
    (hn : n.head? ≠ some '_') :
    (∀ cc, methodConds (.mk d bases) n = some cc →
      (classConds (.mk d bases)).inv <:+ cc.pre ∧ (classConds (.mk d bases)).inv <:+ cc.post) ∧
    (∀ own, says d n = .declares own → (classConds (.mk d bases)).inv ≠ [] →
      methodConds (.mk d bases) n ≠ none) := by
  have hp := (invariant_places n).1 hn
  constructor
  · intro cc hc
    rcases methodConds_cases d bases hd n cc hc with ⟨b, _, rfl⟩ | ⟨_, rfl, _⟩
    · simp [addInv, hp]
    · exact absurd (by decide +kernel) hn
  · intro own hs hi hnone
    rw [methodConds_eq d bases hd n] at hnone
    have he := baseConds_eq d (mergeMethods (classCondsList bases)) n
    rw [hs] at he
    simp only at he
    have hany : ∀ c : Conds γ, (addInv (classConds (.mk d bases)).inv n c).hasAny = true := by
      intro c
      cases hinv : (classConds (.mk d bases)).inv with
      | nil => exact absurd hinv hi
      | cons a l => simp [addInv, hp, Conds.hasAny]
    have hf : finalConds d (mergeMethods (classCondsList bases)) (classConds (.mk d bases)).inv n ≠ none := by
      simp [finalConds, he, hany]
    cases hff : finalConds d (mergeMethods (classCondsList bases)) (classConds (.mk d bases)).inv n with
    | none => exact hf hff
    | some c => rw [hff] at hnone; cases hnone

example : Ordinary (γ := Nat) ⟨false, [(true, [11])], [(withdraw, fnEntry 2 [] [3])], 0⟩ ∧
    withdraw.head? ≠ some '_' ∧ (classConds savings).inv = [11] :=
  ⟨⟨rfl, (true, [11]), by decide, rfl⟩, by decide +kernel, by decide +kernel⟩

/-- **C73.** A class with invariants always has a constructor with conditions, and it must establish
the invariants without assuming them. -/
theorem constructor_establishes (d : Decl γ) (bases : List (Cls γ)) (hd : Ordinary d)
    (hi : (classConds (.mk d bases)).inv ≠ []) :
    ∃ cc, methodConds (.mk d bases) "__init__".toList = some cc ∧
      (classConds (.mk d bases)).inv <:+ cc.post ∧
      ∀ b, baseConds d (mergeMethods (classCondsList bases)) "__init__".toList = some b → cc.pre = b.pre := by
  have hp := (invariant_places ([] : Name)).2.1
  cases hm : methodConds (.mk d bases) "__init__".toList with
  | none =>
    rw [methodConds_eq d bases hd] at hm
    cases hff : finalConds d (mergeMethods (classCondsList bases)) (classConds (.mk d bases)).inv
        "__init__".toList with
    | none => rw [hff] at hm; simp only [true_and, ne_eq, hi, not_false_eq_true, if_true] at hm; cases hm
    | some c => rw [hff] at hm; cases hm
  | some cc =>
    refine ⟨cc, rfl, ?_⟩
    rcases methodConds_cases d bases hd _ cc hm with ⟨b, hb, rfl⟩ | ⟨hb, _, _, rfl⟩
    · constructor
      · simp only [addInv, hp, if_true]; exact List.suffix_append _ _
      · intro b' hb'
        have hbb : b = b' := Option.some.inj (hb.symm.trans hb')
        subst hbb
        simp only [addInv, hp, Bool.false_eq_true, if_false]
    · exact ⟨List.suffix_rfl, fun b hb' => absurd (hb.symm.trans hb') (by simp)⟩

example : methodConds savings "__init__".toList = some ⟨0, [], [10, 11], [], none, []⟩ := by decide +kernel

/-- **C73.** Along a line of inheritance the invariants of all classes must hold again on exit. -/
theorem inherited_invariants_on_exit (n : Name) (c : Cls γ) (ls : List (Level γ)) (cc : Conds γ)
    (h : Line n c ls) (hc : methodConds c n = some cc) (hn : n.head? ≠ some '_') :
    ∀ l ∈ ls, ∀ i ∈ l.inv, i ∈ cc.post := by
  intro l hl i hi
  rw [postconditions_accumulate n c ls cc h hc, List.mem_flatMap]
  refine ⟨l, hl, ?_⟩
  simp [onExit, (invariant_places n).1 hn, hi]

/-- **C73.** When no class below the first declares a precondition of its own, the invariants of all
classes on the line may be assumed on entry. -/
theorem inherited_invariants_on_entry_partial (n : Name) (c : Cls γ) (l : Level γ)
    (below : List (Level γ)) (cc : Conds γ) (h : Line n c (l :: below))
    (hc : methodConds c n = some cc) (hn : n.head? ≠ some '_') (hb : ∀ x ∈ below, x.pre = []) :
    ∀ x ∈ l :: below, ∀ i ∈ x.inv, i ∈ cc.pre := by
  intro x hx i hi
  have hp := (invariant_places n).1 hn
  have hmem : i ∈ (l :: below).flatMap (onEntry n) := by
    rw [List.mem_flatMap]
    exact ⟨x, hx, by simp [onEntry, hp, hi]⟩
  by_cases hl : l.pre = []
  · rw [preconditions_none n c (l :: below) cc h hc
      (by intro y hy; rcases List.mem_cons.mp hy with rfl | hy; exact hl; exact hb y hy)]
    exact hmem
  · rw [preconditions_nearest n c [] l below cc h hc hl hb]
    exact List.mem_append_right _ hmem

example : ∃ cc, methodConds savings withdraw = some cc ∧ 10 ∈ cc.pre ∧ 11 ∈ cc.pre :=
  ⟨⟨2, [1, 10, 11], [2, 10, 3, 11], [], none, []⟩, by decide +kernel, by decide, by decide⟩

/-- **C73.** The restriction is needed: a method that declares a precondition of its own may no longer
assume the invariants of the superclasses, although it still has to establish them. -/
theorem own_precondition_drops_inherited_invariants : ∃ cc, methodConds youth withdraw = some cc ∧
    10 ∈ cc.post ∧ 11 ∈ cc.post ∧ 10 ∉ cc.pre ∧ 11 ∉ cc.pre :=
  ⟨⟨3, [4], [2, 10, 3, 11], [], none, []⟩, by decide +kernel, by decide, by decide, by decide, by decide⟩

/-- **C73.** A public method that is new in a subclass is not checked against the invariants of the
superclasses at all. -/
theorem new_method_skips_inherited_invariants : ∃ (d : Decl Nat) (cc : Conds Nat),
    methodConds (.mk d [account]) "close".toList = some cc ∧ (classConds account).inv = [10] ∧
    10 ∉ cc.pre ∧ 10 ∉ cc.post :=
  ⟨⟨false, [(true, [])], [("close".toList, fnEntry 4 [5] [6])], 0⟩, ⟨4, [5], [6], [], none, []⟩,
    by decide +kernel, by decide +kernel, by decide, by decide⟩

/-- **C73.** The first parser that finds any condition decides which invariants count, and every parser
finds the conditions of methods whatever syntax they use: when a class states its invariant in the second
parser's syntax and has a contract on any method, the invariant is ignored. -/
theorem second_syntax_invariants_ignored : ∃ (d : Decl Nat) (cc : Conds Nat),
    d = ⟨false, [(true, []), (true, [10])], [(withdraw, .value [none, some ⟨1, [1], [2], [], none, []⟩])], 0⟩ ∧
    methodConds (.mk d []) withdraw = some cc ∧ 10 ∉ cc.pre ∧ 10 ∉ cc.post ∧
    methodConds (.mk d []) "__init__".toList = none :=
  ⟨_, ⟨1, [1], [2], [], none, []⟩, rfl, by decide +kernel, by decide, by decide, by decide +kernel⟩

end Verif.Contract
