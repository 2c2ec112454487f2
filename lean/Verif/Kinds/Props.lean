import Verif.Kinds.Lemmas
/-
Properties of the kinds of contracts: C113 (`implies`), C114 (asserts), C115 (icontract), C116 (deal), C117 (registered contracts).
-/
namespace Verif.Kinds

/-! ### C113: `implies` -/

/-- C113: a condition that is accepted evaluates to what it means, and evaluates the same parts in the same order: in
`implies(X, Y)`, at any depth, `Y` is evaluated only if `X` is true. -/
theorem implies_lazy (I : Interp) (e e' : Expr) (h : transform e = some e') : eval I e' = meaning I e :=
  eval_transform I e e' h

/-- C113: a condition is refused exactly if some `implies` in it has not two arguments. -/
theorem implies_refused (e : Expr) : transform e = none ↔ ¬ TwoArgs e := by
  constructor
  · intro h h2
    obtain ⟨e', he⟩ := transform_some e h2
    rw [h] at he; cases he
  · intro h
    cases he : transform e with
    | none => rfl
    | some e' => exact absurd (twoArgs_of_transform e e' he) h

/-- Disagreement: keyword arguments of `implies` are dropped without notice, where a call of a function with two parameters raises `TypeError`. -/
theorem implies_keywords_dropped (x y x' y' k k' : Expr) (hx : transform x = some x') (hy : transform y = some y') (hk : transform k = some k') :
    transform (.call impliesName [x, y] [k]) = some (.ifExp x' y' .tru) := by
  simp [transform, transformAll, hx, hy, hk, rewriteCall]

/-- `implies(a, implies(b, c))` with false `a` does not look at `b` and `c`; with true `a` and `b` it is `c`. -/
example : let e : Expr := .call 0 [.atom 1, .call 0 [.atom 2, .atom 3] []] []
    let I (a : Nat) : Interp := ⟨fun n => if n = 1 then some a else if n = 2 then some 1 else none, fun _ _ _ => none, fun _ _ => none, fun n => n == 1, 1⟩
    (transform e).map (eval (I 0)) = some (some 1, [1]) ∧ (transform e).map (eval (I 1)) = some (none, [1, 2, 3]) := by decide

/-! ### C114: assertions as contracts -/

/-- C114: assertions at the beginning are preconditions, and others are to be checked: an `AssertionError` is passed over if it comes
from a leading statement, and reported if it comes from a later one.  `f` is the frame of the function, in the statement `t`; no
function that is called from there has the same name in the same file. -/
theorem asserts_exact_partial {body lead rest : List Stmt} {s : Stmt} (hsp : Split body lead s rest) (hb : Below body)
    (name file defLine : Nat) (outer inner : List Frame) (f : Frame) (hf : f.name = name ∧ f.file = file)
    (hin : ∀ g ∈ inner, ¬ (g.name = name ∧ g.file = file)) (t : Stmt) (hl : t.first ≤ f.line ∧ f.line ≤ t.last) :
    ∃ line, firstBodyLine body = some line ∧
      (t ∈ lead → wrapped name file defLine line (.assertion (outer ++ f :: inner)) = .returned) ∧
      (t ∈ s :: rest → wrapped name file defLine line (.assertion (outer ++ f :: inner)) = .assertion (outer ++ f :: inner)) := by
  refine ⟨s.first, firstBodyLine_split hsp, ?_⟩
  have hfl : frameLine name file defLine (outer ++ f :: inner) = f.line := by
    unfold frameLine
    have : (outer ++ f :: inner).reverse.find? (fun g => g.name == name && g.file == file) = some f := by
      rw [List.reverse_append, List.reverse_cons, List.append_assoc, List.find?_append]
      have h1 : inner.reverse.find? (fun g => g.name == name && g.file == file) = none := by
        rw [List.find?_eq_none]
        intro g hg
        have := hin g (List.mem_reverse.1 hg)
        simpa using this
      rw [h1]
      simp [hf.1, hf.2]
    rw [this]
  rw [hsp.split] at hb
  obtain ⟨hb1, hb2⟩ := hb
  rw [List.pairwise_append] at hb2
  obtain ⟨_, hb3, hb4⟩ := hb2
  refine ⟨fun h => ?_, fun h => ?_⟩
  · have := hb4 t h s (List.mem_cons_self ..)
    simp only [wrapped, hfl]
    rw [if_neg (by omega)]
  · have : s.first ≤ t.first := by
      rcases List.mem_cons.1 h with rfl | h'
      · exact Nat.le_refl _
      · rw [List.pairwise_cons] at hb3
        have h1 := hb3.1 t h'
        have h2 := hb1 s (by simp)
        omega
    simp only [wrapped, hfl]
    rw [if_pos (by omega)]

/-- C114: returning and other exceptions are passed on. -/
theorem asserts_others (name file defLine line : Nat) :
    wrapped name file defLine line .returned = .returned ∧ wrapped name file defLine line .other = .other := ⟨rfl, rfl⟩

/-- C114: functions that do not begin with an assertion are left alone. -/
theorem asserts_none (lead : List Stmt) (rest : List Stmt) (hl : ∀ x ∈ lead, x.assert = false ∧ x.literal = true)
    (hr : ∀ s, rest.head? = some s → s.assert = false ∧ s.literal = false) : firstBodyLine (lead ++ rest) = none := by
  have key : ∀ (lead : List Stmt) (cur : Option Stmt), (∀ x ∈ lead, x.assert = false ∧ x.literal = true) →
      (bodyLoop (lead ++ rest) false cur).1 = false := by
    intro lead
    induction lead with
    | nil =>
      intro cur _
      cases rest with
      | nil => rfl
      | cons s rest =>
        have := hr s rfl
        simp [bodyLoop, this.1, this.2]
    | cons x lead ih =>
      intro cur h
      have hx := h x (List.mem_cons_self ..)
      simp only [List.cons_append, bodyLoop, hx.1, hx.2]
      exact ih _ fun y hy => h y (List.mem_cons_of_mem _ hy)
  have := key lead none hl
  unfold firstBodyLine
  generalize bodyLoop (lead ++ rest) false none = p at this
  obtain ⟨a, b⟩ := p
  simp only at this
  subst this
  rfl

/-- Disagreement: if there is nothing but assertions, the last one is not taken for a precondition: its line is the first of the body. -/
theorem asserts_last (lead : List Stmt) (s : Stmt) (hl : ∀ x ∈ lead, x.assert = true) (hs : s.assert = true) :
    firstBodyLine (lead ++ [s]) = some s.first := by
  have key : ∀ (lead : List Stmt) (found : Bool) (cur : Option Stmt), (∀ x ∈ lead, x.assert = true) →
      bodyLoop (lead ++ [s]) found cur = (true, some s) := by
    intro lead
    induction lead with
    | nil => intro found cur _; simp [bodyLoop, hs]
    | cons x lead ih =>
      intro found cur h
      simp only [List.cons_append, bodyLoop]
      rw [if_pos (h x (List.mem_cons_self ..))]
      exact ih _ _ fun y hy => h y (List.mem_cons_of_mem _ hy)
  unfold firstBodyLine
  rw [key lead false none hl]

/-- Disagreement: a function that calls itself in its body (line 3) with arguments that its own leading assertion (line 2) refuses is passed
over, since the innermost frame counts. -/
theorem asserts_recursion_hidden :
    Split [⟨true, false, 2, 2⟩, ⟨false, false, 3, 3⟩] [⟨true, false, 2, 2⟩] ⟨false, false, 3, 3⟩ [] ∧
    wrapped 7 1 1 3 (.assertion [⟨7, 1, 3⟩, ⟨7, 1, 2⟩]) = .returned :=
  ⟨⟨rfl, by simp, ⟨_, List.mem_cons_self .., rfl⟩, rfl, rfl⟩, by decide⟩

/-- Disagreement: so is a method (line 13) that calls the method of the same name of a class above in the same file, in which an assertion
(line 5, not a leading one) fails. -/
theorem asserts_same_name_hidden : wrapped 7 1 11 13 (.assertion [⟨7, 1, 13⟩, ⟨7, 1, 5⟩]) = .returned := by decide

example : Below [⟨true, false, 2, 2⟩, ⟨false, true, 3, 4⟩, ⟨true, false, 5, 6⟩, ⟨false, false, 7, 7⟩, ⟨true, false, 8, 8⟩] := by
  unfold Below; decide
example : Split [⟨true, false, 2, 2⟩, ⟨false, true, 3, 4⟩, ⟨true, false, 5, 6⟩, ⟨false, false, 7, 7⟩, ⟨true, false, 8, 8⟩]
    [⟨true, false, 2, 2⟩, ⟨false, true, 3, 4⟩, ⟨true, false, 5, 6⟩] ⟨false, false, 7, 7⟩ [⟨true, false, 8, 8⟩] :=
  ⟨rfl, by decide, ⟨_, List.mem_cons_self .., rfl⟩, rfl, rfl⟩

/-! ### C115: icontract's groups of preconditions -/

/-- C115: the preconditions hold exactly if all contracts of one of the groups hold, or there are no groups. -/
theorem icontract_pre (eval : Nat → Eval) (d : List (List Nat)) (h : ∀ cs ∈ d, ∀ c ∈ cs, ∃ b, eval c = .value b) :
    (∀ pre ∈ preconditions d, evalPre eval pre = .value true) ↔ (d = [] ∨ ∃ cs ∈ d, ∀ c ∈ cs, eval c = .value true) := by
  have many : ∀ d : List (List Nat), (∀ cs ∈ d, ∀ c ∈ cs, ∃ b, eval c = .value b) →
      (evalPre eval d = .value true ↔ ∃ cs ∈ d, ∀ c ∈ cs, eval c = .value true) := by
    intro d h
    unfold evalPre
    rw [evalDisj_value eval d h]
    simp
  match d, h with
  | [], _ => simp [preconditions]
  | [conj], h =>
    simp only [preconditions, List.mem_map, forall_exists_index, and_imp, forall_apply_eq_imp_iff₂]
    constructor
    · intro h2
      refine Or.inr ⟨conj, List.mem_cons_self .., fun c hc => ?_⟩
      have := (many [[c]] (by
        intro cs hcs c' hc'
        simp only [List.mem_singleton] at hcs
        subst hcs
        simp only [List.mem_singleton] at hc'
        subst hc'
        exact h conj (List.mem_cons_self ..) _ hc)).1 (h2 c hc)
      simpa using this
    · rintro (h2 | ⟨cs, hcs, h2⟩) c hc
      · cases h2
      · simp only [List.mem_singleton] at hcs
        subst hcs
        simp [evalPre, evalDisj, evalConj, h2 c hc]
  | c1 :: c2 :: cs, h =>
    simp only [preconditions, List.mem_singleton, forall_eq]
    rw [many _ h]
    simp

/-- C115: the groups are evaluated in order, and no contract is evaluated after one of its group has failed: with the first group failing at
its first contract, the others of it may raise what they like. -/
theorem icontract_short (eval : Nat → Eval) (c : Nat) (cs : List Nat) (d : List (List Nat)) (h : eval c = .value false) :
    evalDisj eval ((c :: cs) :: d) = evalDisj eval d := by
  simp [evalDisj, evalConj, h]

example : let eval : Nat → Eval := fun c => if c = 1 then .value false else if c = 2 then .raised 9 else .value true
    (∀ pre ∈ preconditions [[1, 2], [3, 4]], evalPre eval pre = .value true) ∧
    ¬ (∀ pre ∈ preconditions [[3, 1]], evalPre eval pre = .value true) := by decide

/-! ### C116: deal's arguments -/

/-- C116: contracts of deal get their arguments as the function does: what they are called with binds to the same values, for functions whose
parameters may all be given by position. -/
theorem deal_args_partial (bs : List (Param × Val)) (h : ∀ b ∈ bs, b.1.kind = .posOnly ∨ b.1.kind = .posKw) :
    bind (bs.map (·.1)) (extract bs).1 (extract bs).2 = some bs := by
  rw [extract_kwargs bs fun b hb => by rcases h b hb with h | h <;> rw [h] <;> decide, extract_args]
  induction bs with
  | nil => simp [bind]
  | cons b bs ih =>
    have ih := ih fun b hb => h b (List.mem_cons_of_mem _ hb)
    obtain ⟨p, v⟩ := b
    rw [List.map_cons, bind.eq_def]
    rcases h (p, v) (List.mem_cons_self ..) with hk | hk
    · simp only at hk
      simp only [hk, List.map_cons]
      rw [ih]; rfl
    · simp only at hk
      simp only [hk, List.map_cons]
      rw [ih]; rfl

/-- Disagreement: keyword-only arguments are given twice, by position as well, so that the call of the contract always fails. -/
theorem deal_keyword_only (bs : List (Param × Val)) (hv : ∀ b ∈ bs, b.1.kind ≠ .varPos) (hk : ∃ b ∈ bs, b.1.kind = .kwOnly) :
    bind (bs.map (·.1)) (extract bs).1 (extract bs).2 = none := by
  cases h : bind (bs.map (·.1)) (extract bs).1 (extract bs).2 with
  | none => rfl
  | some r =>
    exfalso
    have h1 := bind_count _ _ _ _ (by
      intro p hp
      obtain ⟨b, hb, rfl⟩ := List.mem_map.1 hp
      exact hv b hb) h
    rw [extract_args, List.length_map] at h1
    obtain ⟨b, hb, hbk⟩ := hk
    have h2 : ((bs.map (·.1)).filter fun p => decide (p.kind = .posOnly ∨ p.kind = .posKw)).length < (bs.map (·.1)).length := by
      rw [List.length_filter_lt_length_iff_exists]
      exact ⟨b.1, List.mem_map_of_mem (f := (·.1)) hb, by simp [hbk]⟩
    rw [List.length_map] at h2
    omega

/-- Disagreement: further positional arguments (`*args`) are given as one tuple, so that the contract gets a tuple in a tuple. -/
theorem deal_varargs (p : Param) (hp : p.kind = .varPos) (vs : List Val) :
    bind [p] (extract [(p, .tuple vs)]).1 (extract [(p, .tuple vs)]).2 = some [(p, .tuple [.tuple vs])] := by
  simp [extract, hp, bind]

example : bind [⟨1, .posOnly⟩, ⟨2, .posKw⟩] (extract [(⟨1, .posOnly⟩, .atom 5), (⟨2, .posKw⟩, .atom 6)]).1 [] =
    some [(⟨1, .posOnly⟩, .atom 5), (⟨2, .posKw⟩, .atom 6)] := by simp [extract, bind]

/-! ### C117: registered contracts -/

/-- C117: once a contract is registered for a function, its conditions stay what they are, whatever is registered later; only signatures are
added, after those that there are. -/
theorem registered_stays (ref : Nat → Option Sig) (reg : Registry) (rs : List Registration) (fn : Nat) (c : Contract) (h : reg.lookup fn = some c) :
    ∃ more, (register ref reg rs).lookup fn = some { c with sigs := c.sigs ++ more } := by
  induction rs generalizing reg c with
  | nil => exact ⟨[], by simp [register, h]⟩
  | cons r rs ih =>
    obtain ⟨m1, h1⟩ := addContract_stays reg r.fn r.contract (ref r.fn) fn c h
    obtain ⟨m2, h2⟩ := ih _ _ h1
    exact ⟨m1 ++ m2, by
      show (register ref (addContract reg r.fn r.contract (ref r.fn)).1 rs).lookup fn = _
      rw [h2]; simp⟩

/-- C117: what is refused changes nothing. -/
theorem refused_unchanged (reg : Registry) (fn : Nat) (c : Contract) (ref : Option Sig) (h : (addContract reg fn c ref).2 = false) :
    (addContract reg fn c ref).1 = reg := by
  unfold addContract at h ⊢
  split
  · rename_i hv
    rw [if_pos hv] at h
    cases hl : reg.lookup fn with
    | none => rw [hl] at h; cases h
    | some old =>
      rw [hl] at h
      simp only at h ⊢
      split
      · rename_i hs; rw [if_pos hs] at h; cases h
      · rfl
  · rfl

/-- C117: a contract that is registered gets all of its arguments: for every history of registrations, and arguments for the parameters of the
signature used, the preconditions without optional parameters are given the values of the arguments. -/
theorem registered_pre_args_partial (ref : Nat → Option Sig) (rs : List Registration) (fn : Nat) (c : Contract) (s p : Sig)
    (h : (register ref [] rs).lookup fn = some c) (hs : usedSig c (ref fn) = some s) (hp : c.pre = some p)
    (hreq : ∀ e ∈ p, e.2 = true) (bound : List (Nat × Val)) (hb : ∀ n ∈ names s, (bound.lookup n).isSome) :
    ∃ l, lookupArgs p bound = some l ∧ l.map (·.1) = names p ∧ ∀ e ∈ l, bound.lookup e.1 = some e.2 := by
  have hok : ∀ (rs : List Registration) (reg : Registry), RegOk ref reg → (reg.map (·.1)).Nodup →
      RegOk ref (register ref reg rs) := by
    intro rs
    induction rs with
    | nil => intro reg h _; exact h
    | cons r rs ih =>
      intro reg h hn
      obtain ⟨h1, h2⟩ := addContract_ok ref reg r.fn r.contract h hn
      exact ih _ h1 h2
  have hv := hok rs [] (by intro e he; cases he) (by simp) _ (lookup_mem' h)
  simp only at hv
  have hsv : verifyOne c (ref fn) s = true := by
    unfold verify at hv
    rw [List.all_eq_true] at hv
    apply hv
    unfold usedSig at hs
    cases hc : c.sigs with
    | nil =>
      rw [hc] at hs
      simp only at hs
      simp [hs]
    | cons x xs =>
      rw [hc] at hs
      simp only [Option.some.injEq] at hs
      simp [hs]
  apply lookupArgs_some
  intro n hn
  apply hb
  unfold verifyOne at hsv
  rw [hp] at hsv
  simp only [Bool.and_eq_true] at hsv
  have := hsv.1.2
  rw [List.all_eq_true] at this
  have hm : n ∈ required p := by
    unfold names at hn
    obtain ⟨e, he, rfl⟩ := List.mem_map.1 hn
    unfold required
    exact List.mem_map.2 ⟨e, List.mem_filter.2 ⟨he, hreq e he⟩, rfl⟩
  simpa using this n hm

/-- C117: the same for postconditions, which may also ask for `__return__` and `__old__`. -/
theorem registered_post_args_partial (ref : Nat → Option Sig) (rs : List Registration) (fn : Nat) (c : Contract) (s p : Sig)
    (h : (register ref [] rs).lookup fn = some c) (hs : usedSig c (ref fn) = some s) (hp : c.post = some p)
    (hreq : ∀ e ∈ p, e.2 = true) (bound : List (Nat × Val)) (hb : ∀ n, n ∈ names s ∨ n = returnName ∨ n = oldName → (bound.lookup n).isSome) :
    ∃ l, lookupArgs p bound = some l ∧ l.map (·.1) = names p ∧ ∀ e ∈ l, bound.lookup e.1 = some e.2 := by
  have hok : ∀ (rs : List Registration) (reg : Registry), RegOk ref reg → (reg.map (·.1)).Nodup →
      RegOk ref (register ref reg rs) := by
    intro rs
    induction rs with
    | nil => intro reg h _; exact h
    | cons r rs ih =>
      intro reg h hn
      obtain ⟨h1, h2⟩ := addContract_ok ref reg r.fn r.contract h hn
      exact ih _ h1 h2
  have hv := hok rs [] (by intro e he; cases he) (by simp) _ (lookup_mem' h)
  simp only at hv
  have hsv : verifyOne c (ref fn) s = true := by
    unfold verify at hv
    rw [List.all_eq_true] at hv
    apply hv
    unfold usedSig at hs
    cases hc : c.sigs with
    | nil =>
      rw [hc] at hs
      simp only at hs
      simp [hs]
    | cons x xs =>
      rw [hc] at hs
      simp only [Option.some.injEq] at hs
      simp [hs]
  apply lookupArgs_some
  intro n hn
  apply hb
  unfold verifyOne at hsv
  rw [hp] at hsv
  simp only [Bool.and_eq_true] at hsv
  have := hsv.2
  rw [List.all_eq_true] at this
  have hm : n ∈ required p := by
    unfold names at hn
    obtain ⟨e, he, rfl⟩ := List.mem_map.1 hn
    unfold required
    exact List.mem_map.2 ⟨e, List.mem_filter.2 ⟨he, hreq e he⟩, rfl⟩
  simpa using this n hm

/-- Disagreement: a condition with an optional parameter that the function lacks is accepted, but fails with `KeyError` whenever it is
evaluated: `lookupArgs` looks all parameters up, and only those without default were verified. -/
theorem registered_optional : let c : Contract := ⟨some [(1, true), (2, false)], none, [], true⟩
    (addContract [] 5 c (some [(1, true)])).2 = true ∧ (lookupArgs [(1, true), (2, false)] [(1, .atom 0)]).isNone = true := by decide

/-- Two registrations with the same conditions, and one with others that is refused. -/
example : let ref : Nat → Option Sig := fun _ => some [(1, true)]
    let c (s : List Sig) : Contract := ⟨some [(1, true)], none, s, true⟩
    (register ref [] [⟨5, c []⟩, ⟨5, c [[(1, false)]]⟩, ⟨5, ⟨none, none, [], true⟩⟩]).lookup 5 = some (c [[(1, false)]]) := by decide

end Verif.Kinds
