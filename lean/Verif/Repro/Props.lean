import Verif.Repro.Names
import Verif.Repro.Bind

/-!
# The text of a counterexample evaluates to the counterexample

C162 to C166.
-/

namespace Verif.Repro

theorem kept_shared {ts : List Tok} {ps : List Val} (h : namesOf ts = meetsAll [] ps) : kept (numbers ts) = Shared ps := by
  funext i
  apply propext
  rw [kept, numbers_isSome, h, Shared]

theorem inv_start (h : Nat → Option (Kind × List Val)) (K : Nat → Option Nat) : Inv h K [] ⟨[], 0⟩ id :=
  ⟨fun _ h => (by cases h), fun _ h => (by cases h), fun _ h => (by cases h), fun _ h => (by cases h)⟩

/-- The text of an object without a name, in a context of its own. -/
theorem object_text (k : Kind) (ps : List Val) (h : Nat → Option (Kind × List Val)) (hh : allInHeap h ps) (hf : k.Fits ps)
    (hw : allWellMade ps) (htu : k = .tuple → ps.length ≠ 1) (hwr : allWritable (Shared ps) [] (k.bare ps.length) ps) :
    ∃ i ws, Same ps ws ∧ evaluates (cleanup (body k (reprAll [] ps).1)) (.node i k ws) := by
  have hn := names_all ps [] [] hw fun _ => Iff.rfl
  have hnames : namesOf (body k (reprAll [] ps).1) = meetsAll [] ps := by
    rw [namesOf_body k _ ps (reprAll_length [] ps) hf, hn.1]
  have hkept := kept_shared hnames
  obtain ⟨D, s', ρ', m, hd, _, _, hx⟩ := read_body h (numbers (body k (reprAll [] ps).1)) k ps
    (fun p _ => reads_all h _ (fun i j n h1 h2 => numbers_inj _ h1 h2) (p.size + 1) p (Nat.lt_succ_self _))
    [] [] ⟨[], 0⟩ id (fun _ => Iff.rfl) hh hf hw htu (by rw [hkept]; exact hwr)
    (fun i h2 => by rw [hkept]; rwa [List.append_nil] at h2) (inv_start _ _)
  refine ⟨m, renameAll ρ' ps, ⟨ρ', fun i hi j hj hij => hd.inv.inj i (hd.ids i hi) j (hd.ids j hj) hij, rfl⟩, D, { s' with next := m + 1 }, ?_⟩
  have := hx [] D (Nat.le_refl _)
  rw [List.append_nil] at this
  exact this

/-! ## C162 -/

/-- C162.  The text of a call, evaluated by Python, makes the call with the same arguments: the same
    values, and two places hold one object just when they did.  Missing: a shared object whose first
    appearance is a keyword argument or a part of a dictionary, and tuples with one part (see
    `keyword_text_is_no_python`, `dict_text_is_no_python` and `single_tuple_text_is_no_tuple`). -/
theorem call_text_evaluates_partial (f : String) (as : List (Option String × Val)) (h : Nat → Option (Kind × List Val))
    (hf : f ≠ "set" ∧ f ≠ "frozenset") (hk : (as.map (·.1)).Pairwise fun a b => a.isSome → b.isSome)
    (hh : allInHeap h (as.map (·.2))) (hw : allWellMade (as.map (·.2)))
    (hwr : allWritable (Shared (as.map (·.2))) [] (as.map (·.1.isSome)) (as.map (·.2))) :
    ∃ i ws, Same (as.map (·.2)) ws ∧ evaluates (callText f as) (.node i (.call f (as.map (·.1))) ws) := by
  have hb : Kind.bare (as.map (·.2)).length (.call f (as.map (·.1))) = as.map (·.1.isSome) := by
    rw [Kind.bare, List.map_map]; rfl
  obtain ⟨i, ws, h1, h2⟩ := object_text (.call f (as.map (·.1))) (as.map (·.2)) h hh
    ⟨hf.1, hf.2, by rw [List.length_map, List.length_map], hk⟩ hw (by simp) (by rw [hb]; exact hwr)
  refine ⟨i, ws, h1, ?_⟩
  have htext : cleanup (body (.call f (as.map (·.1))) (reprAll [] (as.map (·.2))).1) = callText f as := by
    show clean (numbers (.fn f :: .lpar :: ((formatArgs [] as).1 ++ [.rpar]))) (.fn f :: .lpar :: ((formatArgs [] as).1 ++ [.rpar])) = _
    have hnum : numbers (.fn f :: .lpar :: ((formatArgs [] as).1 ++ [.rpar])) = numbers (formatArgs [] as).1 := by
      have : namesOf (.fn f :: .lpar :: ((formatArgs [] as).1 ++ [.rpar])) = namesOf (formatArgs [] as).1 := by
        show namesOf ((formatArgs [] as).1 ++ [.rpar]) = _
        rw [namesOf_append]
        exact List.append_nil _
      unfold numbers
      rw [show (Tok.fn f :: Tok.lpar :: ((formatArgs [] as).1 ++ [Tok.rpar])).filterMap Tok.name = _ from this]
    rw [hnum]
    show .fn f :: .lpar :: clean _ ((formatArgs [] as).1 ++ [.rpar]) = _
    rw [clean_append]
    rfl
  rw [← htext]
  exact h2

mutual
theorem noSingle_writable (sh : Nat → Prop) (hsh : ∀ i, ¬ sh i) : ∀ (v : Val) (seen : List Nat), v.NoSingle → v.Writable sh seen
  | .atom _, _, _ => by rw [Val.Writable]; trivial
  | .node i k ps, seen, h => by
    rw [Val.NoSingle] at h
    rw [Val.Writable]
    exact .inr ⟨h.1, noSingles_writable sh hsh ps seen _ h.2⟩
theorem noSingles_writable (sh : Nat → Prop) (hsh : ∀ i, ¬ sh i) : ∀ (ps : List Val) (seen : List Nat) (bare : List Bool), noSingles ps →
    allWritable sh seen bare ps
  | [], _, _, _ => by rw [allWritable]; trivial
  | p :: ps, seen, bare, h => by
    rw [noSingles] at h
    rw [allWritable]
    refine ⟨fun _ => ?_, noSingle_writable sh hsh p seen h.1, noSingles_writable sh hsh ps _ _ h.2⟩
    cases p with
    | atom a => rw [Val.Plain]; trivial
    | node i k qs => rw [Val.Plain]; exact .inr (hsh i)
end

/-- C162.  Without aliasing, and without one-part tuples, every text is right.  (No object occurs
    twice; then the values are in a heap.) -/
theorem unshared_call_text_evaluates_partial (f : String) (as : List (Option String × Val)) (h : Nat → Option (Kind × List Val))
    (hf : f ≠ "set" ∧ f ≠ "frozenset") (hk : (as.map (·.1)).Pairwise fun a b => a.isSome → b.isSome)
    (hh : allInHeap h (as.map (·.2))) (hw : allWellMade (as.map (·.2)))
    (hns : noSingles (as.map (·.2))) (hu : (meetsAll [] (as.map (·.2))).Nodup) :
    ∃ i ws, Same (as.map (·.2)) ws ∧ evaluates (callText f as) (.node i (.call f (as.map (·.1))) ws) := by
  apply call_text_evaluates_partial f as h hf hk hh hw
  apply noSingles_writable _ _ _ _ _ hns
  intro i hi
  have := List.nodup_iff_count_le_one.mp hu i
  unfold Shared at hi
  omega

/-- `[1]`, shared. -/
def exList : Val := .node 1 .list [.atom "1"]
/-- `f([1], (…, 2), key={3: 4})` with the list in two places. -/
def exArgs : List (Option String × Val) :=
  [(none, exList), (none, .node 2 .tuple [exList, .atom "2"]), (some "key", .node 3 .dict [.atom "3", .atom "4"])]
/-- Its heap. -/
def exHeap : Nat → Option (Kind × List Val)
  | 1 => some (.list, [.atom "1"])
  | 2 => some (.tuple, [exList, .atom "2"])
  | 3 => some (.dict, [.atom "3", .atom "4"])
  | _ => none

/-- Its text is `f(v1:=[1], (v1, 2), key={3: 4})`. -/
theorem ex_text : callText "f" exArgs =
    [.fn "f", .lpar, .bind 1, .lbrack, .atom "1", .rbrack, .comma, .lpar, .use 1, .comma, .atom "2", .rpar, .comma,
      .kw "key", .lbrace, .atom "3", .colon, .atom "4", .rbrace, .rpar] := by decide +kernel

example : ∃ i ws, Same (exArgs.map (·.2)) ws ∧ evaluates (callText "f" exArgs) (.node i (.call "f" [none, none, some "key"]) ws) := by
  apply call_text_evaluates_partial "f" exArgs exHeap
  · decide
  · simp [exArgs]
  · simp [exArgs, exList, allInHeap, Val.InHeap, exHeap]
  · simp [exArgs, exList, allWellMade, Val.WellMade, Kind.Fits]
  · simp [exArgs, exList, allWritable, Val.Writable, Val.Plain, Kind.bare, Shared, meetsAll, Val.meets]

/-- `Pair(x=a, y=a)`, with one list `a` in both places. -/
def pairArgs : List (Option String × Val) := [(some "x", exList), (some "y", exList)]

/-- A text Python rejects, whatever the depth. -/
theorem named_bind_kw (f x : String) (n : Nat) (r : List Tok) (d : Nat) (s : Store) :
    expr d (.fn f :: .lpar :: .kw x :: .bind n :: r) s = none := by
  cases d with
  | zero => rfl
  | succ d =>
    rw [expr_call d f _ _ s (by simp)]
    cases d with
    | zero => rfl
    | succ d =>
      rw [args]
      cases d <;> rfl

/-- Disagreement: an object passed twice by keyword is written `f(x=v1:=[1], y=v1)`, which is not
    Python: a keyword argument may not be an assignment expression without parentheses. -/
theorem keyword_text_is_no_python :
    callText "f" pairArgs = [.fn "f", .lpar, .kw "x", .bind 1, .lbrack, .atom "1", .rbrack, .comma, .kw "y", .use 1, .rpar] ∧
      ∀ v, ¬ evaluates (callText "f" pairArgs) v := by
  have h : callText "f" pairArgs = [.fn "f", .lpar, .kw "x", .bind 1, .lbrack, .atom "1", .rbrack, .comma, .kw "y", .use 1, .rpar] := by
    decide +kernel
  refine ⟨h, ?_⟩
  rintro v ⟨d, s, hd⟩
  rw [h, named_bind_kw] at hd
  cases hd

/-- `{1: a, 2: a}`. -/
def dictVal : Val := .node 5 .dict [.atom "1", exList, .atom "2", exList]

/-- Disagreement: an object that is two values of a dictionary is written `{1: v1:=[1], 2: v1}`,
    which is not Python. -/
theorem dict_text_is_no_python :
    valueText dictVal = [.lbrace, .atom "1", .colon, .bind 1, .lbrack, .atom "1", .rbrack, .comma, .atom "2", .colon, .use 1, .rbrace] ∧
      ∀ v, ¬ evaluates (valueText dictVal) v := by
  have h : valueText dictVal = [.lbrace, .atom "1", .colon, .bind 1, .lbrack, .atom "1", .rbrack, .comma, .atom "2", .colon, .use 1, .rbrace] := by
    decide +kernel
  refine ⟨h, ?_⟩
  rintro v ⟨d, s, hd⟩
  rw [h] at hd
  cases d with
  | zero => cases hd
  | succ d =>
    rw [expr_brace d _ _ _ rfl] at hd
    cases d with
    | zero => cases hd
    | succ d =>
      rw [named_expr d _ _ _ (by simp)] at hd
      cases d with
      | zero => cases hd
      | succ d =>
        rw [show expr (d + 1) (.atom "1" :: [.colon, .bind 1, .lbrack, .atom "1", .rbrack, .comma, .atom "2", .colon, .use 1, .rbrace]) ⟨[], 0⟩ =
          some (.atom "1", [.colon, .bind 1, .lbrack, .atom "1", .rbrack, .comma, .atom "2", .colon, .use 1, .rbrace], ⟨[], 0⟩) from rfl] at hd
        simp only [pairs, expr] at hd
        cases hd

/-- Disagreement: the tuple `(1,)` is written `(1)`, which is the number 1. -/
theorem single_tuple_text_is_no_tuple :
    valueText (.node 7 .tuple [.atom "1"]) = [.lpar, .atom "1", .rpar] ∧
      evaluates (valueText (.node 7 .tuple [.atom "1"])) (.atom "1") := by
  have h : valueText (.node 7 .tuple [.atom "1"]) = [.lpar, .atom "1", .rpar] := by decide +kernel
  refine ⟨h, 3, ⟨[], 0⟩, ?_⟩
  rw [h]; rfl

/-! ## C163 -/

/-- C163.  In the text of the arguments every variable is assigned once and before it is used — also
    where the text is not Python. -/
theorem variables_assigned_once_before_use (as : List (Option String × Val)) (h : Nat → Option (Kind × List Val))
    (hh : allInHeap h (as.map (·.2))) (hw : allWellMade (as.map (·.2))) :
    (scan [] (cleanup (formatArgs [] as).1)).isSome = true := by
  obtain ⟨kn', h1, _⟩ := scan_all h (as.map (·.2)) [] [] hh hw (fun _ h => h) (fun _ _ h => h)
  have h2 : scan [] (formatArgs [] as).1 = some kn' := by
    show scan [] (joined (withKws _ _)) = _
    rw [scan_joined, scanAll_withKws _ _ _ (by rw [reprAll_length, List.length_map, List.length_map]), h1]
  exact scan_clean _ (fun i j n h1 h2 => numbers_inj _ h1 h2) _ [] kn' h2

/-- C163.  The variables are `v1`, `v2`, … in the order they are assigned, and there are as many as
    objects met more than once. -/
theorem variables_in_order (as : List (Option String × Val)) (h : Nat → Option (Kind × List Val))
    (hh : allInHeap h (as.map (·.2))) (hw : allWellMade (as.map (·.2))) :
    ∃ sharedIds : List Nat, sharedIds.Nodup ∧ (∀ i, i ∈ sharedIds ↔ Shared (as.map (·.2)) i) ∧
      assigned (cleanup (formatArgs [] as).1) = List.range' 1 sharedIds.length := by
  obtain ⟨kn', h1, _⟩ := scan_all h (as.map (·.2)) [] [] hh hw (fun _ h => h) (fun _ _ h => h)
  have hlen : (as.map (·.1)).length = (reprAll [] (as.map (·.2))).1.length := by
    rw [reprAll_length, List.length_map, List.length_map]
  have h2 : scan [] (formatArgs [] as).1 = some kn' := by
    show scan [] (joined (withKws _ _)) = _
    rw [scan_joined, scanAll_withKws _ _ _ hlen, h1]
  have hnames : namesOf (formatArgs [] as).1 = meetsAll [] (as.map (·.2)) := by
    show namesOf (joined (withKws _ _)) = _
    rw [namesOf_joined, namesOf_withKws _ _ hlen, (names_all _ [] [] hw fun _ => Iff.rfl).1]
  refine ⟨(firsts [] (meetsAll [] (as.map (·.2)))).filter fun i => decide (1 < (meetsAll [] (as.map (·.2))).count i),
    List.Nodup.filter _ (firsts_nodup _ _), fun i => ?_, ?_⟩
  · rw [List.mem_filter, firsts_mem, decide_eq_true_eq]
    constructor
    · rintro ⟨_, h⟩; exact h
    · intro h
      have h' : 2 ≤ (meetsAll [] (as.map (·.2))).count i := h
      exact ⟨⟨List.count_pos_iff.mp (by omega), by simp⟩, h'⟩
  · rw [← List.countP_eq_length_filter]
    show assigned (clean (numbers _) _) = _
    rw [assigned_clean, assigned_firsts _ _ _ h2, hnames]
    unfold numbers
    rw [show (formatArgs [] as).1.filterMap Tok.name = _ from hnames]
    exact numbered _ _ _ (firsts_nodup _ _)

example : allInHeap exHeap (exArgs.map (·.2)) ∧ allWellMade (exArgs.map (·.2)) ∧ Shared (exArgs.map (·.2)) 1 ∧
    assigned (cleanup (formatArgs [] exArgs).1) = [1] := by
  refine ⟨by simp [exArgs, exList, allInHeap, Val.InHeap, exHeap], by simp [exArgs, exList, allWellMade, Val.WellMade, Kind.Fits],
    by simp [exArgs, exList, Shared, meetsAll, Val.meets], by decide +kernel⟩

/-! ## C164 -/

/-- C164.  The arguments as written bind to the parameters just as the original call did.  Missing: a
    function with `*args` behind a parameter that has a default (see
    `default_before_varargs_is_no_python`). -/
theorem written_arguments_bind_back_partial (ps : List Param) (ss : List Slot) (hs : IsSignature ps) (hb : IsBound ps ss)
    (hd : ∀ p ∈ ps, p.kind = .posOrKw → p.default.isSome → ∀ vs, Slot.many vs ∈ ss → vs = []) :
    ∃ pos kws, splitArgs (callArgs ps ss) = some (pos, kws) ∧ bindCall ps pos kws = some ss :=
  binds_back ps ss hs hb hd

/-- `def f(a, /, b, *c, d=0, **e)`, called `f(1, 2, 3, 4, d=5, x=6)`. -/
def exParams : List Param :=
  [⟨"a", .posOnly, none⟩, ⟨"b", .posOrKw, none⟩, ⟨"c", .varPos, none⟩, ⟨"d", .kwOnly, some (.atom "0")⟩, ⟨"e", .varKw, none⟩]
/-- The values. -/
def exSlots : List Slot :=
  [.one (.atom "1"), .one (.atom "2"), .many [.atom "3", .atom "4"], .one (.atom "5"), .named [("x", .atom "6")]]

example : IsSignature exParams ∧ IsBound exParams exSlots ∧
    (∀ p ∈ exParams, p.kind = .posOrKw → p.default.isSome → ∀ vs, Slot.many vs ∈ exSlots → vs = []) ∧
    callArgs exParams exSlots = [(none, .atom "1"), (none, .atom "2"), (none, .atom "3"), (none, .atom "4"),
      (some "d", .atom "5"), (some "x", .atom "6")] := by
  refine ⟨⟨by decide, by simp [exParams, ParamKind.rank], by simp [exParams, ParamKind.rank]⟩, ⟨?_, ?_⟩, ?_, rfl⟩
  · simp [exParams, exSlots, Param.Takes]
  · simp [exParams, exSlots]
  · simp [exParams]

/-- Disagreement: for `def f(a=0, *args)` the call `f(1, 2)` is written `f(a=1, 2)`, a syntax error. -/
theorem default_before_varargs_is_no_python :
    let ps : List Param := [⟨"a", .posOrKw, some (.atom "0")⟩, ⟨"args", .varPos, none⟩]
    let ss : List Slot := [.one (.atom "1"), .many [.atom "2"]]
    bindCall ps [.atom "1", .atom "2"] [] = some ss ∧
      callText "f" (callArgs ps ss) = [.fn "f", .lpar, .kw "a", .atom "1", .comma, .atom "2", .rpar] ∧
      splitArgs (callArgs ps ss) = none ∧ ∀ v, ¬ evaluates (callText "f" (callArgs ps ss)) v := by
  have h : callText "f" [(some "a", .atom "1"), (none, .atom "2")] = [.fn "f", .lpar, .kw "a", .atom "1", .comma, .atom "2", .rpar] := by
    decide +kernel
  refine ⟨rfl, h, rfl, ?_⟩
  rintro v ⟨d, s, hd⟩
  have hd : expr d (callText "f" [(some "a", .atom "1"), (none, .atom "2")]) ⟨[], 0⟩ = some (v, [], s) := hd
  rw [h] at hd
  cases d with
  | zero => cases hd
  | succ d =>
    rw [expr_call d _ _ _ _ (by simp)] at hd
    cases d with
    | zero => cases hd
    | succ d =>
      rw [args] at hd
      cases d with
      | zero => cases hd
      | succ d =>
        rw [show expr (d + 1) (.atom "1" :: [.comma, .atom "2", .rpar]) ⟨[], 0⟩ = some (.atom "1", [.comma, .atom "2", .rpar], ⟨[], 0⟩) from rfl] at hd
        simp only [args] at hd
        cases hd

/-! ## C165 -/

/-- The text of a value in a context of its own reads as the value. -/
theorem value_text_evaluates_partial (v : Val) (h : Nat → Option (Kind × List Val)) (hh : v.InHeap h) (hw : v.WellMade)
    (hwr : v.Writable (Shared [v]) []) : ∃ w, Same [v] [w] ∧ evaluates (valueText v) w := by
  have hn := names_val v [] [] hw fun _ => Iff.rfl
  have hall : meetsAll [] [v] = v.meets [] := by rw [meetsAll, meetsAll, List.append_nil]
  have hkept := kept_shared (ts := (reprVal [] v).1) (ps := [v]) (by rw [hn.1, hall])
  obtain ⟨D, s', ρ', hd, _, _, hx⟩ := reads_all h (numbers (reprVal [] v).1) (fun i j n h1 h2 => numbers_inj _ h1 h2) (v.size + 1) v
    (Nat.lt_succ_self _) [] [] ⟨[], 0⟩ id (fun _ => Iff.rfl) hh hw (by rw [hkept]; exact hwr)
    (fun i h2 => by rw [hkept, Shared, hall]; rwa [List.append_nil] at h2) (inv_start _ _)
  refine ⟨v.rename ρ', ⟨ρ', fun i hi j hj hij => ?_, by rw [renameAll, renameAll]⟩, D, s', ?_⟩
  · have : idsAll [v] = v.ids := by rw [idsAll, idsAll, List.append_nil]
    rw [this] at hi hj
    exact hd.inv.inj i (hd.ids i hi) j (hd.ids j hj) hij
  · have hplain : v.Plain (kept (numbers (reprVal [] v).1)) [] := by
      cases v with
      | atom a => rw [Val.Plain]; trivial
      | node i k ps =>
        rw [Val.Plain, hkept, Shared, hall, Val.meets, if_neg (by simp)]
        right
        rw [List.count_cons_self]
        have : i ∉ meetsAll [] ps := fun hm => not_inside hh (meetsAll_ids ps [] i hm)
        rw [List.count_eq_zero_of_not_mem this]
        omega
    have := hx hplain [] D (Nat.le_refl _)
    rw [List.append_nil] at this
    exact this

mutual
theorem repr_disjoint (S : Nat → Prop) : ∀ (v : Val) (nm nm' : List Nat), (∀ i ∈ v.ids, S i) → (∀ i, S i → (i ∈ nm ↔ i ∈ nm')) →
    (reprVal nm v).1 = (reprVal nm' v).1 ∧ ∀ i, S i → (i ∈ (reprVal nm v).2 ↔ i ∈ (reprVal nm' v).2)
  | .atom a, nm, nm', _, h => by rw [reprVal, reprVal]; exact ⟨rfl, h⟩
  | .node i k ps, nm, nm', hS, h => by
    rw [Val.ids] at hS
    rw [reprVal, reprVal]
    have hi := h i (hS i (List.mem_cons_self ..))
    by_cases hm : i ∈ nm
    · rw [if_pos hm, if_pos (hi.mp hm)]
      exact ⟨rfl, h⟩
    · rw [if_neg hm, if_neg (fun h => hm (hi.mpr h))]
      obtain ⟨h1, h2⟩ := reprAll_disjoint S ps nm nm' (fun j hj => hS j (List.mem_cons_of_mem _ hj)) h
      refine ⟨?_, fun j hj => ?_⟩
      · simp only
        rw [h1]
      · simp only
        rw [List.mem_cons, List.mem_cons, h2 j hj]
theorem reprAll_disjoint (S : Nat → Prop) : ∀ (ps : List Val) (nm nm' : List Nat), (∀ i ∈ idsAll ps, S i) →
    (∀ i, S i → (i ∈ nm ↔ i ∈ nm')) →
    (reprAll nm ps).1 = (reprAll nm' ps).1 ∧ ∀ i, S i → (i ∈ (reprAll nm ps).2 ↔ i ∈ (reprAll nm' ps).2)
  | [], nm, nm', _, h => by rw [reprAll, reprAll]; exact ⟨rfl, h⟩
  | p :: ps, nm, nm', hS, h => by
    rw [idsAll] at hS
    obtain ⟨h1, h2⟩ := repr_disjoint S p nm nm' (fun j hj => hS j (List.mem_append_left _ hj)) h
    obtain ⟨h3, h4⟩ := reprAll_disjoint S ps _ _ (fun j hj => hS j (List.mem_append_right _ hj)) h2
    rw [reprAll, reprAll]
    simp only
    exact ⟨by rw [h1, h3], h4⟩
end

/-- C165.  The text of the result that `cover` prints behind the arguments evaluates to the result.
    Missing: a result that shares an object with the arguments (see `shared_result_text_is_empty`),
    and the texts that are wrong for the reasons given under C162. -/
theorem result_text_evaluates_partial (as : List (Option String × Val)) (v : Val) (h : Nat → Option (Kind × List Val))
    (hh : v.InHeap h) (hw : v.WellMade) (hwa : allWellMade (as.map (·.2))) (hwr : v.Writable (Shared [v]) [])
    (hd : ∀ i ∈ v.ids, i ∉ idsAll (as.map (·.2))) : ∃ w, Same [v] [w] ∧ evaluates (resultText as v) w := by
  have hn := (names_all (as.map (·.2)) [] [] hwa fun _ => Iff.rfl).2
  have : resultText as v = valueText v := by
    rw [resultText, valueText, (repr_disjoint (· ∈ v.ids) v (formatArgs [] as).2 [] (fun _ h => h) ?_).1]
    intro i hi
    constructor
    · intro hm
      have := (hn i).mpr hm
      rw [List.append_nil] at this
      exact absurd (meetsAll_ids _ _ i this) (hd i hi)
    · intro hm; cases hm
  rw [this]
  exact value_text_evaluates_partial v h hh hw hwr

/-- A result `[[2], [2]]` with one list twice. -/
def exResult : Val := .node 8 .list [.node 9 .list [.atom "2"], .node 9 .list [.atom "2"]]

example : (∃ w, Same [exResult] [w] ∧ evaluates (resultText exArgs exResult) w) ∧
    resultText exArgs exResult = [.lbrack, .bind 1, .lbrack, .atom "2", .rbrack, .comma, .use 1, .rbrack] := by
  refine ⟨?_, by decide +kernel⟩
  apply result_text_evaluates_partial exArgs exResult
    (fun i => if i = 8 then some (.list, [.node 9 .list [.atom "2"], .node 9 .list [.atom "2"]]) else some (.list, [.atom "2"]))
  · simp [exResult, allInHeap, Val.InHeap]
  · simp [exResult, allWellMade, Val.WellMade, Kind.Fits]
  · simp [exArgs, exList, allWellMade, Val.WellMade, Kind.Fits]
  · simp [exResult, allWritable, Val.Writable, Kind.bare]
  · simp [exArgs, exList, exResult, Val.ids, idsAll]

/-- Disagreement: a result that *is* one of the arguments, as the empty tuple and the empty bytes
    always are (Python keeps only one of each), has no text at all: it is written as the name it was
    given in the arguments, which `cleanup` then removes because it occurs once. -/
theorem shared_result_text_is_empty :
    let v : Val := .node 7 (.blob "b''") []
    callText "f" [(none, v)] = [.fn "f", .lpar, .blob "b''", .rpar] ∧ resultText [(none, v)] v = [] ∧
      valueText v = [.blob "b''"] ∧ ∀ w, ¬ evaluates (resultText [(none, v)] v) w := by
  refine ⟨by decide +kernel, by decide +kernel, by decide +kernel, ?_⟩
  rintro w ⟨d, s, hd⟩
  rw [show resultText [(none, .node 7 (.blob "b''") [])] (.node 7 (.blob "b''") []) = [] by decide +kernel] at hd
  cases d <;> cases hd

/-! ## C166 -/

theorem formatDict_body : ∀ (as : List (String × Val)) (nm : List Nat),
    (((as.map fun a => [Tok.atom a.1]).zip (reprAll nm (as.map (·.2))).1).flatMap fun (k, v) => [k, v]) = (reprAll nm (dictParts as)).1
  | [], nm => by rw [List.map_nil, dictParts, List.flatMap_nil, reprAll]; rfl
  | a :: as, nm => by
    have : dictParts (a :: as) = .atom a.1 :: a.2 :: dictParts as := rfl
    rw [this, List.map_cons, List.map_cons, reprAll, reprAll, reprAll]
    simp only
    rw [List.zip_cons_cons, List.flatMap_cons, formatDict_body as]
    rw [reprVal]
    rfl

theorem dictParts_length : ∀ as : List (String × Val), (dictParts as).length = 2 * as.length
  | [] => rfl
  | a :: as => by
    rw [show dictParts (a :: as) = .atom a.1 :: a.2 :: dictParts as from rfl]
    simp only [List.length_cons, dictParts_length as]; omega

/-- C166.  With `--example_output_format=arg_dictionary` the text evaluates to the dictionary of the
    arguments.  Missing: an object that is two of the arguments (`shared_arguments_dictionary`), and
    the texts that are wrong for the reasons given under C162. -/
theorem dictionary_text_evaluates_partial (as : List (String × Val)) (h : Nat → Option (Kind × List Val))
    (hh : allInHeap h (dictParts as)) (hw : allWellMade (dictParts as))
    (hwr : allWritable (Shared (dictParts as)) [] (List.replicate (dictParts as).length true) (dictParts as)) :
    ∃ i ws, Same (dictParts as) ws ∧ evaluates (cleanup (formatDict [] as).1) (.node i .dict ws) := by
  have hl : (dictParts as).length % 2 = 0 := by
    rw [dictParts_length]; omega
  have htext : (formatDict [] as).1 = body .dict (reprAll [] (dictParts as)).1 := by
    rw [formatDict, ← formatDict_body as []]
    rfl
  rw [htext]
  exact object_text .dict (dictParts as) h hh hl hw (by simp) hwr

example : (∃ i ws, Same (dictParts [("a", exList)]) ws ∧ evaluates (cleanup (formatDict [] [("a", exList)]).1) (.node i .dict ws)) ∧
    cleanup (formatDict [] [("a", exList)]).1 = [.lbrace, .atom "a", .colon, .lbrack, .atom "1", .rbrack, .rbrace] := by
  refine ⟨?_, by decide +kernel⟩
  apply dictionary_text_evaluates_partial _ exHeap
  · simp [dictParts, exList, allInHeap, Val.InHeap, exHeap]
  · simp [dictParts, exList, allWellMade, Val.WellMade, Kind.Fits]
  · simp [dictParts, exList, allWritable, Val.Writable, Val.Plain, Kind.bare, Shared, meetsAll, Val.meets]

/-- Disagreement: one list passed for two parameters is written `{"a": v1:=[1], "b": v1}`, which is
    not Python. -/
theorem shared_arguments_dictionary :
    cleanup (formatDict [] [("a", exList), ("b", exList)]).1 =
      [.lbrace, .atom "a", .colon, .bind 1, .lbrack, .atom "1", .rbrack, .comma, .atom "b", .colon, .use 1, .rbrace] ∧
      ∀ v, ¬ evaluates (cleanup (formatDict [] [("a", exList), ("b", exList)]).1) v := by
  have h : cleanup (formatDict [] [("a", exList), ("b", exList)]).1 =
      [.lbrace, .atom "a", .colon, .bind 1, .lbrack, .atom "1", .rbrack, .comma, .atom "b", .colon, .use 1, .rbrace] := by
    decide +kernel
  refine ⟨h, ?_⟩
  rintro v ⟨d, s, hd⟩
  rw [h] at hd
  cases d with
  | zero => cases hd
  | succ d =>
    rw [expr_brace d _ _ _ rfl] at hd
    cases d with
    | zero => cases hd
    | succ d =>
      rw [named_expr d _ _ _ (by simp)] at hd
      cases d with
      | zero => cases hd
      | succ d =>
        rw [show expr (d + 1) (.atom "a" :: [.colon, .bind 1, .lbrack, .atom "1", .rbrack, .comma, .atom "b", .colon, .use 1, .rbrace]) ⟨[], 0⟩ =
          some (.atom "a", [.colon, .bind 1, .lbrack, .atom "1", .rbrack, .comma, .atom "b", .colon, .use 1, .rbrace], ⟨[], 0⟩) from rfl] at hd
        simp only [pairs, expr] at hd
        cases hd

end Verif.Repro
