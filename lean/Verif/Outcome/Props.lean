import Verif.Outcome.Lemmas

/-! Properties of the comparison of outcomes (C48). -/
namespace Verif.Outcome

/-- `{'a': [1, nan], 'b': {1, (2, 'x')}}` -/
def exampleVal (i : Nat) : Val :=
  .dict [(.str ['a'], .list [.num 1, .nan i]), (.str ['b'], .set [.num 1, .tuple [.num 2, .str ['x']]])]

/-- The same with items in another order. -/
def exampleVal' (i : Nat) : Val :=
  .dict [(.str ['b'], .set [.tuple [.num 2, .str ['x']], .num 1]), (.str ['a'], .list [.num 1, .nan i])]

theorem exampleVal_plain (i : Nat) : Plain (exampleVal i) := by
  simp [exampleVal, Plain, PlainAll, PlainItems, Key.norm, normAll]

theorem exampleVal'_plain (i : Nat) : Plain (exampleVal' i) := by
  simp [exampleVal', Plain, PlainAll, PlainItems, Key.norm, normAll]

/-- **C48.** Plain values are found equal if and only if they are structurally equal, NaN being equal to itself.  (It
is partial because `Plain` excludes NaN as key or item of a set, iterators, and objects compared by identity; see the
disagreements below.) -/
theorem flexEq_iff_partial (a b : Val) (ha : Plain a) (hb : Plain b) : flexEq a b = true ↔ Same a b :=
  flexEq_iff_aux (sizeOf a + 1) a b (by omega) ha hb

example : Same (exampleVal 1) (exampleVal' 2) :=
  (flexEq_iff_partial _ _ (exampleVal_plain 1) (exampleVal'_plain 2)).1 (by decide +kernel)

example : ¬ Same (exampleVal 1) (.dict [(.str ['b'], .set []), (.str ['a'], .list [.num 1, .nan 1])]) := by
  intro h
  have hp : Plain (.dict [(.str ['b'], .set []), (.str ['a'], .list [.num 1, .nan 1])]) := by
    simp [Plain, PlainAll, PlainItems, Key.norm]
  exact absurd ((flexEq_iff_partial _ _ (exampleVal_plain 1) hp).2 h) (by decide +kernel)

/-- **C48.** Every value is found equal to itself, plain or not. -/
theorem flexEq_self (a : Val) (ha : Built a) : flexEq a a = true :=
  flexEq_self_aux (sizeOf a + 1) a (by omega) ha

example : Built (.dict [(.nan 3, .iter 5 6 [.nan 1]), (.nan 4, .set [.nan 1])]) := by
  simp [Built, BuiltItems, BuiltAll]

/-- **C48.** The comparison of plain values is symmetric. -/
theorem flexEq_symm_partial (a b : Val) (ha : Plain a) (hb : Plain b) : flexEq a b = flexEq b a := by
  rw [Bool.eq_iff_iff, flexEq_iff_partial a b ha hb, flexEq_iff_partial b a hb ha]
  exact ⟨same_symm, same_symm⟩

example : flexEq (exampleVal 1) (exampleVal' 2) = true ∧ flexEq (exampleVal' 2) (exampleVal 1) = true := by
  decide +kernel

/-- **C48.** Iterators of different types that yield plain values are found equal if and only if they yield equal
values. -/
theorem iterators_compare_partial (t i t' i' : Nat) (xs ys : List Val) (ht : t ≠ t') (hx : PlainAll xs)
    (hy : PlainAll ys) : flexEq (.iter t i xs) (.iter t' i' ys) = true ↔ Same (.iter t i xs) (.iter t' i' ys) := by
  have hz := zip_same (n := sizeOf xs + 1) (flexEq_iff_aux _) (xs := xs) (ys := ys) (by omega) hx hy
  simp only [flexEq, if_neg ht]
  by_cases hl : xs.length = ys.length
  · rw [if_neg (by simpa using hl), hz]
    exact ⟨fun h => .iter _ _ _ _ _ _ hl h, fun h => by cases h; assumption⟩
  · rw [if_pos (by simpa using hl)]
    exact ⟨fun h => absurd h (by simp), fun h => by cases h; contradiction⟩

example : flexEq (.iter 5 1 [.num 11, .num 22]) (.iter 6 2 [.num 11, .num 22]) = true ∧
    flexEq (.iter 5 1 [.num 11, .num 22]) (.iter 6 2 [.num 11]) = false := by decide +kernel

theorem sameExc_iff (mode : Mode) (e1 e2 : Option Raised) : sameExc mode e1 e2 = true ↔ ExcSame mode e1 e2 := by
  cases e1 <;> cases e2 <;> cases mode <;> simp [sameExc, ExcSame]

/-- **C48.** Two runs that end properly are reported different if and only if the values returned, the arguments after
the call or the exceptions differ; otherwise the iteration confirms. -/
theorem iteration_verdict_partial (mode : Mode) (end1 end2 : Ended) (args1 args2 : List (Key × Val))
    (h1 : end1.Proper) (h2 : end2.Proper) (hv1 : Plain end1.value) (hv2 : Plain end2.value)
    (ha1 : Plain (.dict args1)) (ha2 : Plain (.dict args2)) :
    (iteration mode end1 end2 args1 args2 = .confirmed ↔
      Same end1.value end2.value ∧ Same (.dict args1) (.dict args2) ∧ ExcSame mode end1.exc end2.exc) ∧
    (iteration mode end1 end2 args1 args2 = .refuted ↔
      ¬ (Same end1.value end2.value ∧ Same (.dict args1) (.dict args2) ∧ ExcSame mode end1.exc end2.exc)) := by
  have d : ∀ e : Ended, e.Proper → describeBehavior e = some (e.value, e.exc) := by
    intro e he; cases e <;> first | rfl | exact he.elim
  rw [← flexEq_iff_partial _ _ hv1 hv2, ← flexEq_iff_partial _ _ ha1 ha2, ← sameExc_iff]
  simp only [iteration, d _ h1, d _ h2]
  cases flexEq end1.value end2.value <;> cases flexEq (.dict args1) (.dict args2) <;>
    cases sameExc mode end1.exc end2.exc <;> simp

example : iteration .sameType (.raised { type := 4, repr := "E(1)".toList }) (.raised { type := 4, repr := "E(2)".toList })
    [(.str ['x'], .list [.nan 1])] [(.str ['x'], .list [.nan 2])] = .confirmed ∧
  iteration .typeAndMessage (.raised { type := 4, repr := "E(1)".toList })
    (.raised { type := 4, repr := "E(2)".toList }) [(.str ['x'], .list [.nan 1])] [(.str ['x'], .list [.nan 2])] =
    .refuted ∧
  iteration .all (.returned (.num 1)) (.returned (.num 1)) [(.str ['x'], .list [])] [(.str ['x'], .list [.num 1])] =
    .refuted := by decide +kernel

/-- **C48.** The results of two executions are equal if and only if the values returned and the arguments are equal,
and both raised an exception of the same type or neither raised one. -/
theorem result_eq_partial (a b : Result) (h1 : Plain a.ret) (h2 : Plain b.ret) (h3 : Plain (.tuple a.postArgs))
    (h4 : Plain (.tuple b.postArgs)) (h5 : Plain (.dict a.postKwargs)) (h6 : Plain (.dict b.postKwargs)) :
    a.eq b = true ↔ Same a.ret b.ret ∧ ExcSame .sameType a.exc b.exc ∧
      Same (.tuple a.postArgs) (.tuple b.postArgs) ∧ Same (.dict a.postKwargs) (.dict b.postKwargs) := by
  rw [← flexEq_iff_partial _ _ h1 h2, ← flexEq_iff_partial _ _ h3 h4, ← flexEq_iff_partial _ _ h5 h6, ← sameExc_iff]
  have he : (a.exc.map (·.type) == b.exc.map (·.type)) = sameExc .sameType a.exc b.exc := by
    cases a.exc <;> cases b.exc <;> simp [sameExc]
  simp only [Result.eq, Bool.and_eq_true, he, and_assoc]

example : Result.eq { ret := .nan 1, exc := none, postArgs := [.num 1], postKwargs := [] }
    { ret := .nan 2, exc := none, postArgs := [.num 1], postKwargs := [] } = true := by decide +kernel

/-- **C48.** The arguments shown as mutated differently are those that both runs have and whose `repr`s differ. -/
theorem differingArgs_iff (args1 args2 : List (List Char × List Char)) (arg : List Char) :
    arg ∈ differingArgs args1 args2 ↔
      ∃ r1 r2, args1.lookup arg = some r1 ∧ args2.lookup arg = some r2 ∧ r1 ≠ r2 := by
  simp only [differingArgs, List.mem_filter, List.mem_eraseDups, List.mem_append, List.mem_map]
  constructor
  · rintro ⟨_, h⟩
    split at h
    · rename_i r1 r2 h1 h2
      exact ⟨r1, r2, h1, h2, by simpa using h⟩
    · cases h
  · rintro ⟨r1, r2, h1, h2, hne⟩
    refine ⟨.inl ?_, by simp [h1, h2, hne]⟩
    obtain ⟨l1, l2, hl, _⟩ := List.lookup_eq_some_iff.1 h1
    exact ⟨(arg, r1), by rw [hl]; simp, rfl⟩

example : differingArgs [("a".toList, "1".toList), ("b".toList, "2".toList)]
    [("a".toList, "1".toList), ("b".toList, "3".toList)] = ["b".toList] := by decide +kernel

/-! ## Disagreements -/

/-- Disagreement: two iterators of one type, such as two generators, are found equal whatever they yield: the test for
types that compare by identity comes first. -/
theorem iterators_same_type :
    flexEq (.iter 5 1 [.num 1]) (.iter 5 2 [.num 2]) = true ∧ ¬ Same (.iter 5 1 [.num 1]) (.iter 5 2 [.num 2]) := by
  refine ⟨by decide +kernel, fun h => ?_⟩
  cases h with
  | iter _ _ _ _ _ _ _ h => cases h 0 _ _ rfl rfl

/-- Disagreement: two objects of one type that compares by identity are found equal, though they are different; those
of different types are found different. -/
theorem objects_same_type (t t' i j : Nat) (ht : t ≠ t') (hi : i ≠ j) :
    flexEq (.other t i) (.other t j) = true ∧ flexEq (.other t i) (.other t' j) = false ∧
      ¬ Same (.other t i) (.other t j) := by
  refine ⟨by simp [flexEq], by simp [flexEq, ht, hi], fun h => ?_⟩
  cases h
  exact hi rfl

example : flexEq (.other 7 1) (.other 7 2) = true := (objects_same_type 7 8 1 2 (by decide) (by decide)).1

/-- Disagreement: sets with different NaN objects are found different. -/
theorem set_nan : flexEq (.set [.nan 1]) (.set [.nan 2]) = false ∧ Same (.set [.nan 1]) (.set [.nan 2]) :=
  ⟨by decide +kernel, .set _ _ (fun k => by simp [Key.norm])⟩

/-- Disagreement: dicts with different NaN objects as keys are found different. -/
theorem dict_nan : flexEq (.dict [(.nan 1, .none)]) (.dict [(.nan 2, .none)]) = false ∧
    Same (.dict [(.nan 1, .none)]) (.dict [(.nan 2, .none)]) := by
  refine ⟨by decide +kernel, .dict _ _ (fun k => by simp [Key.norm]) ?_⟩
  intro k k' v v' h1 h2 _
  simp at h1 h2
  rw [h1.2, h2.2]
  exact .none

/-- Disagreement: with a value that could not be realized the comparison is not symmetric, since that value is also
equal to a missing one. -/
theorem unrealizable_asymmetric :
    flexEq (.dict [(.num 1, .unrealizable)]) (.dict [(.num 2, .num 0)]) = true ∧
      flexEq (.dict [(.num 2, .num 0)]) (.dict [(.num 1, .unrealizable)]) = false := by decide +kernel

/-- Disagreement: an attempt that has to be ignored counts as an exception: a difference is reported if only one of
the functions ends so, and agreement if both do. -/
theorem ignored_compared :
    iteration .typeAndMessage (.returned .none) .ignored [] [] = .refuted ∧
      iteration .typeAndMessage .ignored .ignored [] [] = .confirmed := by decide +kernel

end Verif.Outcome
