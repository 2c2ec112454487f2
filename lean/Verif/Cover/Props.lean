/- Theorems about the tests that `crosshair cover` writes. -/
import Verif.Cover.Model
import Mathlib.Data.Nat.Digits.Lemmas
import Mathlib.Data.List.Perm.Basic
import Mathlib.Data.List.Nodup
import Mathlib.Data.List.TakeWhile
import Mathlib.Tactic.Common
import Mathlib.Tactic.IntervalCases

namespace Verif.Cover

/-! ### Names of tests -/

theorem digit_back : ∀ d < 10, (Char.ofNat (48 + d)).toNat - 48 = d := by decide

theorem digit_ne : ∀ d < 10, Char.ofNat (48 + d) ≠ '_' := by decide

theorem decimal_inj {a b : Nat} (h : decimal a = decimal b) : a = b := by
  unfold decimal at h
  have h1 := congrArg (List.map fun c : Char => c.toNat - 48) (List.reverse_injective h)
  have back : ∀ n : Nat, (((Nat.digits 10 n).map fun d => Char.ofNat (48 + d)).map fun c : Char => c.toNat - 48) = Nat.digits 10 n := by
    intro n
    rw [List.map_map]
    conv_rhs => rw [← List.map_id (Nat.digits 10 n)]
    exact List.map_congr_left fun d hd => digit_back d (Nat.digits_lt_base (by decide) hd)
  rw [back, back] at h1
  exact Nat.digits_inj_iff.1 h1

theorem decimal_ne {n : Nat} : ∀ c ∈ decimal n, c ≠ '_' := by
  intro c hc
  simp only [decimal, List.mem_reverse, List.mem_map] at hc
  obtain ⟨d, hd, rfl⟩ := hc
  exact digit_ne d (Nat.digits_lt_base (by decide) hd)

theorem split_first : ∀ {A B a b : Str}, (∀ c ∈ A, c ≠ '_') → (∀ c ∈ B, c ≠ '_') → A ++ '_' :: a = B ++ '_' :: b → A = B ∧ a = b
  | [], [], _, _, _, _, h => by cases h; exact ⟨rfl, rfl⟩
  | [], y :: B, _, _, _, hB, h => by
    simp only [List.nil_append, List.cons_append, List.cons.injEq] at h
    exact absurd h.1.symm (hB y List.mem_cons_self)
  | x :: A, [], _, _, hA, _, h => by
    simp only [List.nil_append, List.cons_append, List.cons.injEq] at h
    exact absurd h.1 (hA x List.mem_cons_self)
  | x :: A, y :: B, _, _, hA, hB, h => by
    simp only [List.cons_append, List.cons.injEq] at h
    obtain ⟨rfl, h⟩ := h
    obtain ⟨rfl, h2⟩ := split_first (fun c hc => hA c (List.mem_cons_of_mem _ hc)) (fun c hc => hB c (List.mem_cons_of_mem _ hc)) h
    exact ⟨rfl, h2⟩

theorem split_last {A B a b : Str} (hA : ∀ c ∈ A, c ≠ '_') (hB : ∀ c ∈ B, c ≠ '_') (h : a ++ '_' :: A = b ++ '_' :: B) : a = b ∧ A = B := by
  have h1 := congrArg List.reverse h
  simp only [List.reverse_append, List.reverse_cons, List.append_assoc, List.singleton_append] at h1
  obtain ⟨h2, h3⟩ := split_first (fun c hc => hA c (List.mem_reverse.1 hc)) (fun c hc => hB c (List.mem_reverse.1 hc)) h1
  exact ⟨List.reverse_injective h3, List.reverse_injective h2⟩

/-- When the names of two tests are the same. -/
theorem name_clash {f g : Ref} {i j : Nat} (h : testName f i = testName g j) :
    (underscored f.qual = underscored g.qual ∧ i = j) ∨
    (i = 0 ∧ j ≠ 0 ∧ underscored f.qual = underscored g.qual ++ '_' :: decimal (j + 1)) ∨
    (j = 0 ∧ i ≠ 0 ∧ underscored g.qual = underscored f.qual ++ '_' :: decimal (i + 1)) := by
  unfold testName suffix at h
  by_cases hi : i = 0
  · by_cases hj : j = 0
    · subst hi hj; left; simpa using h
    · right; left; rw [if_pos hi, if_neg hj] at h; exact ⟨hi, hj, by simpa using h⟩
  · by_cases hj : j = 0
    · right; right; rw [if_neg hi, if_pos hj] at h; exact ⟨hj, hi, by simpa using h.symm⟩
    · left
      rw [if_neg hi, if_neg hj] at h
      obtain ⟨h1, h2⟩ := split_last decimal_ne decimal_ne h
      exact ⟨h1, by have := decimal_inj h2; omega⟩

theorem testName_inj {f : Ref} {i j : Nat} (h : testName f i = testName f j) : i = j := by
  rcases name_clash h with ⟨_, h⟩ | ⟨_, _, h⟩ | ⟨_, _, h⟩
  · exact h
  · exact absurd (congrArg List.length h) (by simp)
  · exact absurd (congrArg List.length h) (by simp)

theorem testsFrom_get (fn : Ref) : ∀ (ps : List Path) (k i : Nat), (testsFrom fn k ps)[i]? = ps[i]?.map (testOf fn (k + i))
  | [], _, _ => by simp [testsFrom]
  | p :: ps, k, 0 => by simp [testsFrom]
  | p :: ps, k, i + 1 => by
    simp only [testsFrom, List.getElem?_cons_succ]
    rw [testsFrom_get fn ps (k + 1) i, show k + 1 + i = k + (i + 1) by omega]

theorem testsFrom_names (fn : Ref) : ∀ (ps : List Path) (k : Nat), (testsFrom fn k ps).map Test.name = (List.range' k ps.length).map (testName fn)
  | [], _ => by simp [testsFrom]
  | p :: ps, k => by
    simp only [testsFrom, List.map_cons, List.length_cons, List.range'_succ]
    rw [testsFrom_names fn ps (k + 1)]
    rfl

theorem mem_names {fn : Ref} {ps : List Path} {n : Str} : n ∈ (testsFrom fn 0 ps).map Test.name ↔ ∃ i < ps.length, testName fn i = n := by
  rw [testsFrom_names]
  simp only [List.mem_map, List.mem_range'_1]
  constructor
  · rintro ⟨i, h, rfl⟩; exact ⟨i, by omega, rfl⟩
  · rintro ⟨i, h, rfl⟩; exact ⟨i, by omega, rfl⟩

/-- The tests of a function have different names: none hides another. -/
theorem names_of_function (f : Fn) : ((outputPytest f).2.map Test.name).Nodup := by
  simp only [outputPytest, testsFrom_names]
  exact List.Nodup.map (fun i j h => testName_inj h) (List.nodup_range')

/-- The tests of all functions have different names, if no two names of functions are the same with underscores for dots, and none is
that of another with the number of a test. -/
theorem names_partial (fs : List Fn) (hd : fs.Pairwise fun f g => underscored f.ref.qual ≠ underscored g.ref.qual)
    (hn : ∀ f ∈ fs, ∀ g ∈ fs, ∀ n, 2 ≤ n → n ≤ f.paths.length → underscored g.ref.qual ≠ underscored f.ref.qual ++ '_' :: decimal n) :
    ((fs.flatMap fun f => (outputPytest f).2).map Test.name).Nodup := by
  rw [List.map_flatMap, List.nodup_flatMap]
  refine ⟨fun f _ => names_of_function f, ?_⟩
  refine List.Pairwise.imp_of_mem ?_ hd
  intro f g hf hg hne n h1 h2
  obtain ⟨i, hi, rfl⟩ := mem_names.1 h1
  obtain ⟨j, hj, h⟩ := mem_names.1 h2
  rcases name_clash h.symm with ⟨h, _⟩ | ⟨_, h0, h⟩ | ⟨_, h0, h⟩
  · exact hne h
  · exact hn g hg f hf (j + 1) (by omega) (by omega) h
  · exact hn f hf g hg (i + 1) (by omega) (by omega) h

/-- Two functions of a module, `f` with two examples and `f_2` with one. -/
def twoFns : List Fn :=
  [⟨⟨['m'], ['f']⟩, [⟨['1'], ['1'], none, []⟩, ⟨['2'], ['3'], none, []⟩]⟩, ⟨⟨['m'], ['f', '_', '2']⟩, [⟨['4'], ['5'], none, []⟩]⟩]

example : (([⟨⟨['m'], ['f']⟩, [⟨['1'], ['1'], none, []⟩, ⟨['2'], ['3'], none, []⟩]⟩, ⟨⟨['m'], ['A', '.', 'g']⟩, [⟨['4'], ['5'], none, []⟩]⟩] : List Fn).flatMap
    fun f => (outputPytest f).2.map Test.name) = [['f'], ['f', '_', '2'], ['A', '_', 'g']] := by decide

/-- **Disagreement**: the second test of `f` and the first test of `f_2` have the same name; the later one hides the other. -/
theorem names_hidden : (twoFns.flatMap fun f => (outputPytest f).2.map Test.name) = [['f'], ['f', '_', '2'], ['f', '_', '2']] := by decide

/-! ### What the tests say -/

/-- There is a test for each example, in order. -/
theorem tests_in_order (f : Fn) : (outputPytest f).2.length = f.paths.length ∧
    ∀ (i : Nat) (p : Path), f.paths[i]? = some p → (outputPytest f).2[i]? = some (testOf f.ref i p) := by
  constructor
  · have := congrArg List.length (testsFrom_names f.ref f.paths 0)
    simpa [outputPytest] using this
  · intro i p h
    simp [outputPytest, testsFrom_get, h]

/-- The tests pass exactly if the function does what the examples say. -/
theorem tests_pass (f : Fn) (run : Str → Str → Outcome) (fits : Str → Str → Prop) :
    (∀ t ∈ (outputPytest f).2, Passes run fits t.body) ↔ ∀ p ∈ f.paths, AsFound run fits f.ref p := by
  have key : ∀ i p, Passes run fits (testOf f.ref i p).body ↔ AsFound run fits f.ref p := by
    intro i p
    unfold testOf AsFound
    rcases p.exc with _ | e
    · rfl
    · cases hp : e.pattern with
      | none => simp [Passes, hp]
      | some m => simp [Passes, hp]
  constructor
  · intro h p hp
    obtain ⟨i, hi⟩ := List.mem_iff_getElem?.1 hp
    exact (key i p).1 (h _ (List.mem_iff_getElem?.2 ⟨i, (tests_in_order f).2 i p hi⟩))
  · intro h t ht
    obtain ⟨i, hi⟩ := List.mem_iff_getElem?.1 ht
    simp only [outputPytest, testsFrom_get, Option.map_eq_some_iff] at hi
    obtain ⟨p, hp, rfl⟩ := hi
    exact (key _ p).2 (h p (List.mem_iff_getElem?.2 ⟨i, hp⟩))

example : (outputPytest ⟨⟨['m'], ['f']⟩, [⟨['1'], ['2'], none, []⟩, ⟨['0'], [], some ⟨['E'], ['m'], some ['x']⟩, []⟩]⟩).2 =
    [⟨['f'], .equal ['f'] ['1'] ['2']⟩, ⟨['f', '_', '2'], .raisesMatch ['E'] ['x'] ['f'] ['0']⟩] := by decide

/-! ### Imports -/

theorem mem_addTo {α : Type} [DecidableEq α] {x y : α} {l : List α} : y ∈ addTo x l ↔ y = x ∨ y ∈ l := by
  unfold addTo
  split
  · constructor
    · exact .inr
    · rintro (rfl | h)
      · assumption
      · exact h
  · simp [or_comm]

theorem mem_foldl_addTo {α : Type} [DecidableEq α] {y : α} : ∀ {xs l : List α}, y ∈ xs.foldl (fun a x => addTo x a) l ↔ y ∈ l ∨ y ∈ xs
  | [], l => by simp
  | x :: xs, l => by
    rw [List.foldl_cons, mem_foldl_addTo, mem_addTo, List.mem_cons]
    tauto

theorem mem_importsFor {i : Import} : ∀ {rs : List Ref}, i ∈ importsFor rs ↔ ∃ r ∈ rs, r.mod ≠ builtinsName ∧ i = .fromMod r.mod (root r.qual)
  | [] => by simp [importsFor]
  | r :: rs => by
    have ih := mem_importsFor (i := i) (rs := rs)
    have hroot : '.' ∉ r.qual → r.qual = root r.qual := by
      intro h
      refine (List.takeWhile_eq_self_iff.2 ?_).symm
      intro c hc
      simp only [decide_eq_true_eq]
      rintro rfl; exact h hc
    simp only [importsFor]
    by_cases hb : r.mod = builtinsName
    · rw [if_pos hb, ih]
      constructor
      · rintro ⟨r', h, h'⟩; exact ⟨r', List.mem_cons_of_mem _ h, h'⟩
      · rintro ⟨r', h, h'⟩
        rcases List.mem_cons.1 h with rfl | h
        · exact absurd hb h'.1
        · exact ⟨r', h, h'⟩
    · rw [if_neg hb]
      have : i ∈ (if '.' ∈ r.qual then addTo (Import.fromMod r.mod (r.qual.takeWhile (· ≠ '.'))) (importsFor rs) else addTo (.fromMod r.mod r.qual) (importsFor rs)) ↔
          i = .fromMod r.mod (root r.qual) ∨ i ∈ importsFor rs := by
        split
        · exact mem_addTo
        · rename_i h
          rw [mem_addTo]
          conv_lhs => rw [hroot h]
      rw [this, ih]
      constructor
      · rintro (h | ⟨r', h, h'⟩)
        · exact ⟨r, List.mem_cons_self, hb, h⟩
        · exact ⟨r', List.mem_cons_of_mem _ h, h'⟩
      · rintro ⟨r', h, h'⟩
        rcases List.mem_cons.1 h with rfl | h
        · exact .inl h'.2
        · exact .inr ⟨r', h, h'⟩

/-- The names that the tests of a function use. -/
def Uses (f : Fn) (r : Ref) : Prop := r = f.ref ∨ ∃ p ∈ f.paths, r ∈ p.refs

theorem mem_output {f : Fn} {i : Import} : i ∈ (outputPytest f).1 ↔
    (i = .pytest ∧ ∃ p ∈ f.paths, p.exc.isSome = true) ∨ ∃ r, Uses f r ∧ r.mod ≠ builtinsName ∧ i = .fromMod r.mod (root r.qual) := by
  have hrefs : ∀ (ps : List Path) (acc : List Ref) (r : Ref), r ∈ ps.foldl (fun acc p => p.refs.foldl (fun a r => addTo r a) acc) acc ↔
      r ∈ acc ∨ ∃ p ∈ ps, r ∈ p.refs := by
    intro ps
    induction ps with
    | nil => intro acc r; simp
    | cons p ps ih =>
      intro acc r
      rw [List.foldl_cons, ih, mem_foldl_addTo]
      simp only [List.mem_cons, exists_eq_or_imp]
      tauto
  have hpy : ∀ (ps : List Path) (acc : List Import), i ∈ ps.foldl (fun acc p => if p.exc.isSome then addTo .pytest acc else acc) acc ↔
      i ∈ acc ∨ (i = .pytest ∧ ∃ p ∈ ps, p.exc.isSome = true) := by
    intro ps
    induction ps with
    | nil => intro acc; simp
    | cons p ps ih =>
      intro acc
      rw [List.foldl_cons, ih]
      simp only [List.mem_cons, exists_eq_or_imp]
      split
      · rename_i h
        rw [mem_addTo]
        tauto
      · rename_i h
        tauto
  simp only [outputPytest]
  rw [mem_foldl_addTo, hpy, mem_importsFor]
  simp only [hrefs, List.mem_singleton, Uses, List.not_mem_nil, false_or]

theorem coverLoop_some : ∀ {xs : List Examined} {is is' : List Import} {ts ts' : List Test}, coverLoop xs is ts = some (is', ts') →
    (∀ i, i ∈ is' ↔ i ∈ is ∨ ∃ f, .paths f ∈ xs ∧ i ∈ (outputPytest f).1) ∧
    ts' = ts ++ (xs.filterMap fun x => match x with | .paths f => some f | _ => none).flatMap fun f => (outputPytest f).2
  | [], is, is', ts, ts', h => by
    cases h; simp
  | .notCallable :: xs, is, is', ts, ts', h => by
    obtain ⟨h1, h2⟩ := coverLoop_some (xs := xs) h
    refine ⟨fun i => ?_, ?_⟩
    · rw [h1]; simp
    · rw [h2]; simp
  | .notDeterministic :: xs, is, is', ts, ts', h => by cases h
  | .paths f :: xs, is, is', ts, ts', h => by
    obtain ⟨h1, h2⟩ := coverLoop_some (xs := xs) h
    refine ⟨fun i => ?_, ?_⟩
    · rw [h1, mem_foldl_addTo]
      simp only [List.mem_cons, Examined.paths.injEq]
      constructor
      · rintro ((h | h) | ⟨g, h, h'⟩)
        · exact .inl h
        · exact .inr ⟨f, .inl rfl, h⟩
        · exact .inr ⟨g, .inr h, h'⟩
      · rintro (h | ⟨g, rfl | h, h'⟩)
        · exact .inl (.inl h)
        · exact .inl (.inr h')
        · exact .inr ⟨g, h, h'⟩
    · rw [h2]; simp only [List.filterMap_cons, List.flatMap_cons, List.append_assoc]; rfl

theorem bound_some {n m : Str} : ∀ {is : List Import}, bound is n = some m → .fromMod m n ∈ is
  | .pytest :: is, h => List.mem_cons_of_mem _ (bound_some (is := is) h)
  | .fromMod a x :: is, h => by
    simp only [bound] at h
    cases hb : bound is n with
    | some r => rw [hb] at h; cases h; exact List.mem_cons_of_mem _ (bound_some hb)
    | none =>
      rw [hb] at h
      dsimp only at h
      split at h
      · cases h; subst x; exact List.mem_cons_self
      · cases h

theorem bound_mem {n m : Str} : ∀ {is : List Import}, .fromMod m n ∈ is → bound is n ≠ none
  | .pytest :: is, h => by
    rcases List.mem_cons.1 h with h | h
    · cases h
    · exact bound_mem (is := is) h
  | .fromMod a x :: is, h => by
    simp only [bound]
    cases hb : bound is n with
    | some r => simp
    | none =>
      rcases List.mem_cons.1 h with h | h
      · cases h; simp
      · exact absurd hb (bound_mem h)

/-- In the file that is written, each name that a test uses (that of the function, and those in its arguments and result) is that of its
module, if names with the same first part are from the same module. `pytest` is imported exactly if there is a test for an exception. -/
theorem imports_partial {xs : List Examined} {is : List Import} {ts : List Test} (h : cover xs = (0, some (is, ts)))
    (hc : ∀ f g r s, .paths f ∈ xs → .paths g ∈ xs → Uses f r → Uses g s → root r.qual = root s.qual → r.mod = s.mod) :
    (∀ f r, .paths f ∈ xs → Uses f r → Resolves is r) ∧ (.pytest ∈ is ↔ ∃ f, .paths f ∈ xs ∧ ∃ p ∈ f.paths, p.exc.isSome = true) := by
  unfold cover at h
  cases xs with
  | nil => cases h
  | cons x xs =>
    dsimp only at h
    cases hl : coverLoop (x :: xs) [] [] with
    | none => rw [hl] at h; cases h
    | some out =>
      rw [hl] at h
      cases h
      obtain ⟨h1, _⟩ := coverLoop_some hl
      have hmem : ∀ i, i ∈ is ↔ ∃ f, .paths f ∈ x :: xs ∧ i ∈ (outputPytest f).1 := by intro i; rw [h1]; simp
      have hfrom : ∀ {m n}, Import.fromMod m n ∈ is → ∃ g s, .paths g ∈ x :: xs ∧ Uses g s ∧ s.mod ≠ builtinsName ∧ m = s.mod ∧ n = root s.qual := by
        intro m n hi
        obtain ⟨g, hg, hi⟩ := (hmem _).1 hi
        rcases mem_output.1 hi with ⟨hi, _⟩ | ⟨s, hs, hb, hi⟩
        · cases hi
        · cases hi; exact ⟨g, s, hg, hs, hb, rfl, rfl⟩
      constructor
      · intro f r hf hr
        unfold Resolves
        split
        · rename_i hb
          by_contra hne
          obtain ⟨m, hm⟩ := Option.ne_none_iff_exists'.1 hne
          obtain ⟨g, s, hg, hs, hsb, rfl, hn⟩ := hfrom (bound_some hm)
          exact hsb ((hc f g r s hf hg hr hs hn).symm.trans hb)
        · rename_i hb
          have hin : .fromMod r.mod (root r.qual) ∈ is := (hmem _).2 ⟨f, hf, mem_output.2 (.inr ⟨r, hr, hb, rfl⟩)⟩
          obtain ⟨m, hm⟩ := Option.ne_none_iff_exists'.1 (bound_mem hin)
          obtain ⟨g, s, hg, hs, _, rfl, hn⟩ := hfrom (bound_some hm)
          rw [hm, hc f g r s hf hg hr hs hn]
      · rw [hmem]
        constructor
        · rintro ⟨f, hf, hi⟩
          rcases mem_output.1 hi with ⟨_, hp⟩ | ⟨_, _, _, hi⟩
          · exact ⟨f, hf, hp⟩
          · cases hi
        · rintro ⟨f, hf, hp⟩
          exact ⟨f, hf, mem_output.2 (.inl ⟨rfl, hp⟩)⟩

/-- Nothing else is imported. -/
theorem imports_needed {xs : List Examined} {is : List Import} {ts : List Test} (h : cover xs = (0, some (is, ts))) {m n : Str}
    (hi : .fromMod m n ∈ is) : ∃ f r, .paths f ∈ xs ∧ Uses f r ∧ r.mod = m ∧ root r.qual = n ∧ m ≠ builtinsName := by
  unfold cover at h
  cases xs with
  | nil => cases h
  | cons x xs =>
    dsimp only at h
    cases hl : coverLoop (x :: xs) [] [] with
    | none => rw [hl] at h; cases h
    | some out =>
      rw [hl] at h
      cases h
      rcases ((coverLoop_some hl).1 _).1 hi with hi | ⟨g, hg, hi⟩
      · cases hi
      · rcases mem_output.1 hi with ⟨hi, _⟩ | ⟨s, hs, hb, hi⟩
        · cases hi
        · cases hi; exact ⟨g, s, hg, hs, rfl, rfl, hb⟩

example : cover [.paths ⟨⟨['m'], ['A', '.', 'f']⟩, [⟨['1'], ['2'], some ⟨['E'], ['m'], none⟩, [⟨['n'], ['B']⟩]⟩]⟩] =
    (0, some ([.pytest, .fromMod ['n'] ['B'], .fromMod ['m'] ['A']], [⟨['A', '_', 'f'], .raises ['E'] ['A', '.', 'f'] ['1']⟩])) := by rfl

/-- **Disagreement**: functions with the same name in two modules are both imported under that name; the tests of the first are run with the
second function. -/
theorem imports_clash : ∃ is ts, cover [.paths ⟨⟨['m'], ['f']⟩, []⟩, .paths ⟨⟨['n'], ['f']⟩, []⟩] = (0, some (is, ts)) ∧ ¬ Resolves is ⟨['m'], ['f']⟩ := by
  refine ⟨[.fromMod ['m'] ['f'], .fromMod ['n'] ['f']], [], rfl, ?_⟩
  unfold Resolves
  decide

/-- **Disagreement**: the class of an exception is used in a test but not imported. -/
theorem exception_not_imported : ∃ is ts, cover [.paths ⟨⟨['m'], ['f']⟩, [⟨['1'], ['2'], some ⟨['E'], ['m'], none⟩, []⟩]⟩] = (0, some (is, ts)) ∧
    ts = [⟨['f'], .raises ['E'] ['f'] ['1']⟩] ∧ ¬ Resolves is ⟨['m'], ['E']⟩ := by
  refine ⟨[.pytest, .fromMod ['m'] ['f']], _, rfl, rfl, ?_⟩
  unfold Resolves
  decide

/-! ### Exit codes and the functions that are examined -/

/-- The exit code is 0 with the tests of all functions, in order, or 2 if there are no functions, or one is not deterministic. -/
theorem cover_exit (xs : List Examined) :
    ((xs = [] ∨ .notDeterministic ∈ xs) ∧ cover xs = (2, none)) ∨
    (xs ≠ [] ∧ .notDeterministic ∉ xs ∧ ∃ is, cover xs =
      (0, some (is, (xs.filterMap fun x => match x with | .paths f => some f | _ => none).flatMap fun f => (outputPytest f).2))) := by
  have key : ∀ (xs : List Examined) is ts, (.notDeterministic ∈ xs ∧ coverLoop xs is ts = none) ∨
      (.notDeterministic ∉ xs ∧ ∃ out, coverLoop xs is ts = some out) := by
    intro xs
    induction xs with
    | nil => intro is ts; exact .inr ⟨by simp, _, rfl⟩
    | cons x xs ih =>
      intro is ts
      cases x with
      | notCallable => simpa [coverLoop] using ih is ts
      | notDeterministic => exact .inl ⟨List.mem_cons_self, rfl⟩
      | paths f => simpa [coverLoop] using ih _ _
  unfold cover
  cases xs with
  | nil => exact .inl ⟨.inl rfl, rfl⟩
  | cons x xs =>
    dsimp only
    rcases key (x :: xs) [] [] with ⟨h1, h2⟩ | ⟨h1, ⟨is, ts⟩, h2⟩
    · rw [h2]; exact .inl ⟨.inr h1, rfl⟩
    · rw [h2]
      refine .inr ⟨by simp, h1, is, ?_⟩
      have := (coverLoop_some h2).2
      rw [this]; rfl

/-- How many steps an entity needs. -/
def weight {F : Type} : Entity F → Nat
  | .mod ms => ms.length + 1
  | .member _ => 1

theorem collect_spec {F : Type} : ∀ (fuel : Nat) (stack : List (Entity F)) (acc : List F), (stack.map weight).sum < fuel →
    ∃ r, collect fuel stack acc = some r ∧ r.Perm (acc ++ stack.flatMap Entity.fns)
  | 0, _, _, h => absurd h (Nat.not_lt_zero _)
  | fuel + 1, stack, acc, h => by
    simp only [collect]
    cases hs : stack.reverse with
    | nil =>
      have : stack = [] := by simpa using hs
      subst this
      exact ⟨acc, rfl, by simp⟩
    | cons e rest =>
      have he : stack = rest.reverse ++ [e] := by
        have := congrArg List.reverse hs
        simpa using this
      subst he
      simp only [List.map_append, List.sum_append, List.map_cons, List.map_nil, List.sum_cons, List.sum_nil] at h
      cases e with
      | mod ms =>
        have hw : ((rest.reverse ++ ms.map Entity.member).map weight).sum < fuel := by
          have : ((ms.map Entity.member).map weight).sum = ms.length := by
            clear h hs
            induction ms with
            | nil => rfl
            | cons m ms ih => simp only [List.map_cons, List.sum_cons, ih, weight, List.length_cons]; omega
          rw [List.map_append, List.sum_append, this]
          simp only [weight] at h
          omega
        obtain ⟨r, h1, h2⟩ := collect_spec fuel _ acc hw
        refine ⟨r, h1, h2.trans ?_⟩
        rw [List.flatMap_append, List.flatMap_append, List.flatMap_map]
        simp only [List.flatMap_cons, List.flatMap_nil, List.append_nil, Entity.fns]
        exact .refl _
      | member m =>
        simp only [weight] at h
        cases m with
        | fn f =>
          obtain ⟨r, h1, h2⟩ := collect_spec fuel rest.reverse (acc ++ [f]) (by omega)
          refine ⟨r, h1, h2.trans ?_⟩
          simp only [List.flatMap_append, List.flatMap_cons, List.flatMap_nil, List.append_nil, Entity.fns, Member.fns, List.append_assoc]
          exact List.Perm.append_left _ List.perm_append_comm
        | cls ms =>
          obtain ⟨r, h1, h2⟩ := collect_spec fuel rest.reverse (acc ++ ms) (by omega)
          refine ⟨r, h1, h2.trans ?_⟩
          simp only [List.flatMap_append, List.flatMap_cons, List.flatMap_nil, List.append_nil, Entity.fns, Member.fns, List.append_assoc]
          exact List.Perm.append_left _ List.perm_append_comm

/-- Each function and method of the targets is examined once: the functions found are those of the modules, classes and functions given. -/
theorem functions_found {F : Type} (targets : List (Entity F)) :
    ∃ n, ∀ fuel, n ≤ fuel → ∃ r, collect fuel targets [] = some r ∧ r.Perm (targets.flatMap Entity.fns) :=
  ⟨(targets.map weight).sum + 1, fun fuel h => by simpa using collect_spec fuel targets [] (by omega)⟩

example : collect 10 [.mod [.fn 1, .cls [2, 3], .fn 4], .member (.fn 5)] [] = some [5, 4, 2, 3, 1] := by rfl

end Verif.Cover
