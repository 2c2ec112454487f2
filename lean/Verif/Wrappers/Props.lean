import Verif.Wrappers.Model
import Mathlib.Data.List.Basic
/-
The properties of the replacements of `itertools` and `functools`, and of in-place operators.
-/
namespace Verif.Wrappers

section
variable {E A B K : Type}

/-! ### C256 -/

/-- **C256 (partial).** With a function (or without the argument), the replacements do the same as the functions they replace,
exceptions included.  Missing: `None` as the function, see `filterfalse_none`, `groupby_none` and `accumulate_none`. -/
theorem same_as_replaced_partial [DecidableEq K] :
    (∀ truth (p : Arg (A → Except (Err E) Bool)) xs, p ≠ .pyNone → filterfalse truth p xs = cFilterfalse truth p xs) ∧
    (∀ (p : Arg (A → Except (Err E) Bool)) xs, takewhile p xs = cTakewhile p xs) ∧
    (∀ (p : Arg (A → Except (Err E) Bool)) xs, dropwhile p xs = cDropwhile p xs) ∧
    (∀ (p : Arg (A → Except (Err E) B)) xs, starmap p xs = cStarmap p xs) ∧
    (∀ (same : A → K) (key : Arg (A → Except (Err E) K)) xs, key ≠ .pyNone → groupby same key xs = cGroupby same key xs) ∧
    (∀ add (func : Arg (A → A → Except (Err E) A)) initial xs, func ≠ .pyNone → accumulate add func initial xs = cAccumulate add func initial xs) := by
  refine ⟨?_, ?_, ?_, ?_, ?_, ?_⟩
  · intro truth p xs hp
    unfold filterfalse
    induction xs with
    | nil => rfl
    | cons x xs ih =>
      cases p with
      | pyNone => exact absurd rfl hp
      | absent => simp only [cFilterfalse, ih]; rfl
      | fn f => simp only [cFilterfalse, ih]; rfl
  · intro p xs
    unfold takewhile
    induction xs with
    | nil => rfl
    | cons x xs ih => simp only [cTakewhile, ih]; rfl
  · intro p xs
    unfold dropwhile
    induction xs with
    | nil => rfl
    | cons x xs ih => simp only [cDropwhile, ih]; rfl
  · intro p xs
    unfold starmap
    induction xs with
    | nil => rfl
    | cons x xs ih => simp only [cStarmap, ih]; rfl
  · intro same key xs hk
    cases key with
    | pyNone => exact absurd rfl hk
    | absent => rfl
    | fn f => rfl
  · intro add func initial xs hf
    cases func with
    | pyNone => exact absurd rfl hf
    | absent => rfl
    | fn f => rfl

/-- Truth values of integers. -/
def intTruth (n : Int) : Except (Err Unit) Bool := .ok (decide (n ≠ 0))

/-- **C256.** Disagreement: `filterfalse(None, …)` gives the false items in Python, but fails under analysis. -/
theorem filterfalse_none : cFilterfalse intTruth .pyNone [0, 1, 0] = .ok [0, 0] ∧ filterfalse intTruth .pyNone [0, 1, 0] = .error .notCallable :=
  ⟨rfl, rfl⟩

/-- **C256.** Disagreement: `groupby(…, key=None)` groups equal items in Python, but fails under analysis. -/
theorem groupby_none : cGroupby (E := Unit) (fun n : Int => n) .pyNone [5, 5, 6] = .ok [(5, [5, 5]), (6, [6])] ∧
    groupby (E := Unit) (fun n : Int => n) .pyNone [5, 5, 6] = .error .notCallable := ⟨rfl, rfl⟩

/-- **C256.** Disagreement: `accumulate(…, None)` adds in Python, but fails under analysis. -/
theorem accumulate_none : cAccumulate (E := Unit) (fun a b : Int => .ok (a + b)) .pyNone none [1, 2, 3] = .ok [1, 3, 6] ∧
    accumulate (E := Unit) (fun a b : Int => .ok (a + b)) .pyNone none [1, 2, 3] = .error .notCallable := ⟨rfl, rfl⟩

example : groupby (E := Unit) (fun n : Int => n) (.fn fun n => .ok (n % 2)) [1, 3, 4] = .ok [(1, [1, 3]), (0, [4])] := rfl

/-! ### C257 -/

/-- **C257.** With predicates that do not fail, the items are the documented ones. -/
theorem filters_documented (truth : A → Except (Err E) Bool) (q : A → Bool) (xs : List A) :
    filterfalse truth (.fn fun x => .ok (q x)) xs = .ok (xs.filter fun x => !q x) ∧
    takewhile (E := E) (.fn fun x => .ok (q x)) xs = .ok (xs.takeWhile q) ∧
    dropwhile (E := E) (.fn fun x => .ok (q x)) xs = .ok (xs.dropWhile q) := by
  refine ⟨?_, ?_, ?_⟩
  · unfold filterfalse
    induction xs with
    | nil => rfl
    | cons x xs ih =>
      simp only [cFilterfalse, callArg, bind, Except.bind, List.filter_cons] at ih ⊢
      rw [ih]
      cases q x <;> simp
  · unfold takewhile
    induction xs with
    | nil => rfl
    | cons x xs ih =>
      simp only [cTakewhile, callArg, bind, Except.bind, List.takeWhile_cons] at ih ⊢
      cases q x <;> simp [ih]
  · unfold dropwhile
    induction xs with
    | nil => rfl
    | cons x xs ih =>
      simp only [cDropwhile, callArg, bind, Except.bind, List.dropWhile_cons] at ih ⊢
      cases q x <;> simp [ih]

theorem cGroups_spec [DecidableEq K] (key : A → K) (k : K) (group xs : List A) (hg : group ≠ []) (hk : ∀ x ∈ group, key x = k) :
    ∃ groups l, cGroups (E := E) (fun x => .ok (key x)) k group xs = .ok groups ∧ groups[0]? = some (k, l) ∧ Groups key (group ++ xs) groups := by
  induction xs generalizing k group with
  | nil =>
    refine ⟨[(k, group)], group, rfl, rfl, by simp, ?_, ?_⟩
    · intro g h
      rw [List.mem_singleton] at h
      rw [h]
      exact ⟨hg, hk⟩
    · intro i k1 l1 k2 l2 _ h2
      simp at h2
  | cons x xs ih =>
    unfold cGroups
    by_cases he : key x = k
    · obtain ⟨groups, l, h1, h2, h3⟩ := ih k (group ++ [x]) (by simp) (by
        intro y hy
        rcases List.mem_append.mp hy with hy | hy
        · exact hk y hy
        · rw [List.mem_singleton] at hy
          rw [hy, he])
      refine ⟨groups, l, ?_, h2, ?_⟩
      · simp only [bind, Except.bind, if_pos he]
        exact h1
      · rw [List.append_assoc] at h3
        exact h3
    · obtain ⟨groups, l, h1, h2, h3, h4, h5⟩ := ih (key x) [x] (by simp) (by
        intro y hy
        rw [List.mem_singleton] at hy
        rw [hy])
      refine ⟨(k, group) :: groups, group, ?_, rfl, ?_, ?_, ?_⟩
      · simp only [bind, Except.bind, if_neg he, h1]
      · simp only [List.map_cons, List.flatten_cons, h3]
        simp
      · intro g hgm
        rcases List.mem_cons.mp hgm with rfl | hgm
        · exact ⟨hg, hk⟩
        · exact h4 g hgm
      · intro i k1 l1 k2 l2 e1 e2
        cases i with
        | zero =>
          simp only [List.getElem?_cons_zero, Option.some.injEq, Prod.mk.injEq] at e1
          rw [List.getElem?_cons_succ, h2, Option.some.injEq, Prod.mk.injEq] at e2
          rw [← e1.1, ← e2.1]
          exact fun h => he h.symm
        | succ i =>
          rw [List.getElem?_cons_succ] at e1 e2
          exact h5 i k1 l1 k2 l2 e1 e2

/-- **C257.** With a key that does not fail, `groupby` gives the groups of neighbours with equal keys. -/
theorem groupby_documented [DecidableEq K] (same key : A → K) (xs : List A) :
    (∃ groups, groupby (E := E) same (.fn fun x => .ok (key x)) xs = .ok groups ∧ Groups key xs groups) ∧
    ∃ groups, groupby (E := E) same .absent xs = .ok groups ∧ Groups same xs groups := by
  have main : ∀ f : A → K, ∀ r, (r = cGroupby (E := E) same (.fn fun x => .ok (f x)) xs) → ∃ groups, r = .ok groups ∧ Groups f xs groups := by
    intro f r hr
    cases xs with
    | nil => exact ⟨[], hr, rfl, fun g h => (nomatch h), fun i k l k' l' h => (by simp at h)⟩
    | cons x xs =>
      obtain ⟨groups, l, h1, _, h3⟩ := cGroups_spec (E := E) f (f x) [x] xs (by simp) (by
        intro y hy
        rw [List.mem_singleton] at hy
        rw [hy])
      exact ⟨groups, hr.trans h1, h3⟩
  refine ⟨main key _ rfl, main same _ ?_⟩
  unfold groupby
  cases xs <;> rfl

theorem cTotals_spec (f : A → A → A) (start : A) (xs : List A) :
    ∃ totals, cTotals (E := E) (fun a b => .ok (f a b)) start xs = .ok totals ∧ Totals f start xs totals := by
  induction xs generalizing start with
  | nil =>
    refine ⟨[start], rfl, rfl, rfl, ?_⟩
    intro i t x _ h
    simp at h
  | cons x xs ih =>
    obtain ⟨totals, h1, h2, h3, h4⟩ := ih (f start x)
    refine ⟨start :: totals, ?_, ?_, rfl, ?_⟩
    · simp only [cTotals, bind, Except.bind, h1]
    · simp [h2]
    · intro i t y e1 e2
      cases i with
      | zero =>
        simp only [List.getElem?_cons_zero, Option.some.injEq] at e1 e2
        rw [List.getElem?_cons_succ, h3, e1, e2]
      | succ i =>
        rw [List.getElem?_cons_succ] at e1 e2 ⊢
        exact h4 i t y e1 e2

/-- **C257.** With a function that does not fail, `accumulate` gives the running totals, from the initial value or the first item. -/
theorem accumulate_documented (add f : A → A → A) (i : A) (xs : List A) :
    (∃ totals, accumulate (E := E) (fun a b => .ok (add a b)) (.fn fun a b => .ok (f a b)) (some i) xs = .ok totals ∧ Totals f i xs totals) ∧
    (∃ totals, accumulate (E := E) (fun a b => .ok (add a b)) (.fn fun a b => .ok (f a b)) none (i :: xs) = .ok totals ∧ Totals f i xs totals) ∧
    (∃ totals, accumulate (E := E) (fun a b => .ok (add a b)) .absent none (i :: xs) = .ok totals ∧ Totals add i xs totals) ∧
    accumulate (E := E) (fun a b => .ok (add a b)) (.fn fun a b => .ok (f a b)) none [] = .ok [] :=
  ⟨cTotals_spec f i xs, cTotals_spec f i xs, cTotals_spec add i xs, rfl⟩

example : accumulate (E := Unit) (fun a b : Int => .ok (a + b)) (.fn fun a b => .ok (a * b)) (some 2) [3, 4] = .ok [2, 6, 24] := rfl

end

/-! ### C258 -/

section
variable {E A B K S : Type} [DecidableEq K]

theorem lookup_mem {l : List (K × B)} {k : K} {b : B} (h : l.lookup k = some b) : (k, b) ∈ l := by
  induction l with
  | nil => simp at h
  | cons e l ih =>
    rw [List.lookup_cons] at h
    split at h
    · rename_i he
      rw [Option.some.injEq] at h
      have : k = e.1 := by simpa using he
      rw [this, ← h]
      exact List.mem_cons_self ..
    · exact List.mem_cons_of_mem _ (ih h)

/-- **C258 (partial).** If the result of a function (or its exception) depends only on what the cache looks at in its arguments, then
every series of calls gives the same results under analysis as with the cache, for every size of the cache; even if the function
changes something else.  Missing: other functions, see `cache_effects` and `cache_keys`. -/
theorem cache_skipped_partial (maxsize : Option Nat) (key : A → K) (f : A → S → Except E B × S) (g : K → Except E B)
    (hf : ∀ a s, (f a s).1 = g (key a)) (calls : List A) (s s' : S) : cachedRun maxsize key f calls ([], s) = skippedRun f calls s' := by
  suffices h : ∀ (calls : List A) (c : List (K × B)) (s s' : S), (∀ e ∈ c, g e.1 = .ok e.2) →
      cachedRun maxsize key f calls (c, s) = skippedRun f calls s' from h calls [] s s' (fun e h => (nomatch h))
  intro calls
  induction calls with
  | nil => exact fun _ _ _ _ => rfl
  | cons a as ih =>
    intro c s s' hc
    unfold cachedRun skippedRun skippedCall
    rw [hf a s']
    cases hl : c.lookup (key a) with
    | some b =>
      have hm := hc _ (lookup_mem hl)
      have e : cachedCall maxsize key f a (c, s) = (.ok b, (key a, b) :: c.filter (fun e => decide (e.1 ≠ key a)), s) := by
        unfold cachedCall
        simp only [hl]
      rw [e, ih _ _ (f a s').2 ?_]
      · rw [hm]
      · intro x hx
        rcases List.mem_cons.mp hx with rfl | hx
        · exact hm
        · exact hc x (List.mem_of_mem_filter hx)
    | none =>
      cases hr : f a s with
      | mk r t =>
        have hg := hf a s
        rw [hr] at hg
        cases r with
        | ok b =>
          have e : cachedCall maxsize key f a (c, s) = (.ok b, (match maxsize with
              | some n => ((key a, b) :: c).take n
              | none => (key a, b) :: c), t) := by
            unfold cachedCall
            simp only [hl, hr]
            cases maxsize <;> rfl
          rw [e, ih _ _ (f a s').2 ?_]
          · rw [← hg]
          · intro x hx
            have hx : x ∈ (key a, b) :: c := by
              cases maxsize with
              | none => exact hx
              | some n => exact List.mem_of_mem_take hx
            rcases List.mem_cons.mp hx with rfl | hx
            · exact hg.symm
            · exact hc x hx
        | error er =>
          have e : cachedCall maxsize key f a (c, s) = (.error er, c, t) := by
            unfold cachedCall
            simp only [hl, hr]
          rw [e, ih _ _ (f a s').2 hc, ← hg]

/-- **C258.** Disagreement: a cached function that counts its calls gives the first count again in Python, but the next one under
analysis. -/
theorem cache_effects : ∃ f : Unit → Nat → Except Unit Nat × Nat,
    cachedRun none id f [(), ()] ([], 0) = [.ok 0, .ok 0] ∧ skippedRun f [(), ()] 0 = [.ok 0, .ok 1] :=
  ⟨fun _ n => (.ok n, n + 1), rfl, rfl⟩

/-- **C258.** Disagreement: the cache takes `1` and `1.0` for the same argument; a function that does not (here it tells whether the
argument is a float) gives another result under analysis. -/
theorem cache_keys : ∃ f : Int × Bool → Unit → Except Unit Bool × Unit,
    cachedRun none Prod.fst f [(1, false), (1, true)] ([], ()) = [.ok false, .ok false] ∧ skippedRun f [(1, false), (1, true)] () = [.ok false, .ok true] :=
  ⟨fun a s => (.ok a.2, s), rfl, rfl⟩

example : cachedRun (some 1) id (fun (n : Int) (c : Nat) => ((if n = 0 then .error () else .ok (n + 1) : Except Unit Int), c + 1)) [1, 2, 1, 0, 1] ([], 0) =
    [.ok 2, .ok 3, .ok 2, .error (), .ok 2] := rfl

end

/-! ### C259 -/

section
variable {V R : Type}

/-- **C259 (partial).** A partial application under analysis calls the function with the same arguments as in Python, if no
keyword is named `func`.  Missing: that keyword, see `partial_func_keyword`. -/
theorem partial_same_partial (func : Option (Call V → R)) (first : Call V) (h : first.kwargs.lookup "func" = none) :
    partialFn func first = cPartial func first := by
  unfold partialFn
  rw [h]
  cases func with
  | none => rfl
  | some f => rfl

theorem lookup_append' {l m : List (String × V)} {k : String} : (l ++ m).lookup k = (l.lookup k).or (m.lookup k) := by
  induction l with
  | nil => rfl
  | cons e l ih =>
    rw [List.cons_append, List.lookup_cons, List.lookup_cons]
    split <;> simp [ih]

/-- **C259.** The positional arguments of the partial application come before those of the call, and keywords of the call replace
those of the partial application. -/
theorem partial_arguments (f : Call V → R) (first : Call V) (h : first.kwargs.lookup "func" = none) :
    ∃ p, partialFn (some f) first = some p ∧ ∀ second : Call V, ∃ kw, p second = f ⟨first.args ++ second.args, kw⟩ ∧
      ∀ k, kw.lookup k = overlay first.kwargs second.kwargs k := by
  rw [partial_same_partial _ _ h]
  refine ⟨_, rfl, fun second => ⟨mergeKw first.kwargs second.kwargs, rfl, fun k => ?_⟩⟩
  generalize first.kwargs = a
  generalize second.kwargs = b
  unfold mergeKw overlay
  rw [lookup_append']
  have h1 : ∀ a : List (String × V), (a.map fun e => (e.1, (b.lookup e.1).getD e.2)).lookup k = (a.lookup k).map fun v => (b.lookup k).getD v := by
    intro a
    induction a with
    | nil => rfl
    | cons e a ih =>
      rw [List.map_cons, List.lookup_cons, List.lookup_cons]
      cases hk : (k == e.1) with
      | true =>
        have : k = e.1 := by simpa using hk
        simp [this]
      | false => exact ih
  have h2 : a.lookup k = none → ∀ b : List (String × V), (b.filter fun e => (a.lookup e.1).isNone).lookup k = b.lookup k := by
    intro ha b
    induction b with
    | nil => rfl
    | cons e b ih =>
      rw [List.filter_cons, List.lookup_cons]
      cases hk : (k == e.1) with
      | true =>
        have hke : k = e.1 := by simpa using hk
        rw [← hke, ha, if_pos (by rfl), List.lookup_cons, hk]
      | false =>
        split
        · rw [List.lookup_cons, hk]
          exact ih
        · exact ih
  rw [h1]
  cases ha : a.lookup k with
  | some v =>
    cases hb : b.lookup k with
    | some w => rfl
    | none => rfl
  | none =>
    rw [Option.map_none, Option.none_or, h2 ha]
    cases b.lookup k <;> rfl

/-- **C259.** Disagreement: `partial(f, func=1)` works in Python; under analysis it is a `TypeError`. -/
theorem partial_func_keyword : ∃ (f : Call Int → Nat) (first : Call Int), (cPartial (some f) first).isSome ∧ (partialFn (some f) first).isNone :=
  ⟨fun c => c.kwargs.length, ⟨[], [("func", 1)]⟩, rfl, by decide⟩

example : (partialFn (some fun c : Call Int => (c.args, c.kwargs)) ⟨[1], [("a", 2), ("b", 3)]⟩).map (fun p => p ⟨[4], [("b", 5), ("c", 6)]⟩) =
    some ([1, 4], [("a", 2), ("b", 5), ("c", 6)]) := by decide +kernel

end

/-! ### C260 -/

section
variable {Var Heap : Type} [DecidableEq Var]

/-- The objects that variables refer to, and the heap, as Python has them. -/
def Same (st : PxState Var Heap) (py : PyState Var Heap) : Prop := (∀ v, st.deref (st.env v) = py.env v) ∧ st.heap = py.heap

theorem step_same {st : PxState Var Heap} {py : PyState Var Heap} (h : Same st py) (s : Stmt Var Heap) (ha : Apart st s) :
    Same (pxStep st s) (pyStep py s) := by
  obtain ⟨h1, h2⟩ := h
  cases s with
  | copy x y =>
    refine ⟨fun v => ?_, h2⟩
    show st.deref (if v = x then st.env y else st.env v) = if v = x then py.env y else py.env v
    split
    · exact h1 y
    · exact h1 v
  | inplace x op =>
    have hx := h1 x
    cases he : st.env x with
    | place n =>
      rw [he] at hx
      have hx : n = py.env x := hx
      have e : pxStep st (.inplace x op) = { st with env := fun v => if v = x then .place (op n st.heap).1 else st.env v, heap := (op n st.heap).2 } := by
        show (match st.env x with | .proxy p => _ | .place n => _) = _
        rw [he]
      rw [e]
      refine ⟨fun v => ?_, ?_⟩
      · show st.deref (if v = x then .place (op n st.heap).1 else st.env v) = if v = x then (op (py.env x) py.heap).1 else py.env v
        split
        · rw [hx, h2]
          rfl
        · exact h1 v
      · show (op n st.heap).2 = (op (py.env x) py.heap).2
        rw [hx, h2]
    | proxy p =>
      rw [he] at hx
      have hx : st.inner p = py.env x := hx
      have e : pxStep st (.inplace x op) =
          if (op (st.inner p) st.heap).1 = st.inner p then
            { st with env := fun v => if v = x then .proxy p else st.env v, heap := (op (st.inner p) st.heap).2 }
          else { env := fun v => if v = x then .place (op (st.inner p) st.heap).1 else st.env v,
                 inner := fun q => if q = p then (op (st.inner p) st.heap).1 else st.inner q, heap := (op (st.inner p) st.heap).2 } := by
        show (match st.env x with | .proxy p => _ | .place n => _) = _
        rw [he]
      rw [e]
      split
      · rename_i hi
        refine ⟨fun v => ?_, ?_⟩
        · show st.deref (if v = x then .proxy p else st.env v) = if v = x then (op (py.env x) py.heap).1 else py.env v
          split
          · rw [← hx, ← h2, hi]
            rfl
          · exact h1 v
        · show (op (st.inner p) st.heap).2 = (op (py.env x) py.heap).2
          rw [hx, h2]
      · rename_i hi
        have hother := (ha p he).resolve_left hi
        refine ⟨fun v => ?_, ?_⟩
        · show PxState.deref _ (if v = x then .place (op (st.inner p) st.heap).1 else st.env v) = if v = x then (op (py.env x) py.heap).1 else py.env v
          split
          · rw [← hx, ← h2]
            rfl
          · rename_i hv
            rw [← h1 v]
            cases hw : st.env v with
            | place n => rfl
            | proxy q =>
              have hq : q ≠ p := by
                rintro rfl
                exact hother v hv hw
              show (if q = p then _ else st.inner q) = st.inner q
              rw [if_neg hq]
        · show (op (st.inner p) st.heap).2 = (op (py.env x) py.heap).2
          rw [hx, h2]

/-- **C260 (partial).** A program of assignments and in-place operators on objects of unknown type leaves every variable with the same
object as in Python, and the objects with the same contents, if operators that give a new object are only used on a proxy that
no other variable refers to.  Missing: other variables, see `other_variable_changes`. -/
theorem inplace_same_partial (st : PxState Var Heap) (prog : List (Stmt Var Heap)) (ha : AllApart st prog) :
    let py : PyState Var Heap := ⟨fun v => st.deref (st.env v), st.heap⟩
    let st' := prog.foldl pxStep st
    let py' := prog.foldl pyStep py
    (∀ v, st'.deref (st'.env v) = py'.env v) ∧ st'.heap = py'.heap := by
  suffices h : ∀ (prog : List (Stmt Var Heap)) (st : PxState Var Heap) (py : PyState Var Heap), AllApart st prog → Same st py →
      Same (prog.foldl pxStep st) (prog.foldl pyStep py) from h prog st _ ha ⟨fun _ => rfl, rfl⟩
  intro prog
  induction prog with
  | nil => exact fun _ _ _ h => h
  | cons s prog ih =>
    intro st py ha h
    exact ih _ _ ha.2 (step_same h s ha.1)

/-- **C260.** An operator that works in place gives back the very same object, and one that gives a new object does not. -/
theorem inplace_identity (st : PxState Var Heap) (x : Var) (op : Nat → Heap → Nat × Heap) (p : Nat) (h : st.env x = .proxy p) :
    (pxStep st (.inplace x op)).env x = st.env x ↔ (op (st.inner p) st.heap).1 = st.inner p := by
  have e : pxStep st (.inplace x op) =
      if (op (st.inner p) st.heap).1 = st.inner p then
        { st with env := fun v => if v = x then .proxy p else st.env v, heap := (op (st.inner p) st.heap).2 }
      else { env := fun v => if v = x then .place (op (st.inner p) st.heap).1 else st.env v,
             inner := fun q => if q = p then (op (st.inner p) st.heap).1 else st.inner q, heap := (op (st.inner p) st.heap).2 } := by
    show (match st.env x with | .proxy p => _ | .place n => _) = _
    rw [h]
  rw [e, h]
  split
  · rename_i hi
    simp [hi]
  · rename_i hi
    simp [hi]

/-- **C260.** Disagreement: after `y = x; x += 1`, where `x` is an object of unknown type that turns out to be an integer, `y` is the
new number too.  (Variables are truth values: `false` for `x`, `true` for `y`; object 7 is the old number, 8 the new one.) -/
theorem other_variable_changes : ∃ (st : PxState Bool Unit) (prog : List (Stmt Bool Unit)),
    let py : PyState Bool Unit := ⟨fun v => st.deref (st.env v), st.heap⟩
    (prog.foldl pyStep py).env true = 7 ∧ (prog.foldl pxStep st).deref ((prog.foldl pxStep st).env true) = 8 :=
  ⟨⟨fun _ => .proxy 0, fun _ => 7, ()⟩, [.copy true false, .inplace false fun n h => (n + 1, h)], rfl, rfl⟩

example : AllApart (⟨fun v => if v then .proxy 1 else .proxy 0, fun q => q, ()⟩ : PxState Bool Unit)
    [.inplace true fun n h => (n + 5, h), .copy false true] :=
  ⟨fun p hp => Or.inr fun v hv => by (cases v <;> simp_all); omega, trivial, trivial⟩

end

end Verif.Wrappers
