import Verif.Builtin.Lemmas

/-! Theorems about the replacements for built-in functions (C57, C76 to C79). -/
namespace Verif.Builtin

variable {A E : Type}

/-! ## all and any (C57) -/

/-- C57.  If neither the iterator nor the truth of a symbolic value raises, `all` gives the conjunction of the items
under every assignment: the value returned on the path that the assignment follows is, under that assignment,
what Python returns, and exceptions raised by other objects are the same. -/
theorem all_python_partial (a : A) (steps : List (Step A E)) (h : Quiet steps) :
    (all a steps).1.value a = (pyAll a steps 0).1 :=
  (allLoop_true a steps 0 [] rfl).2.2.1 h

/-- C57 for `any`. -/
theorem any_python_partial (a : A) (steps : List (Step A E)) (h : Quiet steps) :
    (any a steps).1.value a = (pyAny a steps 0).1 :=
  (anyLoop_false a steps 0 [] rfl).2.2.1 h

/-- A symbolic condition, another object and a bool; the condition decides whether the object is asked. -/
def sampleSteps : List (Step Bool String) :=
  [.item (.sym id), .item (.other false (fun _ => .error "no truth")), .item (.bool false)]

example : Quiet sampleSteps := by
  intro s hs
  simp only [sampleSteps, List.mem_cons, List.not_mem_nil, or_false] at hs
  rcases hs with rfl | rfl | rfl <;> simp
example : ((all false sampleSteps).1.value false, (all true sampleSteps).1.value true) =
  (.ok false, .error "no truth") := rfl
example : ((any false sampleSteps).1.value false, (any true sampleSteps).1.value true) =
  (.error "no truth", .ok true) := rfl

/-- The symbolic result is right for all assignments that follow the same path, not only for the one that chose it. -/
theorem all_same_path (a b : A) (steps : List (Step A E)) (h : Quiet steps)
    (hp : (all a steps).1 = (all b steps).1) : (all a steps).1.value b = (pyAll b steps 0).1 := by
  rw [hp]; exact all_python_partial b steps h

/-- The symbolic result is right for all assignments that follow the same path. -/
theorem any_same_path (a b : A) (steps : List (Step A E)) (h : Quiet steps)
    (hp : (any a steps).1 = (any b steps).1) : (any a steps).1.value b = (pyAny b steps 0).1 := by
  rw [hp]; exact any_python_partial b steps h

/-- A run of symbolic conditions does not split the path. -/
example : (all true ([.item (.sym id), .item (.sym not)] : List (Step Bool Unit))).1 =
    (all false [.item (.sym id), .item (.sym not)]).1 := rfl

/-- Whatever the iterator and the items do, a value returned by `all` is the one Python returns. -/
theorem all_value (a : A) (steps : List (Step A E)) (b : Bool) (h : (all a steps).1.value a = .ok b) :
    (pyAll a steps 0).1 = .ok b :=
  (allLoop_true a steps 0 [] rfl).1 b h

/-- A value returned by `any` is the one Python returns. -/
theorem any_value (a : A) (steps : List (Step A E)) (b : Bool) (h : (any a steps).1.value a = .ok b) :
    (pyAny a steps 0).1 = .ok b :=
  (anyLoop_false a steps 0 [] rfl).1 b h

/-- An exception that Python's `all` raises is raised here too. -/
theorem all_raises (a : A) (steps : List (Step A E)) (e : E) (h : (pyAll a steps 0).1 = .error e) :
    (all a steps).1.value a = .error e :=
  (allLoop_true a steps 0 [] rfl).2.1 e h

/-- An exception that Python's `any` raises is raised here too. -/
theorem any_raises (a : A) (steps : List (Step A E)) (e : E) (h : (pyAny a steps 0).1 = .error e) :
    (any a steps).1.value a = .error e :=
  (anyLoop_false a steps 0 [] rfl).2.1 e h

example : (pyAll true sampleSteps 0).1 = .error "no truth" := rfl
example : (pyAny false sampleSteps 0).1 = .error "no truth" := rfl
example : (all false sampleSteps).1.value false = .ok false := rfl
example : (any true sampleSteps).1.value true = .ok true := rfl

/-- `all` asks exactly those objects for their truth that Python asks, symbolic values aside. -/
theorem all_asks (a : A) (steps : List (Step A E)) :
    foreign (all a steps).2 = foreign (pyAll a steps 0).2 :=
  (allLoop_true a steps 0 [] rfl).2.2.2

/-- `any` asks exactly those objects for their truth that Python asks, symbolic values aside. -/
theorem any_asks (a : A) (steps : List (Step A E)) :
    foreign (any a steps).2 = foreign (pyAny a steps 0).2 :=
  (anyLoop_false a steps 0 [] rfl).2.2.2

example : foreign (all true sampleSteps).2 = [.truth false 1] ∧ foreign (all false sampleSteps).2 = [] := ⟨rfl, rfl⟩

/-- Disagreement: after a symbolic item that is false, `all` still draws further items from the iterator; if the
iterator then raises, the exception is reported although Python would have returned False. -/
theorem all_overdraws : ∃ steps : List (Step Bool String),
    (pyAll false steps 0).1 = .ok false ∧ (all false steps).1.value false = .error "from the iterator" :=
  ⟨[.item (.sym id), .raises "from the iterator"], rfl, rfl⟩

/-- Disagreement: after a symbolic item that is true, `any` still draws further items from the iterator. -/
theorem any_overdraws : ∃ steps : List (Step Bool String),
    (pyAny true steps 0).1 = .ok true ∧ (any true steps).1.value true = .error "from the iterator" :=
  ⟨[.item (.sym id), .raises "from the iterator"], rfl, rfl⟩

/-- Disagreement: a symbolic value that is not a boolean is asked for its truth even after a symbolic item that is
false. -/
theorem all_asks_symbolic : ∃ steps : List (Step Bool String),
    (pyAll false steps 0).1 = .ok false ∧ (all false steps).1.value false = .error "no truth" :=
  ⟨[.item (.sym id), .item (.other true (fun _ => .error "no truth"))], rfl, rfl⟩

/-! ## dict (C76) -/

/-- C76.  A dict made from pairs has, for every key, the value that Python's has: that of the last pair with an
equal key, and no two of its keys are equal. -/
theorem dict_lookup {κ ν : Type} (K : Keys κ) (hK : K.Lawful) (arg : List (Elem κ ν)) (h : Pairs K arg) :
    ∃ d d', dict K arg = .ok d ∧ pyDict K arg = .ok d' ∧ DistinctKeys K d ∧
      ∀ key, simpleGet K d key = simpleGet K d' key := by
  obtain ⟨c, hc⟩ := scan_ok K arg h [] false
  obtain ⟨d', hd', hg⟩ := pyDictFrom_get hK arg h []
  simp only [List.nil_append] at hc
  cases c with
  | true =>
    refine ⟨keepLast K (pairsOf arg).reverse [], d', by simp [dict, hc], hd',
      keepLast_distinct hK _ [] List.Pairwise.nil, ?_⟩
    intro key
    rw [keepLast_get hK, hg]
    simp [simpleGet]
  | false =>
    have hs := ((scan_conflict K arg [] _ false false hc).1 rfl).2.1
    have hd : DistinctKeys K (pairsOf arg) := hs.imp (fun {p q} hpq => by rw [hK.comm]; exact hpq)
    refine ⟨pairsOf arg, d', by simp [dict, hc], hd', hd, ?_⟩
    have := pyDictFrom_distinct hK arg h [] (by simpa using hd)
    rw [hd'] at this
    cases this
    intro key; rfl

/-- C76.  If no two keys are equal, the dict has the same items in the same order as Python's. -/
theorem dict_order_partial {κ ν : Type} (K : Keys κ) (hK : K.Lawful) (arg : List (Elem κ ν)) (h : Pairs K arg)
    (hd : DistinctKeys K (pairsOf arg)) : dict K arg = pyDict K arg := by
  obtain ⟨c, hc⟩ := scan_ok K arg h [] false
  simp only [List.nil_append] at hc
  have := pyDictFrom_distinct hK arg h [] (by simpa using hd)
  have hcf : c = false := (scan_conflict K arg [] _ false c hc).2
    ⟨rfl, hd.imp (fun {p q} hpq => by rw [hK.comm]; exact hpq), by simp⟩
  subst hcf
  rw [pyDict, this]
  simp [dict, hc]

/-- C76.  Making a dict fails exactly when it fails in Python. -/
theorem dict_fails {κ ν : Type} (K : Keys κ) (arg : List (Elem κ ν)) :
    (∃ d, dict K arg = .ok d) ↔ (∃ d, pyDict K arg = .ok d) := by
  have h1 : ∀ (arg : List (Elem κ ν)) (acc : List (κ × ν)) (c : Bool) (r), scan K arg acc c = .ok r → Pairs K arg := by
    intro arg
    induction arg with
    | nil => intro _ _ _ _ e he; cases he
    | cons e rest ih =>
      intro acc c r hr
      cases e with
      | badLength => simp [scan] at hr
      | pair k v =>
        simp only [scan] at hr
        split at hr
        · cases hr
        · rename_i hk
          intro e he
          rcases List.mem_cons.1 he with rfl | he
          · simpa using hk
          · exact ih _ _ _ hr e he
  have h2 : ∀ (arg : List (Elem κ ν)) (d r), pyDictFrom K arg d = .ok r → Pairs K arg := by
    intro arg
    induction arg with
    | nil => intro _ _ _ e he; cases he
    | cons e rest ih =>
      intro d r hr
      cases e with
      | badLength => simp [pyDictFrom] at hr
      | pair k v =>
        simp only [pyDictFrom] at hr
        split at hr
        · rename_i hk
          intro e he
          rcases List.mem_cons.1 he with rfl | he
          · exact hk
          · exact ih _ _ hr e he
        · cases hr
  have h3 : ∀ (arg : List (Elem κ ν)), Pairs K arg → ∀ d, ∃ r, pyDictFrom K arg d = .ok r := by
    intro arg
    induction arg with
    | nil => intro _ d; exact ⟨d, rfl⟩
    | cons e rest ih =>
      intro hp d
      have hr : Pairs K rest := fun e he => hp e (List.mem_cons_of_mem _ he)
      have h0 := hp e (by simp)
      cases e with
      | badLength => exact h0.elim
      | pair k v =>
        have hk : K.hashable k = true := h0
        rw [pyDictFrom, if_pos hk]
        exact ih hr _
  constructor
  · rintro ⟨d, hd⟩
    unfold dict at hd
    cases hs : scan K arg [] false with
    | error e => rw [hs] at hd; cases hd
    | ok r => exact h3 arg (h1 arg _ _ _ hs) []
  · rintro ⟨d, hd⟩
    obtain ⟨c, hc⟩ := scan_ok K arg (h2 arg _ _ hd) [] false
    exact ⟨_, by rw [dict, hc]⟩

/-- Integers as keys. -/
def intKeys : Keys Int := ⟨fun a b => a == b, fun a b => a == b, fun _ => true⟩

theorem intKeys_lawful : intKeys.Lawful := by
  constructor <;> simp [intKeys] <;> omega

/-- Three keys, the first of them given twice. -/
def samplePairs : List (Elem Int String) := [.pair 1 "a", .pair 2 "b", .pair 3 "c", .pair 1 "d"]

example : Pairs intKeys samplePairs ∧ dict intKeys samplePairs = .ok [(1, "d"), (3, "c"), (2, "b")] := by
  refine ⟨?_, rfl⟩
  intro e he
  simp only [samplePairs, List.mem_cons, List.not_mem_nil, or_false] at he
  rcases he with rfl | rfl | rfl | rfl <;> rfl
example : DistinctKeys intKeys (pairsOf [Elem.pair 1 "a", .pair 2 "b"]) := by
  simp [DistinctKeys, pairsOf, intKeys]
example : ∃ d, pyDict intKeys samplePairs = .ok d := ⟨_, rfl⟩

/-- Disagreement: when a key is given twice, the items of the dict come in another order than in Python, where each
key keeps the position of its first pair. -/
theorem dict_order : dict intKeys samplePairs = .ok [(1, "d"), (3, "c"), (2, "b")] ∧
    pyDict intKeys samplePairs = .ok [(1, "d"), (2, "b"), (3, "c")] := ⟨rfl, rfl⟩

/-- Disagreement: a key that cannot be hashed raises `ValueError`; Python raises `TypeError`. -/
theorem dict_unhashable {κ ν : Type} (K : Keys κ) (k : κ) (v : ν) (rest : List (Elem κ ν)) (h : K.hashable k = false) :
    dict K (.pair k v :: rest) = .error .valueError ∧ pyDict K (.pair k v :: rest) = .error .typeError := by
  simp [dict, scan, pyDict, pyDictFrom, h]

example : (⟨fun a b => a == b, fun a b => a == b, fun n => n ≠ 0⟩ : Keys Nat).hashable 0 = false := rfl

/-- One object that differs from itself, as NaN does. -/
def nanKeys : Keys Unit := ⟨fun _ _ => true, fun _ _ => false, fun _ => true⟩

/-- Disagreement: with the same NaN given twice as key, the dict has two items; Python's has one. -/
theorem dict_nan : dict nanKeys [.pair () 1, .pair () 2] = .ok [((), 1), ((), 2)] ∧
    pyDict nanKeys [.pair () 1, .pair () 2] = .ok [((), 2)] := ⟨rfl, rfl⟩

/-! ## list.index (C77) -/

/-- C77.  `index` of a symbolic sequence returns the first position within the bounds that holds the value, for all
bounds, and raises `ValueError` exactly when there is none. -/
theorem symIndex_python {α : Type} (eq : α → α → Bool) (xs : List α) (value : α) (start stop : Option Int) :
    IsIndex eq xs value start stop (symIndex eq xs value start stop) := by
  have main : ∀ (lo hi : Int), 0 ≤ lo → hi ≤ xs.length →
      (∀ i : Nat, InBounds xs.length start stop i ↔ lo ≤ i ∧ (i : Int) < hi) →
      IsIndex eq xs value start stop (rangeSearch eq xs value lo.toNat (hi - lo).toNat) := by
    intro lo hi hlo hhi hb
    have hs := rangeSearch_spec eq xs value (hi - lo).toNat lo.toNat (by omega)
    cases hr : rangeSearch eq xs value lo.toNat (hi - lo).toNat with
    | ok i =>
      rw [hr] at hs
      obtain ⟨h1, h2, h3, h4⟩ := hs
      refine ⟨(hb i).2 (by omega), h3, ?_⟩
      intro j x hj hjb hx
      have := (hb j).1 hjb
      exact h4 j x (by omega) hj hx
    | error e =>
      rw [hr] at hs
      refine ⟨hs.1, ?_⟩
      intro j x hjb hx
      have := (hb j).1 hjb
      exact hs.2 j x (by omega) (by omega) hx
  unfold symIndex
  simp only
  apply main
  · cases start <;> simp only <;> omega
  · cases stop <;> simp only <;> omega
  · intro i
    cases start with
    | none =>
      cases stop with
      | none => simp [InBounds]
      | some j =>
        simp only [InBounds, reduceCtorEq, false_implies, implies_true, true_and, Option.some.injEq, forall_eq']
        split <;> omega
    | some s =>
      cases stop with
      | none =>
        simp only [InBounds, reduceCtorEq, false_implies, implies_true, and_true, Option.some.injEq, forall_eq']
        split <;> omega
      | some j =>
        simp only [InBounds, Option.some.injEq, forall_eq']
        split <;> split <;> omega

example : symIndex (fun a b => a == b) [5, 6, 7, 6] 6 (some (-2)) none = .ok 3 := rfl
example : symIndex (fun a b => a == b) [5, 6, 7, 6] 6 (some 2) (some 3) = .error .valueError := rfl

/-- C77.  `index` of a plain list is right when neither bound is given. -/
theorem listIndex_python_partial {α : Type} (eq : α → α → Bool) (hs : ∀ x y, eq x y = eq y x) (xs : List α)
    (value : α) : IsIndex eq xs value none none (listIndex eq xs value none none) := by
  unfold listIndex
  simp only [Option.isSome_none, Bool.or_self, Bool.false_eq_true, if_false]
  have h := search_spec eq value xs 0
  cases hr : search eq value xs 0 with
  | ok i =>
    rw [hr] at h
    obtain ⟨j, x, hi, hx, he, hlt⟩ := h
    have hij : i = j := by omega
    subst hij
    have hl : i < xs.length := (List.getElem?_eq_some_iff.1 hx).1
    refine ⟨⟨hl, by simp, by simp⟩, ⟨x, hx, by rw [hs]; exact he⟩, ?_⟩
    intro j' x' hj _ hx'
    rw [hs]; exact hlt j' x' hj hx'
  | error e =>
    rw [hr] at h
    refine ⟨h.1, ?_⟩
    intro j x _ hx
    rw [hs]; exact h.2 x (List.mem_of_getElem? hx)

/-- C77.  With bounds, `index` of a plain list finds the right element and fails in the right cases, but the position
it returns counts from the first position within the bounds. -/
theorem listIndex_shifted {α : Type} (eq : α → α → Bool) (hs : ∀ x y, eq x y = eq y x) (xs : List α)
    (value : α) (start stop : Option Int) :
    IsIndex eq xs value start stop ((listIndex eq xs value start stop).map
      (· + match start with | none => 0 | some i => bound xs.length i)) := by
  have main : ∀ (lo hi : Nat), hi ≤ xs.length →
      (∀ i : Nat, InBounds xs.length start stop i ↔ lo ≤ i ∧ i < hi) →
      IsIndex eq xs value start stop ((search eq value ((xs.take hi).drop lo) 0).map (· + lo)) := by
    intro lo hi hhi hb
    have hget : ∀ (j : Nat) (x : α), ((xs.take hi).drop lo)[j]? = some x ↔ (lo + j < hi ∧ xs[lo + j]? = some x) := by
      intro j x
      rw [List.getElem?_drop, List.getElem?_take]
      split <;> simp [*]
    have h := search_spec eq value ((xs.take hi).drop lo) 0
    cases hr : search eq value ((xs.take hi).drop lo) 0 with
    | ok i =>
      rw [hr] at h
      obtain ⟨j, x, hi', hx, he, hlt⟩ := h
      have hij : i = j := by omega
      subst hij
      obtain ⟨hb1, hx1⟩ := (hget i x).1 hx
      show IsIndex eq xs value start stop (.ok (i + lo))
      refine ⟨(hb _).2 (by omega), ⟨x, by rw [Nat.add_comm]; exact hx1, by rw [hs]; exact he⟩, ?_⟩
      intro j' x' hj hjb hx'
      have := (hb j').1 hjb
      rw [hs]
      refine hlt (j' - lo) x' (by omega) ((hget _ _).2 ?_)
      have h3 : lo + (j' - lo) = j' := by omega
      rw [h3]
      exact ⟨this.2, hx'⟩
    | error e =>
      rw [hr] at h
      refine ⟨h.1, ?_⟩
      intro j' x' hjb hx'
      have := (hb j').1 hjb
      rw [hs]
      apply h.2 x'
      apply List.mem_of_getElem? (i := j' - lo)
      refine (hget _ _).2 ?_
      have h3 : lo + (j' - lo) = j' := by omega
      rw [h3]
      exact ⟨this.2, hx'⟩
  cases start with
  | none =>
    cases stop with
    | none =>
      have := main 0 xs.length (Nat.le_refl _) (by intro i; simp [InBounds])
      simpa [listIndex] using this
    | some j =>
      have := main 0 (bound xs.length j) (by unfold bound; split <;> omega) (by
        intro i
        simp only [InBounds, reduceCtorEq, false_implies, implies_true, true_and, Option.some.injEq, forall_eq', bound]
        split <;> omega)
      simpa [listIndex] using this
  | some s =>
    cases stop with
    | none =>
      have := main (bound xs.length s) xs.length (Nat.le_refl _) (by
        intro i
        simp only [InBounds, reduceCtorEq, false_implies, implies_true, and_true, Option.some.injEq, forall_eq', bound]
        split <;> omega)
      simpa [listIndex] using this
    | some j =>
      have := main (bound xs.length s) (bound xs.length j) (by unfold bound; split <;> omega) (by
        intro i
        simp only [InBounds, Option.some.injEq, forall_eq', bound]
        split <;> split <;> omega)
      simpa [listIndex] using this

/-- Disagreement: `[5, 6, 7].index(7, 1)` is 1 under analysis; in Python it is 2. -/
theorem listIndex_start : listIndex (fun a b => a == b) [5, 6, 7] 7 (some 1) none = .ok 1 ∧
    IsIndex (fun a b => a == b) [5, 6, 7] 7 (some 1) none (.ok 2) ∧
    ¬ IsIndex (fun a b => a == b) [5, 6, 7] 7 (some 1) none (.ok 1) := by
  refine ⟨rfl, ?_, ?_⟩
  · have := symIndex_python (fun a b => a == b) [5, 6, 7] 7 (some 1) none
    exact this
  · rintro ⟨-, ⟨x, hx, he⟩, -⟩
    simp at hx he
    omega

example : ∀ x y : Int, (x == y) = (y == x) := fun _ _ => BEq.comm

/-! ## join, in and repr (C78) -/

/-- C78.  `join` returns a text exactly when Python's does, and the same. -/
theorem join_value (sep : List Char) (itr : List (Piece E)) (s : List Char) :
    join sep itr = .ok s ↔ pyJoin sep itr = .ok s := by
  by_cases h : ∃ ss : List (List Char), itr = ss.map Piece.text
  · obtain ⟨ss, rfl⟩ := h
    rw [join_texts]
    have h1 : (ss.map (Piece.text (E := E))).findSome? Piece.exn = none := by
      rw [List.findSome?_eq_none_iff]; intro p hp; obtain ⟨t, -, rfl⟩ := List.mem_map.1 hp; rfl
    have h2 : (ss.map (Piece.text (E := E))).any Piece.isBad = false := by
      rw [List.any_eq_false]; intro p hp; obtain ⟨t, -, rfl⟩ := List.mem_map.1 hp; simp [Piece.isBad]
    have h3 : (ss.map (Piece.text (E := E))).map Piece.str = ss := by
      rw [List.map_map]
      exact (List.map_congr_left (fun _ _ => rfl)).trans (List.map_id ss)
    rw [pyJoin, h1]
    simp only [h2, h3, Bool.false_eq_true, if_false]
  · have hbad : ∃ p ∈ itr, (match p with | Piece.text _ => False | _ => True) := by
      apply Classical.byContradiction
      intro hn
      apply h
      clear h
      induction itr with
      | nil => exact ⟨[], rfl⟩
      | cons p itr ih =>
        obtain ⟨ss, hss⟩ := ih (fun ⟨q, hq, hq'⟩ => hn ⟨q, List.mem_cons_of_mem _ hq, hq'⟩)
        cases p with
        | text t => exact ⟨t :: ss, by rw [hss]; rfl⟩
        | notText => exact (hn ⟨_, List.mem_cons_self .., trivial⟩).elim
        | raises e => exact (hn ⟨_, List.mem_cons_self .., trivial⟩).elim
    have h1 : ∀ (idx : Nat) (r : List Char), joinLoop sep itr idx r ≠ .ok s := by
      clear h
      induction itr with
      | nil => obtain ⟨p, hp, -⟩ := hbad; cases hp
      | cons p itr ih =>
        intro idx r
        cases p with
        | raises e => simp [joinLoop]
        | notText => simp [joinLoop]
        | text t =>
          rw [joinLoop]
          apply ih
          obtain ⟨q, hq, hq'⟩ := hbad
          rcases List.mem_cons.1 hq with rfl | hq
          · exact hq'.elim
          · exact ⟨q, hq, hq'⟩
    have h2 : pyJoin sep itr ≠ .ok s := by
      unfold pyJoin
      cases hf : itr.findSome? Piece.exn with
      | some e => simp
      | none =>
        simp only
        rw [if_pos]
        · simp
        · rw [List.any_eq_true]
          obtain ⟨q, hq, hq'⟩ := hbad
          refine ⟨q, hq, ?_⟩
          rw [List.findSome?_eq_none_iff] at hf
          cases q with
          | text t => exact hq'.elim
          | notText => rfl
          | raises e => have := hf _ hq; cases this
    exact ⟨fun h => absurd h (h1 0 []), fun h => absurd h h2⟩

/-- C78.  If the iterable does not raise, `join` raises the same exceptions as Python's. -/
theorem join_python_partial (sep : List Char) (itr : List (Piece E)) (h : ∀ e, Piece.raises e ∉ itr) :
    join sep itr = pyJoin sep itr := by
  cases hp : pyJoin sep itr with
  | ok s => exact (join_value sep itr s).2 hp
  | error e =>
    have h0 : itr.findSome? Piece.exn = none := by
      rw [List.findSome?_eq_none_iff]
      intro p hp
      cases p with
      | raises e => exact absurd hp (h e)
      | _ => rfl
    rw [pyJoin, h0] at hp
    simp only at hp
    split at hp
    · rename_i ha
      cases hp
      rw [List.any_eq_true] at ha
      obtain ⟨q, hq, hq'⟩ := ha
      cases q with
      | notText => exact joinLoop_bad sep itr 0 [] h hq
      | text _ => cases hq'
      | raises _ => cases hq'
    · cases hp

example : join (E := Unit) [','] [.text ['a'], .text [], .text ['b']] = .ok ['a', ',', ',', 'b'] := rfl
example : join (E := Unit) [','] [.text ['a'], .notText] = .error .typeError := rfl

/-- Disagreement: if the iterable raises after an item that is not a text, `join` reports the item; Python, which
exhausts the iterable first, reports the exception of the iterable. -/
theorem join_error_order : join [','] [.notText, .raises "later"] = .error .typeError ∧
    pyJoin [','] [.notText, .raises "later"] = .error (.raised "later") := ⟨rfl, rfl⟩

/-- C78.  The condition that stands for `other in self` holds under exactly those assignments under which `other` is
a substring. -/
theorem contains_python (self : List Int) (other : List (A → Int)) (a : A) :
    strContains self other a = true ↔ other.map (fun c => c a) <:+: self := by
  have hz : ∀ (o : List (A → Int)) (cps : List Int), o.length = cps.length →
      (conj ((o.zip cps).map (fun p a => p.1 a == p.2)) a = true ↔ o.map (fun c => c a) = cps) := by
    intro o
    induction o with
    | nil => intro cps h; cases cps <;> simp_all [conj]
    | cons c o ih =>
      intro cps h
      cases cps with
      | nil => simp at h
      | cons d cps =>
        have := ih cps (by simpa using h)
        simp only [conj, List.zip_cons_cons, List.map_cons, List.all_cons, Bool.and_eq_true, beq_iff_eq,
          List.cons.injEq] at this ⊢
        rw [this]
  unfold strContains
  simp only [disj, List.any_map, List.any_eq_true, List.mem_range, Function.comp_apply]
  constructor
  · rintro ⟨i, hi, h⟩
    have hl : other.length = ((self.drop i).take other.length).length := by
      simp; omega
    rw [hz _ _ hl] at h
    rw [h]
    exact ⟨self.take i, (self.drop i).drop other.length, by
      rw [List.append_assoc, List.take_append_drop, List.take_append_drop]⟩
  · rintro ⟨p, q, h⟩
    have hl : self.length = p.length + other.length + q.length := by
      rw [← h]; simp; omega
    refine ⟨p.length, by omega, ?_⟩
    have hd : (self.drop p.length).take other.length = other.map (fun c => c a) := by
      rw [← h, List.append_assoc, List.drop_left]
      have : other.length = (other.map (fun c => c a)).length := by simp
      rw [this, List.take_left]
    rw [hz]
    · exact hd.symm
    · rw [hd]; simp

example : (strContains [1, 2, 3] [fun a : Int => a, fun a => a + 1] 2, strContains [1, 2, 3] [fun a : Int => a, fun a => a + 1] 3)
    = (true, false) := rfl

/-- C78.  The `repr` of lists, sets and frozensets is Python's. -/
theorem repr_python (reprs : List String) :
    listRepr reprs = pyListRepr reprs ∧ setRepr reprs = pySetRepr reprs ∧ frozensetRepr reprs = pyFrozensetRepr reprs := by
  refine ⟨?_, ?_, ?_⟩
  · rw [listRepr, pyListRepr, commas_eq]
  · cases reprs with
    | nil => rfl
    | cons x xs =>
      rw [setRepr, pySetRepr, commas_eq]
      · simp only [List.isEmpty_cons, Bool.false_eq_true, if_false]
      · simp
  · cases reprs with
    | nil => rfl
    | cons x xs =>
      unfold frozensetRepr
      rw [if_neg (by simp), commas_eq]
      exact frozen_split _ _ _ _ _ _ _ (by decide +kernel) (by decide +kernel)

/-- C78.  The `repr` of a tuple is Python's unless it has one item. -/
theorem tupleRepr_python_partial (reprs : List String) (h : reprs.length ≠ 1) : tupleRepr reprs = pyTupleRepr reprs := by
  rw [tupleRepr, commas_eq]
  cases reprs with
  | nil => rfl
  | cons x xs =>
    cases xs with
    | nil => exact absurd rfl h
    | cons y ys => rfl

/-- Disagreement: the `repr` of a tuple with one item lacks the comma: `repr((1,))` is `"(1)"`. -/
theorem tupleRepr_one (x : String) : tupleRepr [x] = "(".toList ++ x.toList ++ ")".toList ∧ tupleRepr [x] ≠ pyTupleRepr [x] := by
  have h : tupleRepr [x] = "(".toList ++ x.toList ++ ")".toList := by
    rw [tupleRepr, commas_eq]
    simp [List.intercalate]
  refine ⟨h, ?_⟩
  rw [h]
  intro h2
  have := congrArg List.length h2
  simp [pyTupleRepr] at this

example : ["1", "2"].length ≠ 1 ∧ tupleRepr ["1", "2"] = "(1, 2)".toList := ⟨by decide, by decide +kernel⟩

end Verif.Builtin
